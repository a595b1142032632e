import Verif.Proofs.RawStack
/-!
# Many iterators in one memory
-/

namespace RTree.Raw

variable {L I ι Src F X S : Type} {E : Env}

/-- The stack `s` is in memory, behind `b`. -/
def Rep (E : Env) (h : Heap (StackEntry L I)) (b : BoxStack) (s : List (StackEntry L I)) : Prop :=
  (b = BoxStack.emptyBox ∧ s = []) ∨ ∃ k leaf inners, b = ⟨some ⟨k, 0⟩, inners.length + 1⟩ ∧ s = IterStack.newBox leaf inners ∧
    h[k]? = some (some ⟨(inners.length + 1) * E.size, s.map some⟩) ∧ (inners.length + 1) * E.size ≤ E.maxBytes

theorem holding_of_get {α : Type} {h : Heap α} {k : Nat} {s : List α} (hk : h[k]? = some (some ⟨s.length * E.size, s.map some⟩)) : holding E h k s = h := by
  apply List.ext_getElem?
  intro j
  by_cases hj : k = j
  · subst hj; rw [holding, List.getElem?_set_self (List.getElem?_eq_some_iff.1 hk).1, hk]
  · rw [holding, List.getElem?_set_ne hj]

theorem get_holding {α : Type} {h : Heap α} {k : Nat} (hk : k < h.length) (s : List α) :
    (holding E h k s)[k]? = some (some ⟨s.length * E.size, s.map some⟩) := (holding_block hk s).alive

theorem get_holding_ne {α : Type} {h : Heap α} {k j : Nat} (hj : k ≠ j) (s : List α) : (holding E h k s)[j]? = h[j]? := by
  rw [holding, List.getElem?_set_ne hj]

theorem Rep.frame {h h' : Heap (StackEntry L I)} {b : BoxStack} {s : List (StackEntry L I)} (hr : Rep E h b s)
    (hb : ∀ p, b.buf = some p → h'[p.block]? = h[p.block]?) : Rep E h' b s := by
  rcases hr with hr | ⟨k, leaf, inners, h1, h2, h3, h4⟩
  · exact .inl hr
  · exact .inr ⟨k, leaf, inners, h1, h2, by rw [← h3]; subst h1; exact hb _ rfl, h4⟩

/-- Some calls of `next` with panics caught. -/
def nextsOf (next : Calls.M S (Option X)) : Nat → Calls.M S (List (Except Calls.Stop (Option X)))
  | 0 => pure []
  | k + 1 => do
    let r ← Calls.catching next
    pure (r :: (← nextsOf next k))

theorem nextsOf_snoc {next : Calls.M S (Option X)} {m : Nat} {s s' s'' : S} {n n' n'' : Nat} {outs : List (Except Calls.Stop (Option X))} {r}
    (h : nextsOf next m s n = (.ok outs, s', n')) (hr : next s' n' = (r, s'', n'')) : nextsOf next (m + 1) s n = (.ok (outs ++ [r]), s'', n'') := by
  induction m generalizing s n outs with
  | zero =>
    cases h
    rw [nextsOf, Calls.bind_ok' (Calls.catching_apply hr)]
    rfl
  | succ m ih =>
    rw [nextsOf] at h ⊢
    rcases hx : next s n with ⟨r1, s1, n1⟩
    rw [Calls.bind_ok' (Calls.catching_apply hx)] at h ⊢
    rcases hy : nextsOf next m s1 n1 with ⟨o, s2, n2⟩
    cases o with
    | error e => rw [Calls.bind_error' hy] at h; cases h
    | ok outs1 =>
      rw [Calls.bind_ok' hy] at h
      cases h
      rw [Calls.bind_ok' (ih hy)]
      rfl

section Steps

variable {α : Type} {kind : Kind α ι Src F X} {st : Session α ι F X}

theorem step_start_ok {src : Src} {code : Nat → Option F} {it h' n} (h : kind.start code src st.heap 0 = (.ok it, h', n)) :
    st.step kind (.start src code) = .ok { st with heap := h', its := st.its ++ [some ⟨it, code, n⟩] } :=
  congrArg (Session.afterStart st code) h

theorem step_start_user {src : Src} {code : Nat → Option F} {h' n} (h : kind.start code src st.heap 0 = (.error .user, h', n)) :
    st.step kind (.start src code) = .ok { st with heap := h', its := st.its ++ [none] } :=
  congrArg (Session.afterStart st code) h

theorem step_next_gone {k : Nat} (hk : st.its[k]? = none ∨ st.its[k]? = some none) : st.step kind (.next k) = .ok st := by
  rcases hk with hk | hk <;> exact congrArg (Session.withLive st · fun l => st.afterNext k l (kind.next l.code l.iter st.heap l.clock)) hk

theorem step_drop_gone {k : Nat} (hk : st.its[k]? = none ∨ st.its[k]? = some none) : st.step kind (.drop k) = .ok st := by
  rcases hk with hk | hk <;> exact congrArg (Session.withLive st · fun l => st.afterDrop k (kind.drop l.iter st.heap)) hk

theorem step_next_ok {k : Nat} {l : Live ι F} {r h' n} (hk : st.its[k]? = some (some l)) (h : kind.next l.code l.iter st.heap l.clock = (r, h', n))
    (hr : ∀ p, r ≠ .error (.own p)) :
    st.step kind (.next k) = .ok ⟨h', st.its.set k (some { l with clock := n }), st.log ++ [(k, r)]⟩ := by
  refine (congrArg (Session.withLive st · fun l => st.afterNext k l (kind.next l.code l.iter st.heap l.clock)) hk).trans ((congrArg (Session.afterNext st k l) h).trans ?_)
  match r, hr with
  | .ok _, _ => rfl
  | .error .user, _ => rfl
  | .error (.own p), hr => exact absurd rfl (hr p)

theorem step_drop_ok {k : Nat} {l : Live ι F} {h'} (hk : st.its[k]? = some (some l)) (h : kind.drop l.iter st.heap = .ok ((), h')) :
    st.step kind (.drop k) = .ok { st with heap := h', its := st.its.set k none } :=
  (congrArg (Session.withLive st · fun l => st.afterDrop k (kind.drop l.iter st.heap)) hk).trans (congrArg (Session.afterDrop st k) h)

end Steps

/-- Iterators in memory and iterators that are values do the same. -/
structure Mirror (E : Env) (kind : Kind (StackEntry L I) ι Src F X) (S : Type) where
  ok : Src → Prop
  stack : S → List (StackEntry L I)
  box : ι → BoxStack
  agree : ι → S → Prop
  pstart : (Nat → Option F) → Src → S → Prop
  pnext : (Nat → Option F) → Calls.M S (Option X)
  start_none : ∀ {code src} (h), ok src → code 0 = none → kind.start code src h 0 = (.error .user, h, 1)
  start_some : ∀ {code src f} (h), ok src → code 0 = some f → ∃ it s h', pstart code src s ∧ agree it s ∧ kind.start code src h 0 = (.ok it, h', 1) ∧
    ((box it = BoxStack.emptyBox ∧ stack s = [] ∧ h' = h) ∨ ∃ leaf inners, box it = ⟨some ⟨(gapped E h).length, 0⟩, inners.length + 1⟩ ∧
      stack s = IterStack.newBox leaf inners ∧ (inners.length + 1) * E.size ≤ E.maxBytes ∧ h' = holding E (gapped E h ++ [none]) (gapped E h).length (stack s))
  next_empty : ∀ {it s} code h n, agree it s → box it = BoxStack.emptyBox → stack s = [] → ∃ s', agree it s' ∧ stack s' = [] ∧
    pnext code s n = (.ok none, s', n) ∧ kind.next code it h n = (.ok none, h, n)
  next_at : ∀ {it s k leaf inners} code h n, agree it s → box it = ⟨some ⟨k, 0⟩, inners.length + 1⟩ → stack s = IterStack.newBox leaf inners → k < h.length →
    ∃ r s' n' leaf' inners', inners'.length = inners.length ∧ stack s' = IterStack.newBox leaf' inners' ∧ agree it s' ∧ pnext code s n = (r, s', n') ∧
      kind.next code it (holding E h k (stack s)) n = (r, holding E h k (stack s'), n')
  drop_eq : ∀ it, kind.drop it = (do
    let _ ← (box it).drop (L := L) (I := I) E
    pure ())
  good : ∀ {code src s m outs s' n' p}, ok src → pstart code src s → nextsOf (pnext code) m s 1 = (.ok outs, s', n') → .error (.own p) ∉ outs

namespace Mirror

variable {kind : Kind (StackEntry L I) ι Src F X} (mi : Mirror E kind S)

/-- What the calls of `next` of one iterator told. -/
def Past (code : Nat → Option F) (src : Src) (items : List (Except Calls.Stop (Option X))) : Prop :=
  (code 0 = none ∧ items = []) ∨ (∃ f, code 0 = some f) ∧ ∃ s0 s n, mi.pstart code src s0 ∧ nextsOf (mi.pnext code) items.length s0 1 = (.ok items, s, n)

/-- After some commands. -/
structure Inv (h0 : Heap (StackEntry L I)) (starts : List (Src × (Nat → Option F))) (st : Session (StackEntry L I) ι F X) : Prop where
  len : st.its.length = starts.length
  ok : ∀ x ∈ starts, mi.ok x.1
  le : h0.length ≤ st.heap.length
  frame : ∀ j, j < h0.length → st.heap[j]? = h0[j]?
  past : ∀ i src code, starts[i]? = some (src, code) → mi.Past code src (itemsOf i st.log)
  live : ∀ (i : Nat) (l : Live ι F), st.its[i]? = some (some l) → ∃ src s0 s, starts[i]? = some (src, l.code) ∧ (∃ f, l.code 0 = some f) ∧ mi.pstart l.code src s0 ∧
    nextsOf (mi.pnext l.code) (itemsOf i st.log).length s0 1 = (.ok (itemsOf i st.log), s, l.clock) ∧ mi.agree l.iter s ∧
    Rep E st.heap (mi.box l.iter) (mi.stack s)
  base : ∀ (i : Nat) (l : Live ι F) (p : Ptr), st.its[i]? = some (some l) → (mi.box l.iter).buf = some p → h0.length ≤ p.block ∧ p.block < st.heap.length
  distinct : ∀ (i : Nat) (l : Live ι F) (p : Ptr) (j : Nat) (l' : Live ι F) (p' : Ptr), st.its[i]? = some (some l) → (mi.box l.iter).buf = some p → st.its[j]? = some (some l') → (mi.box l'.iter).buf = some p' →
    p.block = p'.block → i = j
  freed : ∀ j, h0.length ≤ j → j < st.heap.length → st.heap[j]? = some none ∨
    ∃ i : Nat, ∃ l : Live ι F, ∃ p : Ptr, st.its[i]? = some (some l) ∧ (mi.box l.iter).buf = some p ∧ p.block = j
  logged : ∀ x ∈ st.log, x.1 < st.its.length

theorem itemsOf_snoc {log : List (Nat × Except Calls.Stop (Option X))} {k : Nat} {r} (i : Nat) :
    itemsOf i (log ++ [(k, r)]) = if k = i then itemsOf i log ++ [r] else itemsOf i log := by
  unfold itemsOf
  rw [List.filter_append]
  by_cases h : k = i
  · simp [h]
  · simp [h]

theorem itemsOf_nil {log : List (Nat × Except Calls.Stop (Option X))} {n : Nat} (h : ∀ x ∈ log, x.1 < n) : itemsOf n log = [] := by
  unfold itemsOf
  rw [List.map_eq_nil_iff, List.filter_eq_nil_iff]
  intro x hx
  have := h x hx
  simp; omega

theorem get_snoc {α : Type} {l : List α} {a b : α} {i : Nat} (h : (l ++ [a])[i]? = some b) : l[i]? = some b ∧ i < l.length ∨ i = l.length ∧ a = b := by
  by_cases hi : i < l.length
  · rw [List.getElem?_append_left hi] at h; exact .inl ⟨h, hi⟩
  · have hlt := (List.getElem?_eq_some_iff.1 h).1
    have : i = l.length := by simp at hlt; omega
    subst this
    simp at h
    exact .inr ⟨rfl, h⟩

theorem Inv.start {h0 : Heap (StackEntry L I)} {starts : List (Src × (Nat → Option F))} {st : Session (StackEntry L I) ι F X} (hi : mi.Inv h0 starts st)
    {src : Src} (hsrc : mi.ok src) (code : Nat → Option F) :
    ∃ st', st.step kind (.start src code) = .ok st' ∧ mi.Inv h0 (starts ++ [(src, code)]) st' := by
  have hok : ∀ x ∈ starts ++ [(src, code)], mi.ok x.1 := by
    intro x hx
    rcases List.mem_append.1 hx with hx | hx
    · exact hi.ok x hx
    · simp at hx; subst hx; exact hsrc
  have hnil : itemsOf starts.length st.log = [] := itemsOf_nil (by rw [← hi.len]; exact hi.logged)
  cases hc : code 0 with
  | none =>
    refine ⟨_, step_start_user (mi.start_none st.heap hsrc hc), ⟨by simp [hi.len], hok, hi.le, hi.frame, ?_, ?_, ?_, ?_, ?_, ?_⟩⟩
    · intro i src' code' h
      replace h := get_snoc h
      rcases h with ⟨h, _⟩ | ⟨rfl, h⟩
      · exact hi.past i src' code' h
      · cases h; exact .inl ⟨hc, hnil⟩
    · intro i l h
      replace h := get_snoc h
      rcases h with ⟨h, hlt⟩ | ⟨rfl, h⟩
      · obtain ⟨src', s0, s, h1, h2⟩ := hi.live i l h
        exact ⟨src', s0, s, by rw [List.getElem?_append_left (by rw [← hi.len]; exact hlt)]; exact h1, h2⟩
      · cases h
    · intro i l p h
      replace h := get_snoc h
      rcases h with ⟨h, _⟩ | ⟨rfl, h⟩
      · exact hi.base i l p h
      · cases h
    · intro i l p j l' p' h1 h2 h3 h4
      replace h1 := get_snoc h1
      rcases h1 with ⟨h1, _⟩ | ⟨rfl, h1⟩
      · replace h3 := get_snoc h3
        rcases h3 with ⟨h3, _⟩ | ⟨rfl, h3⟩
        · exact hi.distinct i l p j l' p' h1 h2 h3 h4
        · cases h3
      · cases h1
    · intro j h1 h2
      rcases hi.freed j h1 h2 with h | ⟨i, l, p, h3, h4⟩
      · exact .inl h
      · exact .inr ⟨i, l, p, by rw [List.getElem?_append_left (List.getElem?_eq_some_iff.1 h3).1]; exact h3, h4⟩
    · intro x hx
      have := hi.logged x hx
      simp; omega
  | some f =>
    obtain ⟨it, s, h', h1, h2, h3, h4⟩ := mi.start_some st.heap hsrc hc
    have hh' : (∀ j, j < st.heap.length → h'[j]? = st.heap[j]?) ∧ st.heap.length ≤ h'.length ∧ Rep E h' (mi.box it) (mi.stack s) ∧
        (∀ p, (mi.box it).buf = some p → st.heap.length ≤ p.block ∧ p.block < h'.length) ∧
        (∀ j, st.heap.length ≤ j → j < h'.length → h'[j]? = some none ∨ ∃ p, (mi.box it).buf = some p ∧ p.block = j) := by
      rcases h4 with ⟨h5, h6, rfl⟩ | ⟨leaf, inners, h5, h6, h7, rfl⟩
      · exact ⟨fun _ _ => rfl, Nat.le_refl _, .inl ⟨h5, h6⟩, (fun p hp => by rw [h5] at hp; cases hp), fun j h1 h2 => by omega⟩
      · have hk : (gapped E st.heap).length < (gapped E st.heap ++ [none]).length := by simp
        have hg := gapped_length E st.heap
        refine ⟨fun j hj => ?_, by simp; omega, .inr ⟨(gapped E st.heap).length, leaf, inners, h5, h6, ?_, h7⟩, ?_, ?_⟩
        · rw [get_holding_ne (by omega), List.getElem?_append_left (by omega), gapped_get E hj]
        · rw [get_holding hk, h6, IterStack.length_newBox]
        · intro p hp
          rw [h5] at hp; cases hp
          exact ⟨by show st.heap.length ≤ (gapped E st.heap).length; omega, by simp⟩
        · intro j h8 h9
          simp at h9
          by_cases hj : j = (gapped E st.heap).length
          · exact .inr ⟨_, by rw [h5], hj.symm⟩
          · refine .inl ?_
            rw [get_holding_ne (by omega), List.getElem?_append_left (by omega), gapped_new E h8 (by omega)]
    obtain ⟨g1, g2, g3, g4, g5⟩ := hh'
    refine ⟨_, step_start_ok h3, ⟨by simp [hi.len], hok, Nat.le_trans hi.le g2, ?_, ?_, ?_, ?_, ?_, ?_, ?_⟩⟩
    · intro j hj
      exact (g1 j (Nat.lt_of_lt_of_le hj hi.le)).trans (hi.frame j hj)
    · intro i src' code' h
      replace h := get_snoc h
      rcases h with ⟨h, _⟩ | ⟨rfl, h⟩
      · exact hi.past i src' code' h
      · cases h
        refine .inr ⟨⟨f, hc⟩, s, s, 1, h1, ?_⟩
        show nextsOf _ (itemsOf starts.length st.log).length s 1 = (.ok (itemsOf starts.length st.log), s, 1)
        rw [hnil]; rfl
    · intro i l h
      replace h := get_snoc h
      rcases h with ⟨h, hlt⟩ | ⟨rfl, h⟩
      · obtain ⟨src', s0, s', e1, e0, e2, e3, e4, e5⟩ := hi.live i l h
        exact ⟨src', s0, s', by rw [List.getElem?_append_left (by rw [← hi.len]; exact hlt)]; exact e1, e0, e2, e3, e4,
          e5.frame fun p hp => g1 _ (hi.base i l p h hp).2⟩
      · cases h
        refine ⟨src, s, s, by rw [hi.len]; simp, ⟨f, hc⟩, h1, ?_, h2, g3⟩
        show nextsOf _ (itemsOf st.its.length st.log).length s 1 = (.ok (itemsOf st.its.length st.log), s, 1)
        rw [hi.len, hnil]; rfl
    · intro i l p h hp
      replace h := get_snoc h
      rcases h with ⟨h, _⟩ | ⟨rfl, h⟩
      · have := hi.base i l p h hp
        exact ⟨this.1, Nat.lt_of_lt_of_le this.2 g2⟩
      · cases h
        have := g4 p hp
        exact ⟨Nat.le_trans hi.le this.1, this.2⟩
    · intro i l p j l' p' e1 e2 e3 e4 e5
      replace e1 := get_snoc e1
      rcases e1 with ⟨e1, _⟩ | ⟨rfl, e1⟩
      · replace e3 := get_snoc e3
        rcases e3 with ⟨e3, _⟩ | ⟨rfl, e3⟩
        · exact hi.distinct i l p j l' p' e1 e2 e3 e4 e5
        · cases e3
          have := (hi.base i l p e1 e2).2
          have := (g4 p' e4).1
          omega
      · cases e1
        replace e3 := get_snoc e3
        rcases e3 with ⟨e3, _⟩ | ⟨rfl, e3⟩
        · have := (hi.base j l' p' e3 e4).2
          have := (g4 p e2).1
          omega
        · rfl
    · intro j e1 e2
      by_cases hj : j < st.heap.length
      · rcases hi.freed j e1 hj with h | ⟨i, l, p, e3, e4⟩
        · exact .inl ((g1 j hj).trans h)
        · exact .inr ⟨i, l, p, by rw [List.getElem?_append_left (List.getElem?_eq_some_iff.1 e3).1]; exact e3, e4⟩
      · rcases g5 j (by omega) e2 with e0 | ⟨p, e3, e4⟩
        · exact .inl e0
        exact .inr ⟨st.its.length, ⟨it, code, 1⟩, p, by simp, e3, e4⟩
    · intro x hx
      have := hi.logged x hx
      simp; omega

theorem set_get {α : Type} {l : List α} {i j : Nat} {a b : α} (h : (l.set i a)[j]? = some b) : i = j ∧ a = b ∨ i ≠ j ∧ l[j]? = some b := by
  by_cases hij : i = j
  · subst hij
    have hlt := (List.getElem?_eq_some_iff.1 h).1
    rw [List.getElem?_set_self (by simpa using hlt)] at h
    exact .inl ⟨rfl, by simpa using h⟩
  · rw [List.getElem?_set_ne hij] at h
    exact .inr ⟨hij, h⟩

theorem Inv.next {h0 : Heap (StackEntry L I)} {starts : List (Src × (Nat → Option F))} {st : Session (StackEntry L I) ι F X} (hi : mi.Inv h0 starts st) (k : Nat) :
    ∃ st', st.step kind (.next k) = .ok st' ∧ mi.Inv h0 starts st' := by
  cases hk : st.its[k]? with
  | none => exact ⟨st, step_next_gone (by simp [hk]), hi⟩
  | some o =>
    cases o with
    | none => exact ⟨st, step_next_gone (by simp [hk]), hi⟩
    | some l =>
      obtain ⟨src, s0, s, h1, hf, h2, h3, h4, h5⟩ := hi.live k l hk
      have hsrc := hi.ok _ (List.mem_of_getElem? h1)
      have key : ∃ r s' n' h', mi.pnext l.code s l.clock = (r, s', n') ∧ kind.next l.code l.iter st.heap l.clock = (r, h', n') ∧ mi.agree l.iter s' ∧
          Rep E h' (mi.box l.iter) (mi.stack s') ∧ h'.length = st.heap.length ∧ ∀ j, (∀ p, (mi.box l.iter).buf = some p → p.block ≠ j) → h'[j]? = st.heap[j]? := by
        rcases h5 with ⟨h6, h7⟩ | ⟨b, leaf, inners, h6, h7, h8, h9⟩
        · obtain ⟨s', e1, e2, e3, e4⟩ := mi.next_empty l.code st.heap l.clock h4 h6 h7
          exact ⟨_, s', _, st.heap, e3, e4, e1, .inl ⟨h6, e2⟩, rfl, fun _ _ => rfl⟩
        · have hb := (List.getElem?_eq_some_iff.1 h8).1
          obtain ⟨r, s', n', leaf', inners', e1, e2, e3, e4, e5⟩ := mi.next_at l.code st.heap l.clock h4 h6 h7 hb
          have hh : holding E st.heap b (mi.stack s) = st.heap := holding_of_get (by rw [h8, h7, IterStack.length_newBox])
          rw [hh] at e5
          refine ⟨r, s', n', _, e4, e5, e3, .inr ⟨b, leaf', inners', by rw [h6, e1], e2, ?_, by rw [e1]; exact h9⟩, by simp, ?_⟩
          · rw [get_holding hb, e2, IterStack.length_newBox]
          · intro j hj
            exact get_holding_ne (hj ⟨b, 0⟩ (by rw [h6])) _
      obtain ⟨r, s', n', h', e1, e2, e3, e4, e5, e6⟩ := key
      have hnx := nextsOf_snoc h3 e1
      have hown : ∀ p, r ≠ .error (.own p) := by
        intro p hp
        exact mi.good hsrc h2 hnx (p := p) (by simp [hp])
      have hklt := (List.getElem?_eq_some_iff.1 hk).1
      refine ⟨_, step_next_ok hk e2 hown, ?_⟩
      · refine ⟨by simp [hi.len], hi.ok, by show h0.length ≤ h'.length; rw [e5]; exact hi.le, ?_, ?_, ?_, ?_, ?_, ?_, ?_⟩
        · intro j hj
          rw [← hi.frame j hj]
          exact e6 j fun p hp hpj => by have := (hi.base k l p hk hp).1; omega
        · intro i src' code' h
          show mi.Past code' src' (itemsOf i (st.log ++ [(k, r)]))
          rw [itemsOf_snoc]
          split
          · next hki =>
            subst hki
            rw [h1] at h
            cases h
            exact .inr ⟨hf, s0, s', n', h2, by rw [List.length_append]; exact hnx⟩
          · exact hi.past i src' code' h
        · intro i l' h
          show ∃ src s0 s, _ ∧ _ ∧ _ ∧ nextsOf _ (itemsOf i (st.log ++ [(k, r)])).length s0 1 = (.ok (itemsOf i (st.log ++ [(k, r)])), s, l'.clock) ∧ _
          rw [itemsOf_snoc]
          replace h := set_get h
          rcases h with ⟨rfl, h⟩ | ⟨hne, h⟩
          · cases h
            rw [if_pos rfl, List.length_append]
            exact ⟨src, s0, s', h1, hf, h2, hnx, e3, e4⟩
          · rw [if_neg hne]
            obtain ⟨src', s0', s'', f1, f0, f2, f3, f4, f5⟩ := hi.live i l' h
            exact ⟨src', s0', s'', f1, f0, f2, f3, f4, f5.frame fun p hp => e6 _ fun p' hp' hpp => hne (hi.distinct k l p' i l' p hk hp' h hp hpp)⟩
        · intro i l' p h hp
          show h0.length ≤ p.block ∧ p.block < h'.length
          rw [e5]
          replace h := set_get h
          rcases h with ⟨rfl, h⟩ | ⟨hne, h⟩
          · cases h; exact hi.base k l p hk hp
          · exact hi.base i l' p h hp
        · intro i l1 p j l2 p' f1 f2 f3 f4 f5
          replace f1 := set_get f1
          replace f3 := set_get f3
          rcases f1 with ⟨rfl, f1⟩ | ⟨hne, f1⟩ <;> rcases f3 with ⟨rfl, f3⟩ | ⟨hne', f3⟩
          · rfl
          · cases f1; exact hi.distinct _ _ _ _ _ _ hk f2 f3 f4 f5
          · cases f3; exact hi.distinct _ _ _ _ _ _ f1 f2 hk f4 f5
          · exact hi.distinct _ _ _ _ _ _ f1 f2 f3 f4 f5
        · intro j f1 f2
          show h'[j]? = some none ∨ _
          rcases hi.freed j f1 (by rw [← e5]; exact f2) with f3 | ⟨i, l', p, f3, f4, f5⟩
          · refine .inl ((e6 j fun p hp hpj => ?_).trans f3)
            rcases h5 with ⟨h6, h7⟩ | ⟨b, leaf, inners, h6, h7, h8, h9⟩
            · rw [h6] at hp; cases hp
            · rw [h6] at hp; cases hp
              subst hpj
              rw [h8] at f3; cases f3
          · refine .inr ⟨i, if k = i then { l with clock := n' } else l', p, ?_, ?_, f5⟩
            · show (st.its.set k _)[i]? = _
              split
              · next hki => subst hki; rw [List.getElem?_set_self hklt]
              · next hki => rw [List.getElem?_set_ne hki]; exact f3
            · split
              · next hki => subst hki; rw [hk] at f3; cases f3; exact f4
              · exact f4
        · intro x hx
          show x.1 < (st.its.set k _).length
          rw [List.length_set]
          rcases List.mem_append.1 hx with hx | hx
          · exact hi.logged x hx
          · simp at hx; subst hx; exact hklt

theorem Inv.drop {h0 : Heap (StackEntry L I)} {starts : List (Src × (Nat → Option F))} {st : Session (StackEntry L I) ι F X} (hs : 0 < E.size)
    (hi : mi.Inv h0 starts st) (k : Nat) : ∃ st', st.step kind (.drop k) = .ok st' ∧ mi.Inv h0 starts st' := by
  cases hk : st.its[k]? with
  | none => exact ⟨st, step_drop_gone (by simp [hk]), hi⟩
  | some o =>
    cases o with
    | none => exact ⟨st, step_drop_gone (by simp [hk]), hi⟩
    | some l =>
      obtain ⟨src, s0, s, h1, hf, h2, h3, h4, h5⟩ := hi.live k l hk
      have key : ∃ h', kind.drop l.iter st.heap = .ok ((), h') ∧ h'.length = st.heap.length ∧
          (∀ j, (∀ p, (mi.box l.iter).buf = some p → p.block ≠ j) → h'[j]? = st.heap[j]?) ∧ ∀ p, (mi.box l.iter).buf = some p → h'[p.block]? = some none := by
        rw [mi.drop_eq]
        rcases h5 with ⟨h6, h7⟩ | ⟨b, leaf, inners, h6, h7, h8, h9⟩
        · rw [h6]
          exact ⟨st.heap, by rw [bind_ok BoxStack.drop_empty]; rfl, rfl, fun _ _ => rfl, fun p hp => by cases hp⟩
        · have hb := (List.getElem?_eq_some_iff.1 h8).1
          have hh : holding E st.heap b (mi.stack s) = st.heap := holding_of_get (by rw [h8, h7, IterStack.length_newBox])
          have hd := BoxStack.drop_at (leaf := leaf) (inners := inners) hb hs h9
          rw [← h7, hh] at hd
          rw [h6]
          refine ⟨st.heap.set b none, by rw [bind_ok hd]; rfl, by simp, fun j hj => List.getElem?_set_ne (hj ⟨b, 0⟩ rfl), fun p hp => ?_⟩
          cases hp
          exact List.getElem?_set_self hb
      obtain ⟨h', e1, e2, e3, e4⟩ := key
      have back : ∀ {i l'}, (st.its.set k none)[i]? = some (some l') → k ≠ i ∧ st.its[i]? = some (some l') := by
        intro i l' h
        replace h := set_get h
        rcases h with ⟨_, h⟩ | h
        · cases h
        · exact h
      refine ⟨_, step_drop_ok hk e1, by simp [hi.len], hi.ok, by show h0.length ≤ h'.length; rw [e2]; exact hi.le, ?_, hi.past, ?_, ?_, ?_, ?_, ?_⟩
      · intro j hj
        rw [← hi.frame j hj]
        exact e3 j fun p hp hpj => by have := (hi.base k l p hk hp).1; omega
      · intro i l' h
        obtain ⟨hne, h⟩ := back h
        obtain ⟨src', s0', s'', f1, f0, f2, f3, f4, f5⟩ := hi.live i l' h
        exact ⟨src', s0', s'', f1, f0, f2, f3, f4, f5.frame fun p hp => e3 _ fun p' hp' hpp => hne (hi.distinct k l p' i l' p hk hp' h hp hpp)⟩
      · intro i l' p h hp
        show h0.length ≤ p.block ∧ p.block < h'.length
        rw [e2]
        exact hi.base i l' p (back h).2 hp
      · intro i l1 p j l2 p' f1 f2 f3 f4 f5
        exact hi.distinct _ _ _ _ _ _ (back f1).2 f2 (back f3).2 f4 f5
      · intro j f1 f2
        show h'[j]? = some none ∨ _
        rcases hi.freed j f1 (by rw [← e2]; exact f2) with f3 | ⟨i, l', p, f3, f4, f5⟩
        · refine .inl ((e3 j fun p hp hpj => ?_).trans f3)
          rcases h5 with ⟨h6, h7⟩ | ⟨b, leaf, inners, h6, h7, h8, h9⟩
          · rw [h6] at hp; cases hp
          · rw [h6] at hp; cases hp
            subst hpj
            rw [h8] at f3; cases f3
        · by_cases hki : k = i
          · subst hki
            rw [hk] at f3; cases f3
            subst f5
            exact .inl (e4 p f4)
          · exact .inr ⟨i, l', p, by show (st.its.set k none)[i]? = _; rw [List.getElem?_set_ne hki]; exact f3, f4, f5⟩
      · intro x hx
        show x.1 < (st.its.set k none).length
        rw [List.length_set]
        exact hi.logged x hx

theorem Inv.run {h0 : Heap (StackEntry L I)} (hs : 0 < E.size) (cmds : List (IterCmd Src F)) {starts : List (Src × (Nat → Option F))}
    {st : Session (StackEntry L I) ι F X} (hi : mi.Inv h0 starts st) (hok : ∀ x ∈ started cmds, mi.ok x.1) :
    ∃ st', st.run kind cmds = .ok st' ∧ mi.Inv h0 (starts ++ started cmds) st' := by
  induction cmds generalizing starts st with
  | nil => exact ⟨st, rfl, by simpa [started] using hi⟩
  | cons c cs ih =>
    cases c with
    | start src code =>
      obtain ⟨st1, h1, h2⟩ := hi.start mi (hok (src, code) (by simp [started])) code
      obtain ⟨st2, h3, h4⟩ := ih h2 (fun x hx => hok x (by simp [started, hx]))
      exact ⟨st2, by rw [Session.run, h1]; exact h3, by simpa [started] using h4⟩
    | next k =>
      obtain ⟨st1, h1, h2⟩ := hi.next mi k
      obtain ⟨st2, h3, h4⟩ := ih h2 hok
      exact ⟨st2, by rw [Session.run, h1]; exact h3, h4⟩
    | drop k =>
      obtain ⟨st1, h1, h2⟩ := hi.drop mi hs k
      obtain ⟨st2, h3, h4⟩ := ih h2 hok
      exact ⟨st2, by rw [Session.run, h1]; exact h3, h4⟩

theorem Inv.init (h0 : Heap (StackEntry L I)) : mi.Inv h0 [] ⟨h0, [], []⟩ :=
  ⟨rfl, by simp, Nat.le_refl _, fun _ _ => rfl, by simp, by simp, by simp, by simp, fun j h1 h2 => by have : j < h0.length := h2; omega, by simp⟩

theorem Inv.cleared {h0 : Heap (StackEntry L I)} {starts : List (Src × (Nat → Option F))} {st : Session (StackEntry L I) ι F X} (hi : mi.Inv h0 starts st)
    (hd : ∀ o ∈ st.its, o = none) : ∃ m, st.heap = h0 ++ List.replicate m none := by
  refine ⟨st.heap.length - h0.length, ?_⟩
  have hle := hi.le
  apply List.ext_getElem?
  intro j
  by_cases h1 : j < h0.length
  · rw [List.getElem?_append_left h1]; exact hi.frame j h1
  · rw [List.getElem?_append_right (by omega)]
    by_cases h2 : j < st.heap.length
    · rcases hi.freed j (by omega) h2 with h | ⟨i, l, p, h, _⟩
      · rw [h, List.getElem?_replicate, if_pos (by omega)]
      · cases hd _ (List.mem_of_getElem? h)
    · rw [List.getElem?_eq_none (by omega), List.getElem?_replicate, if_neg (by omega)]

/-- Everything together. -/
theorem session (hs : 0 < E.size) (h0 : Heap (StackEntry L I)) (cmds : List (IterCmd Src F)) (hok : ∀ x ∈ started cmds, mi.ok x.1) :
    ∃ st, Session.run kind ⟨h0, [], []⟩ cmds = .ok st ∧ (∀ j, j < h0.length → st.heap[j]? = h0[j]?) ∧
      ((∀ o ∈ st.its, o = none) → ∃ m, st.heap = h0 ++ List.replicate m none) ∧ (∀ x ∈ st.log, x.1 < (started cmds).length) ∧
      ∀ k src code, (started cmds)[k]? = some (src, code) → mi.Past code src (itemsOf k st.log) := by
  obtain ⟨st, h1, h2⟩ := Inv.run mi hs cmds (Inv.init mi h0) hok
  rw [List.nil_append] at h2
  exact ⟨st, h1, h2.frame, h2.cleared mi, (fun x hx => by rw [← h2.len]; exact h2.logged x hx), h2.past⟩

end Mirror

end RTree.Raw
