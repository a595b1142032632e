import Verif.Proofs.Sharing
import Verif.Props.Join
/-!
# The shared allocation of left joins (C47)
-/

namespace RTree

/-! ### Specification of the protocol: every handle has a value of its own -/

namespace RcMut

variable {T O : Type}

/-- What the owners see: whether the alloc is still there, and the value of each handle handed out so far unless it has been
    dropped. -/
structure View (T : Type) where
  alive : Bool
  values : List (Option T)

/-- What an operation does to the view; `none` if the owner is gone. -/
def View.step (s : View T) : Op T O → Option (View T × Option O)
  | .make v => if s.alive then some (⟨true, s.values ++ [some v]⟩, none) else none
  | .use k f =>
    match s.values[k]? with
    | some (some v) => some (⟨s.alive, s.values.set k (some (f v).2)⟩, some (f v).1)
    | _ => none
  | .dropHandle k =>
    match s.values[k]? with
    | some (some _) => some (⟨s.alive, s.values.set k none⟩, none)
    | _ => none
  | .dropAlloc => if s.alive then some (⟨false, s.values⟩, none) else none

/-- A sequence of operations, with everything the handles returned. -/
def View.run (s : View T) : List (Op T O) → Option (View T × List O)
  | [] => some (s, [])
  | op :: ops => do
    let (s, out) ← s.step op
    let (s, outs) ← s.run ops
    some (s, out.toList ++ outs)

/-- The number of owners left. -/
def View.owners (s : View T) : Nat := (if s.alive then 1 else 0) + s.values.countP Option.isSome

theorem step_refines {n : Nat} {h₀ h : Boxes T} {o : Owners} {s : View T} (hi : Inv n h₀ h o s.values)
    (ha : o.alloc.isSome = s.alive) (op : Op T O) :
    match s.step op with
    | none => step o op = none
    | some (s', out) => ∃ m o' h', step o op = some m ∧ m h = .ok ((o', out), h') ∧ Inv n h₀ h' o' s'.values ∧
        o'.alloc.isSome = s'.alive := by
  cases op with
  | make v =>
    simp only [View.step]
    cases hal : o.alloc with
    | none =>
      rw [hal] at ha
      rw [← ha]
      simp [step, hal]
    | some b =>
      rw [hal] at ha
      rw [← ha]
      obtain ⟨b', h', h1, h2⟩ := hi.make hal v
      refine ⟨_, _, h', by simp only [step, hal, bind, Option.bind]; rfl, ?_, h2, rfl⟩
      exact bind_ok h1
  | use k f =>
    simp only [View.step]
    cases hk : o.handles[k]? with
    | none =>
      have : s.values[k]? = none := by
        rw [List.getElem?_eq_none_iff] at hk ⊢
        rw [← hi.length]; exact hk
      rw [this]
      simp [step, hk]
    | some ob =>
      cases ob with
      | none =>
        rw [hi.dead k hk]
        simp [step, hk]
      | some b =>
        obtain ⟨v, sh, h1, h2, h3⟩ := hi.use hk
        rw [h1]
        refine ⟨_, _, _, by simp only [step, hk, bind, Option.bind]; rfl, ?_, h3 (f v).2, ha⟩
        refine (bind_ok (deref_ok h2)).trans ?_
        exact bind_ok (derefMut_ok h2 _)
  | dropHandle k =>
    simp only [View.step]
    cases hk : o.handles[k]? with
    | none =>
      have : s.values[k]? = none := by
        rw [List.getElem?_eq_none_iff] at hk ⊢
        rw [← hi.length]; exact hk
      rw [this]
      simp [step, hk]
    | some ob =>
      cases ob with
      | none =>
        rw [hi.dead k hk]
        simp [step, hk]
      | some b =>
        obtain ⟨v, sh, h1, _, _⟩ := hi.use hk
        obtain ⟨out, h', h2, h3⟩ := hi.dropHandle hk
        rw [h1]
        exact ⟨_, _, h', by simp only [step, hk, bind, Option.bind]; rfl, bind_ok h2, h3, ha⟩
  | dropAlloc =>
    simp only [View.step]
    cases hal : o.alloc with
    | none =>
      rw [hal] at ha
      rw [← ha]
      simp [step, hal]
    | some b =>
      rw [hal] at ha
      rw [← ha]
      obtain ⟨h', h1, h2⟩ := hi.dropAlloc hal
      exact ⟨_, _, h', by simp only [step, hal, bind, Option.bind]; rfl, bind_ok h1, h2, rfl⟩

theorem run_refines (ops : List (Op T O)) : ∀ {n : Nat} {h₀ h : Boxes T} {o : Owners} {s : View T}, Inv n h₀ h o s.values →
    o.alloc.isSome = s.alive →
    match s.run ops with
    | none => run o ops h = none
    | some (s', outs) => ∃ o' h', run o ops h = some (.ok ((o', outs), h')) ∧ Inv n h₀ h' o' s'.values ∧
        o'.alloc.isSome = s'.alive := by
  induction ops with
  | nil => intro n h₀ h o s hi ha; exact ⟨o, h, rfl, hi, ha⟩
  | cons op ops ih =>
    intro n h₀ h o s hi ha
    have h1 := step_refines hi ha op
    simp only [View.run]
    cases hop : s.step op with
    | none =>
      rw [hop] at h1
      simp only at h1
      simp [run, h1]
    | some r =>
      obtain ⟨s₁, out⟩ := r
      rw [hop] at h1
      obtain ⟨m, o₁, h₁, g1, g2, g3, g4⟩ := h1
      have h2 := ih g3 g4
      simp only [bind, Option.bind]
      cases hops : s₁.run ops with
      | none =>
        rw [hops] at h2
        simp only at h2
        simp [run, g1, g2, h2]
      | some r =>
        obtain ⟨s₂, outs⟩ := r
        rw [hops] at h2
        obtain ⟨o₂, h₂, k1, k2, k3⟩ := h2
        exact ⟨o₂, h₂, by simp [run, g1, g2, k1], k2, k3⟩

/-- The boxes that are alive are owned, so there are no more of them than owners. -/
theorem Inv.live_le {n : Nat} {h₀ h : Boxes T} {o : Owners} {s : View T} (hi : Inv n h₀ h o s.values)
    (ha : o.alloc.isSome = s.alive) : (h.drop n).countP Option.isSome ≤ s.owners := by
  -- the numbers of the live boxes
  have hidx : ∀ (l : Boxes T) (off : Nat), ∃ is : List Nat, is.Nodup ∧ is.length = l.countP Option.isSome ∧
      ∀ i ∈ is, off ≤ i ∧ ∃ c, l[i - off]? = some (some c) := by
    intro l
    induction l with
    | nil => intro off; exact ⟨[], by simp, by simp, by simp⟩
    | cons a l ih =>
      intro off
      obtain ⟨is, h1, h2, h3⟩ := ih (off + 1)
      have hup : ∀ i ∈ is, off ≤ i ∧ ∃ c, (a :: l)[i - off]? = some (some c) := by
        intro i hi
        obtain ⟨g1, c, g2⟩ := h3 i hi
        refine ⟨by omega, c, ?_⟩
        rw [show i - off = (i - (off + 1)) + 1 by omega, List.getElem?_cons_succ, g2]
      cases a with
      | none => exact ⟨is, h1, by simp [h2], hup⟩
      | some c =>
        refine ⟨off :: is, List.nodup_cons.2 ⟨?_, h1⟩, by simp [h2], ?_⟩
        · intro hoff
          have := (h3 off hoff).1
          omega
        · intro i hi
          rcases List.mem_cons.1 hi with rfl | hi
          · exact ⟨Nat.le_refl _, c, by simp⟩
          · exact hup i hi
  obtain ⟨is, h1, h2, h3⟩ := hidx (h.drop n) n
  rw [← h2]
  have hown : ∀ i ∈ is, i ∈ o.alloc.toList ++ o.handles.filterMap id := by
    intro i hmem
    obtain ⟨g1, c, g2⟩ := h3 i hmem
    rw [List.getElem?_drop, show n + (i - n) = i by omega] at g2
    rcases hi.cover i g1 (lt_of_get g2) with h4 | ⟨k, h4⟩ | h4
    · simp [h4]
    · refine List.mem_append_right _ (List.mem_filterMap.2 ⟨some i, List.mem_of_getElem? h4, rfl⟩)
    · rw [g2] at h4; cases h4
  have hlen : ∀ {xs ys : List Nat}, xs.Nodup → (∀ x ∈ xs, x ∈ ys) → xs.length ≤ ys.length := by
    intro xs
    induction xs with
    | nil => intro ys _ _; exact Nat.zero_le _
    | cons x xs ih =>
      intro ys hn hs
      rw [List.nodup_cons] at hn
      have hx := hs x List.mem_cons_self
      have := ih (ys := ys.erase x) hn.2 (by
        intro y hy
        refine (List.mem_erase_of_ne ?_).2 (hs y (List.mem_cons_of_mem _ hy))
        rintro rfl; exact hn.1 hy)
      have hpos := List.length_pos_of_mem hx
      rw [List.length_erase_of_mem hx] at this
      rw [List.length_cons]
      omega
  refine Nat.le_trans (hlen h1 hown) ?_
  rw [List.length_append, View.owners, ← ha]
  have e1 : o.alloc.toList.length ≤ if o.alloc.isSome then 1 else 0 := by cases o.alloc <;> simp
  have e2 : (o.handles.filterMap id).length = s.values.countP Option.isSome := by
    have h5 := hi.length
    have h6 : ∀ k : Nat, (o.handles[k]?.map Option.isSome) = (s.values[k]?.map Option.isSome) := by
      intro k
      cases hk : o.handles[k]? with
      | none =>
        rw [List.getElem?_eq_none_iff] at hk
        rw [List.getElem?_eq_none (by omega)]; rfl
      | some ob =>
        cases ob with
        | none => rw [hi.dead k hk]; rfl
        | some b =>
          obtain ⟨_, v, g, _⟩ := hi.live k b hk
          rw [g]; rfl
    have h7 : o.handles.map Option.isSome = s.values.map Option.isSome := by
      refine List.ext_getElem? fun k => ?_
      rw [List.getElem?_map, List.getElem?_map, h6]
    have h8 : (o.handles.filterMap id).length = o.handles.countP Option.isSome := by
      clear h7 h6 h5 e1 hown h3 h2 h1
      induction o.handles with
      | nil => rfl
      | cons a l ih =>
        cases a with
        | none => rw [List.filterMap_cons_none rfl, ih]; rfl
        | some a => rw [List.filterMap_cons_some (f := id) (b := a) rfl, List.length_cons, ih]; simp
    rw [h8]
    have h9 : ∀ {α : Type} (l : List (Option α)), l.countP Option.isSome = (l.map Option.isSome).countP id := by
      intro α l; rw [List.countP_map]; rfl
    rw [h9, h9, h7]
  omega

/-- C47: for every sequence of operations on an alloc and the handles it hands out, in any order and interleaving, in any
    memory: there is no undefined behaviour (use after free, double free, read of uninitialised memory); every handle
    behaves as if it had a value of its own that nobody else touches; memory of others is left alone; there are never
    more boxes than owners left; and once all owners are dropped every box has been freed. -/
theorem C47_protocol (ops : List (Op T O)) (h₀ : Boxes T) :
    ∃ b h, allocate h₀ = .ok (b, h) ∧
    match View.run ⟨true, []⟩ ops with
    | none => run ⟨some b, []⟩ ops h = none
    | some (s, outs) => ∃ o h', run ⟨some b, []⟩ ops h = some (.ok ((o, outs), h')) ∧
        (∀ j, j < h₀.length → h'[j]? = h₀[j]?) ∧ (h'.drop h₀.length).countP Option.isSome ≤ s.owners ∧
        (s.owners = 0 → ∃ k, h' = h₀ ++ List.replicate k none) := by
  refine ⟨_, _, rfl, ?_⟩
  have := run_refines ops (s := ⟨true, []⟩) (Inv.start h₀) rfl
  cases hr : View.run (O := O) ⟨true, []⟩ ops with
  | none => rw [hr] at this; exact this
  | some r =>
    obtain ⟨s, outs⟩ := r
    rw [hr] at this
    obtain ⟨o, h', r1, r2, r3⟩ := this
    refine ⟨o, h', r1, r2.others, r2.live_le r3, fun h0 => ⟨_, r2.all_freed ?_ ?_⟩⟩
    · cases hal : o.alloc with
      | none => rfl
      | some b =>
        rw [hal] at r3
        simp [View.owners, ← r3] at h0
    · intro x hx
      cases x with
      | none => rfl
      | some v =>
        have : 0 < s.values.countP Option.isSome := List.countP_pos_iff.2 ⟨_, hx, rfl⟩
        simp only [View.owners] at h0
        omega

/-- A history with two handles alive at once, a reuse of a box, a drop of the alloc before its handles, and memory that
    already holds a box of somebody else. -/
def sampleOps : List (Op Nat Nat) :=
  [.make 41, .use 0 fun v => (v, v + 1), .dropHandle 0, .make 50, .make 60, .use 1 fun v => (v, v + 1),
   .use 2 fun v => (v, v + 1), .use 1 fun v => (v, v), .dropAlloc, .use 2 fun v => (v, v), .dropHandle 2, .dropHandle 1]

example : View.run ⟨true, []⟩ sampleOps = some (⟨false, [none, none, none]⟩, [41, 50, 60, 51, 61]) := rfl

/-- The box of the first handle is reused for the second, the third needs a box of its own, and all are freed. -/
example : ∃ b h, allocate [some ⟨true, some 7⟩] = .ok (b, h) ∧ (run ⟨some b, []⟩ sampleOps h).map (fun r => match r with
    | .ok ((_, outs), h') => (outs, h'.map Option.isSome)
    | .error _ => ([], [])) = some ([41, 50, 60, 51, 61], [true, false, false]) :=
  ⟨_, _, rfl, rfl⟩

/-- Using a handle that is gone is not possible. -/
example : View.run (O := Nat) ⟨true, []⟩ [.make 1, .dropHandle 0, .use 0 fun v => (v, v)] = none := rfl

end RcMut

/-! ### Left joins -/

variable {BL BR KL KR VL VR QL QR : Type}

/-- What the user of a left join sees: how many items have been taken from the join unless it has been dropped, and how many
    from each right-hand iterator unless it has been dropped. -/
structure JoinView where
  pos : Option Nat
  rights : List (Option Nat)

/-- What one step yields if the whole join is `res` (every left entry with its matches). -/
def JoinView.step (res : List ((KL × VL) × List (KR × VR))) (s : JoinView) :
    JoinOp → Option (JoinView × Option (JoinOut KL VL KR VR))
  | .next => do
    let i ← s.pos
    match res[i]? with
    | some x => some (⟨some (i + 1), s.rights ++ [some 0]⟩, some (.left (some x.1)))
    | none => some (s, some (.left none))
  | .nextRight k => do
    let j ← (← s.rights[k]?)
    let x ← res[k]?
    match x.2[j]? with
    | some e => some (⟨s.pos, s.rights.set k (some (j + 1))⟩, some (.right (some e)))
    | none => some (s, some (.right none))
  | .dropRight k => do
    let _ ← (← s.rights[k]?)
    some (⟨s.pos, s.rights.set k none⟩, none)
  | .dropJoin => do
    let _ ← s.pos
    some (⟨none, s.rights⟩, none)

/-- A sequence of steps, with everything yielded. -/
def JoinView.run (res : List ((KL × VL) × List (KR × VR))) (s : JoinView) :
    List JoinOp → Option (JoinView × List (JoinOut KL VL KR VR))
  | [] => some (s, [])
  | op :: ops => do
    let (s, out) ← s.step res op
    let (s, outs) ← s.run res ops
    some (s, out.toList ++ outs)

/-- Everything has been dropped. -/
def JoinView.over (s : JoinView) : Prop := s.pos = none ∧ ∀ x ∈ s.rights, x = none

section

variable [Bounded QL BL] {borrowL : KL → QL} {borrowR : KR → QR} {f : JoinFilter BL BR QL QR}

open LeftJoinIter in
/-- What relates memory, the join and the user's view. -/
structure JoinRel (borrowL : KL → QL) (borrowR : KR → QR) (f : JoinFilter BL BR QL QR)
    (res : List ((KL × VL) × List (KR × VR))) (h₀ h : RcMut.Boxes (TreeIter BR KR VR))
    (m : JoinInMemory BL BR KL KR VL VR) (s : JoinView) (vals : List (Option (TreeIter BR KR VR))) : Prop where
  inv : RcMut.Inv h₀.length h₀ h ⟨m.join.map (·.2), m.rights.map (·.2)⟩ vals
  gone : m.join = none → s.pos = none
  going : ∀ it b, m.join = some (it, b) → ∃ i, s.pos = some i ∧ Going borrowL borrowR f m.room it (res.drop i) ∧
    (s.rights.length = i)
  length : s.rights.length = m.rights.length
  within : s.rights.length ≤ res.length
  right : ∀ (k : Nat) key ob, m.rights[k]? = some (key, ob) → ∃ e ms, res[k]? = some (e, ms) ∧ e.1 = key ∧
    match ob with
    | none => s.rights[k]? = some none
    | some _ => ∃ j stack, s.rights[k]? = some (some j) ∧ vals[k]? = some (some stack) ∧
        RightGoing borrowR (joiningFilter (borrowL key) f) stack (ms.drop j)

private theorem optBind {α β : Type} {x : α} {g : α → Option β} : (some x >>= g) = g x := rfl

theorem join_step_refines {res : List ((KL × VL) × List (KR × VR))} {h₀ h : RcMut.Boxes (TreeIter BR KR VR)}
    {m : JoinInMemory BL BR KL KR VL VR} {s : JoinView} {vals : List (Option (TreeIter BR KR VR))}
    (hr : JoinRel borrowL borrowR f res h₀ h m s vals) (op : JoinOp) :
    match s.step res op with
    | none => m.step borrowL borrowR f op = none
    | some (s', out) => ∃ p m' h' vals', m.step borrowL borrowR f op = some p ∧ p h = .ok ((m', out), h') ∧
        JoinRel borrowL borrowR f res h₀ h' m' s' vals' := by
  have hvl : vals.length = m.rights.length := by have := hr.inv.length; simpa using this.symm
  cases op with
  | next =>
    cases hj : m.join with
    | none =>
      have := hr.gone hj
      simp only [JoinView.step, this, JoinInMemory.step, hj]
      rfl
    | some x =>
      obtain ⟨it, b⟩ := x
      obtain ⟨i, hp, hg, hi⟩ := hr.going it b hj
      simp only [JoinView.step, hp, JoinInMemory.step, hj, optBind]
      cases hres : res[i]? with
      | none =>
        have hd : res.drop i = [] := List.drop_eq_nil_iff.2 (List.getElem?_eq_none_iff.1 hres)
        rw [hd] at hg
        obtain ⟨it', h1, h2⟩ := hg.done
        refine ⟨_, _, h, vals, rfl, by simp only [h1, ok_bind]; rfl, ?_⟩
        refine ⟨by simpa [hj] using hr.inv, (by intro h; cases h), ?_, hr.length, hr.within, hr.right⟩
        intro it'' b' hj'
        injection hj' with hj'; injection hj' with e1 e2; subst e1
        exact ⟨i, hp, by rw [hd]; exact h2, hi⟩
      | some y =>
        obtain ⟨e, ms⟩ := y
        obtain ⟨hlt, hy⟩ := List.getElem?_eq_some_iff.1 hres
        have hd : res.drop i = (e, ms) :: res.drop (i + 1) := by rw [← hy, List.drop_eq_getElem_cons hlt]
        rw [hd] at hg
        obtain ⟨stack, it', h1, h2, h3, h4⟩ := hg.item
        obtain ⟨b', h', h5, h6⟩ := hr.inv.make (b := b) (by simp [hj]) stack
        have hlen : s.rights.length = m.rights.length := hr.length
        refine ⟨_, ⟨some (it', b'), m.room, m.rights ++ [(e.1, some b')]⟩, h', vals ++ [some stack], rfl, ?_, ?_⟩
        · simp only [h1, ok_bind, h3, ne_eq, not_true_eq_false, if_false, pure_eq_ok]
          rw [h5]
          rfl
        · refine ⟨by simpa using h6, (by intro h; cases h), ?_, by simp [hlen], by simp; omega, ?_⟩
          · intro it'' b'' hj'
            injection hj' with hj'; injection hj' with e1 e2; subst e1
            exact ⟨i + 1, rfl, h2, by simp [hi]⟩
          · intro k key ob hk
            by_cases hkl : k < m.rights.length
            · rw [List.getElem?_append_left hkl] at hk
              obtain ⟨e', ms', g1, g2, g3⟩ := hr.right k key ob hk
              refine ⟨e', ms', g1, g2, ?_⟩
              cases ob with
              | none => simp only at g3 ⊢; rw [List.getElem?_append_left (by omega)]; exact g3
              | some ob =>
                obtain ⟨j, st, g4, g5, g6⟩ := g3
                exact ⟨j, st, by rw [List.getElem?_append_left (by omega)]; exact g4,
                  by rw [List.getElem?_append_left (by omega)]; exact g5, g6⟩
            · rw [List.getElem?_append_right (by omega)] at hk
              have h0 : k = m.rights.length := by
                by_cases h0 : k - m.rights.length = 0
                · omega
                · rw [List.getElem?_eq_none (by simp; omega)] at hk; cases hk
              subst h0
              simp only [Nat.sub_self, List.getElem?_cons_zero, Option.some.injEq, Prod.mk.injEq] at hk
              obtain ⟨rfl, rfl⟩ := hk
              refine ⟨e, ms, by rw [← hlen, hi]; exact hres, rfl, 0, stack, ?_, ?_, h4⟩
              · rw [← hlen, List.getElem?_append_right (by omega)]; simp
              · rw [← hvl, List.getElem?_append_right (by omega)]; simp
  | nextRight k =>
    cases hk : m.rights[k]? with
    | none =>
      have : s.rights[k]? = none := by rw [List.getElem?_eq_none_iff] at hk ⊢; rw [hr.length]; exact hk
      simp only [JoinView.step, this, JoinInMemory.step, hk]
      rfl
    | some x =>
      obtain ⟨key, ob⟩ := x
      obtain ⟨e, ms, g1, g2, g3⟩ := hr.right k key ob hk
      cases ob with
      | none =>
        simp only at g3
        simp only [JoinView.step, g3, JoinInMemory.step, hk]
        rfl
      | some b =>
        obtain ⟨j, stack, g4, g5, g6⟩ := g3
        have hh : (m.rights.map (·.2))[k]? = some (some b) := by rw [List.getElem?_map, hk]; rfl
        obtain ⟨v, sh, u1, u2, u3⟩ := hr.inv.use hh
        rw [g5] at u1
        injection u1 with u1; injection u1 with u1; subst u1
        obtain ⟨st', n1, n2⟩ := g6.next
        rw [List.head?_drop] at n1
        rw [List.tail_drop] at n2
        have hkv : k < vals.length := (List.getElem?_eq_some_iff.1 g5).1
        have hks : k < s.rights.length := (List.getElem?_eq_some_iff.1 g4).1
        simp only [JoinView.step, g4, g1, JoinInMemory.step, hk, optBind]
        have hmem : (do
            let (stack, h) ← RcMut.deref b h
            let (e, stack) ← stack.next borrowR (joiningFilter (borrowL key) f)
            let (_, h) ← RcMut.derefMut b stack h
            pure ((m, some (JoinOut.right (KL := KL) (VL := VL) e)), h) : Res _) =
            .ok ((m, some (.right ms[j]?)), h.set b (some ⟨sh, some st'⟩)) := by
          rw [RcMut.deref_ok u2]
          simp only [ok_bind, n1]
          rw [RcMut.derefMut_ok u2]
          rfl
        cases hms : ms[j]? with
        | none =>
          rw [hms] at hmem
          refine ⟨_, m, _, vals.set k (some st'), rfl, hmem, u3 st', hr.gone, hr.going, hr.length, hr.within, ?_⟩
          intro k' key' ob' hk'
          obtain ⟨e', ms', g1', g2', g3'⟩ := hr.right k' key' ob' hk'
          refine ⟨e', ms', g1', g2', ?_⟩
          cases ob' with
          | none => exact g3'
          | some b' =>
            obtain ⟨j', s', p1, p2, p3⟩ := g3'
            by_cases hkk : k' = k
            · subst hkk
              rw [hk] at hk'; injection hk' with hk'; injection hk' with e1 e2; subst e1
              rw [g1] at g1'; injection g1' with g1'; injection g1' with e3 e4; subst e4
              rw [g4] at p1; injection p1 with p1; injection p1 with p1; subst p1
              refine ⟨j, st', g4, List.getElem?_set_self hkv, ?_⟩
              have hl := List.getElem?_eq_none_iff.1 hms
              have e1 : ms.drop (j + 1) = ms.drop j := by rw [List.drop_eq_nil_of_le hl, List.drop_eq_nil_of_le (by omega)]
              rw [e1] at n2
              exact n2
            · exact ⟨j', s', p1, by rw [List.getElem?_set_ne (Ne.symm hkk)]; exact p2, p3⟩
        | some e₁ =>
          rw [hms] at hmem
          refine ⟨_, m, _, vals.set k (some st'), rfl, hmem, u3 st', hr.gone, ?_, by simp [hr.length], by simp [hr.within], ?_⟩
          · intro it' b' hj
            obtain ⟨i, a1, a2, a3⟩ := hr.going it' b' hj
            exact ⟨i, a1, a2, by simp [a3]⟩
          · intro k' key' ob' hk'
            obtain ⟨e', ms', g1', g2', g3'⟩ := hr.right k' key' ob' hk'
            refine ⟨e', ms', g1', g2', ?_⟩
            cases ob' with
            | none =>
              have hkk : k' ≠ k := by rintro rfl; rw [hk] at hk'; cases hk'
              simp only at g3' ⊢
              rw [List.getElem?_set_ne (Ne.symm hkk)]; exact g3'
            | some b' =>
              obtain ⟨j', s', p1, p2, p3⟩ := g3'
              by_cases hkk : k' = k
              · subst hkk
                rw [hk] at hk'; injection hk' with hk'; injection hk' with e1 e2; subst e1
                rw [g1] at g1'; injection g1' with g1'; injection g1' with e3 e4; subst e4
                rw [g4] at p1; injection p1 with p1; injection p1 with p1; subst p1
                exact ⟨j + 1, st', List.getElem?_set_self hks, List.getElem?_set_self hkv, n2⟩
              · exact ⟨j', s', by rw [List.getElem?_set_ne (Ne.symm hkk)]; exact p1,
                  by rw [List.getElem?_set_ne (Ne.symm hkk)]; exact p2, p3⟩
  | dropRight k =>
    cases hk : m.rights[k]? with
    | none =>
      have : s.rights[k]? = none := by rw [List.getElem?_eq_none_iff] at hk ⊢; rw [hr.length]; exact hk
      simp only [JoinView.step, this, JoinInMemory.step, hk]
      rfl
    | some x =>
      obtain ⟨key, ob⟩ := x
      obtain ⟨e, ms, g1, g2, g3⟩ := hr.right k key ob hk
      cases ob with
      | none =>
        simp only at g3
        simp only [JoinView.step, g3, JoinInMemory.step, hk]
        rfl
      | some b =>
        obtain ⟨j, stack, g4, g5, g6⟩ := g3
        have hh : (m.rights.map (·.2))[k]? = some (some b) := by rw [List.getElem?_map, hk]; rfl
        obtain ⟨out, h', d1, d2⟩ := hr.inv.dropHandle hh
        have hkm : k < m.rights.length := (List.getElem?_eq_some_iff.1 hk).1
        have hks : k < s.rights.length := by rw [hr.length]; exact hkm
        simp only [JoinView.step, g4, JoinInMemory.step, hk, optBind]
        refine ⟨_, ⟨m.join, m.room, m.rights.set k (key, none)⟩, h', vals.set k none, rfl, by rw [d1]; rfl, ?_, hr.gone, ?_,
          by simp [hr.length], by simp [hr.within], ?_⟩
        · rw [List.map_set]; exact d2
        · intro it' b' hj
          obtain ⟨i, a1, a2, a3⟩ := hr.going it' b' hj
          exact ⟨i, a1, a2, by simp [a3]⟩
        · intro k' key' ob' hk'
          simp only at hk'
          by_cases hkk : k' = k
          · subst hkk
            rw [List.getElem?_set_self hkm] at hk'
            injection hk' with hk'; injection hk' with e1 e2; subst e1 e2
            exact ⟨e, ms, g1, g2, List.getElem?_set_self hks⟩
          · rw [List.getElem?_set_ne (Ne.symm hkk)] at hk'
            obtain ⟨e', ms', g1', g2', g3'⟩ := hr.right k' key' ob' hk'
            refine ⟨e', ms', g1', g2', ?_⟩
            rw [List.getElem?_set_ne (Ne.symm hkk), List.getElem?_set_ne (Ne.symm hkk)]
            exact g3'
  | dropJoin =>
    cases hj : m.join with
    | none =>
      have := hr.gone hj
      simp only [JoinView.step, this, JoinInMemory.step, hj]
      rfl
    | some x =>
      obtain ⟨it, b⟩ := x
      obtain ⟨i, hp, hg, hi⟩ := hr.going it b hj
      obtain ⟨h', d1, d2⟩ := hr.inv.dropAlloc (b := b) (by simp [hj])
      simp only [JoinView.step, hp, JoinInMemory.step, hj, optBind]
      exact ⟨_, ⟨none, m.room, m.rights⟩, h', vals, rfl, by rw [d1]; rfl, d2, fun _ => rfl, (by intro _ _ h; cases h), hr.length,
        hr.within, hr.right⟩

theorem join_run_refines {res : List ((KL × VL) × List (KR × VR))} (ops : List JoinOp) :
    ∀ {h₀ h : RcMut.Boxes (TreeIter BR KR VR)} {m : JoinInMemory BL BR KL KR VL VR} {s : JoinView}
      {vals : List (Option (TreeIter BR KR VR))}, JoinRel borrowL borrowR f res h₀ h m s vals →
    match s.run res ops with
    | none => m.run borrowL borrowR f ops h = none
    | some (s', outs) => ∃ m' h' vals', m.run borrowL borrowR f ops h = some (.ok ((m', outs), h')) ∧
        JoinRel borrowL borrowR f res h₀ h' m' s' vals' := by
  induction ops with
  | nil => intro h₀ h m s vals hr; exact ⟨m, h, vals, rfl, hr⟩
  | cons op ops ih =>
    intro h₀ h m s vals hr
    have h1 := join_step_refines hr op
    simp only [JoinView.run]
    cases hop : s.step res op with
    | none =>
      rw [hop] at h1
      simp only at h1
      simp [JoinInMemory.run, h1]
    | some r =>
      obtain ⟨s₁, out⟩ := r
      rw [hop] at h1
      obtain ⟨p, m₁, h₁, vals₁, g1, g2, g3⟩ := h1
      have h2 := ih g3
      simp only [bind, Option.bind]
      cases hops : s₁.run res ops with
      | none =>
        rw [hops] at h2
        simp only at h2
        simp [JoinInMemory.run, g1, g2, h2]
      | some r =>
        obtain ⟨s₂, outs⟩ := r
        rw [hops] at h2
        obtain ⟨m₂, h₂, vals₂, k1, k2⟩ := h2
        exact ⟨m₂, h₂, vals₂, by simp [JoinInMemory.run, g1, g2, k1], k2⟩

/-- C47: a left join of any two reachable trees, with any filter, where the user interleaves in any way taking items from
    the join, taking items from any of the right-hand iterators yielded so far, and dropping the join or the iterators:
    no panic and no undefined behaviour; the `i`-th item of the join is the `i`-th of the whole join, and the `j`-th item
    of the `k`-th right-hand iterator is the `j`-th match of the `k`-th left entry, whatever happens in between (past the
    end, `None`); boxes of others are left alone; when everything is dropped, every box has been freed. -/
theorem C47_left_join [Bounds BL] [Volume BL] [Bounded KL BL] [BEq KL] [Bounds BR] [Volume BR] [Bounded KR BR] [BEq KR]
    {cl cr : Config} {PL : KL → Prop} {PR : KR → Prop} {tl : Tree BL KL VL} {tr : Tree BR KR VR} (hl : Reachable cl PL tl)
    (hr : Reachable cr PR tr) (borrowL : KL → QL) (borrowR : KR → QR) (f : JoinFilter BL BR QL QR)
    {res : List ((KL × VL) × List (KR × VR))} (hres : tl.leftJoin borrowL borrowR f tr = .ok res) (ops : List JoinOp)
    (h₀ : RcMut.Boxes (TreeIter BR KR VR)) :
    ∃ m h, JoinInMemory.new tl.root tl.level tr.root tr.level h₀ = .ok (m, h) ∧
    match JoinView.run res ⟨some 0, []⟩ ops with
    | none => m.run borrowL borrowR f ops h = none
    | some (s, outs) => ∃ m' h', m.run borrowL borrowR f ops h = some (.ok ((m', outs), h')) ∧
        (∀ j, j < h₀.length → h'[j]? = h₀[j]?) ∧ (s.over → ∃ k, h' = h₀ ++ List.replicate k none) := by
  obtain ⟨it, h1, h2⟩ := LeftJoinIter.Going.start borrowL borrowR f hl.shape hr.shape hres
  refine ⟨⟨some (it, h₀.length), tr.level + 2, []⟩, _, by simp only [JoinInMemory.new, h1, ok_bind]; rfl, ?_⟩
  have hrel : JoinRel borrowL borrowR f res h₀ (h₀ ++ [some ⟨false, none⟩])
      (⟨some (it, h₀.length), tr.level + 2, []⟩ : JoinInMemory BL BR KL KR VL VR) ⟨some 0, []⟩ [] := by
    refine ⟨RcMut.Inv.start h₀, (by intro h; cases h), ?_, rfl, Nat.zero_le _, by intro k key ob hk; simp at hk⟩
    intro it' b hj
    injection hj with hj; injection hj with e1 e2; subst e1
    exact ⟨0, rfl, h2, rfl⟩
  have := join_run_refines ops hrel
  cases hrun : JoinView.run res ⟨some 0, []⟩ ops with
  | none => rw [hrun] at this; exact this
  | some r =>
    obtain ⟨s, outs⟩ := r
    rw [hrun] at this
    obtain ⟨m', h', vals', r1, r2⟩ := this
    refine ⟨m', h', r1, r2.inv.others, fun ho => ⟨_, r2.inv.all_freed ?_ ?_⟩⟩
    · cases hj : m'.join with
      | none => rfl
      | some x =>
        obtain ⟨i, hp, _⟩ := r2.going x.1 x.2 hj
        rw [ho.1] at hp; cases hp
    · intro x hx
      obtain ⟨k, hk⟩ := List.mem_iff_getElem?.1 hx
      have hlt := (List.getElem?_eq_some_iff.1 hk).1
      have hll : vals'.length = m'.rights.length := by have := r2.inv.length; simpa using this.symm
      have hm : m'.rights[k]? = some m'.rights[k] := List.getElem?_eq_getElem (by omega)
      obtain ⟨e, ms, g1, g2, g3⟩ := r2.right k m'.rights[k].1 m'.rights[k].2 hm
      cases hob : m'.rights[k].2 with
      | none =>
        have hd := r2.inv.dead k (by rw [List.getElem?_map, hm, Option.map_some, hob])
        rw [hk] at hd; injection hd
      | some b =>
        rw [hob] at g3
        obtain ⟨j, _, g4, _⟩ := g3
        have := ho.2 _ (List.mem_of_getElem? g4)
        cases this

/-- An interleaving: three right-hand iterators alive at once, one outliving the join. -/
def joinOps : List JoinOp :=
  [.next, .nextRight 0, .next, .next, .nextRight 2, .nextRight 1, .dropRight 0, .nextRight 2, .next, .dropJoin, .nextRight 3,
   .nextRight 1, .dropRight 1, .dropRight 2, .dropRight 3]

/-- What the user sees, as values. -/
def shown (outs : List (JoinOut (AABB I32 2) Nat (AABB I32 2) Nat)) : List (Bool × Option Nat) :=
  outs.map fun | .left e => (true, e.map (·.2)) | .right e => (false, e.map (·.2))

/-- The theorem applies to trees of heights 1 and 0; the interleaving is possible, ends with everything dropped, and yields
    the entries 1, 5, 3, 60 of the left tree; the first three match entry 1 of the right tree, 60 matches none. -/
example : ∃ res, sampleTree.leftJoin id id overlapFilter smallTree = .ok res ∧
    ∃ s outs, JoinView.run res ⟨some 0, []⟩ joinOps = some (s, outs) ∧ s.over ∧
      shown outs = [(true, some 1), (false, some 1), (true, some 5), (true, some 3), (false, some 1), (false, some 1),
        (false, none), (true, some 60), (false, none), (false, none)] ∧
      ∃ m h m' h' k, JoinInMemory.new sampleTree.root sampleTree.level smallTree.root smallTree.level [] = .ok (m, h) ∧
        m.run id id overlapFilter joinOps h = some (.ok ((m', outs), h')) ∧ h' = List.replicate k none := by
  have h : (sampleTree.leftJoin id id overlapFilter smallTree).isOk = true := by decide +kernel
  have hr : ((JoinView.run ((sampleTree.leftJoin id id overlapFilter smallTree).getD []) ⟨some 0, []⟩ joinOps).map
      (fun r => (r.1.pos, r.1.rights, shown r.2))) = some (none, [none, none, none, none],
        [(true, some 1), (false, some 1), (true, some 5), (true, some 3), (false, some 1), (false, some 1),
        (false, none), (true, some 60), (false, none), (false, none)]) := by decide +kernel
  have := C47_left_join sample_reachable small_reachable id id overlapFilter (Res.ok_getD [] h) joinOps []
  obtain ⟨m, h1, h2, h3⟩ := this
  refine ⟨_, Res.ok_getD [] h, ?_⟩
  cases hrun : JoinView.run ((sampleTree.leftJoin id id overlapFilter smallTree).getD []) ⟨some 0, []⟩ joinOps with
  | none => rw [hrun] at hr; cases hr
  | some r =>
    obtain ⟨s, outs⟩ := r
    rw [hrun] at hr h3
    simp only [Option.map_some, Option.some.injEq, Prod.mk.injEq] at hr
    obtain ⟨m', h', k1, _, k3⟩ := h3
    have ho : s.over := ⟨hr.1, by rw [hr.2.1]; decide⟩
    obtain ⟨k, hk⟩ := k3 ho
    exact ⟨s, outs, rfl, ho, hr.2.2, m, h1, m', h', k, h2, k1, by simpa using hk⟩

end

end RTree
