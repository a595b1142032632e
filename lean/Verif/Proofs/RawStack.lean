import Verif.Model.RawStack
import Verif.Proofs.FCVec
import Verif.Proofs.CallsJoin
/-!
# Iterator stacks in memory behave like iterator stacks that are values
-/

namespace RTree.IterStack

variable {L I : Type}

theorem getInner_at {leaf : L} {inners : List I} {l : Nat} {it : I} (h : inners[l]? = some it) : getInner (newBox leaf inners) l = .ok it := by
  simp [getInner, newBox, index, h]

theorem setInner_at {leaf : L} {inners : List I} {l : Nat} (h : l < inners.length) (it : I) :
    setInner (newBox leaf inners) l it = .ok (newBox leaf (inners.set l it)) := by
  simp [setInner, newBox, index, h, List.map_set]

end RTree.IterStack

namespace RTree.Raw

variable {L I : Type} {E : Env}

/-- The stack `s` in block `k`. -/
def holding {α : Type} (E : Env) (h : Heap α) (k : Nat) (s : List α) : Heap α := h.set k (some ⟨s.length * E.size, s.map some⟩)

theorem holding_block {α : Type} {h : Heap α} {k : Nat} (hk : k < h.length) (s : List α) : HasBlock E s.length (holding E h k s) k (s.map some) :=
  ⟨by rw [holding, List.getElem?_set_self hk], by simp⟩

theorem holding_holding {α : Type} {h : Heap α} {k : Nat} (s s' : List α) : holding E (holding E h k s) k s' = holding E h k s' := by
  simp [holding, List.set_set]

@[simp] theorem length_holding {α : Type} {h : Heap α} {k : Nat} (s : List α) : (holding E h k s).length = h.length := by simp [holding]

namespace BoxStack

section Access

variable {h : Heap (StackEntry L I)} {k : Nat} {leaf : L} {inners : List I}

theorem place_at {α : Type} (hk : k < h.length) (s : List (StackEntry L I)) {i : Nat} (hi : i < s.length) :
    place E ⟨some ⟨k, 0⟩, s.length⟩ i (holding E h k s) = .ok (⟨k, i * E.size⟩, holding E h k s) := by
  rw [place, bind_ok (panicIf_neg (by simp; omega))]
  exact (holding_block hk s).add0 (by omega)

theorem read_at (hk : k < h.length) (hs : 0 < E.size) (s : List (StackEntry L I)) {i : Nat} {a : StackEntry L I} (hi : s[i]? = some a) :
    (place E ⟨some ⟨k, 0⟩, s.length⟩ i >>= read E) (holding E h k s) = .ok (a, holding E h k s) := by
  have hlt : i < s.length := (List.getElem?_eq_some_iff.1 hi).1
  rw [bind_ok (place_at (α := L) hk s hlt)]
  exact (holding_block hk s).read hs (by simp [hi])

theorem write_at (hk : k < h.length) (hs : 0 < E.size) (s : List (StackEntry L I)) {i : Nat} (hi : i < s.length) (a : StackEntry L I) :
    (place E ⟨some ⟨k, 0⟩, s.length⟩ i >>= fun p => write E p a) (holding E h k s) = .ok ((), holding E h k (s.set i a)) := by
  rw [bind_ok (place_at (α := L) hk s hi), write, bind_ok ((holding_block hk s).block _)]
  simp only [in_range E hi, if_true, Nat.mul_div_cancel _ hs]
  rw [(holding_block hk s).setSlots]
  simp [holding, List.set_set, List.map_set]

theorem getLeaf_at (hk : k < h.length) (hs : 0 < E.size) :
    getLeaf E ⟨some ⟨k, 0⟩, inners.length + 1⟩ (holding E h k (IterStack.newBox leaf inners)) = .ok (leaf, holding E h k (IterStack.newBox leaf inners)) := by
  have h1 := read_at hk hs (IterStack.newBox leaf inners) (i := 0) rfl
  rw [IterStack.length_newBox, bind_apply] at h1
  rw [getLeaf, bind_apply]
  split at h1
  · rw [bind_ok h1]; rfl
  · cases h1

theorem setLeaf_at (hk : k < h.length) (hs : 0 < E.size) (leaf' : L) :
    setLeaf E ⟨some ⟨k, 0⟩, inners.length + 1⟩ leaf' (holding E h k (IterStack.newBox leaf inners)) = .ok ((), holding E h k (IterStack.newBox leaf' inners)) := by
  have h1 := write_at hk hs (IterStack.newBox leaf inners) (i := 0) (by simp) (.leaf leaf')
  rw [IterStack.length_newBox] at h1
  rw [setLeaf, bind_ok (getLeaf_at hk hs)]
  exact h1

theorem getInner_at (hk : k < h.length) (hs : 0 < E.size) {l : Nat} {it : I} (hl : inners[l]? = some it) :
    getInner E ⟨some ⟨k, 0⟩, inners.length + 1⟩ l (holding E h k (IterStack.newBox leaf inners)) = .ok (it, holding E h k (IterStack.newBox leaf inners)) := by
  have h1 := read_at hk hs (IterStack.newBox leaf inners) (i := l + 1) (a := .inner it) (by simp [IterStack.newBox, hl])
  rw [IterStack.length_newBox, bind_apply] at h1
  rw [getInner, bind_apply]
  split at h1
  · rw [bind_ok h1]; rfl
  · cases h1

theorem setInner_at (hk : k < h.length) (hs : 0 < E.size) {l : Nat} (hl : l < inners.length) (it : I) :
    setInner E ⟨some ⟨k, 0⟩, inners.length + 1⟩ l it (holding E h k (IterStack.newBox leaf inners)) =
      .ok ((), holding E h k (IterStack.newBox leaf (inners.set l it))) := by
  have h1 := write_at hk hs (IterStack.newBox leaf inners) (i := l + 1) (by simp; omega) (.inner it)
  rw [IterStack.length_newBox] at h1
  rw [setInner, bind_ok (getInner_at hk hs (List.getElem?_eq_getElem hl)), h1]
  simp [IterStack.newBox, List.map_set]

end Access

section Life

variable {h : Heap (StackEntry L I)} {leaf : L} {inners : List I}

/-- A vector in memory: `cap` slots, the first ones are `s`. -/
theorem push_at {α : Type} {h : Heap α} {k cap : Nat} {s : List α} (hs : 0 < E.size) (hb : HasBlock E cap h k (s.map some ++ List.replicate (cap - s.length) none))
    (hc : s.length < cap) (a : α) :
    StdVec.push E ⟨some ⟨k, 0⟩, cap, s.length⟩ a h = .ok (⟨some ⟨k, 0⟩, cap, (s ++ [a]).length⟩,
      h.set k (some ⟨cap * E.size, (s ++ [a]).map some ++ List.replicate (cap - (s ++ [a]).length) none⟩)) := by
  rw [StdVec.push, bind_ok (panicIf_neg (by simp; omega))]
  dsimp only
  rw [bind_ok (hb.add0 (by omega)), bind_apply, write, bind_ok (hb.block _)]
  simp only [in_range E hc, if_true, Nat.mul_div_cancel _ hs]
  rw [hb.setSlots]
  have h1 : cap - s.length = (cap - (s ++ [a]).length) + 1 := by simp; omega
  have h2 : (s.map some ++ List.replicate (cap - s.length) none).set s.length (some a) =
      (s ++ [a]).map some ++ List.replicate (cap - (s ++ [a]).length) none := by
    rw [h1, List.replicate_succ, List.set_append_right _ _ (by simp)]
    simp
  rw [h2]
  simp [pure_apply]

theorem pushInner_at {k cap : Nat} {s : List (StackEntry L I)} (hs : 0 < E.size) (is : List I)
    (hb : HasBlock E cap h k (s.map some ++ List.replicate (cap - s.length) none)) (hc : s.length + is.length ≤ cap) :
    pushInner E ⟨some ⟨k, 0⟩, cap, s.length⟩ is h = .ok (⟨some ⟨k, 0⟩, cap, (s ++ is.map StackEntry.inner).length⟩,
      h.set k (some ⟨cap * E.size, (s ++ is.map StackEntry.inner).map some ++ List.replicate (cap - (s ++ is.map StackEntry.inner).length) none⟩)) := by
  induction is generalizing h s with
  | nil =>
    have : h.set k (some ⟨cap * E.size, s.map some ++ List.replicate (cap - s.length) none⟩) = h := by
      apply List.ext_getElem?
      intro j
      by_cases hj : k = j
      · subst hj; rw [List.getElem?_set_self hb.lt, hb.alive]
      · rw [List.getElem?_set_ne hj]
    simp [pushInner, this]
  | cons i is ih =>
    have hb' := hb.update (slots' := (s ++ [StackEntry.inner i]).map some ++ List.replicate (cap - (s ++ [StackEntry.inner i]).length) none) (by simp at hc ⊢; omega)
    have h2 := ih hb' (by simp at hc ⊢; omega)
    rw [pushInner, bind_ok (push_at hs hb (by simp at hc; omega) _)]
    refine h2.trans ?_
    simp [List.set_set]

/-- With a `Vec` that has exactly the capacity asked for, the box fits its block. -/
theorem newBox_at (hs : 0 < E.size) (hm : (inners.length + 1) * E.size ≤ E.maxBytes) {room : Nat → Nat} (hr : room (inners.length + 1) = inners.length + 1) :
    BoxStack.newBox E room leaf inners h =
      .ok (⟨some ⟨(gapped E h).length, 0⟩, inners.length + 1⟩, gapped E h ++ [some ⟨(inners.length + 1) * E.size, (IterStack.newBox leaf inners).map some⟩]) := by
  have ha : (alloc E (inners.length + 1) : M (StackEntry L I) Ptr) h =
      .ok (⟨(gapped E h).length, 0⟩, gapped E h ++ [some ⟨(inners.length + 1) * E.size, List.replicate (inners.length + 1) none⟩]) := by
    rw [alloc, bind_ok (b := (inners.length + 1) * E.size) (h' := h) (by simp [layoutArray, hm]), bind_ok (panicIf_neg ?_)]
    · rfl
    · have : 0 < (inners.length + 1) * E.size := Nat.mul_pos (by omega) hs
      omega
  have hw : (StdVec.withCapacity E room (inners.length + 1) : M (StackEntry L I) StdVec) h =
      .ok (⟨some ⟨(gapped E h).length, 0⟩, inners.length + 1, 0⟩, gapped E h ++ [some ⟨(inners.length + 1) * E.size, List.replicate (inners.length + 1) none⟩]) := by
    rw [StdVec.withCapacity, hr, if_neg (by omega), bind_ok ha]
    rfl
  have hb : HasBlock E (inners.length + 1) (gapped E h ++ [some ⟨(inners.length + 1) * E.size, List.replicate (inners.length + 1) none⟩]) (gapped E h).length
      (([] : List (StackEntry L I)).map some ++ List.replicate (inners.length + 1 - ([] : List (StackEntry L I)).length) none) :=
    ⟨by simp, by simp⟩
  have hp := push_at hs hb (by simp) (.leaf leaf)
  have hb' := hb.update (slots' := ([] ++ [StackEntry.leaf (I := I) leaf]).map some ++ List.replicate (inners.length + 1 - ([] ++ [StackEntry.leaf (I := I) leaf]).length) none)
    (by simp)
  have hq := pushInner_at hs inners hb' (by simp; omega)
  rw [BoxStack.newBox, newVec, bind_apply, bind_ok hw]
  simp only [List.length_nil] at hp
  rw [bind_ok hp, hq]
  simp [pure_apply, IterStack.newBox]

theorem dropInner_at {k : Nat} (hk : k < h.length) (hs : 0 < E.size) (n i : Nat) (hi : i + n = inners.length) :
    dropInner E ⟨some ⟨k, 0⟩, inners.length + 1⟩ n i (holding E h k (IterStack.newBox leaf inners)) =
      .ok (inners.drop i, holding E h k (IterStack.newBox leaf inners)) := by
  induction n generalizing i with
  | zero => rw [List.drop_of_length_le (by omega)]; rfl
  | succ n ih =>
    have hl : i < inners.length := by omega
    rw [dropInner, bind_ok (getInner_at hk hs (List.getElem?_eq_getElem hl)), bind_ok (ih (i + 1) (by omega)), List.drop_eq_getElem_cons hl]
    rfl

/-- Dropping the box drops every iterator once and gives the block back. -/
theorem drop_at {k : Nat} (hk : k < h.length) (hs : 0 < E.size) (hm : (inners.length + 1) * E.size ≤ E.maxBytes) :
    BoxStack.drop E ⟨some ⟨k, 0⟩, inners.length + 1⟩ (holding E h k (IterStack.newBox leaf inners)) = .ok (([leaf], inners), h.set k none) := by
  have hp : 0 < (inners.length + 1) * E.size := Nat.mul_pos (by omega) hs
  rw [BoxStack.drop, if_pos (by simp)]
  rw [bind_ok (b := [leaf]) (h' := holding E h k (IterStack.newBox leaf inners)) (by rw [bind_ok (getLeaf_at hk hs)]; rfl)]
  rw [bind_ok (dropInner_at hk hs (inners.length + 1 - 1) 0 (by omega))]
  have hb := holding_block (E := E) hk (IterStack.newBox leaf inners)
  rw [IterStack.length_newBox] at hb
  rw [if_neg (by show ¬ (inners.length + 1) * E.size = 0; omega)]
  dsimp only
  rw [bind_ok (hb.dealloc hm (.inl hp))]
  simp [pure_apply, holding, List.set_set]

theorem drop_empty : BoxStack.drop E BoxStack.emptyBox h = .ok (([], []), h) := by
  rw [BoxStack.drop, if_neg (by simp [BoxStack.emptyBox])]
  rw [bind_ok (pure_apply _ _)]
  show (dropInner E BoxStack.emptyBox 0 0 >>= _) h = _
  rw [dropInner, bind_ok (pure_apply _ _)]
  rw [if_pos (by simp [BoxStack.emptyBox])]
  rfl

end Life

end BoxStack

theorem BoxStack.entries_at {α : Type} {h : Heap α} {k : Nat} (hk : k < h.length) (s : List α) : BoxStack.entries (holding E h k s) ⟨some ⟨k, 0⟩, s.length⟩ = s := by
  have h1 := (holding_block (E := E) hk s).alive
  unfold BoxStack.entries
  dsimp only
  rw [h1]
  dsimp only
  rw [List.take_of_length_le (by simp)]
  simp

section Lift

variable {α β γ : Type}

theorem onHeap_ok {m : M α β} {h h' : Heap α} {b : β} (hm : m h = .ok (b, h')) (n : Nat) : onHeap m h n = (.ok b, h', n) := by rw [onHeap, hm]

theorem onHeap_bind {m : M α β} {h h' : Heap α} {b : β} (hm : m h = .ok (b, h')) (f : β → Calls.M (Heap α) γ) (n : Nat) : (onHeap m >>= f) h n = f b h' n :=
  Calls.bind_ok' (onHeap_ok hm n)

end Lift

/-- How a computation on values shows in memory. -/
def inMemory {S α β : Type} (put : S → Heap α) (x : Except Calls.Stop β × S × Nat) : Except Calls.Stop β × Heap α × Nat := (x.1, put x.2.1, x.2.2)

section Search

variable {S S' α F It : Type}

/-- `find` does not look at the state. -/
theorem search_state (code : Nat → Option F) (test : F → α → Bool) (as : List α) (s : S) (n : Nat) :
    ∃ r as' n', Calls.search code test as s n = (.ok (r, as'), s, n') ∧ ∀ (S' : Type) (s' : S'), Calls.search code test as s' n = (.ok (r, as'), s', n') := by
  induction as generalizing n with
  | nil => exact ⟨_, _, _, rfl, fun _ _ => rfl⟩
  | cons a as ih =>
    cases hc : code n with
    | none =>
      have ha : ∀ (S' : Type) (s' : S'), (Calls.catching (Calls.ask code)) s' n = (.ok (.error .user), s', n + 1) := fun S' s' => by
        unfold Calls.catching Calls.ask; rw [hc]
      refine ⟨.error .user, as, n + 1, ?_, fun S' s' => ?_⟩
      · rw [Calls.search, Calls.bind_ok' (ha _ _)]; rfl
      · rw [Calls.search, Calls.bind_ok' (ha _ _)]; rfl
    | some f =>
      have ha : ∀ (S' : Type) (s' : S'), (Calls.catching (Calls.ask code)) s' n = (.ok (.ok f), s', n + 1) := fun S' s' => by
        unfold Calls.catching Calls.ask; rw [hc]
      cases ht : test f a with
      | true =>
        refine ⟨.ok (some a), as, n + 1, ?_, fun S' s' => ?_⟩
        · rw [Calls.search, Calls.bind_ok' (ha _ _)]; dsimp only; rw [if_pos ht]; rfl
        · rw [Calls.search, Calls.bind_ok' (ha _ _)]; dsimp only; rw [if_pos ht]; rfl
      | false =>
        obtain ⟨r, as', n', h1, h2⟩ := ih (n + 1)
        refine ⟨r, as', n', ?_, fun S' s' => ?_⟩
        · rw [Calls.search, Calls.bind_ok' (ha _ _)]; dsimp only; rw [if_neg (by simp [ht])]; exact h1
        · rw [Calls.search, Calls.bind_ok' (ha _ _)]; dsimp only; rw [if_neg (by simp [ht])]; exact h2 S' s'

theorem searchBy_state (code : Nat → Option F) (test : F → α → Bool) (next : It → Option α × It) (m : Nat) (it : It) (s : S) (n : Nat) :
    (∃ r it' n', Calls.searchBy code test next m it s n = (.ok (r, it'), s, n') ∧
      ∀ (S' : Type) (s' : S'), Calls.searchBy code test next m it s' n = (.ok (r, it'), s', n')) ∨
    (∃ e n', Calls.searchBy code test next m it s n = (.error e, s, n') ∧
      ∀ (S' : Type) (s' : S'), Calls.searchBy code test next m it s' n = (.error e, s', n')) := by
  induction m generalizing it n with
  | zero => exact .inr ⟨_, _, rfl, fun _ _ => rfl⟩
  | succ m ih =>
    cases hn : next it with
    | mk o it' =>
      cases o with
      | none => exact .inl ⟨.ok none, it', n, by rw [Calls.searchBy, hn]; rfl, fun _ _ => by rw [Calls.searchBy, hn]; rfl⟩
      | some a =>
        cases hc : code n with
        | none =>
          have ha : ∀ (S' : Type) (s' : S'), (Calls.catching (Calls.ask code)) s' n = (.ok (.error .user), s', n + 1) := fun S' s' => by
            unfold Calls.catching Calls.ask; rw [hc]
          refine .inl ⟨.error .user, it', n + 1, ?_, fun S' s' => ?_⟩
          · rw [Calls.searchBy, hn]; dsimp only; rw [Calls.bind_ok' (ha _ _)]; rfl
          · rw [Calls.searchBy, hn]; dsimp only; rw [Calls.bind_ok' (ha _ _)]; rfl
        | some f =>
          have ha : ∀ (S' : Type) (s' : S'), (Calls.catching (Calls.ask code)) s' n = (.ok (.ok f), s', n + 1) := fun S' s' => by
            unfold Calls.catching Calls.ask; rw [hc]
          cases ht : test f a with
          | true =>
            refine .inl ⟨.ok (some a), it', n + 1, ?_, fun S' s' => ?_⟩
            · rw [Calls.searchBy, hn]; dsimp only; rw [Calls.bind_ok' (ha _ _)]; dsimp only; rw [if_pos ht]; rfl
            · rw [Calls.searchBy, hn]; dsimp only; rw [Calls.bind_ok' (ha _ _)]; dsimp only; rw [if_pos ht]; rfl
          | false =>
            have step : ∀ (S' : Type) (s' : S'), Calls.searchBy code test next (m + 1) it s' n = Calls.searchBy code test next m it' s' (n + 1) := fun S' s' => by
              rw [Calls.searchBy, hn]; dsimp only; rw [Calls.bind_ok' (ha _ _)]; dsimp only; rw [if_neg (by simp [ht])]
            rw [step]
            simp only [step]
            exact ih it' (n + 1)

end Search

namespace TreeIter

variable {B K V Q : Type}

/-- The loop in memory does what the loop on values does. -/
theorem nextLoop_at (hs : 0 < E.size) (code : Nat → Option (SpatialFilter B Q)) (borrow : K → Q) {h : Heap (TreeEntry B K V)} {k : Nat} (hk : k < h.length)
    (fuel level n : Nat) (es : List (K × V)) (css : List (List (Node B K V))) :
    ∃ es' css' r n', css'.length = css.length ∧
      Calls.TreeIter.nextLoop code borrow fuel level (IterStack.newBox es css) n = (r, IterStack.newBox es' css', n') ∧
      nextLoop E code borrow ⟨some ⟨k, 0⟩, css.length + 1⟩ fuel level (holding E h k (IterStack.newBox es css)) n = (r, holding E h k (IterStack.newBox es' css'), n') := by
  induction fuel generalizing level n es css with
  | zero =>
    by_cases hl : level < css.length + 1
    · refine ⟨es, css, .error (.own .diverge), n, rfl, ?_, ?_⟩
      · unfold Calls.TreeIter.nextLoop; rw [Calls.self_bind, if_pos (by simpa using hl)]; rfl
      · unfold nextLoop; rw [if_pos hl]; rfl
    · refine ⟨es, css, .ok none, n, rfl, ?_, ?_⟩
      · unfold Calls.TreeIter.nextLoop; rw [Calls.self_bind, if_neg (by simpa using hl)]; rfl
      · unfold nextLoop; rw [if_neg hl]; rfl
  | succ fuel ih =>
    by_cases hl : level < css.length + 1
    · cases level with
      | zero =>
        obtain ⟨r, as', n', h1, h2⟩ := search_state code (fun f (e : K × V) => f.testKey (borrow e.1)) es (IterStack.newBox es css) n
        have e1 : Calls.TreeIter.nextLoop code borrow (fuel + 1) 0 (IterStack.newBox es css) n =
            (Calls.raise r >>= fun (x : Option (K × V)) => match x with
              | some e => pure (some e)
              | none => Calls.TreeIter.nextLoop code borrow fuel 1 : Calls.M _ _) (IterStack.newBox as' css) n' := by
          conv => lhs; unfold Calls.TreeIter.nextLoop
          rw [Calls.self_bind, if_pos (by simp)]
          dsimp only
          rw [IterStack.getLeaf_newBox, Calls.own_bind, Calls.bind_ok' h1]
          dsimp only
          rw [IterStack.setLeaf_newBox, Calls.own_bind, Calls.put_bind]
          all_goals
            cases r with
            | error e => rfl
            | ok o => cases o <;> rfl
        have e2 : nextLoop E code borrow ⟨some ⟨k, 0⟩, css.length + 1⟩ (fuel + 1) 0 (holding E h k (IterStack.newBox es css)) n =
            (Calls.raise r >>= fun (x : Option (K × V)) => match x with
              | some e => pure (some e)
              | none => nextLoop E code borrow ⟨some ⟨k, 0⟩, css.length + 1⟩ fuel 1 : Calls.M _ _) (holding E h k (IterStack.newBox as' css)) n' := by
          conv => lhs; unfold nextLoop
          rw [if_pos (by simp)]
          dsimp only
          rw [onHeap_bind (BoxStack.getLeaf_at hk hs), Calls.bind_ok' (h2 _ _)]
          dsimp only
          rw [onHeap_bind (BoxStack.setLeaf_at hk hs _)]
          all_goals
            cases r with
            | error e => rfl
            | ok o => cases o <;> rfl
        rw [e1, e2]
        cases r with
        | error e => exact ⟨as', css, .error e, n', rfl, rfl, rfl⟩
        | ok o =>
          cases o with
          | some e => exact ⟨as', css, .ok (some e), n', rfl, rfl, rfl⟩
          | none => exact ih 1 n' as' css
      | succ l =>
        have hl' : l < css.length := by omega
        have hcs := List.getElem?_eq_getElem hl'
        obtain ⟨r, as', n', h1, h2⟩ := search_state code (fun f (n : Node B K V) => f.testBounds n.bounds) css[l] (IterStack.newBox es css) n
        let rest := fun (x : Option (Node B K V)) => (match x with
              | some node =>
                match l with
                | l' + 1 => (Calls.own node.innerChildren >>= fun cs => Calls.own ((IterStack.newBox es (css.set l as')).setInner l' cs) >>= fun s =>
                    Calls.put s >>= fun _ => Calls.TreeIter.nextLoop code borrow fuel (l' + 1))
                | 0 => (Calls.own node.leafChildren >>= fun cs => Calls.own ((IterStack.newBox es (css.set l as')).setLeaf cs) >>= fun s =>
                    Calls.put s >>= fun _ => Calls.TreeIter.nextLoop code borrow fuel 0)
              | none => Calls.TreeIter.nextLoop code borrow fuel (l + 2) : Calls.M (RTree.TreeIter B K V) (Option (K × V)))
        have e1 : Calls.TreeIter.nextLoop code borrow (fuel + 1) (l + 1) (IterStack.newBox es css) n =
            (Calls.raise r >>= rest) (IterStack.newBox es (css.set l as')) n' := by
          conv => lhs; unfold Calls.TreeIter.nextLoop
          rw [Calls.self_bind, if_pos (by simp; omega)]
          dsimp only
          rw [IterStack.getInner_at hcs, Calls.own_bind, Calls.bind_ok' h1]
          dsimp only
          rw [IterStack.setInner_at hl', Calls.own_bind, Calls.put_bind]
          all_goals
            cases r with
            | error e => rfl
            | ok o =>
              cases o with
              | none => rfl
              | some node => cases l <;> rfl
        let rest' := fun (x : Option (Node B K V)) => (match x with
              | some node =>
                match l with
                | l' + 1 => (Calls.own node.innerChildren >>= fun cs => onHeap (BoxStack.setInner E ⟨some ⟨k, 0⟩, css.length + 1⟩ l' cs) >>= fun _ =>
                    nextLoop E code borrow ⟨some ⟨k, 0⟩, css.length + 1⟩ fuel (l' + 1))
                | 0 => (Calls.own node.leafChildren >>= fun cs => onHeap (BoxStack.setLeaf E ⟨some ⟨k, 0⟩, css.length + 1⟩ cs) >>= fun _ =>
                    nextLoop E code borrow ⟨some ⟨k, 0⟩, css.length + 1⟩ fuel 0)
              | none => nextLoop E code borrow ⟨some ⟨k, 0⟩, css.length + 1⟩ fuel (l + 2) : Calls.M (Heap (TreeEntry B K V)) (Option (K × V)))
        have e2 : nextLoop E code borrow ⟨some ⟨k, 0⟩, css.length + 1⟩ (fuel + 1) (l + 1) (holding E h k (IterStack.newBox es css)) n =
            (Calls.raise r >>= rest') (holding E h k (IterStack.newBox es (css.set l as'))) n' := by
          conv => lhs; unfold nextLoop
          rw [if_pos (by show l + 1 < css.length + 1; omega)]
          dsimp only
          rw [onHeap_bind (BoxStack.getInner_at hk hs hcs), Calls.bind_ok' (h2 _ _)]
          dsimp only
          rw [onHeap_bind (BoxStack.setInner_at hk hs hl' _)]
          all_goals
            cases r with
            | error e => rfl
            | ok o =>
              cases o with
              | none => rfl
              | some node => cases l <;> rfl
        rw [e1, e2]
        cases r with
        | error e => exact ⟨es, css.set l as', .error e, n', by simp, rfl, rfl⟩
        | ok o =>
          rw [Calls.raise_ok_bind, Calls.raise_ok_bind]
          cases o with
          | none =>
            have := ih (l + 2) n' es (css.set l as')
            rw [List.length_set] at this
            exact this
          | some node =>
            cases l with
            | succ l' =>
              cases hn : node.innerChildren with
              | error e =>
                refine ⟨es, css.set (l' + 1) as', .error (.own e), n', by simp, ?_, ?_⟩
                · show (Calls.own node.innerChildren >>= _) _ _ = _; rw [hn]; rfl
                · show (Calls.own node.innerChildren >>= _) _ _ = _; rw [hn]; rfl
              | ok cs =>
                have := ih (l' + 1) n' es ((css.set (l' + 1) as').set l' cs)
                rw [List.length_set, List.length_set] at this
                have hk1 : l' < (css.set (l' + 1) as').length := by simp; omega
                have e3 : rest (some node) (IterStack.newBox es (css.set (l' + 1) as')) n' =
                    Calls.TreeIter.nextLoop code borrow fuel (l' + 1) (IterStack.newBox es ((css.set (l' + 1) as').set l' cs)) n' := by
                  show (Calls.own node.innerChildren >>= _) _ _ = _
                  rw [hn, Calls.own_bind, IterStack.setInner_at hk1, Calls.own_bind, Calls.put_bind]
                have e4 : rest' (some node) (holding E h k (IterStack.newBox es (css.set (l' + 1) as'))) n' =
                    nextLoop E code borrow ⟨some ⟨k, 0⟩, css.length + 1⟩ fuel (l' + 1) (holding E h k (IterStack.newBox es ((css.set (l' + 1) as').set l' cs))) n' := by
                  show (Calls.own node.innerChildren >>= _) _ _ = _
                  have h3 := BoxStack.setInner_at (E := E) (leaf := es) hk hs hk1 cs
                  rw [List.length_set] at h3
                  rw [hn, Calls.own_bind, onHeap_bind h3]
                rw [e3, e4]
                exact this
            | zero =>
              cases hn : node.leafChildren with
              | error e =>
                refine ⟨es, css.set 0 as', .error (.own e), n', by simp, ?_, ?_⟩
                · show (Calls.own node.leafChildren >>= _) _ _ = _; rw [hn]; rfl
                · show (Calls.own node.leafChildren >>= _) _ _ = _; rw [hn]; rfl
              | ok cs =>
                have := ih 0 n' cs (css.set 0 as')
                rw [List.length_set] at this
                have e3 : rest (some node) (IterStack.newBox es (css.set 0 as')) n' = Calls.TreeIter.nextLoop code borrow fuel 0 (IterStack.newBox cs (css.set 0 as')) n' := by
                  show (Calls.own node.leafChildren >>= _) _ _ = _
                  rw [hn, Calls.own_bind, IterStack.setLeaf_newBox, Calls.own_bind, Calls.put_bind]
                have e4 : rest' (some node) (holding E h k (IterStack.newBox es (css.set 0 as'))) n' =
                    nextLoop E code borrow ⟨some ⟨k, 0⟩, css.length + 1⟩ fuel 0 (holding E h k (IterStack.newBox cs (css.set 0 as'))) n' := by
                  show (Calls.own node.leafChildren >>= _) _ _ = _
                  have h3 := BoxStack.setLeaf_at (E := E) (leaf := es) (inners := css.set 0 as') hk hs cs
                  rw [List.length_set] at h3
                  rw [hn, Calls.own_bind, onHeap_bind h3]
                rw [e3, e4]
                exact this
    · refine ⟨es, css, .ok none, n, rfl, ?_, ?_⟩
      · unfold Calls.TreeIter.nextLoop; rw [Calls.self_bind, if_neg (by simpa using hl)]; rfl
      · unfold nextLoop; rw [if_neg hl]; rfl

theorem next_at (hs : 0 < E.size) (code : Nat → Option (SpatialFilter B Q)) (borrow : K → Q) {h : Heap (TreeEntry B K V)} {k : Nat} (hk : k < h.length)
    (n : Nat) (es : List (K × V)) (css : List (List (Node B K V))) :
    ∃ es' css' r n', css'.length = css.length ∧
      Calls.TreeIter.next code borrow (IterStack.newBox es css) n = (r, IterStack.newBox es' css', n') ∧
      next E code borrow ⟨some ⟨k, 0⟩, css.length + 1⟩ (holding E h k (IterStack.newBox es css)) n = (r, holding E h k (IterStack.newBox es' css'), n') := by
  have h1 := BoxStack.entries_at (E := E) hk (IterStack.newBox es css)
  rw [IterStack.length_newBox] at h1
  unfold Calls.TreeIter.next next
  rw [Calls.self_bind, Calls.self_bind, h1, IterStack.length_newBox]
  exact nextLoop_at hs code borrow hk _ 0 n es css

theorem next_empty (code : Nat → Option (SpatialFilter B Q)) (borrow : K → Q) (h : Heap (TreeEntry B K V)) (n : Nat) :
    next E code borrow BoxStack.emptyBox h n = (.ok none, h, n) := by
  unfold next
  rw [Calls.self_bind]
  unfold nextLoop
  rw [if_neg (by simp [BoxStack.emptyBox])]
  rfl

/-- Making an iterator in memory. -/
theorem new_at (hs : 0 < E.size) {room : Nat → Nat} {level : Nat} (hr : room (level + 1) = level + 1) (hm : (level + 1) * E.size ≤ E.maxBytes)
    {root : Node B K V} {s : RTree.TreeIter B K V} (hn : RTree.TreeIter.new level root = .ok s) (h : Heap (TreeEntry B K V)) (n : Nat) :
    ∃ es css, s = IterStack.newBox es css ∧ css.length = level ∧
      new E room level root h n = (.ok ⟨some ⟨(gapped E h).length, 0⟩, level + 1⟩, holding E (gapped E h ++ [none]) (gapped E h).length s, n) := by
  have hb := BoxStack.newBox_at (leaf := ([] : List (K × V))) (inners := List.replicate level ([] : List (Node B K V))) (h := h) hs (by simpa using hm)
    (room := room) (by simpa using hr)
  rw [List.length_replicate] at hb
  have hk : (gapped E h).length < (gapped E h ++ [none]).length := by simp
  have hh : gapped E h ++ [some ⟨(level + 1) * E.size, (IterStack.newBox ([] : List (K × V)) (List.replicate level ([] : List (Node B K V)))).map some⟩] =
      holding E (gapped E h ++ [none]) (gapped E h).length (IterStack.newBox [] (List.replicate level [])) := by
    simp [holding]
  rw [hh] at hb
  unfold new
  rw [onHeap_bind hb]
  cases level with
  | zero =>
    obtain ⟨es, h1, h2⟩ := bind_eq_ok.1 hn
    have h3 := BoxStack.setLeaf_at (E := E) (leaf := ([] : List (K × V))) (inners := ([] : List (List (Node B K V)))) hk hs es
    rw [show (IterStack.newBox ([] : List (K × V)) (List.replicate 0 ([] : List (Node B K V)))) = IterStack.newBox [] [] from rfl] at h2
    rw [IterStack.setLeaf_newBox] at h2
    cases h2
    refine ⟨es, [], rfl, rfl, ?_⟩
    dsimp only
    rw [h1, Calls.own_bind]
    exact onHeap_bind h3 _ _
  | succ l =>
    obtain ⟨cs, h1, h2⟩ := bind_eq_ok.1 hn
    have hl : l < (List.replicate (l + 1) ([] : List (Node B K V))).length := by simp
    have h3 := BoxStack.setInner_at (E := E) (leaf := ([] : List (K × V))) hk hs hl cs
    rw [List.length_replicate] at h3
    rw [IterStack.setInner_at hl] at h2
    cases h2
    refine ⟨[], _, rfl, by simp, ?_⟩
    dsimp only
    rw [h1, Calls.own_bind]
    exact onHeap_bind h3 _ _

end TreeIter

namespace JoinIter

variable {B0 B1 K0 K1 V0 V1 Q0 Q1 : Type}

/-- `start_join` in memory. -/
theorem startJoin_at (hs : 0 < E.size) {h : Heap (JoinEntry B0 B1 K0 K1 V0 V1)} {k : Nat} (hk : k < h.length) (lf : ProductIter (K0 × V0) (K1 × V1))
    (its : List (ProductIter (Node B0 K0 V0) (Node B1 K1 V1))) (n0 : Node B0 K0 V0) (l0 : Nat) (n1 : Node B1 K1 V1) (l1 : Nat) (hl : max l0 l1 < its.length + 1) (n : Nat) :
    (∃ e, RTree.JoinIter.startJoin (IterStack.newBox lf its) n0 l0 n1 l1 = .error e ∧
      startJoin E ⟨some ⟨k, 0⟩, its.length + 1⟩ n0 l0 n1 l1 (holding E h k (IterStack.newBox lf its)) n = (.error (.own e), holding E h k (IterStack.newBox lf its), n)) ∨
    (∃ lf' its', its'.length = its.length ∧ RTree.JoinIter.startJoin (IterStack.newBox lf its) n0 l0 n1 l1 = .ok (IterStack.newBox lf' its') ∧
      startJoin E ⟨some ⟨k, 0⟩, its.length + 1⟩ n0 l0 n1 l1 (holding E h k (IterStack.newBox lf its)) n = (.ok (), holding E h k (IterStack.newBox lf' its'), n)) := by
  unfold RTree.JoinIter.startJoin startJoin
  cases hmx : max l0 l1 with
  | zero =>
    dsimp only
    cases h0 : n0.leafChildren with
    | error e => exact .inl ⟨e, rfl, rfl⟩
    | ok vec0 =>
      cases h1 : n1.leafChildren with
      | error e => exact .inl ⟨e, rfl, rfl⟩
      | ok vec1 =>
        refine .inr ⟨.new vec0 vec1, its, rfl, rfl, ?_⟩
        rw [Calls.own_bind, Calls.own_bind]
        exact onHeap_ok (BoxStack.setLeaf_at hk hs _) n
  | succ height =>
    have hh : height < its.length := by omega
    dsimp only
    cases h0 : RTree.JoinIter.slice n0 l0 with
    | error e => exact .inl ⟨e, rfl, rfl⟩
    | ok s0 =>
      cases h1 : RTree.JoinIter.slice n1 l1 with
      | error e => exact .inl ⟨e, rfl, rfl⟩
      | ok s1 =>
        refine .inr ⟨lf, its.set height (.new s0 s1), by simp, IterStack.setInner_at hh _, ?_⟩
        rw [Calls.own_bind, Calls.own_bind]
        exact onHeap_ok (BoxStack.setInner_at hk hs hh _) n

/-- The loop in memory does what the loop on values does. -/
theorem nextLoop_at (hs : 0 < E.size) (code : Nat → Option (JoinFilter B0 B1 Q0 Q1)) (borrow0 : K0 → Q0) (borrow1 : K1 → Q1)
    {h : Heap (JoinEntry B0 B1 K0 K1 V0 V1)} {k : Nat} (hk : k < h.length) (p0 p1 : Nat) (fuel level n : Nat) (lf : ProductIter (K0 × V0) (K1 × V1))
    (its : List (ProductIter (Node B0 K0 V0) (Node B1 K1 V1))) :
    ∃ lf' its' r n', its'.length = its.length ∧
      Calls.JoinIter.nextLoop code borrow0 borrow1 fuel level ⟨IterStack.newBox lf its, p0, p1⟩ n = (r, ⟨IterStack.newBox lf' its', p0, p1⟩, n') ∧
      nextLoop E code borrow0 borrow1 ⟨⟨some ⟨k, 0⟩, its.length + 1⟩, p0, p1⟩ fuel level (holding E h k (IterStack.newBox lf its)) n =
        (r, holding E h k (IterStack.newBox lf' its'), n') := by
  induction fuel generalizing level n lf its with
  | zero =>
    by_cases hl : level < its.length + 1
    · refine ⟨lf, its, .error (.own .diverge), n, rfl, ?_, ?_⟩
      · unfold Calls.JoinIter.nextLoop; rw [Calls.self_bind, if_pos (by simpa using hl)]; rfl
      · unfold nextLoop; rw [if_pos hl]; rfl
    · refine ⟨lf, its, .ok none, n, rfl, ?_, ?_⟩
      · unfold Calls.JoinIter.nextLoop; rw [Calls.self_bind, if_neg (by simpa using hl)]; rfl
      · unfold nextLoop; rw [if_neg hl]; rfl
  | succ fuel ih =>
    by_cases hl : level < its.length + 1
    · cases level with
      | zero =>
        have e1 : Calls.JoinIter.nextLoop code borrow0 borrow1 (fuel + 1) 0 ⟨IterStack.newBox lf its, p0, p1⟩ n =
            (Calls.searchBy code (fun f (x : (K0 × V0) × (K1 × V1)) => f.testKey (borrow0 x.1.1) (borrow1 x.2.1)) ProductIter.next
              (lf.fst.slice.length * lf.snd.length + 1) lf >>= fun y => Calls.put ⟨IterStack.newBox y.2 its, p0, p1⟩ >>= fun _ =>
                Calls.raise y.1 >>= fun x => match x with
              | some e => pure (some e)
              | none => Calls.JoinIter.nextLoop code borrow0 borrow1 fuel 1 : Calls.M _ _) ⟨IterStack.newBox lf its, p0, p1⟩ n := by
          conv => lhs; unfold Calls.JoinIter.nextLoop
          rw [Calls.self_bind, if_pos (by simp)]
          dsimp only
          rw [IterStack.getLeaf_newBox, Calls.own_bind]
          rfl
        have e2 : nextLoop E code borrow0 borrow1 ⟨⟨some ⟨k, 0⟩, its.length + 1⟩, p0, p1⟩ (fuel + 1) 0 (holding E h k (IterStack.newBox lf its)) n =
            (Calls.searchBy code (fun f (x : (K0 × V0) × (K1 × V1)) => f.testKey (borrow0 x.1.1) (borrow1 x.2.1)) ProductIter.next
              (lf.fst.slice.length * lf.snd.length + 1) lf >>= fun y => onHeap (BoxStack.setLeaf E ⟨some ⟨k, 0⟩, its.length + 1⟩ y.2) >>= fun _ =>
                Calls.raise y.1 >>= fun x => match x with
              | some e => pure (some e)
              | none => nextLoop E code borrow0 borrow1 ⟨⟨some ⟨k, 0⟩, its.length + 1⟩, p0, p1⟩ fuel 1 : Calls.M _ _) (holding E h k (IterStack.newBox lf its)) n := by
          conv => lhs; unfold nextLoop
          rw [if_pos (by simp)]
          dsimp only
          rw [onHeap_bind (BoxStack.getLeaf_at hk hs)]
          all_goals rfl
        rw [e1, e2]
        rcases searchBy_state code (fun f (x : (K0 × V0) × (K1 × V1)) => f.testKey (borrow0 x.1.1) (borrow1 x.2.1)) ProductIter.next
          (lf.fst.slice.length * lf.snd.length + 1) lf (S := RTree.JoinIter B0 B1 K0 K1 V0 V1) ⟨IterStack.newBox lf its, p0, p1⟩ n with ⟨r, it', n', h1, h2⟩ | ⟨e, n', h1, h2⟩
        · rw [Calls.bind_ok' h1, Calls.bind_ok' (h2 _ _), Calls.put_bind, onHeap_bind (BoxStack.setLeaf_at hk hs _)]
          cases r with
          | error e => exact ⟨it', its, .error e, n', rfl, rfl, rfl⟩
          | ok o =>
            cases o with
            | some e => exact ⟨it', its, .ok (some e), n', rfl, rfl, rfl⟩
            | none => exact ih 1 n' it' its
        · rw [Calls.bind_error' h1, Calls.bind_error' (h2 _ _)]
          exact ⟨lf, its, _, _, rfl, rfl, rfl⟩
      | succ l =>
        have hl' : l < its.length := by omega
        have hcs := List.getElem?_eq_getElem hl'
        have e1 : Calls.JoinIter.nextLoop code borrow0 borrow1 (fuel + 1) (l + 1) ⟨IterStack.newBox lf its, p0, p1⟩ n =
            (Calls.searchBy code (fun f (x : Node B0 K0 V0 × Node B1 K1 V1) => f.testBounds x.1.bounds x.2.bounds) ProductIter.next
              (its[l].fst.slice.length * its[l].snd.length + 1) its[l] >>= fun y => Calls.put ⟨IterStack.newBox lf (its.set l y.2), p0, p1⟩ >>= fun _ =>
                Calls.raise y.1 >>= fun x => match x with
              | some (n0, n1) => (Calls.own (RTree.JoinIter.startJoin (IterStack.newBox lf (its.set l y.2)) n0 (l - p0) n1 (l - p1)) >>= fun stack =>
                  Calls.put ⟨stack, p0, p1⟩ >>= fun _ => Calls.JoinIter.nextLoop code borrow0 borrow1 fuel l)
              | none => Calls.JoinIter.nextLoop code borrow0 borrow1 fuel (l + 2) : Calls.M _ _) ⟨IterStack.newBox lf its, p0, p1⟩ n := by
          conv => lhs; unfold Calls.JoinIter.nextLoop
          rw [Calls.self_bind, if_pos (by simp; omega)]
          dsimp only
          rw [IterStack.getInner_at hcs, Calls.own_bind]
          simp only [IterStack.setInner_at hl']
          rfl
        have e2 : nextLoop E code borrow0 borrow1 ⟨⟨some ⟨k, 0⟩, its.length + 1⟩, p0, p1⟩ (fuel + 1) (l + 1) (holding E h k (IterStack.newBox lf its)) n =
            (Calls.searchBy code (fun f (x : Node B0 K0 V0 × Node B1 K1 V1) => f.testBounds x.1.bounds x.2.bounds) ProductIter.next
              (its[l].fst.slice.length * its[l].snd.length + 1) its[l] >>= fun y => onHeap (BoxStack.setInner E ⟨some ⟨k, 0⟩, its.length + 1⟩ l y.2) >>= fun _ =>
                Calls.raise y.1 >>= fun x => match x with
              | some (n0, n1) => (startJoin E ⟨some ⟨k, 0⟩, its.length + 1⟩ n0 (l - p0) n1 (l - p1) >>= fun _ =>
                  nextLoop E code borrow0 borrow1 ⟨⟨some ⟨k, 0⟩, its.length + 1⟩, p0, p1⟩ fuel l)
              | none => nextLoop E code borrow0 borrow1 ⟨⟨some ⟨k, 0⟩, its.length + 1⟩, p0, p1⟩ fuel (l + 2) : Calls.M _ _) (holding E h k (IterStack.newBox lf its)) n := by
          conv => lhs; unfold nextLoop
          rw [if_pos (by show l + 1 < its.length + 1; omega)]
          dsimp only
          rw [onHeap_bind (BoxStack.getInner_at hk hs hcs)]
          all_goals rfl
        rw [e1, e2]
        rcases searchBy_state code (fun f (x : Node B0 K0 V0 × Node B1 K1 V1) => f.testBounds x.1.bounds x.2.bounds) ProductIter.next
          (its[l].fst.slice.length * its[l].snd.length + 1) its[l] (S := RTree.JoinIter B0 B1 K0 K1 V0 V1) ⟨IterStack.newBox lf its, p0, p1⟩ n with
            ⟨r, it', n', h1, h2⟩ | ⟨e, n', h1, h2⟩
        · rw [Calls.bind_ok' h1, Calls.bind_ok' (h2 _ _), Calls.put_bind, onHeap_bind (BoxStack.setInner_at hk hs hl' _)]
          cases r with
          | error e => exact ⟨lf, its.set l it', .error e, n', by simp, rfl, rfl⟩
          | ok o =>
            rw [Calls.raise_ok_bind, Calls.raise_ok_bind]
            cases o with
            | none =>
              have := ih (l + 2) n' lf (its.set l it')
              rw [List.length_set] at this
              exact this
            | some x =>
              obtain ⟨n0, n1⟩ := x
              dsimp only
              have h3 := startJoin_at (E := E) hs hk lf (its.set l it') n0 (l - p0) n1 (l - p1) (by simp; omega) n'
              rw [List.length_set] at h3
              rcases h3 with ⟨e, h3, h4⟩ | ⟨lf', its', h5, h3, h4⟩
              · rw [h3, Calls.bind_error' h4]
                exact ⟨lf, its.set l it', _, _, by simp, rfl, rfl⟩
              · rw [h3, Calls.bind_ok' h4, Calls.own_bind, Calls.put_bind]
                have := ih l n' lf' its'
                rw [h5] at this
                exact this
        · rw [Calls.bind_error' h1, Calls.bind_error' (h2 _ _)]
          exact ⟨lf, its, _, _, rfl, rfl, rfl⟩
    · refine ⟨lf, its, .ok none, n, rfl, ?_, ?_⟩
      · unfold Calls.JoinIter.nextLoop; rw [Calls.self_bind, if_neg (by simpa using hl)]; rfl
      · unfold nextLoop; rw [if_neg hl]; rfl

theorem next_at (hs : 0 < E.size) (code : Nat → Option (JoinFilter B0 B1 Q0 Q1)) (borrow0 : K0 → Q0) (borrow1 : K1 → Q1)
    {h : Heap (JoinEntry B0 B1 K0 K1 V0 V1)} {k : Nat} (hk : k < h.length) (p0 p1 n : Nat) (lf : ProductIter (K0 × V0) (K1 × V1))
    (its : List (ProductIter (Node B0 K0 V0) (Node B1 K1 V1))) :
    ∃ lf' its' r n', its'.length = its.length ∧
      Calls.JoinIter.next code borrow0 borrow1 ⟨IterStack.newBox lf its, p0, p1⟩ n = (r, ⟨IterStack.newBox lf' its', p0, p1⟩, n') ∧
      next E code borrow0 borrow1 ⟨⟨some ⟨k, 0⟩, its.length + 1⟩, p0, p1⟩ (holding E h k (IterStack.newBox lf its)) n =
        (r, holding E h k (IterStack.newBox lf' its'), n') := by
  have h1 := BoxStack.entries_at (E := E) hk (IterStack.newBox lf its)
  rw [IterStack.length_newBox] at h1
  unfold Calls.JoinIter.next next
  rw [Calls.self_bind, Calls.self_bind, h1]
  dsimp only
  rw [IterStack.length_newBox]
  exact nextLoop_at hs code borrow0 borrow1 hk p0 p1 _ 0 n lf its

theorem next_empty (code : Nat → Option (JoinFilter B0 B1 Q0 Q1)) (borrow0 : K0 → Q0) (borrow1 : K1 → Q1) (h : Heap (JoinEntry B0 B1 K0 K1 V0 V1)) (p0 p1 n : Nat) :
    next E code borrow0 borrow1 ⟨BoxStack.emptyBox, p0, p1⟩ h n = (.ok none, h, n) := by
  unfold next
  rw [Calls.self_bind]
  unfold nextLoop
  rw [if_neg (by simp [BoxStack.emptyBox])]
  rfl

end JoinIter

end RTree.Raw
