import Verif.Model.BinaryHeap
import Verif.Proofs.SortedMap
/-!
# `std::collections::BinaryHeap` meets the contract `Heap`
-/

namespace RTree.BinaryHeap

variable {α β : Type} {le : α → α → Bool}

/-! ## Swapping -/

theorem swap_length (d : List α) (i j : Nat) : (swap d i j).length = d.length := by
  unfold swap; split <;> simp

theorem swap_get {d : List α} {i j : Nat} (hi : i < d.length) (hj : j < d.length) (k : Nat) :
    (swap d i j)[k]? = if k = i then d[j]? else if k = j then d[i]? else d[k]? := by
  unfold swap
  rw [List.getElem?_eq_getElem hi, List.getElem?_eq_getElem hj]
  dsimp only
  rw [List.getElem?_set, List.getElem?_set]
  by_cases h1 : k = i <;> by_cases h2 : k = j
  · subst h1; subst h2; simp [hi]
  · subst h1; simp [hi, Ne.symm h2]
  · subst h2; simp [h1, hj]
  · simp [h1, h2, Ne.symm h1, Ne.symm h2]

theorem swap_perm (d : List α) (i j : Nat) : (swap d i j).Perm d := by
  by_cases hi : i < d.length
  · by_cases hj : j < d.length
    · have : (swap d i j) = (d.set i d[j]).set j d[i] := by
        unfold swap; rw [List.getElem?_eq_getElem hi, List.getElem?_eq_getElem hj]
      rw [this]
      exact List.set_set_perm hi hj
    · have : swap d i j = d := by unfold swap; rw [List.getElem?_eq_none (i := j) (by omega)]; split <;> simp_all
      rw [this]
  · have : swap d i j = d := by unfold swap; rw [List.getElem?_eq_none (i := i) (by omega)]
    rw [this]

/-- Whatever the comparisons say, sifting only moves elements. -/
theorem siftUp_perm (le : α → α → Bool) (fuel pos : Nat) (d : List α) : (siftUp le fuel pos d).Perm d := by
  induction fuel generalizing pos d with
  | zero => exact .refl _
  | succ fuel ih =>
    rw [siftUp]
    split
    · dsimp only
      split
      · exact .refl _
      · exact (ih _ _).trans (swap_perm _ _ _)
    · exact .refl _

theorem siftDown_perm (le : α → α → Bool) (fuel pos : Nat) (d : List α) : (siftDown le fuel pos d).1.Perm d := by
  induction fuel generalizing pos d with
  | zero => exact .refl _
  | succ fuel ih =>
    rw [siftDown]
    dsimp only
    split
    · exact (ih _ _).trans (swap_perm _ _ _)
    · split
      · exact swap_perm _ _ _
      · exact .refl _

/-! ## The heap order -/

/-- Nothing is greater than its parent. -/
def IsHeap (le : α → α → Bool) (d : List α) : Prop :=
  ∀ i x y, 0 < i → d[i]? = some x → d[(i - 1) / 2]? = some y → le x y = true

/-- The same, except at the position `pos` and, if `below`, at its children. -/
def Except (le : α → α → Bool) (below : Bool) (pos : Nat) (d : List α) : Prop :=
  (∀ i x y, 0 < i → i ≠ pos → (below = true → (i - 1) / 2 ≠ pos) → d[i]? = some x → d[(i - 1) / 2]? = some y → le x y = true) ∧
  (0 < pos → ∀ i x y, 0 < i → (i - 1) / 2 = pos → d[i]? = some x → d[(pos - 1) / 2]? = some y → le x y = true)

section

variable (total : ∀ x y, le x y = true ∨ le y x = true) (trans : ∀ x y z, le x y = true → le y z = true → le x z = true)
include total trans

theorem siftUp_heap {fuel pos : Nat} {d : List α} (hf : pos ≤ fuel) (hp : pos < d.length) (h : Except le false pos d) : IsHeap le (siftUp le fuel pos d) := by
  induction fuel generalizing pos d with
  | zero =>
    obtain rfl : pos = 0 := by omega
    intro i x y hi hx hy
    exact h.1 i x y hi (by omega) (fun h => by cases h) hx hy
  | succ fuel ih =>
    rw [siftUp]
    split
    · next h0 =>
      dsimp only
      have hpar : (pos - 1) / 2 < d.length := by omega
      have e1 := List.getElem?_eq_getElem hp
      have e2 := List.getElem?_eq_getElem hpar
      split
      · next hle =>
        intro i x y hi hx hy
        by_cases hip : i = pos
        · subst hip
          rw [e1] at hx; rw [e2] at hy; cases hx; cases hy
          simpa [leAt, e1, e2] using hle
        · exact h.1 i x y hi hip (fun h => by cases h) hx hy
      · next hle =>
        have hle : le d[(pos - 1) / 2] d[pos] = true := by
          rcases total d[(pos - 1) / 2] d[pos] with h | h
          · exact h
          · exact absurd (by simpa [leAt, e1, e2] using h) hle
        refine ih (by omega) (by rw [swap_length]; exact hpar) ⟨?_, ?_⟩
        · intro i x y hi hip _ hx hy
          rw [swap_get hp hpar] at hx hy
          by_cases h1 : i = pos
          · subst h1
            rw [if_pos rfl, e2] at hx
            rw [if_neg (by omega), if_pos rfl, e1] at hy
            cases hx; cases hy; exact hle
          · rw [if_neg h1, if_neg hip] at hx
            by_cases h2 : (i - 1) / 2 = pos
            · rw [if_pos h2, e2] at hy
              cases hy
              exact h.2 h0 i x _ hi h2 hx e2
            · rw [if_neg h2] at hy
              by_cases h3 : (i - 1) / 2 = (pos - 1) / 2
              · rw [if_pos h3, e1] at hy
                cases hy
                exact trans _ _ _ (h.1 i x _ hi h1 (fun h => by cases h) hx (by rw [h3]; exact e2)) hle
              · rw [if_neg h3] at hy
                exact h.1 i x y hi h1 (fun h => by cases h) hx hy
        · intro h0' i x y hi hip hx hy
          rw [swap_get hp hpar] at hx hy
          rw [if_neg (by omega), if_neg (by omega)] at hy
          have hpp := h.1 ((pos - 1) / 2) _ y h0' (by omega) (fun h => by cases h) e2 hy
          by_cases h1 : i = pos
          · subst h1
            rw [if_pos rfl, e2] at hx
            cases hx
            exact hpp
          · rw [if_neg h1, if_neg (by omega)] at hx
            exact trans _ _ _ (h.1 i x _ hi h1 (fun h => by cases h) hx (by rw [hip]; exact e2)) hpp
    · next h0 =>
      obtain rfl : pos = 0 := by omega
      intro i x y hi hx hy
      exact h.1 i x y hi (by omega) (fun h => by cases h) hx hy

theorem siftDown_heap {fuel pos : Nat} {d : List α} (hf : d.length ≤ pos + fuel) (hp : pos < d.length) (h : Except le true pos d) :
    (siftDown le fuel pos d).2 < d.length ∧ Except le false (siftDown le fuel pos d).2 (siftDown le fuel pos d).1 := by
  -- moving the hole to a child `c` that is not less than its sibling
  have step : ∀ {pos c : Nat} {d : List α}, pos < d.length → Except le true pos d → ∀ hc : c < d.length, 0 < c → (c - 1) / 2 = pos →
      (∀ i x, 0 < i → i ≠ c → (i - 1) / 2 = pos → d[i]? = some x → le x d[c] = true) → Except le true c (swap d pos c) := by
    intro pos c d hp h hc h0 hcp hsib
    have e1 := List.getElem?_eq_getElem hp
    have e2 := List.getElem?_eq_getElem hc
    refine ⟨?_, ?_⟩
    · intro i x y hi hic hbelow hx hy
      rw [swap_get hp hc] at hx hy
      rw [if_neg hic] at hx
      have hb := hbelow rfl
      rw [if_neg hb] at hy
      by_cases h1 : i = pos
      · subst h1
        rw [if_pos rfl, e2] at hx
        rw [if_neg (by omega)] at hy
        cases hx
        exact h.2 hi c _ y h0 hcp e2 hy
      · rw [if_neg h1] at hx
        by_cases h2 : (i - 1) / 2 = pos
        · rw [if_pos h2, e2] at hy
          cases hy
          exact hsib i x hi hic h2 hx
        · rw [if_neg h2] at hy
          exact h.1 i x y hi h1 (fun _ => h2) hx hy
    · intro _ i x y hi hic hx hy
      rw [swap_get hp hc] at hx hy
      rw [hcp, if_pos rfl, e2] at hy
      rw [if_neg (by omega), if_neg (by omega)] at hx
      cases hy
      exact h.1 i x _ hi (by omega) (fun _ => by omega) hx (by rw [hic]; exact e2)
  -- a hole without children
  have last : ∀ {pos : Nat} {d : List α}, Except le true pos d → d.length ≤ 2 * pos + 1 → Except le false pos d := by
    intro pos d h hl
    refine ⟨fun i x y hi hip _ hx hy => h.1 i x y hi hip (fun _ hc => ?_) hx hy, h.2⟩
    have := (List.getElem?_eq_some_iff.1 hx).1
    omega
  induction fuel generalizing pos d with
  | zero => omega
  | succ fuel ih =>
    rw [siftDown]
    dsimp only
    split
    · next hch =>
      have h1 : 2 * pos + 1 < d.length := by omega
      have h2 : 2 * pos + 1 + 1 < d.length := by omega
      have e1 := List.getElem?_eq_getElem h1
      have e2 := List.getElem?_eq_getElem h2
      by_cases hle : leAt le d (2 * pos + 1) (2 * pos + 1 + 1) = true
      · rw [if_pos hle]
        have := ih (pos := 2 * pos + 1 + 1) (d := swap d pos (2 * pos + 1 + 1)) (by rw [swap_length]; omega) (by rw [swap_length]; exact h2)
          (step hp h h2 (by omega) (by omega) (fun i x hi hic hip hx => by
            obtain rfl : i = 2 * pos + 1 := by omega
            rw [e1] at hx; cases hx
            simpa [leAt, e1, e2] using hle))
        rw [swap_length] at this
        exact this
      · rw [if_neg hle]
        have := ih (pos := 2 * pos + 1) (d := swap d pos (2 * pos + 1)) (by rw [swap_length]; omega) (by rw [swap_length]; exact h1)
          (step hp h h1 (by omega) (by omega) (fun i x hi hic hip hx => by
            obtain rfl : i = 2 * pos + 1 + 1 := by omega
            rw [e2] at hx; cases hx
            rcases total d[2 * pos + 1 + 1] d[2 * pos + 1] with h | h
            · exact h
            · exact absurd (by simpa [leAt, e1, e2] using h) hle))
        rw [swap_length] at this
        exact this
    · next hch =>
      split
      · next hc =>
        have h1 : 2 * pos + 1 < d.length := by omega
        refine ⟨h1, last (step hp h h1 (by omega) (by omega) (fun i x hi hic hip hx => ?_)) (by rw [swap_length]; omega)⟩
        have := (List.getElem?_eq_some_iff.1 hx).1
        omega
      · next hc => exact ⟨hp, last h (by show d.length ≤ _; omega)⟩

theorem push_heap {d : List α} (h : IsHeap le d) (x : α) : IsHeap le (push le x d) := by
  refine siftUp_heap total trans (Nat.le_refl _) (by simp) ⟨?_, ?_⟩
  · intro i a b hi hil _ ha hb
    have hlt : i < d.length := by
      have := (List.getElem?_eq_some_iff.1 ha).1
      simp at this; omega
    rw [List.getElem?_append_left hlt] at ha
    rw [List.getElem?_append_left (by omega)] at hb
    exact h i a b hi ha hb
  · intro _ i a b hi hil ha _
    have := (List.getElem?_eq_some_iff.1 ha).1
    simp at this; omega

theorem heap_top {d : List α} (h : IsHeap le d) {top : α} (h0 : d[0]? = some top) (i : Nat) {x : α} (hx : d[i]? = some x) : le x top = true := by
  induction i using Nat.strongRecOn generalizing x with
  | ind i ih =>
    by_cases hi : i = 0
    · subst hi
      rw [h0] at hx; cases hx
      rcases total top top with h | h <;> exact h
    · have hlt : (i - 1) / 2 < d.length := by
        have := (List.getElem?_eq_some_iff.1 hx).1
        omega
      exact trans _ _ _ (h i x _ (by omega) hx (List.getElem?_eq_getElem hlt)) (ih _ (by omega) (List.getElem?_eq_getElem hlt))

theorem pop_heap {d d' : List α} {x : α} (h : IsHeap le d) (hp : pop le d = some (x, d')) : IsHeap le d' ∧ ∀ y ∈ d, le y x = true := by
  have key : ∀ {top : α}, d[0]? = some top → ∀ y ∈ d, le y top = true := by
    intro top h0 y hy
    obtain ⟨i, hi⟩ := List.getElem?_of_mem hy
    exact heap_top total trans h h0 i hi
  unfold pop at hp
  split at hp
  · cases hp
  · next item hl =>
    obtain ⟨ini, rfl⟩ := List.getLast?_eq_some_iff.1 hl
    rw [List.dropLast_concat] at hp
    split at hp
    · cases hp
      refine ⟨fun i x y _ hx => by simp at hx, key (by simp)⟩
    · next top rest =>
      dsimp only at hp
      obtain ⟨rfl, rfl⟩ := by simpa using hp
      have ht : ((top :: rest) ++ [item])[0]? = some top := rfl
      refine ⟨?_, key ht⟩
      have hex : Except le true 0 (item :: rest) := by
        refine ⟨?_, fun h => absurd h (Nat.lt_irrefl 0)⟩
        intro i a b hi hi0 hpar ha hb
        have hpar := hpar rfl
        have hlt : i < (item :: rest).length := (List.getElem?_eq_some_iff.1 ha).1
        refine h i a b hi ?_ ?_
        · rw [List.getElem?_append_left (by simpa using hlt)]
          obtain ⟨j, rfl⟩ := Nat.exists_eq_succ_of_ne_zero hi0
          exact ha
        · rw [List.getElem?_append_left (by simp at hlt ⊢; omega)]
          obtain ⟨j, hj⟩ := Nat.exists_eq_succ_of_ne_zero hpar
          rw [hj] at hb ⊢
          exact hb
      obtain ⟨h1, h2⟩ := siftDown_heap total trans (fuel := rest.length + 1) (by simp) (by simp) hex
      exact siftUp_heap total trans (Nat.le_refl _) (by rw [(siftDown_perm le _ _ _).length_eq]; exact h1) h2

end

theorem push_perm (le : α → α → Bool) (x : α) (d : List α) : (push le x d).Perm (x :: d) :=
  (siftUp_perm _ _ _ _).trans (List.perm_append_singleton _ _)

theorem pop_perm {d d' : List α} {x : α} (hp : pop le d = some (x, d')) : d.Perm (x :: d') := by
  unfold pop at hp
  split at hp
  · cases hp
  · next item hl =>
    obtain ⟨ini, rfl⟩ := List.getLast?_eq_some_iff.1 hl
    rw [List.dropLast_concat] at hp
    split at hp
    · cases hp; exact .refl _
    · next top rest =>
      dsimp only at hp
      obtain ⟨rfl, rfl⟩ := by simpa using hp
      exact (List.perm_append_singleton item rest).trans ((siftUp_perm _ _ _ _).trans (siftDown_perm _ _ _ _)).symm |>.cons top

theorem pop_none {d : List α} (hp : pop le d = none) : d = [] := by
  unfold pop at hp
  split at hp
  · next h => exact List.getLast?_eq_none_iff.1 h
  · split at hp <;> cases hp

/-! ## Items with the same comparisons -/

theorem swap_map (f : α → β) (d : List α) (i j : Nat) : swap (d.map f) i j = (swap d i j).map f := by
  unfold swap
  rw [List.getElem?_map, List.getElem?_map]
  cases d[i]? <;> cases d[j]? <;> simp

theorem leAt_map {le' : β → β → Bool} {f : α → β} (hf : ∀ x y, le' (f x) (f y) = le x y) (d : List α) (i j : Nat) :
    leAt le' (d.map f) i j = leAt le d i j := by
  unfold leAt
  rw [List.getElem?_map, List.getElem?_map]
  cases d[i]? <;> cases d[j]? <;> simp [hf]

theorem siftUp_map {le' : β → β → Bool} {f : α → β} (hf : ∀ x y, le' (f x) (f y) = le x y) (fuel pos : Nat) (d : List α) :
    siftUp le' fuel pos (d.map f) = (siftUp le fuel pos d).map f := by
  induction fuel generalizing pos d with
  | zero => rfl
  | succ fuel ih =>
    rw [siftUp, siftUp]
    dsimp only
    rw [leAt_map hf, swap_map, ih]
    split
    · split <;> rfl
    · rfl

theorem siftDown_map {le' : β → β → Bool} {f : α → β} (hf : ∀ x y, le' (f x) (f y) = le x y) (fuel pos : Nat) (d : List α) :
    siftDown le' fuel pos (d.map f) = ((siftDown le fuel pos d).1.map f, (siftDown le fuel pos d).2) := by
  induction fuel generalizing pos d with
  | zero => rfl
  | succ fuel ih =>
    rw [siftDown, siftDown]
    dsimp only
    rw [leAt_map hf, List.length_map, swap_map, swap_map, ih]
    split
    · rfl
    · split <;> rfl

theorem push_map {le' : β → β → Bool} {f : α → β} (hf : ∀ x y, le' (f x) (f y) = le x y) (x : α) (d : List α) :
    push le' (f x) (d.map f) = (push le x d).map f := by
  unfold push
  rw [← siftUp_map hf]; simp

theorem pop_map {le' : β → β → Bool} {f : α → β} (hf : ∀ x y, le' (f x) (f y) = le x y) (d : List α) :
    pop le' (d.map f) = (pop le d).map fun r => (f r.1, r.2.map f) := by
  unfold pop
  rw [List.getLast?_map, ← List.map_dropLast]
  cases d.getLast? with
  | none => rfl
  | some item =>
    dsimp only [Option.map_some]
    cases d.dropLast with
    | nil => rfl
    | cons top rest =>
      show some (_, _) = some (_, _)
      dsimp only
      rw [List.length_map, show f item :: rest.map f = (item :: rest).map f from rfl, siftDown_map hf]
      dsimp only
      rw [siftUp_map hf]

/-! ## The instance -/

variable {M T U : Type} [LE M] [Std.IsLinearPreorder M] [DecidableLE M]

omit [Std.IsLinearPreorder M] in
theorem leRanked_iff (a b : Score M × T) : leRanked a b = true ↔ b.1 ≤ a.1 := by
  show _ ↔ (b.1.metric ≤ a.1.metric ∧ (a.1.metric ≤ b.1.metric → b.1.level ≤ a.1.level))
  unfold leRanked
  by_cases h1 : b.1.metric ≤ a.1.metric <;> by_cases h2 : a.1.metric ≤ b.1.metric <;> simp [h1, h2]

theorem leRanked_total (a b : Score M × T) : leRanked a b = true ∨ leRanked b a = true := by
  rw [leRanked_iff, leRanked_iff]; exact Score.le_total _ _

theorem leRanked_trans (a b c : Score M × T) (h1 : leRanked a b = true) (h2 : leRanked b c = true) : leRanked a c = true := by
  rw [leRanked_iff] at *; exact Score.le_trans h2 h1

/-- The heap of the standard library, with the heap order of its array: it meets the contract `Heap`. -/
def stdHeap (M : Type) [LE M] [Std.IsLinearPreorder M] [DecidableLE M] : UniformHeap (Score M) where
  heap T :=
    { H := { d : List (Score M × T) // IsHeap leRanked d }
      empty := ⟨[], fun i x y _ h => by simp at h⟩
      push := fun x h => ⟨push leRanked x h.1, push_heap leRanked_total leRanked_trans h.2 x⟩
      pop := fun h => match hp : pop leRanked h.1 with
        | none => none
        | some (x, d) => some (x, ⟨d, (pop_heap leRanked_total leRanked_trans h.2 hp).1⟩)
      items := fun h => h.1
      items_empty := rfl
      items_push := fun x h => push_perm _ _ _
      pop_none := fun {h} hn => by
        split at hn
        · next hp => exact pop_none hp
        · cases hn
      pop_some := fun {h x h'} hs => by
        split at hs
        · cases hs
        · next y d hp =>
          cases hs
          exact ⟨pop_perm hp, fun z hz => (leRanked_iff _ _).1 ((pop_heap leRanked_total leRanked_trans h.2 hp).2 z hz)⟩ }
  map f h := ⟨h.1.map fun x => (x.1, f x.2), fun i x y hi hx hy => by
    rw [List.getElem?_map] at hx hy
    obtain ⟨a, ha, rfl⟩ := Option.map_eq_some_iff.1 hx
    obtain ⟨b, hb, rfl⟩ := Option.map_eq_some_iff.1 hy
    exact h.2 i a b hi ha hb⟩
  map_empty _ := rfl
  map_push {T U} f x h := Subtype.ext (push_map (le := leRanked) (le' := leRanked) (f := fun x : Score M × T => (x.1, f x.2)) (fun _ _ => rfl) x h.1).symm
  map_pop f h := by
    have := pop_map (le := leRanked) (le' := leRanked) (f := fun x : Score M × _ => (x.1, f x.2)) (fun _ _ => rfl) h.1
    dsimp only
    split
    · next hp =>
      rw [this] at hp
      split
      · rfl
      · next hq => rw [hq] at hp; cases hp
    · next x d hp =>
      rw [this] at hp
      split
      · next hq => rw [hq] at hp; cases hp
      · next y e hq =>
        rw [hq] at hp
        cases hp
        rfl

end RTree.BinaryHeap
