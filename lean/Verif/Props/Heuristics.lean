import Verif.Props.Measures
import Verif.Props.Limits
import Verif.Proofs.Seeds
/-!
# The heuristics for boxes: which subtree a key goes to (C49), which values seed the groups of a split (C67)
-/

namespace RTree

open XRat

variable {N : Type} {D : Nat} [Scalar N]

/-! ## C49 for boxes with integer coordinates -/

/-- The volume of a box. -/
def AABB.trueVolume (b : AABB N D) : ℚ := ∏ i, b.side i

theorem enlargement_int [IntScalar N] {b x : AABB N D} (hb : b.Valid) (hs : (b.union x).trueVolume ≤ 2 ^ 53) {d : XRat} (h : enlargement b x = some d) :
    d = rat ((b.union x).trueVolume - b.trueVolume) := by
  have hu : (b.union x).Valid := fun i => le_trans (le_trans (min_le_left _ _) (hb i)) (le_max_left _ _)
  unfold enlargement at h
  obtain ⟨u, h1, h⟩ := Option.bind_eq_some_iff.1 h
  obtain ⟨v, h2, h⟩ := Option.bind_eq_some_iff.1 h
  have hle : b.trueVolume ≤ (b.union x).trueVolume := by
    refine Finset.prod_le_prod (fun i _ => ?_) fun i _ => ?_
    · exact sub_nonneg.2 ((ExactScalar.le_iff _ _).1 (hb i))
    · have h1 := (ExactScalar.le_iff (b.max.get i) ((b.union x).max.get i)).1 (le_max_left _ _)
      have h2 := (ExactScalar.le_iff ((b.union x).min.get i) (b.min.get i)).1 (min_le_left _ _)
      unfold AABB.side; linarith
  have hz : ∀ {b : AABB N D}, b.Valid → ∀ {v : XRat}, b.volume = some v → ∃ z : ℤ, b.trueVolume = z ∧ 0 ≤ z := by
    intro b hb v hv
    obtain ⟨z, zs, e1, e2, -, e3, -⟩ := AABB.volume_int hb hv
    exact ⟨z * zs.prod, e3.symm, mul_nonneg e1 (List.prod_nonneg e2)⟩
  obtain ⟨z1, e1, p1⟩ := hz hu h1
  obtain ⟨z2, e2, p2⟩ := hz hb h2
  obtain rfl := AABB.volume_int_exact hu h1 hs
  obtain rfl := AABB.volume_int_exact hb h2 (le_trans hle hs)
  have e1' : ∏ i, (b.union x).side i = z1 := e1
  have e2' : ∏ i, b.side i = z2 := e2
  rw [e1', e2'] at h
  rw [e1, e2] at hle ⊢
  rw [e1] at hs
  have h' : N64.sub .binary64 (rat z1) (rat z2) = some d := h
  rw [N64.sub, F64.sub_rat, ← Int.cast_sub, binary64_intCast] at h'
  · injection h' with h'
    rw [← h']; norm_num
  · have : z2 ≤ z1 := by exact_mod_cast hle
    have : z1 ≤ 2 ^ 53 := by exact_mod_cast hs
    rw [abs_of_nonneg (by omega)]; omega

theorem cmp_rat (a b : ℚ) : (Volume.cmp (B := AABB N D) (rat a) (rat b) = .lt ↔ a < b) ∧ (Volume.cmp (B := AABB N D) (rat a) (rat b) = .eq ↔ a = b) := by
  show (N64.cmp (rat a) (rat b) = .lt ↔ a < b) ∧ (N64.cmp (rat a) (rat b) = .eq ↔ a = b)
  have e1 : rat a < rat b ↔ a < b := by simp [XRat.rat]
  have e2 : rat a = rat b ↔ a = b := by simp [XRat.rat]
  unfold N64.cmp
  rcases lt_trichotomy a b with h | h | h
  · simp [e1, h, h.ne]
  · simp [h]
  · simp [e1, e2, h.not_gt, h.ne']

/-- C49: with integer coordinates and volumes up to `2 ^ 53`, the selected box is one whose volume grows least, in exact arithmetic, if it is enlarged to
    contain the new one; among those it has least volume, and among those it comes first. -/
theorem C49_least_enlargement_boxes [IntScalar N] {cs : List (AABB N D)} {x : AABB N D} {i : Nat} (hv : ∀ b ∈ cs, b.Valid)
    (hs : ∀ b ∈ cs, (b.union x).trueVolume ≤ 2 ^ 53) (hdef : ∀ b ∈ cs, ∃ d, enlargement b x = some d) (h : select cs x = .ok (some i)) :
    ∃ b, cs[i]? = some b ∧ ∀ j b', cs[j]? = some b' →
      (b.union x).trueVolume - b.trueVolume < (b'.union x).trueVolume - b'.trueVolume ∨
      (b.union x).trueVolume - b.trueVolume = (b'.union x).trueVolume - b'.trueVolume ∧
        (b.trueVolume < b'.trueVolume ∨ b.trueVolume = b'.trueVolume ∧ i ≤ j) := by
  obtain ⟨b, d, v, hb, hd, hvol, hall⟩ := C49_select_least_enlargement hdef h
  have hle : ∀ b ∈ cs, b.trueVolume ≤ 2 ^ 53 := by
    intro b hb
    refine le_trans (Finset.prod_le_prod (fun i _ => ?_) fun i _ => ?_) (hs b hb)
    · exact sub_nonneg.2 ((ExactScalar.le_iff _ _).1 (hv b hb i))
    · have h1 := (ExactScalar.le_iff (b.max.get i) ((b.union x).max.get i)).1 (le_max_left _ _)
      have h2 := (ExactScalar.le_iff ((b.union x).min.get i) (b.min.get i)).1 (min_le_left _ _)
      unfold AABB.side; linarith
  have hvals : ∀ b ∈ cs, ∀ d, enlargement b x = some d → ∃ v, b.volume = some v := by
    intro b _ d hd
    unfold enlargement at hd
    obtain ⟨u, h1, hd⟩ := Option.bind_eq_some_iff.1 hd
    obtain ⟨v, h2, hd⟩ := Option.bind_eq_some_iff.1 hd
    exact ⟨v, h2⟩
  refine ⟨b, hb, fun j b' hb' => ?_⟩
  have hbm := List.mem_of_getElem? hb
  have hbm' := List.mem_of_getElem? hb'
  obtain ⟨d', hd'⟩ := hdef b' hbm'
  obtain ⟨v', hv'⟩ := hvals b' hbm' d' hd'
  have key := hall j b' d' v' hb' hd' hv'
  obtain rfl := enlargement_int (hv b hbm) (hs b hbm) hd
  obtain rfl := enlargement_int (hv b' hbm') (hs b' hbm') hd'
  obtain rfl := AABB.volume_int_exact (hv b hbm) hvol (hle b hbm)
  obtain rfl := AABB.volume_int_exact (hv b' hbm') hv' (hle b' hbm')
  rwa [(cmp_rat _ _).1, (cmp_rat _ _).2, (cmp_rat _ _).1, (cmp_rat _ _).2] at key

/-! ## C67: the seeds of a split -/

section Seeds

variable {α : Type} {bf : α → AABB N D} {minC cap : Nat} {values : List α} {overflow : α} {r : SplitResult (AABB N D) α}

/-- C67, what holds: the first values of the two groups are two of the values to be split, and no other two have common bounds **with the value that overflowed**
    of greater volume (as calculated).
    Missing: their own common bounds need not be the largest, see `C67_worst_pair_refuted`. -/
theorem C67_seeds_partial (h : split bf minC cap values overflow = .ok r) :
    ∃ (i j : Nat) (x y : α) (v : XRat), i < j ∧ (values ++ [overflow])[i]? = some x ∧ (values ++ [overflow])[j]? = some y ∧
      r.group1[0]? = some x ∧ r.group2[0]? = some y ∧ ((bf x).union ((bf y).union (bf overflow))).volume = some v ∧
      ∀ (i' j' : Nat) (x' y' : α), i' < j' → (values ++ [overflow])[i']? = some x' → (values ++ [overflow])[j']? = some y' →
        ∃ w, ((bf x').union ((bf y').union (bf overflow))).volume = some w ∧ w ≤ v := by
  obtain ⟨i, j, h1, h2, h3⟩ := split_heads h
  obtain ⟨x, y, v, k1, k2, k3, k4, k5, k6, -⟩ := worstCombination_spec h1
  refine ⟨i, j, x, y, v, k1, ?_, k3, h2 x k2 k1, h3 y k3 k1, k4, fun i' j' x' y' hij hx hy => ?_⟩
  · rw [List.getElem?_append_left (List.getElem?_eq_some_iff.1 k2).1]; exact k2
  · have hj := (List.getElem?_eq_some_iff.1 hy).1
    simp only [List.length_append, List.length_singleton] at hj
    rw [List.getElem?_append_left (by omega)] at hx
    by_cases hj' : j' < values.length
    · rw [List.getElem?_append_left hj'] at hy
      exact k6 i' j' x' y' hij hx hy
    · rw [List.getElem?_append_right (by omega), show j' - values.length = 0 by omega] at hy
      cases hy
      exact k5 x' (List.mem_of_getElem? hx)

end Seeds

/-- In one dimension the common bounds of three boxes are those of two. -/
theorem AABB.union_three (a b o : AABB N 1) :
    a.union (b.union o) = a.union b ∨ a.union (b.union o) = a.union o ∨ a.union (b.union o) = b.union o := by
  have key : ∀ {p q : AABB N 1}, p.min.get 0 = q.min.get 0 → p.max.get 0 = q.max.get 0 → p = q := by
    intro p q h1 h2
    cases p; cases q
    refine congrArg₂ AABB.mk (SVec.ext (funext fun i => ?_)) (SVec.ext (funext fun i => ?_))
    · rw [Subsingleton.elim i 0]; exact h1
    · rw [Subsingleton.elim i 0]; exact h2
  have hmin : ∀ p q : AABB N 1, (p.union q).min.get 0 = Min.min (p.min.get 0) (q.min.get 0) := fun _ _ => rfl
  have hmax : ∀ p q : AABB N 1, (p.union q).max.get 0 = Max.max (p.max.get 0) (q.max.get 0) := fun _ _ => rfl
  have l : Min.min (a.min.get 0) (Min.min (b.min.get 0) (o.min.get 0)) = a.min.get 0 ∨ Min.min (a.min.get 0) (Min.min (b.min.get 0) (o.min.get 0)) = b.min.get 0 ∨
      Min.min (a.min.get 0) (Min.min (b.min.get 0) (o.min.get 0)) = o.min.get 0 := by
    rcases min_choice (a.min.get 0) (Min.min (b.min.get 0) (o.min.get 0)) with e | e
    · exact .inl e
    · rcases min_choice (b.min.get 0) (o.min.get 0) with e' | e'
      · exact .inr (.inl (e.trans e'))
      · exact .inr (.inr (e.trans e'))
  have u : Max.max (a.max.get 0) (Max.max (b.max.get 0) (o.max.get 0)) = a.max.get 0 ∨ Max.max (a.max.get 0) (Max.max (b.max.get 0) (o.max.get 0)) = b.max.get 0 ∨
      Max.max (a.max.get 0) (Max.max (b.max.get 0) (o.max.get 0)) = o.max.get 0 := by
    rcases max_choice (a.max.get 0) (Max.max (b.max.get 0) (o.max.get 0)) with e | e
    · exact .inl e
    · rcases max_choice (b.max.get 0) (o.max.get 0) with e' | e'
      · exact .inr (.inl (e.trans e'))
      · exact .inr (.inr (e.trans e'))
  have la : Min.min (a.min.get 0) (Min.min (b.min.get 0) (o.min.get 0)) ≤ a.min.get 0 := min_le_left _ _
  have lb : Min.min (a.min.get 0) (Min.min (b.min.get 0) (o.min.get 0)) ≤ b.min.get 0 := le_trans (min_le_right _ _) (min_le_left _ _)
  have lo : Min.min (a.min.get 0) (Min.min (b.min.get 0) (o.min.get 0)) ≤ o.min.get 0 := le_trans (min_le_right _ _) (min_le_right _ _)
  have ua : a.max.get 0 ≤ Max.max (a.max.get 0) (Max.max (b.max.get 0) (o.max.get 0)) := le_max_left _ _
  have ub : b.max.get 0 ≤ Max.max (a.max.get 0) (Max.max (b.max.get 0) (o.max.get 0)) := le_trans (le_max_left _ _) (le_max_right _ _)
  have uo : o.max.get 0 ≤ Max.max (a.max.get 0) (Max.max (b.max.get 0) (o.max.get 0)) := le_trans (le_max_right _ _) (le_max_right _ _)
  generalize hL : Min.min (a.min.get 0) (Min.min (b.min.get 0) (o.min.get 0)) = L at *
  generalize hU : Max.max (a.max.get 0) (Max.max (b.max.get 0) (o.max.get 0)) = U at *
  have eL : (a.union (b.union o)).min.get 0 = L := hL
  have eU : (a.union (b.union o)).max.get 0 = U := hU
  have pick : ∀ p q : AABB N 1, (L = p.min.get 0 ∨ L = q.min.get 0) → L ≤ p.min.get 0 → L ≤ q.min.get 0 → (U = p.max.get 0 ∨ U = q.max.get 0) → p.max.get 0 ≤ U →
      q.max.get 0 ≤ U → a.union (b.union o) = p.union q := by
    intro p q h1 h2 h3 h4 h5 h6
    refine key ?_ ?_
    · rw [eL, hmin]
      rcases h1 with h | h
      · rw [← h, min_eq_left h3]
      · rw [← h, min_eq_right h2]
    · rw [eU, hmax]
      rcases h4 with h | h
      · rw [← h, max_eq_left h6]
      · rw [← h, max_eq_right h5]
  rcases l with l | l | l <;> rcases u with u | u | u
  · exact .inl (pick a b (.inl l) la lb (.inl u) ua ub)
  · exact .inl (pick a b (.inl l) la lb (.inr u) ua ub)
  · exact .inr (.inl (pick a o (.inl l) la lo (.inr u) ua uo))
  · exact .inl (pick a b (.inr l) la lb (.inl u) ua ub)
  · exact .inl (pick a b (.inr l) la lb (.inr u) ua ub)
  · exact .inr (.inr (pick b o (.inl l) lb lo (.inr u) ub uo))
  · exact .inr (.inl (pick a o (.inr l) la lo (.inl u) ua uo))
  · exact .inr (.inr (pick b o (.inr l) lb lo (.inl u) ub uo))
  · exact .inr (.inl (pick a o (.inr l) la lo (.inr u) ua uo))

/-- C67, what holds: in one dimension the groups are seeded by two values whose common bounds are the largest. -/
theorem C67_one_dimension_partial {R : Rounding} [FloatScalar R N] {α : Type} {bf : α → AABB N 1} {minC cap : Nat} {values : List α} {overflow : α}
    {r : SplitResult (AABB N 1) α} (hv : ∀ z ∈ values ++ [overflow], (bf z).Valid) (h : split bf minC cap values overflow = .ok r) :
    ∃ (i j : Nat) (x y : α) (v : XRat), i < j ∧ (values ++ [overflow])[i]? = some x ∧ (values ++ [overflow])[j]? = some y ∧
      r.group1[0]? = some x ∧ r.group2[0]? = some y ∧ ((bf x).union (bf y)).volume = some v ∧
      ∀ (i' j' : Nat) (x' y' : α) (w : XRat), i' < j' → (values ++ [overflow])[i']? = some x' → (values ++ [overflow])[j']? = some y' →
        ((bf x').union (bf y')).volume = some w → w ≤ v := by
  have h' := h
  obtain ⟨i, j, h1, h2, h3⟩ := split_heads h
  obtain ⟨x, y, v, k1, k2, k3, k4, k5, k6, k7⟩ := worstCombination_spec h1
  have k4' : ((bf x).union (bf y)).volume = some v := by
    unfold tripleVolume at k4
    rcases k7 with rfl | k7
    · rw [List.getElem?_append_right (by omega), Nat.sub_self] at k3
      cases k3
      rwa [AABB.union_same] at k4
    · rcases AABB.union_three (bf x) (bf y) (bf overflow) with e | e | e
      · rwa [e] at k4
      · rw [e] at k4
        exact absurd (k7 x (List.mem_of_getElem? k2) v (by rw [tripleVolume, AABB.union_same]; exact k4)) (lt_irrefl _)
      · rw [e] at k4
        rcases List.mem_append.1 (List.mem_of_getElem? k3) with hy | hy
        · exact absurd (k7 y hy v (by rw [tripleVolume, AABB.union_same]; exact k4)) (lt_irrefl _)
        · cases List.mem_singleton.1 hy
          rw [AABB.union_same] at k4
          obtain ⟨w, hw, hle⟩ := k5 x (List.mem_of_getElem? k2)
          have hlt := k7 x (List.mem_of_getElem? k2) w hw
          rw [tripleVolume, AABB.union_same] at hw
          have hmono := (AABB.volume_mono (hv _ (by simp)) (AABB.le_union_right (bf x) (bf overflow)) k4 hw).2
          exact absurd hlt (not_lt.2 hmono)
  obtain ⟨i₁, j₁, x₁, y₁, v₁, l1, l2, l3, l4, l5, l6, l7⟩ := C67_seeds_partial h'
  refine ⟨i, j, x, y, v, k1, ?_, k3, h2 x k2 k1, h3 y k3 k1, k4', fun i' j' x' y' w hij hx hy hw => ?_⟩
  · rw [List.getElem?_append_left (List.getElem?_eq_some_iff.1 k2).1]; exact k2
  · have hvx := hv x' (List.mem_of_getElem? hx)
    have hle : ((bf x').union (bf y')).Le ((bf x').union ((bf y').union (bf overflow))) := by
      refine AABB.union_le (AABB.le_union_left _ _) ((AABB.le_union_left _ _).trans (AABB.le_union_right _ _))
    have hu : ((bf x').union (bf y')).Valid := fun i => le_trans (le_trans (min_le_left _ _) (hvx i)) (le_max_left _ _)
    have hj := (List.getElem?_eq_some_iff.1 hy).1
    simp only [List.length_append, List.length_singleton] at hj
    rw [List.getElem?_append_left (by omega)] at hx
    have hex : ∃ w', ((bf x').union ((bf y').union (bf overflow))).volume = some w' ∧ w' ≤ v := by
      by_cases hj' : j' < values.length
      · rw [List.getElem?_append_left hj'] at hy
        exact k6 i' j' x' y' hij hx hy
      · rw [List.getElem?_append_right (by omega), show j' - values.length = 0 by omega] at hy
        cases hy
        exact k5 x' (List.mem_of_getElem? hx)
    obtain ⟨w', hw', hle'⟩ := hex
    exact le_trans (AABB.volume_mono hu hle hw hw').2 hle'

/-- C67 fails in two dimensions: here the two groups are seeded by two neighbours whose common bounds have volume 36, although the common bounds of the first
    of them and the far away value that overflowed have volume 9696.  The scan over pairs always adds the value that overflowed. -/
theorem C67_worst_pair_refuted : ∃ (values : List (AABB I32 2)) (overflow : AABB I32 2) (r : SplitResult (AABB I32 2) (AABB I32 2)) (x y : AABB I32 2),
    split id 2 4 values overflow = .ok r ∧ values.length = 4 ∧ (∀ z ∈ overflow :: values, z.Valid) ∧ r.group1[0]? = some x ∧ r.group2[0]? = some y ∧ x ∈ values ∧
      (x.union y).volume = some (rat 36) ∧ (x.union overflow).volume = some (rat 9696) := by
  refine ⟨[box 0 5 1 6, box 5 0 6 1, box 6 6 7 7, box 7 5 8 6], box 100 100 101 101,
    ((split (B := AABB I32 2) id 2 4 [box 0 5 1 6, box 5 0 6 1, box 6 6 7 7, box 7 5 8 6] (box 100 100 101 101)).toOption).getD ⟨box 0 0 0 0, [], box 0 0 0 0, []⟩,
    box 0 5 1 6, box 5 0 6 1, ?_, rfl, ?_, ?_, ?_, List.mem_cons_self, ?_, ?_⟩
  · have h : ∀ (x : Res (SplitResult (AABB I32 2) (AABB I32 2))) (d : SplitResult (AABB I32 2) (AABB I32 2)), x.isOk = true → x = .ok (x.toOption.getD d) := by
      intro x d hx
      cases x with
      | ok a => rfl
      | error e => cases hx
    exact h _ _ (by decide +kernel)
  · unfold AABB.Valid; decide +kernel
  · decide +kernel
  · decide +kernel
  · decide +kernel
  · decide +kernel

/-! ## Concrete cases -/

example : ∃ b, [box 0 0 10 10, box 0 0 4 4, box 0 0 5 5][1]? = some b ∧ ∀ j b', [box 0 0 10 10, box 0 0 4 4, box 0 0 5 5][j]? = some b' →
      (b.union (box 1 1 2 2)).trueVolume - b.trueVolume < (b'.union (box 1 1 2 2)).trueVolume - b'.trueVolume ∨
      (b.union (box 1 1 2 2)).trueVolume - b.trueVolume = (b'.union (box 1 1 2 2)).trueVolume - b'.trueVolume ∧
        (b.trueVolume < b'.trueVolume ∨ b.trueVolume = b'.trueVolume ∧ 1 ≤ j) := by
  refine C49_least_enlargement_boxes (i := 1) ?_ ?_ ?_ ?_
  · unfold AABB.Valid; decide +kernel
  · unfold AABB.trueVolume AABB.side
    simp only [Fin.prod_univ_two]
    decide +kernel
  · intro b hb
    rw [← Option.isSome_iff_exists]
    revert b
    decide +kernel
  · rw [Res.ok_getD (x := select [box 0 0 10 10, box 0 0 4 4, box 0 0 5 5] (box 1 1 2 2)) none (by decide +kernel)]
    congr 1; decide +kernel

/-- An interval of integers. -/
def ivl (a b : I32) : AABB I32 1 := ⟨⟨fun _ => a⟩, ⟨fun _ => b⟩⟩

/-- One dimension: the far interval is a seed. -/
example : (split (B := AABB I32 1) id 2 4 [ivl (i32 3) (i32 4), ivl (i32 0) (i32 1), ivl (i32 2) (i32 2), ivl (i32 1) (i32 3)] (ivl (i32 90) (i32 91))).toOption.map
      (fun r => (r.group1[0]?, r.group2[0]?)) = some (some (ivl (i32 0) (i32 1)), some (ivl (i32 90) (i32 91))) ∧
    ∀ z ∈ [ivl (i32 3) (i32 4), ivl (i32 0) (i32 1), ivl (i32 2) (i32 2), ivl (i32 1) (i32 3)] ++ [ivl (i32 90) (i32 91)], z.Valid := by
  refine ⟨by decide +kernel, by unfold AABB.Valid; decide +kernel⟩

end RTree
