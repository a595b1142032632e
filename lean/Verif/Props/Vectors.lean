import Verif.Proofs.Vectors
import Verif.Samples
/-!
# Vectors (C74) and boxes over user-defined vectors (C75)
-/

namespace RTree

variable {N U σ : Type} {D : Nat}

/-- The value fits into an `i32`. -/
def FitsI32 (z : ℤ) : Prop := -2147483648 ≤ z ∧ z ≤ 2147483647

namespace I32

theorem check_iff {z : ℤ} {c : I32} : check z = some c ↔ c.1 = z := by
  rw [check]
  constructor
  · intro h
    split at h
    · injection h with h; subst h; rfl
    · cases h
  · intro h
    subst h
    rw [dif_pos c.2]

theorem check_none {z : ℤ} : check z = none ↔ ¬ FitsI32 z := by
  rw [check]
  split
  next h => exact ⟨fun e => by (cases e), fun e => absurd h e⟩
  next h => exact ⟨fun _ => h, fun _ => rfl⟩

theorem add_check {a b : I32} : Scalar.add a b = check (a.1 + b.1) := rfl
theorem sub_check {a b : I32} : Scalar.sub a b = check (a.1 - b.1) := rfl

end I32

/-- C74: `a + b` and `a - b` are taken component by component: they return (in a build with overflow checks) exactly if every component fits, and
    panic exactly if one does not. -/
theorem C74_add_sub (a b : SVec I32 D) :
    (∀ c, a.add b = some c ↔ ∀ i, (c.get i).1 = (a.get i).1 + (b.get i).1) ∧ (a.add b = none ↔ ∃ i, ¬ FitsI32 ((a.get i).1 + (b.get i).1)) ∧
    (∀ c, a.sub b = some c ↔ ∀ i, (c.get i).1 = (a.get i).1 - (b.get i).1) ∧ (a.sub b = none ↔ ∃ i, ¬ FitsI32 ((a.get i).1 - (b.get i).1)) := by
  have h1 : ∀ c, a.add b = some c ↔ ∀ i, (c.get i).1 = (a.get i).1 + (b.get i).1 := fun c => by
    rw [SVec.add_iff]
    exact forall_congr' fun i => I32.check_iff
  have h2 : ∀ c, a.sub b = some c ↔ ∀ i, (c.get i).1 = (a.get i).1 - (b.get i).1 := fun c => by
    rw [SVec.sub_iff]
    exact forall_congr' fun i => I32.check_iff
  refine ⟨h1, ?_, h2, ?_⟩
  · constructor
    · intro h
      refine Classical.byContradiction fun hc => ?_
      have hf : ∀ i, FitsI32 ((a.get i).1 + (b.get i).1) := fun i => Classical.byContradiction fun hi => hc ⟨i, hi⟩
      have := (h1 ⟨fun i => ⟨_, hf i⟩⟩).2 fun i => rfl
      rw [h] at this
      cases this
    · rintro ⟨i, hi⟩
      cases hx : a.add b with
      | none => rfl
      | some c =>
        have := (h1 c).1 hx i
        exact absurd (this ▸ (c.get i).2) hi
  · constructor
    · intro h
      refine Classical.byContradiction fun hc => ?_
      have hf : ∀ i, FitsI32 ((a.get i).1 - (b.get i).1) := fun i => Classical.byContradiction fun hi => hc ⟨i, hi⟩
      have := (h2 ⟨fun i => ⟨_, hf i⟩⟩).2 fun i => rfl
      rw [h] at this
      cases this
    · rintro ⟨i, hi⟩
      cases hx : a.sub b with
      | none => rfl
      | some c =>
        have := (h2 c).1 hx i
        exact absurd (this ▸ (c.get i).2) hi

/-- C74: subtraction undoes an addition that did not overflow, and the other way round; addition commutes. -/
theorem C74_inverse (a b c : SVec I32 D) : (a.add b = some c ↔ c.sub b = some a) ∧ (a.add b = b.add a) := by
  constructor
  · rw [(C74_add_sub a b).1, (C74_add_sub c b).2.2.1]
    exact forall_congr' fun i => by omega
  · cases hx : a.add b with
    | none =>
      obtain ⟨i, hi⟩ := (C74_add_sub a b).2.1.1 hx
      exact ((C74_add_sub b a).2.1.2 ⟨i, by rwa [add_comm]⟩).symm
    | some c =>
      have := (C74_add_sub a b).1 c |>.1 hx
      exact ((C74_add_sub b a).1 c |>.2 fun i => by rw [this i, add_comm]).symm

/-- C74: `a += b` leaves `a + b` in `a` whenever that does not overflow (for any scalar type).  If it panics, the components before the first one that overflows
    have been changed and the others not. -/
theorem C74_add_assign [Scalar N] (a b : SVec N D) :
    match SVec.addAssign b (List.finRange D) a with
    | (x, true) => a.add b = some x
    | (x, false) => a.add b = none ∧ ∃ k : Fin D, Scalar.add (a.get k) (b.get k) = none ∧ (∀ i, k ≤ i → x.get i = a.get i) ∧
        ∀ i < k, Scalar.add (a.get i) (b.get i) = some (x.get i) := by
  obtain ⟨done, rest, h1, h2, h3, h4, h5⟩ := SVec.addAssign_get (b := b) (List.finRange D) a (List.nodup_finRange D)
  generalize SVec.addAssign b (List.finRange D) a = r at h2 h3 h4 ⊢
  obtain ⟨x, ok⟩ := r
  simp only at h2 h3 h4 ⊢
  cases ok with
  | true =>
    obtain rfl := h2.1 rfl
    rw [List.append_nil] at h1
    exact SVec.add_iff.2 fun i => h3 i (h1 ▸ List.mem_finRange i)
  | false =>
    cases rest with
    | nil => exact absurd (h2.2 rfl) (by decide)
    | cons k r =>
      have hk : Scalar.add (a.get k) (b.get k) = none := h5 k rfl
      have hs := List.pairwise_lt_finRange D
      rw [h1, List.pairwise_append, List.pairwise_cons] at hs
      obtain ⟨_, ⟨hr, _⟩, hd⟩ := hs
      refine ⟨?_, k, hk, fun i hi => h4 i fun hm => ?_, fun i hi => h3 i ?_⟩
      · cases hc : a.add b with
        | none => rfl
        | some c =>
          have := SVec.add_iff.1 hc k
          rw [hk] at this
          cases this
      · exact absurd (hd i hm k List.mem_cons_self) (not_lt.2 hi)
      · have hm : i ∈ done ++ k :: r := h1 ▸ List.mem_finRange i
        rcases List.mem_append.1 hm with hm | hm
        · exact hm
        · rcases List.mem_cons.1 hm with rfl | hm
          · exact absurd hi (lt_irrefl _)
          · exact absurd (hr i hm) (not_lt.2 hi.le)

/-- The sum of the squares of the components. -/
def SVec.squares (a : SVec I32 D) : ℤ := ((List.finRange D).map fun i => (a.get i).1 * (a.get i).1).sum

theorem sum_nonneg_of {l : List ℤ} (h : ∀ x ∈ l, 0 ≤ x) : 0 ≤ l.sum := List.sum_nonneg h

theorem I32.mapM_square : ∀ (l : List I32), (∀ v ∈ l, v.1 * v.1 ≤ 2147483647) →
    ∃ sq : List I32, (l.mapM fun v => Scalar.mul v v) = some sq ∧ sq.map Subtype.val = l.map fun v => v.1 * v.1
  | [], _ => ⟨[], by simp, rfl⟩
  | v :: l, h => by
    obtain ⟨sq, h1, h2⟩ := I32.mapM_square l fun v hv => h v (List.mem_cons_of_mem _ hv)
    have h3 : -2147483648 ≤ v.1 * v.1 ∧ v.1 * v.1 ≤ 2147483647 := ⟨by have := mul_self_nonneg v.1; omega, h v List.mem_cons_self⟩
    exact ⟨⟨v.1 * v.1, h3⟩ :: sq, by simp [List.mapM_cons, I32.isSome_mul h3, h1], by simp [h2]⟩

theorem I32.foldlM_sum : ∀ (xs : List I32) (x : I32), (∀ s ∈ xs, 0 ≤ s.1) → x.1 + (xs.map Subtype.val).sum ≤ 2147483647 → 0 ≤ x.1 →
    ∃ y : I32, xs.foldlM Scalar.add x = some y ∧ y.1 = x.1 + (xs.map Subtype.val).sum
  | [], x, _, _, _ => ⟨x, rfl, by simp⟩
  | a :: xs, x, hx, hs, h0 => by
    have ha := hx a List.mem_cons_self
    have hn : 0 ≤ (xs.map Subtype.val).sum := sum_nonneg_of (by
      intro z hz
      obtain ⟨s, hs', rfl⟩ := List.mem_map.1 hz
      exact hx s (List.mem_cons_of_mem _ hs'))
    rw [List.map_cons, List.sum_cons] at hs
    have h1 : -2147483648 ≤ x.1 + a.1 ∧ x.1 + a.1 ≤ 2147483647 := ⟨by omega, by omega⟩
    obtain ⟨y, e1, e2⟩ := I32.foldlM_sum xs ⟨x.1 + a.1, h1⟩ (fun s hs => hx s (List.mem_cons_of_mem _ hs)) (by simp only; omega) (by simp only; omega)
    refine ⟨y, ?_, ?_⟩
    · rw [List.foldlM_cons, I32.isSome_add h1]; exact e1
    · rw [e2, List.map_cons, List.sum_cons]; simp only; omega

theorem le_sum_of_mem {l : List ℤ} (h : ∀ x ∈ l, 0 ≤ x) {x : ℤ} (hx : x ∈ l) : x ≤ l.sum := List.single_le_sum h x hx

/-- C74: `sq_mag` returns the sum of the squares of the components, exactly if that fits and there is at least one dimension (no intermediate result
    overflows if the sum does not); otherwise it panics. -/
theorem C74_sq_mag (a : SVec I32 D) :
    (∀ m, a.sqMag = some m ↔ 0 < D ∧ m.1 = a.squares) ∧ (a.sqMag = none ↔ D = 0 ∨ ¬ FitsI32 a.squares) := by
  have hsq : ∀ z ∈ (List.finRange D).map (fun i => (a.get i).1 * (a.get i).1), 0 ≤ z := by
    intro z hz
    obtain ⟨i, _, rfl⟩ := List.mem_map.1 hz
    exact mul_self_nonneg _
  have hpos : 0 ≤ a.squares := sum_nonneg_of hsq
  have sound : ∀ m, a.sqMag = some m → 0 < D ∧ m.1 = a.squares := by
    intro m hm
    have h0 : 0 < D := by
      rcases Nat.eq_zero_or_pos D with rfl | h
      · cases hm
      · exact h
    refine ⟨h0, ?_⟩
    have := SVec.sqMag_eq hm
    have e : ∀ x : I32, Scalar.toRat x = (x.1 : ℚ) := fun x => rfl
    rw [e, Fin.sum_univ_def] at this
    have e2 : ((a.squares : ℤ) : ℚ) = ((List.finRange D).map fun i => Scalar.toRat (a.get i) ^ 2).sum := by
      rw [SVec.squares]
      generalize List.finRange D = l
      induction l with
      | nil => rfl
      | cons i l ih => rw [List.map_cons, List.sum_cons, List.map_cons, List.sum_cons, ← ih, Int.cast_add, Int.cast_mul, e, pow_two]
    rw [← e2] at this
    exact_mod_cast this
  have complete : 0 < D → FitsI32 a.squares → ∃ m, a.sqMag = some m := by
    intro h0 hf
    have hb : ∀ v ∈ a.toList, v.1 * v.1 ≤ 2147483647 := by
      intro v hv
      obtain ⟨i, hi, rfl⟩ := List.mem_map.1 hv
      exact le_trans (le_sum_of_mem hsq (List.mem_map.2 ⟨i, hi, rfl⟩)) hf.2
    obtain ⟨sq, h1, h2⟩ := I32.mapM_square a.toList hb
    rw [SVec.toList, List.map_map] at h2
    have hs : (sq.map Subtype.val).sum = a.squares := by rw [h2]; rfl
    have hl : sq.length = D := by
      have := congrArg List.length h2
      simpa using this
    have hn : ∀ s ∈ sq, 0 ≤ s.1 := by
      intro s hs
      have : s.1 ∈ sq.map Subtype.val := List.mem_map.2 ⟨s, hs, rfl⟩
      rw [h2] at this
      obtain ⟨i, _, e⟩ := List.mem_map.1 this
      rw [← e]
      exact mul_self_nonneg _
    unfold SVec.sqMag
    rw [h1]
    cases sq with
    | nil => simp at hl; omega
    | cons x xs =>
      rw [List.map_cons, List.sum_cons] at hs
      obtain ⟨y, e1, _⟩ := I32.foldlM_sum xs x (fun s h => hn s (List.mem_cons_of_mem _ h)) (by rw [hs]; exact hf.2) (hn x List.mem_cons_self)
      exact ⟨y, e1⟩
  have full : ∀ m, a.sqMag = some m ↔ 0 < D ∧ m.1 = a.squares := by
    refine fun m => ⟨sound m, fun ⟨h0, hm⟩ => ?_⟩
    obtain ⟨m', h'⟩ := complete h0 (hm ▸ m.2)
    rw [h']
    congr 1
    exact Subtype.ext ((sound m' h').2.trans hm.symm)
  refine ⟨full, ?_⟩
  constructor
  · intro h
    rcases Nat.eq_zero_or_pos D with h0 | h0
    · exact .inl h0
    · refine .inr fun hf => ?_
      obtain ⟨m, hm⟩ := complete h0 hf
      rw [h] at hm
      cases hm
  · intro h
    cases hx : a.sqMag with
    | none => rfl
    | some m =>
      obtain ⟨h0, hm⟩ := sound m hx
      rcases h with h | h
      · omega
      · exact absurd (hm ▸ m.2) h

/-- C74: `all_le` is a partial order, `all_ge` its reverse; `componentwise_min` and `componentwise_max` are greatest lower and least upper bounds; for types without infinities
    `min_value` and `max_value` are the least and the greatest vector. -/
theorem C74_componentwise [Scalar N] (a b c : SVec N D) :
    (a.allGe b = b.allLe a) ∧ (a.allLe a = true) ∧ (a.allLe b = true → b.allLe a = true → a = b) ∧ (a.allLe b = true → b.allLe c = true → a.allLe c = true) ∧
    (c.allLe (a.cmin b) = true ↔ c.allLe a = true ∧ c.allLe b = true) ∧ ((a.cmax b).allLe c = true ↔ a.allLe c = true ∧ b.allLe c = true) ∧
    ([FullRange N] → SVec.minValue.allLe a = true ∧ a.allLe SVec.maxValue = true) := by
  refine ⟨?_, ?_, ?_, ?_, ?_, ?_, ?_⟩
  · rw [Bool.eq_iff_iff, SVec.allGe_iff, SVec.allLe_iff]
  · rw [SVec.allLe_iff]; exact fun _ => le_refl _
  · rw [SVec.allLe_iff, SVec.allLe_iff]
    exact fun h1 h2 => SVec.ext (funext fun i => le_antisymm (h1 i) (h2 i))
  · rw [SVec.allLe_iff, SVec.allLe_iff, SVec.allLe_iff]
    exact fun h1 h2 i => le_trans (h1 i) (h2 i)
  · rw [SVec.allLe_iff, SVec.allLe_iff, SVec.allLe_iff, ← forall_and]
    exact forall_congr' fun i => le_min_iff
  · rw [SVec.allLe_iff, SVec.allLe_iff, SVec.allLe_iff, ← forall_and]
    exact forall_congr' fun i => max_le_iff
  · intro _
    rw [SVec.allLe_iff, SVec.allLe_iff]
    exact ⟨fun i => FullRange.minVal_le _, fun i => FullRange.le_maxVal _⟩

/-- C74: indexing reads and writes the component with that number, exactly if there is one. -/
theorem C74_index (a : SVec N D) (i : Nat) (x : N) :
    (∀ y, a.index i = .ok y ↔ ∃ h : i < D, a.get ⟨i, h⟩ = y) ∧
    (∀ b, a.setIndex i x = .ok b ↔ i < D ∧ ∀ j, b.index j = if j = i then .ok x else a.index j) ∧
    (D ≤ i → a.index i = .error .indexOutOfBounds ∧ a.setIndex i x = .error .indexOutOfBounds) := by
  refine ⟨fun y => ?_, fun b => ?_, fun h => ?_⟩
  · rw [SVec.index]
    split
    next h => exact ⟨fun e => ⟨h, by injection e⟩, fun ⟨_, e⟩ => by rw [e]⟩
    next h => exact ⟨fun e => by (cases e), fun ⟨h', _⟩ => absurd h' h⟩
  · rw [SVec.setIndex]
    split
    next h =>
      constructor
      · intro e
        injection e with e
        subst e
        refine ⟨h, fun j => ?_⟩
        rw [SVec.index, SVec.index]
        by_cases hj : j = i
        · subst hj; rw [dif_pos h, if_pos rfl]; simp
        · rw [if_neg hj]
          split
          · simp [hj]
          · rfl
      · rintro ⟨_, h2⟩
        congr 1
        refine SVec.ext (funext fun j => ?_)
        have := h2 j.1
        rw [SVec.index, dif_pos j.2, SVec.index, dif_pos j.2] at this
        by_cases hj : j.1 = i
        · rw [if_pos hj] at this
          injection this with this
          rw [this]; simp [hj]
        · rw [if_neg hj] at this
          injection this with this
          rw [this]; simp [hj]
    next h => exact ⟨fun e => by (cases e), fun ⟨h', _⟩ => absurd h' h⟩
  · rw [SVec.index, SVec.setIndex, dif_neg (by omega), if_neg (by omega)]
    exact ⟨rfl, rfl⟩

/-- C74: `into_map` calls the closure (which may have a state, and may panic) once for each component, in the order of the components, and puts the results into
    the same places; it panics exactly if one of the calls does. `zip` yields the pairs of components in order. -/
theorem C74_into_map (a b : SVec N D) (f : σ → N → Option (U × σ)) (s : σ) :
    (a.intoMap f s).map (fun r => ((List.finRange D).map r.1.get, r.2)) = SVec.mapList f s ((List.finRange D).map a.get) ∧
    a.zip b = ((List.finRange D).map a.get).zip ((List.finRange D).map b.get) := by
  refine ⟨SVec.intoMap_list f a s, ?_⟩
  rw [SVec.zip]
  generalize List.finRange D = l
  induction l with
  | nil => rfl
  | cons i l ih => simp only [List.map_cons, List.zip_cons_cons, ih]

theorem cmpLex_gt [Scalar N] : ∀ (xs ys : List N), xs.length = ys.length → (SVec.cmpLex xs ys = .gt ↔ ∃ ps x qs y rs, xs = ps ++ x :: qs ∧ ys = ps ++ y :: rs ∧ y < x)
  | [], [], _ => by
    rw [SVec.cmpLex]
    exact ⟨(fun h => by cases h), (fun ⟨ps, x, qs, y, rs, h, _⟩ => by simp at h)⟩
  | [], _ :: _, h => by simp at h
  | _ :: _, [], h => by simp at h
  | a :: xs, b :: ys, h => by
    rw [SVec.cmpLex]
    simp only [List.length_cons, Nat.add_right_cancel_iff] at h
    rcases lt_trichotomy a b with hlt | rfl | hgt
    · rw [if_pos hlt]
      refine ⟨(fun h => by cases h), fun ⟨ps, x, qs, y, rs, h1, h2, h3⟩ => ?_⟩
      cases ps with
      | nil =>
        simp only [List.nil_append, List.cons.injEq] at h1 h2
        rw [← h1.1, ← h2.1] at h3
        exact absurd h3 (not_lt.2 hlt.le)
      | cons p ps =>
        simp only [List.cons_append, List.cons.injEq] at h1 h2
        rw [h1.1, h2.1] at hlt
        exact absurd hlt (lt_irrefl _)
    · rw [if_neg (lt_irrefl _), if_neg (lt_irrefl _), cmpLex_gt xs ys h]
      constructor
      · rintro ⟨ps, x, qs, y, rs, rfl, rfl, h3⟩
        exact ⟨a :: ps, x, qs, y, rs, rfl, rfl, h3⟩
      · rintro ⟨ps, x, qs, y, rs, h1, h2, h3⟩
        cases ps with
        | nil =>
          simp only [List.nil_append, List.cons.injEq] at h1 h2
          rw [← h1.1, ← h2.1] at h3
          exact absurd h3 (lt_irrefl _)
        | cons p ps =>
          simp only [List.cons_append, List.cons.injEq] at h1 h2
          exact ⟨ps, x, qs, y, rs, h1.2, h2.2, h3⟩
    · rw [if_neg (not_lt.2 hgt.le), if_pos hgt]
      exact ⟨fun _ => ⟨[], a, xs, b, ys, rfl, rfl, hgt⟩, fun _ => rfl⟩

/-- C74: the operators `<=` and so on compare vectors lexicographically (not like `all_le`, which implies `<=`). -/
theorem C74_operators_lexicographic [Scalar N] (a b : SVec N D) :
    (a.lexLe b = false ↔ ∃ k : Fin D, (∀ i < k, a.get i = b.get i) ∧ b.get k < a.get k) ∧ (a.allLe b = true → a.lexLe b = true) := by
  have key : a.lexLe b = false ↔ ∃ k : Fin D, (∀ i < k, a.get i = b.get i) ∧ b.get k < a.get k := by
    have e : a.lexLe b = false ↔ SVec.cmpLex a.toList b.toList = .gt := by
      rw [SVec.lexLe]
      cases SVec.cmpLex a.toList b.toList <;> decide
    rw [e, cmpLex_gt _ _ (by simp [SVec.toList])]
    have get : ∀ (c : SVec N D) (i : Nat) (h : i < D), c.toList[i]? = some (c.get ⟨i, h⟩) := by
      intro c i h
      rw [SVec.toList, List.getElem?_map, List.getElem?_eq_getElem (by simpa using h)]
      simp
    constructor
    · rintro ⟨ps, x, qs, y, rs, h1, h2, h3⟩
      have hk : ps.length < D := by
        have := congrArg List.length h1
        simp [SVec.toList] at this
        omega
      have hx := get a ps.length hk
      have hy := get b ps.length hk
      rw [h1] at hx
      rw [h2] at hy
      simp at hx hy
      refine ⟨⟨ps.length, hk⟩, fun i hi => ?_, by rw [← hx, ← hy]; exact h3⟩
      have hi' : i.1 < ps.length := hi
      have e1 := get a i.1 i.2
      have e2 := get b i.1 i.2
      rw [h1, List.getElem?_append_left hi'] at e1
      rw [h2, List.getElem?_append_left hi'] at e2
      rw [e1] at e2
      injection e2
    · rintro ⟨k, h1, h2⟩
      have split : ∀ c : SVec N D, c.toList = c.toList.take k ++ c.get k :: c.toList.drop (k + 1) := by
        intro c
        have hl : k.1 < c.toList.length := by simp [SVec.toList]
        have hg := get c k.1 k.2
        rw [List.getElem?_eq_getElem hl] at hg
        injection hg with hg
        rw [show c.get k = c.toList[k.1] from hg.symm, ← List.drop_eq_getElem_cons hl, List.take_append_drop]
      have ht : a.toList.take k = b.toList.take k := by
        refine List.ext_getElem? fun j => ?_
        rw [List.getElem?_take, List.getElem?_take]
        split
        next hj =>
          have hjD : j < D := by omega
          rw [get a j hjD, get b j hjD, h1 ⟨j, hjD⟩ hj]
        next => rfl
      refine ⟨a.toList.take k, a.get k, a.toList.drop (k + 1), b.get k, b.toList.drop (k + 1), split a, ?_, h2⟩
      rw [ht]
      exact split b
  refine ⟨key, fun h => ?_⟩
  cases hx : a.lexLe b with
  | true => rfl
  | false =>
    obtain ⟨k, _, hk⟩ := key.1 hx
    exact absurd (SVec.allLe_iff.1 h k) (not_le.2 hk)

/-! ### Cases -/

example : (pt 3 4).add (pt 1 2) = some (pt 4 6) := by decide +kernel
example : (pt 2147483647 4).add (pt 1 2) = none := by decide +kernel
example : ((pt 3 4).sqMag = some (i32 25)) := by decide +kernel
example : ((pt 46341 0).sqMag = none) := by decide +kernel
/-- A failed `+=` changes the components before the one that overflows. -/
example : SVec.addAssign (pt 1 2) (List.finRange 2) (pt 5 2147483647) = (pt 6 2147483647, false) := by
  rw [Prod.ext_iff]; exact ⟨by decide +kernel, by decide +kernel⟩
/-- `<=` is not `all_le`. -/
example : (pt 1 9).lexLe (pt 2 3) = true ∧ (pt 1 9).allLe (pt 2 3) = false := by decide +kernel
example : ((pt 3 4).intoMap (fun (n : Nat) x => some (x.1 + (n : ℤ), n + 1)) 10).map (fun r => (r.1.get 0, r.1.get 1, r.2)) = some (13, 15, 12) := by decide +kernel

/-! ### Boxes over user-defined vectors -/

/-- The contract of `Vector` (vector.rs 9-28): the vector has components in linearly ordered types, and everything is componentwise.
    Vectors with the same components are equal. -/
class LawfulVector (W : Type) [VectorOps W] where
  /-- the names of the components -/
  ι : Type
  /-- the type of a component -/
  Comp : ι → Type
  ord : ∀ i, LinearOrder (Comp i)
  comp : W → ∀ i, Comp i
  ext : ∀ {a b : W}, (∀ i, comp a i = comp b i) → a = b
  allLe_iff : ∀ {a b : W}, VectorOps.allLe a b = true ↔ ∀ i, (ord i).le (comp a i) (comp b i)
  allGe_iff : ∀ {a b : W}, VectorOps.allGe a b = true ↔ ∀ i, (ord i).le (comp b i) (comp a i)
  comp_cmin : ∀ (a b : W) (i : ι), comp (VectorOps.cmin a b) i = (ord i).min (comp a i) (comp b i)
  comp_cmax : ∀ (a b : W) (i : ι), comp (VectorOps.cmax a b) i = (ord i).max (comp a i) (comp b i)
  minValue_le : ∀ (a : W) (i : ι), (ord i).le (comp VectorOps.minValue i) (comp a i)
  le_maxValue : ∀ (a : W) (i : ι), (ord i).le (comp a i) (comp VectorOps.maxValue i)

namespace GBox

variable {W : Type} [VectorOps W] [L : LawfulVector W]

/-- The point lies in the (closed) box. -/
def Mem (p : W) (b : GBox W) : Prop := ∀ i, (L.ord i).le (L.comp b.min i) (L.comp p i) ∧ (L.ord i).le (L.comp p i) (L.comp b.max i)

/-- A box that is not inverted. -/
def Valid (b : GBox W) : Prop := ∀ i, (L.ord i).le (L.comp b.min i) (L.comp b.max i)

/-- `a` lies inside `b`, side by side. -/
def Inside (a b : GBox W) : Prop := ∀ i, (L.ord i).le (L.comp b.min i) (L.comp a.min i) ∧ (L.ord i).le (L.comp a.max i) (L.comp b.max i)

end GBox

/-- C75: for boxes over any user-defined vectors that satisfy the contract of `Vector`: the union is the least box that both lie inside of, `empty()` is its identity, and so
    `union_all` is the least box that all lie inside of. -/
theorem C75_union {W : Type} [VectorOps W] [LawfulVector W] (a b c : GBox W) (bs : List (GBox W)) :
    ((a.union b).Inside c ↔ a.Inside c ∧ b.Inside c) ∧ GBox.empty.union a = a ∧ a.union GBox.empty = a ∧ a.union b = b.union a ∧
    (a.union b).union c = a.union (b.union c) ∧ ((GBox.unionAll bs).Inside c ↔ (∀ x ∈ bs, x.Inside c) ∧ GBox.empty.Inside c) ∧ GBox.empty.Inside c := by
  have hu : ∀ a b : GBox W, (a.union b).Inside c ↔ a.Inside c ∧ b.Inside c := by
    intro a b
    unfold GBox.Inside GBox.union
    rw [← forall_and]
    refine forall_congr' fun i => ?_
    let _ := LawfulVector.ord (W := W) i
    rw [LawfulVector.comp_cmin, LawfulVector.comp_cmax]
    show (_ ≤ min _ _ ∧ max _ _ ≤ _) ↔ _
    rw [le_min_iff, max_le_iff]
    exact ⟨fun ⟨⟨h1, h2⟩, h3, h4⟩ => ⟨⟨h1, h3⟩, h2, h4⟩, fun ⟨⟨h1, h3⟩, h2, h4⟩ => ⟨⟨h1, h2⟩, h3, h4⟩⟩
  have hext : ∀ x y : GBox W, (∀ i, LawfulVector.comp x.min i = LawfulVector.comp y.min i ∧ LawfulVector.comp x.max i = LawfulVector.comp y.max i) → x = y :=
    fun x y h => GBox.ext (LawfulVector.ext fun i => (h i).1) (LawfulVector.ext fun i => (h i).2)
  have he : GBox.empty.Inside c := fun i => ⟨LawfulVector.le_maxValue _ i, LawfulVector.minValue_le _ i⟩
  have hc : ∀ a b : GBox W, a.union b = b.union a := by
    intro a b
    refine hext _ _ fun i => ?_
    let _ := LawfulVector.ord (W := W) i
    simp only [GBox.union, LawfulVector.comp_cmin, LawfulVector.comp_cmax]
    exact ⟨min_comm _ _, max_comm _ _⟩
  have hi : ∀ a : GBox W, GBox.empty.union a = a := by
    intro a
    refine hext _ _ fun i => ?_
    let _ := LawfulVector.ord (W := W) i
    simp only [GBox.union, GBox.empty, LawfulVector.comp_cmin, LawfulVector.comp_cmax]
    exact ⟨min_eq_right (LawfulVector.le_maxValue a.min i), max_eq_right (LawfulVector.minValue_le a.max i)⟩
  refine ⟨hu a b, hi a, by rw [hc, hi], hc a b, ?_, ?_, he⟩
  · refine hext _ _ fun i => ?_
    let _ := LawfulVector.ord (W := W) i
    simp only [GBox.union, LawfulVector.comp_cmin, LawfulVector.comp_cmax]
    exact ⟨min_assoc _ _ _, max_assoc _ _ _⟩
  · have key : ∀ (bs : List (GBox W)) (x : GBox W), (bs.foldl GBox.union x).Inside c ↔ x.Inside c ∧ ∀ y ∈ bs, y.Inside c := by
      intro bs
      induction bs with
      | nil => intro x; simp
      | cons y bs ih =>
        intro x
        rw [List.foldl_cons, ih, hu]
        simp only [List.mem_cons, forall_eq_or_imp]
        tauto
    rw [GBox.unionAll, key, and_comm]

/-- C75: a box over user-defined vectors intersects a point exactly if the point lies in it, and another box exactly if they have a point in common (boxes that are not
    inverted); the bounds of a point contain that point only. -/
theorem C75_intersects {W : Type} [VectorOps W] [LawfulVector W] (a b : GBox W) (p q : W) :
    (a.intersectsPoint p = true ↔ GBox.Mem p a) ∧
    (a.Valid → b.Valid → (a.intersectsBox b = true ↔ ∃ p, GBox.Mem p a ∧ GBox.Mem p b)) ∧
    (GBox.Mem q (GBox.ofPoint p) ↔ q = p) := by
  refine ⟨?_, fun ha hb => ?_, ?_⟩
  · rw [GBox.intersectsPoint, Bool.and_eq_true, LawfulVector.allLe_iff, LawfulVector.allGe_iff, ← forall_and]
    rfl
  · rw [GBox.intersectsBox, Bool.and_eq_true, LawfulVector.allLe_iff, LawfulVector.allGe_iff]
    constructor
    · rintro ⟨h1, h2⟩
      refine ⟨VectorOps.cmax a.min b.min, fun i => ?_, fun i => ?_⟩
      · let _ := LawfulVector.ord (W := W) i
        rw [LawfulVector.comp_cmax]
        exact ⟨le_max_left _ _, max_le (ha i) (h2 i)⟩
      · let _ := LawfulVector.ord (W := W) i
        rw [LawfulVector.comp_cmax]
        exact ⟨le_max_right _ _, max_le (h1 i) (hb i)⟩
    · rintro ⟨p, h1, h2⟩
      exact ⟨fun i => (LawfulVector.ord i).le_trans _ _ _ (h1 i).1 (h2 i).2, fun i => (LawfulVector.ord i).le_trans _ _ _ (h2 i).1 (h1 i).2⟩
  · constructor
    · intro h
      exact LawfulVector.ext fun i => (LawfulVector.ord i).le_antisymm _ _ (h i).2 (h i).1
    · rintro rfl i
      exact ⟨(LawfulVector.ord i).le_refl _, (LawfulVector.ord i).le_refl _⟩

/-- C75: what `contains` decides for boxes over user-defined vectors is not containment: a box that is not inverted "contains" a point exactly if
    it consists of that point only, and "contains" the boxes it has a point in common with. -/
theorem C75_contains {W : Type} [VectorOps W] [LawfulVector W] (a b : GBox W) (p : W) (ha : a.Valid) :
    (a.containsPoint p = true ↔ a = GBox.ofPoint p) ∧ (b.Valid → (a.containsBox b = true ↔ ∃ p, GBox.Mem p a ∧ GBox.Mem p b)) := by
  refine ⟨?_, (C75_intersects a b p p).2.1 ha⟩
  rw [GBox.containsPoint, Bool.and_eq_true, LawfulVector.allLe_iff, LawfulVector.allGe_iff]
  constructor
  · rintro ⟨h1, h2⟩
    have le : ∀ i, (LawfulVector.ord i).le (LawfulVector.comp a.min i) (LawfulVector.comp a.max i) := ha
    refine GBox.ext (LawfulVector.ext fun i => ?_) (LawfulVector.ext fun i => ?_)
    · exact (LawfulVector.ord i).le_antisymm _ _ ((LawfulVector.ord i).le_trans _ _ _ (le i) (h2 i)) (h1 i)
    · exact (LawfulVector.ord i).le_antisymm _ _ (h2 i) ((LawfulVector.ord i).le_trans _ _ _ (h1 i) (le i))
  · rintro rfl
    exact ⟨fun i => (LawfulVector.ord i).le_refl _, fun i => (LawfulVector.ord i).le_refl _⟩

/-- The vectors of the crate satisfy the contract (`i32` coordinates, any number of dimensions). -/
instance : LawfulVector (SVec I32 D) where
  ι := Fin D
  Comp := fun _ => I32
  ord := fun _ => inferInstance
  comp a i := a.get i
  ext h := SVec.ext (funext h)
  allLe_iff := SVec.allLe_iff
  allGe_iff := SVec.allGe_iff
  comp_cmin _ _ _ := rfl
  comp_cmax _ _ _ := rfl
  minValue_le a i := FullRange.minVal_le (a.get i)
  le_maxValue a i := FullRange.le_maxVal (a.get i)

/-- A vector type of a user, with components of different types. -/
structure UserVec where
  flag : Bool
  number : I32
  deriving DecidableEq

instance : VectorOps UserVec where
  minValue := ⟨false, Scalar.minVal⟩
  maxValue := ⟨true, Scalar.maxVal⟩
  allLe a b := decide (a.flag ≤ b.flag) && decide (a.number ≤ b.number)
  allGe a b := decide (b.flag ≤ a.flag) && decide (b.number ≤ a.number)
  cmin a b := ⟨min a.flag b.flag, min a.number b.number⟩
  cmax a b := ⟨max a.flag b.flag, max a.number b.number⟩

instance : LawfulVector UserVec where
  ι := Bool
  Comp := fun i => if i then Bool else I32
  ord := fun i => match i with
    | true => inferInstanceAs (LinearOrder Bool)
    | false => inferInstanceAs (LinearOrder I32)
  comp a i := match i with
    | true => a.flag
    | false => a.number
  ext {a b} h := by
    have h1 : a.flag = b.flag := h true
    have h2 : a.number = b.number := h false
    cases a; cases b; simp_all
  allLe_iff {a b} := by
    refine ⟨fun h i => ?_, fun h => ?_⟩
    · have := (Bool.and_eq_true_iff).1 h
      cases i
      · exact of_decide_eq_true this.2
      · exact of_decide_eq_true this.1
    · exact (Bool.and_eq_true_iff).2 ⟨decide_eq_true (h true), decide_eq_true (h false)⟩
  allGe_iff {a b} := by
    refine ⟨fun h i => ?_, fun h => ?_⟩
    · have := (Bool.and_eq_true_iff).1 h
      cases i
      · exact of_decide_eq_true this.2
      · exact of_decide_eq_true this.1
    · exact (Bool.and_eq_true_iff).2 ⟨decide_eq_true (h true), decide_eq_true (h false)⟩
  comp_cmin a b i := by cases i <;> rfl
  comp_cmax a b i := by cases i <;> rfl
  minValue_le a i := by
    cases i
    · exact FullRange.minVal_le a.number
    · exact Bool.false_le a.flag
  le_maxValue a i := by
    cases i
    · exact FullRange.le_maxVal a.number
    · exact Bool.le_true a.flag

example : (GBox.mk (⟨false, i32 1⟩ : UserVec) ⟨true, i32 5⟩).intersectsBox ⟨⟨true, i32 5⟩, ⟨true, i32 9⟩⟩ = true := by decide +kernel

end RTree
