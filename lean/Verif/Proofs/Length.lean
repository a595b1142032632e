import Verif.Proofs.Volume
import Verif.Proofs.FloatError
/-! Square roots and the length of segments. -/

namespace RTree

open XRat F64

variable {N : Type} {D : Nat} [Scalar N]

section Sqrt

variable {F : Format}

/-- The number whose square root is an integer of `F.bits + 1` bits. -/
theorem sqrt_scale {q : ℚ} (hq : 0 < q) :
    pow2 (2 * F.bits) ≤ q / pow2 (2 * (exponent q / 2 - F.bits)) := by
  rw [le_div_iff₀ (pow2_pos _), ← pow2_add]
  have h1 := (exponent_spec hq.ne').1
  rw [abs_of_pos hq] at h1
  refine le_trans (pow2_le.2 ?_) h1
  omega

theorem sqrt_floor {y : ℚ} (hy : 0 ≤ y) :
    ((Nat.sqrt y.floor.toNat : ℕ) : ℚ) ^ 2 ≤ y ∧ y < ((Nat.sqrt y.floor.toNat : ℕ) + 1 : ℚ) ^ 2 := by
  obtain ⟨h1, h2⟩ := floor_spec y
  have h0 : 0 ≤ y.floor := by
    have : (-1 : ℚ) < y.floor := by linarith
    have : -1 < y.floor := by exact_mod_cast this
    omega
  obtain ⟨n, hn⟩ := Int.eq_ofNat_of_zero_le h0
  rw [hn] at h1 h2 ⊢
  rw [Int.toNat_natCast]
  have h3 := Nat.sqrt_le' n
  have h4 := Nat.lt_succ_sqrt' n
  have h3' : ((Nat.sqrt n : ℕ) : ℚ) ^ 2 ≤ n := by exact_mod_cast h3
  have h4' : (n : ℚ) + 1 ≤ ((Nat.sqrt n : ℕ) + 1 : ℚ) ^ 2 := by exact_mod_cast h4
  rw [Int.cast_natCast] at h1 h2
  exact ⟨h3'.trans h1, h2.trans_le h4'⟩

/-- The error of a square root. -/
theorem sqrtNearest_error {q : ℚ} (hq : 0 < q) :
    0 < sqrtNearest F q ∧ sqrtNearest F q ^ 2 * (1 - F.unit) ^ 2 ≤ q ∧ q ≤ sqrtNearest F q ^ 2 * (1 + F.unit) ^ 2 := by
  have hs := sqrt_scale (F := F) hq
  set e := exponent q / 2 - F.bits with he
  have hqe : q = q / pow2 (2 * e) * pow2 (2 * e) := by rw [div_mul_cancel₀ _ (pow2_pos _).ne']
  have hr : sqrtNearest F q = (if ((Nat.sqrt (q / pow2 (2 * e)).floor.toNat : ℚ) + 1 / 2) ^ 2 < q / pow2 (2 * e) then
    (Nat.sqrt (q / pow2 (2 * e)).floor.toNat : ℚ) + 1 else Nat.sqrt (q / pow2 (2 * e)).floor.toNat) * pow2 e := rfl
  generalize q / pow2 (2 * e) = y at *
  have hy0 : 0 ≤ y := (pow2_pos _).le.trans hs
  obtain ⟨h1, h2⟩ := sqrt_floor hy0
  generalize hS : Nat.sqrt y.floor.toNat = s at *
  have hp2 : pow2 (2 * F.bits) = ((2 ^ F.bits : ℕ) : ℚ) ^ 2 := by
    rw [pow2_eq, Nat.cast_pow, Nat.cast_ofNat, ← pow_mul, ← zpow_natCast]
    congr 1
    push_cast
    ring
  rw [hp2] at hs
  have hs1 : 2 ^ F.bits ≤ s := by
    have h5 : ((2 ^ F.bits : ℕ) : ℚ) < (s : ℚ) + 1 := lt_of_pow_lt_pow_left₀ 2 (by positivity) (hs.trans_lt h2)
    have : 2 ^ F.bits < s + 1 := by exact_mod_cast h5
    omega
  have hs2 : ((2 ^ F.bits : ℕ) : ℚ) ≤ s := by exact_mod_cast hs1
  have hu : F.unit * ((2 ^ F.bits : ℕ) : ℚ) = 1 / 2 := by
    rw [Format.unit, pow2_eq, Nat.cast_pow, Nat.cast_ofNat, zpow_neg, ← Nat.cast_one, ← Nat.cast_add, zpow_natCast, pow_succ]
    field_simp
  have hu0 := F.unit_pos
  have hu1 := F.unit_le
  have hb : (1 : ℚ) ≤ ((2 ^ F.bits : ℕ) : ℚ) := by exact_mod_cast Nat.one_le_two_pow
  have hsu : 1 / 2 ≤ F.unit * s := by rw [← hu]; exact mul_le_mul_of_nonneg_left hs2 hu0.le
  have key : ∀ t : ℚ, (s : ℚ) ≤ t → (t - 1 / 2) ^ 2 ≤ y ∨ t ^ 2 ≤ y → y ≤ (t + 1 / 2) ^ 2 →
      0 < t * pow2 e ∧ (t * pow2 e) ^ 2 * (1 - F.unit) ^ 2 ≤ q ∧ q ≤ (t * pow2 e) ^ 2 * (1 + F.unit) ^ 2 := by
    intro t ht hlo hhi
    have hpe := pow2_pos e
    have htu : 1 / 2 ≤ F.unit * t := hsu.trans (mul_le_mul_of_nonneg_left ht hu0.le)
    have ht1 : 1 ≤ t := by linarith
    have hp3 : pow2 (2 * e) = pow2 e ^ 2 := by rw [two_mul, pow2_add, pow_two]
    have l1 : (t * (1 - F.unit)) ^ 2 ≤ y := by
      rcases hlo with h | h
      · refine le_trans (pow_le_pow_left₀ ?_ ?_ 2) h
        · exact mul_nonneg (by linarith) (by linarith)
        · linarith
      · refine le_trans (pow_le_pow_left₀ ?_ ?_ 2) h
        · exact mul_nonneg (by linarith) (by linarith)
        · nlinarith
    have l2 : y ≤ (t * (1 + F.unit)) ^ 2 := hhi.trans (pow_le_pow_left₀ (by linarith) (by linarith) 2)
    refine ⟨by positivity, ?_, ?_⟩
    · rw [hqe, hp3]
      calc _ = (t * (1 - F.unit)) ^ 2 * pow2 e ^ 2 := by ring
        _ ≤ _ := mul_le_mul_of_nonneg_right l1 (by positivity)
    · rw [hqe, hp3]
      calc _ ≤ (t * (1 + F.unit)) ^ 2 * pow2 e ^ 2 := mul_le_mul_of_nonneg_right l2 (by positivity)
        _ = _ := by ring
  rw [hr]
  split
  · rename_i h
    refine key _ (by linarith) (.inl ?_) ?_
    · rw [show (s : ℚ) + 1 - 1 / 2 = s + 1 / 2 by ring]; exact h.le
    · refine h2.le.trans (pow_le_pow_left₀ (by positivity) (by linarith) 2)
  · rename_i h
    exact key _ (le_refl _) (.inr h1) (not_lt.1 h)

/-- Square roots of squares of integers are exact. -/
theorem sqrtNearest_sq {n : ℕ} (hn : 0 < n) (h : n < 2 ^ (F.bits + 1)) : sqrtNearest F ((n : ℚ) ^ 2) = n := by
  have hn' : (0 : ℚ) < (n : ℚ) ^ 2 := by positivity
  have hex : exponent ((n : ℚ) ^ 2) ≤ 2 * F.bits + 1 := by
    refine exponent_le hn'.ne' ?_
    rw [abs_of_pos hn', pow2_eq]
    have : (n : ℚ) < 2 ^ (F.bits + 1) := by exact_mod_cast h
    have h2 := pow_lt_pow_left₀ this (by positivity) (two_ne_zero)
    rw [← pow_mul, ← zpow_natCast] at h2
    refine h2.trans_eq ?_
    congr 1
    push_cast
    ring
  set e := exponent ((n : ℚ) ^ 2) / 2 - F.bits with he
  have he0 : e ≤ 0 := by omega
  obtain ⟨k, hk⟩ := Int.eq_ofNat_of_zero_le (a := -e) (by omega)
  have hek : e = -(k : ℤ) := by
    have : (Int.ofNat k) = (k : ℤ) := rfl
    omega
  have hp : pow2 e = ((2 : ℚ) ^ k)⁻¹ := by rw [hek, pow2_eq, zpow_neg, zpow_natCast]
  have hy : (n : ℚ) ^ 2 / pow2 (2 * e) = ((n * 2 ^ k : ℕ) : ℚ) ^ 2 := by
    rw [two_mul, pow2_add, hp]
    push_cast
    field_simp
  have hfl : ((n * 2 ^ k : ℕ) : ℚ) ^ 2 = (((n * 2 ^ k) ^ 2 : ℕ) : ℚ) := by push_cast; ring
  have hf : (((n * 2 ^ k : ℕ) : ℚ) ^ 2).floor.toNat = (n * 2 ^ k) ^ 2 := by
    rw [floor_unique (f := (((n * 2 ^ k) ^ 2 : ℕ) : ℤ)) (by rw [hfl]; push_cast; exact le_refl _) (by rw [hfl]; push_cast; linarith)]
    rfl
  have hr : sqrtNearest F ((n : ℚ) ^ 2) =
    (if ((Nat.sqrt ((n : ℚ) ^ 2 / pow2 (2 * e)).floor.toNat : ℚ) + 1 / 2) ^ 2 < (n : ℚ) ^ 2 / pow2 (2 * e) then
    (Nat.sqrt ((n : ℚ) ^ 2 / pow2 (2 * e)).floor.toNat : ℚ) + 1 else Nat.sqrt ((n : ℚ) ^ 2 / pow2 (2 * e)).floor.toNat) * pow2 e := rfl
  rw [hr, hy, hf, Nat.sqrt_eq', if_neg, hp]
  · push_cast
    field_simp
  · rw [not_lt]
    exact pow_le_pow_left₀ (by positivity) (by linarith) 2

end Sqrt

/-! ### segments -/

theorem sqDist_zero [ExactScalar N] {p q : SVec N D} : sqDist p q = 0 ↔ p = q := by
  rw [sqDist, Finset.sum_eq_zero_iff_of_nonneg (fun i _ => sq_nonneg _)]
  constructor
  · intro h
    refine SVec.ext (funext fun i => ?_)
    have := pow_eq_zero_iff (two_ne_zero) |>.1 (h i (Finset.mem_univ i))
    exact le_antisymm ((ExactScalar.le_iff _ _).2 (by linarith)) ((ExactScalar.le_iff _ _).2 (by linarith))
  · rintro rfl i -
    simp

section Ints

variable [IntScalar N] {l : Line N D}

theorem Line.sqLen_int {m : F64} (h : l.sqLen .binary64 = some m) :
    ∃ (z : ℤ) (zs : List ℤ) (m' : XRat), |z| ≤ 2 ^ 32 ∧ (∀ x ∈ zs, |x| ≤ 2 ^ 32) ∧ zs.length + 1 = D ∧
      ((z * z + (zs.map fun x => x * x).sum : ℤ) : ℚ) = sqDist l.p1 l.p0 ∧
      ((zs.map fun x => x * x).map fun x : ℤ => Rounding.binary64.rnd (x : ℚ)).foldlM (N64.add .binary64)
        (Rounding.binary64.rnd ((z * z : ℤ) : ℚ)) = some m' ∧ m = some m' := by
  unfold Line.sqLen at h
  obtain ⟨d, hd, h⟩ := Option.bind_eq_some_iff.1 h
  obtain ⟨z, zs, m', h1, h2, h3, h4, h5⟩ := SVec.sqMagF64_int hd h
  have hlen : zs.length + 1 = D := by
    have := congrArg List.length h3
    simpa using this
  exact ⟨z, zs, m', h1, h2, hlen, sum_sq_eq h3, h4, h5⟩

theorem Line.sqLen_near (hD : D ≤ 2 ^ 53) {m : F64} (h : l.sqLen .binary64 = some m) :
    ∃ q, m = F64.fin q ∧ NearSum D q (sqDist l.p1 l.p0) := by
  obtain ⟨z, zs, m', hz, hzs, hl, hs, h2, rfl⟩ := Line.sqLen_int h
  clear h
  obtain ⟨q, rfl⟩ := foldlM_sq_finite hz hzs (by omega) h2
  rw [rnd_sq hz] at h2
  have hn := foldlM_near (k := 0) (fun x hx => by
      obtain ⟨y, -, rfl⟩ := List.mem_map.1 hx
      exact mul_self_nonneg y) (nearSum_int (mul_self_nonneg z)) (fun x hx => by
      obtain ⟨y, hy, rfl⟩ := List.mem_map.1 hx
      exact rnd_sq (hzs y hy)) h2
  rw [List.length_map, show 0 + 1 + zs.length = D by omega, ← Int.cast_add, hs] at hn
  exact ⟨q, rfl, hn⟩

theorem Line.sqLen_exact {m : F64} (h : l.sqLen .binary64 = some m) (hs : sqDist l.p1 l.p0 ≤ 2 ^ 53) :
    m = F64.fin (sqDist l.p1 l.p0) := by
  obtain ⟨z, zs, m', hz, hzs, hl, hs', h2, rfl⟩ := Line.sqLen_int h
  clear h
  rw [← hs'] at hs ⊢
  rw [foldlM_exact' (fun x hx => by
    obtain ⟨y, -, rfl⟩ := List.mem_map.1 hx
    exact mul_self_nonneg y) (mul_self_nonneg z) (by exact_mod_cast hs)] at h2
  exact h2.symm

end Ints

/-- The length does not depend on the direction. -/
theorem Line.sqLen_reverse {R : Rounding} [FloatScalar R N] {R' : Rounding} {l : Line N D} {m m' : F64}
    (h : l.sqLen R' = some m) (h' : l.reverse.sqLen R' = some m') : m = m' := by
  have hR := FloatScalar.lawful (R := R) (N := N)
  unfold Line.sqLen at h h'
  obtain ⟨d, hd, h⟩ := Option.bind_eq_some_iff.1 h
  obtain ⟨d', hd', h'⟩ := Option.bind_eq_some_iff.1 h'
  have e : (d.toList.map fun v => F64.mul R' (some (Scalar.toX v)) (some (Scalar.toX v))) =
      d'.toList.map fun v => F64.mul R' (some (Scalar.toX v)) (some (Scalar.toX v)) := by
    unfold SVec.toList
    rw [List.map_map, List.map_map]
    refine List.map_congr_left fun i _ => ?_
    exact F64.mul_self_neg R' (F64.sub_swap hR (FloatScalar.sub_eq (SVec.sub_get' hd i)) (FloatScalar.sub_eq (SVec.sub_get' hd' i)))
  unfold SVec.sqMagF64 at h h'
  rw [e] at h
  rw [h] at h'
  injection h'

theorem Line.len_isSome (hD : 0 < D) {R : Rounding} {lo hi : N} (hw : SubDefined lo hi) {l : Line N D}
    (h0 : ∀ i, lo ≤ l.p0.get i ∧ l.p0.get i ≤ hi) (h1 : ∀ i, lo ≤ l.p1.get i ∧ l.p1.get i ≤ hi) :
    ∃ m, l.sqLen R = some m ∧ l.len R = some (F64.sqrt m) := by
  obtain ⟨d, hd⟩ := Option.isSome_iff_exists.1 (SVec.sub_isSome hw h1 h0)
  unfold Line.len Line.sqLen Line.delta
  rw [hd]
  obtain ⟨n, rfl⟩ : ∃ n, D = n + 1 := ⟨D - 1, by omega⟩
  show ∃ m, d.sqMagF64 R = some m ∧ (d.sqMagF64 R).map F64.sqrt = some (F64.sqrt m)
  unfold SVec.sqMagF64 SVec.toList
  rw [List.finRange_succ]
  exact ⟨_, rfl, rfl⟩

end RTree
