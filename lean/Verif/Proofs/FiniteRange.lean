import Verif.Proofs.Windows
import Verif.Proofs.FloatError
/-! The finite floating point numbers lie between the least and the greatest one. -/

namespace RTree

variable {F : Format}

theorem le_maxFinite {q : ℚ} (hF : F.emin ≤ F.emax - F.bits - 1) (h : nearest F q = q) (h2 : |q| < pow2 F.emax) :
    q ≤ NoisyFloat.maxFinite F := by
  by_contra hlt
  rw [not_le] at hlt
  set p : ℤ := F.emax - F.bits - 1 with hp
  have hpp := pow2_pos p
  have hE : pow2 (F.emax - 1) = 2 ^ F.bits * pow2 p := by
    rw [show F.emax - 1 = (F.bits : ℤ) + p by omega, pow2_add, pow2_natCast]; push_cast; rfl
  have hE1 : pow2 F.emax = 2 ^ (F.bits + 1) * pow2 p := by
    rw [show F.emax = ((F.bits + 1 : ℕ) : ℤ) + p by push_cast; omega, pow2_add, pow2_natCast]; push_cast; rfl
  have hm : NoisyFloat.maxFinite F = (2 ^ (F.bits + 1) - 1) * pow2 p := by
    unfold NoisyFloat.maxFinite
    rw [Nat.cast_sub Nat.one_le_two_pow]
    push_cast; rfl
  have hb : (1 : ℚ) ≤ 2 ^ F.bits := one_le_pow₀ (by norm_num)
  have hq0 : 0 < q := by
    refine lt_of_le_of_lt ?_ hlt
    rw [hm]
    refine mul_nonneg ?_ hpp.le
    rw [pow_succ]; linarith
  have habs : |q| = q := abs_of_pos hq0
  rw [habs] at h2
  have hexp : exponent q = F.emax - 1 := by
    refine le_antisymm (exponent_le hq0.ne' (by rw [habs]; simpa using h2)) (le_exponent hq0.ne' ?_)
    rw [habs, hE]
    refine le_trans ?_ hlt.le
    rw [hm]
    refine mul_le_mul_of_nonneg_right ?_ hpp.le
    rw [pow_succ]; linarith
  have hplace : placeExp F q = p := by
    unfold placeExp
    rw [hexp]; omega
  unfold nearest at h
  rw [hplace] at h
  generalize roundEven (q / pow2 p) = k at h
  rw [← h, hm] at hlt
  rw [← h, hE1] at h2
  have h3 := lt_of_mul_lt_mul_right hlt hpp.le
  have h4 := lt_of_mul_lt_mul_right h2 hpp.le
  have h5 : (2 : ℤ) ^ (F.bits + 1) - 1 < k := by exact_mod_cast h3
  have h6 : k < (2 : ℤ) ^ (F.bits + 1) := by exact_mod_cast h4
  omega

/-- Formats whose greatest finite number is one of the format. -/
structure Format.Wide (F : Format) : Prop where
  place : F.emin ≤ F.emax - F.bits - 1
  maxVal : (Scalar.maxVal : NoisyFloat F).1 = XRat.rat (NoisyFloat.maxFinite F)
  minVal : (Scalar.minVal : NoisyFloat F).1 = XRat.rat (-NoisyFloat.maxFinite F)

theorem Format.binary64_wide : Format.binary64.Wide := ⟨by decide, by decide +kernel, by decide +kernel⟩

theorem Format.binary32_wide : Format.binary32.Wide := ⟨by decide, by decide +kernel, by decide +kernel⟩

theorem isOf_lt {q : ℚ} (h : (XRat.rat q).isOf F = true) : |q| < pow2 F.emax := by
  have h' : (Rounding.ieee F).rnd q = XRat.rat q := of_decide_eq_true h
  have hn := NoisyFloat.nearest_of_isOf h
  unfold Rounding.ieee at h'
  simp only [hn] at h'
  rw [abs_lt]
  split at h'
  · cases h'
  · split at h'
    · cases h'
    · constructor <;> linarith

theorem NoisyFloat.le_maxVal (hF : F.Wide) {a : NoisyFloat F} (ha : a.1 ≠ XRat.top) : a ≤ Scalar.maxVal := by
  show a.1 ≤ (Scalar.maxVal : NoisyFloat F).1
  rw [hF.maxVal]
  obtain ⟨x, hx⟩ := a
  rcases x.cases with h | h | ⟨q, h⟩
  · subst h; exact bot_le
  · exact absurd h ha
  · subst h
    exact XRat.rat_le.2 (le_maxFinite hF.place (NoisyFloat.nearest_of_isOf hx) (isOf_lt hx))

theorem NoisyFloat.minVal_le (hF : F.Wide) {a : NoisyFloat F} (ha : a.1 ≠ ⊥) : Scalar.minVal ≤ a := by
  show (Scalar.minVal : NoisyFloat F).1 ≤ a.1
  rw [hF.minVal]
  obtain ⟨x, hx⟩ := a
  rcases x.cases with h | h | ⟨q, h⟩
  · exact absurd h ha
  · subst h; exact le_top
  · subst h
    refine XRat.rat_le.2 ?_
    have hn := NoisyFloat.nearest_of_isOf hx
    have := le_maxFinite (q := -q) hF.place (by rw [nearest_neg, hn]) (by rw [abs_neg]; exact isOf_lt hx)
    linarith

end RTree
