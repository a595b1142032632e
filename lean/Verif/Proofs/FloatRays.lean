import Verif.Proofs.Rays
import Verif.Proofs.FloatSegments
/-!
# The ray test for floating point coordinates
-/

namespace RTree

open XRat F64
open Scalar (Upto)

variable {F : Format} {D : Nat}

/-- The relative error of a rounded quotient whose dividend is rounded. -/
theorem fdiv_rel {X x d u : ℚ} (hu0 : 0 < u) (hu1 : u ≤ 1 / 1024) (hv : pow2 (-53) ≤ u) (ex : |x - X| ≤ |X| * u)
    (hX : X = 0 ∨ pow2 (-500) ≤ |X|) (hd1 : pow2 (-500) ≤ |d|) (hd2 : |d| ≤ pow2 500) :
    |fdiv x d - X / d| ≤ |X / d| * (4 * u) := by
  rcases hX with rfl | hX
  · rw [abs_zero, zero_mul, sub_zero] at ex
    rw [abs_nonpos_iff.1 ex]
    simp [fdiv]
  have h500 := pow2_pos (-500)
  have hd0 : d ≠ 0 := fun h0 => by rw [h0, abs_zero] at hd1; linarith
  have hX0 : X ≠ 0 := fun h0 => by rw [h0, abs_zero] at hX; linarith
  have hdp := abs_pos.2 hd0
  have inv : pow2 (-500) * pow2 500 = 1 := by rw [← pow2_add]; rfl
  have hinv : pow2 (-500) ≤ |1 / d| := by
    rw [abs_div, abs_one, le_div_iff₀ hdp]
    have := mul_le_mul_of_nonneg_left hd2 h500.le
    linarith
  have e3 := nearest_error64 ((pow2_le.2 (by norm_num : (-1022 : ℤ) ≤ -500)).trans hinv)
  have hx : pow2 (-501) ≤ |x| := by
    have := abs_sub_abs_le_abs_sub X x
    rw [abs_sub_comm] at this
    have h3 : pow2 (-500) = 2 * pow2 (-501) := by
      rw [show (-500 : ℤ) = 1 + -501 by norm_num, pow2_add]; rfl
    nlinarith
  have hu53 : pow2 (-53) ≤ 1 / 1024 := by rw [pow2_eq]; norm_num
  have hc : pow2 (-501) ≤ |nearest .binary64 (1 / d)| := by
    have := abs_sub_abs_le_abs_sub (1 / d) (nearest .binary64 (1 / d))
    rw [abs_sub_comm] at this
    have h3 : pow2 (-500) = 2 * pow2 (-501) := by
      rw [show (-500 : ℤ) = 1 + -501 by norm_num, pow2_add]; rfl
    have h4 := abs_nonneg (1 / d)
    nlinarith
  have hxc : pow2 (-1022) ≤ |x * nearest .binary64 (1 / d)| := by
    rw [abs_mul]
    refine (pow2_le.2 (by norm_num : (-1022 : ℤ) ≤ -501 + -501)).trans ?_
    rw [pow2_add]
    exact mul_le_mul hx hc (pow2_pos _).le (abs_nonneg _)
  have e4 := nearest_error64 hxc
  unfold fdiv
  have hv0 := pow2_pos (-53)
  generalize pow2 (-53) = v at *
  generalize nearest .binary64 (1 / d) = c at *
  generalize nearest .binary64 (x * c) = z at *
  obtain ⟨a, ha, rfl⟩ : ∃ a, |a| ≤ u ∧ x = X * (1 + a) := by
    refine ⟨(x - X) / X, ?_, by field_simp; ring⟩
    rw [abs_div, div_le_iff₀ (abs_pos.2 hX0)]
    linarith
  have h1d : (0 : ℚ) < |1 / d| := abs_pos.2 (one_div_ne_zero hd0)
  obtain ⟨e, he, rfl⟩ : ∃ e, |e| ≤ u ∧ c = 1 / d * (1 + e) := by
    refine ⟨(c - 1 / d) / (1 / d), ?_, by field_simp; ring⟩
    rw [abs_div, div_le_iff₀ h1d]
    have := mul_le_mul_of_nonneg_left hv h1d.le
    linarith
  have hq : X * (1 + a) * (1 / d * (1 + e)) = X / d * ((1 + a) * (1 + e)) := by ring
  rw [hq] at e4
  have hyz : z - X / d = (z - X / d * ((1 + a) * (1 + e))) + X / d * ((1 + a) * (1 + e) - 1) := by ring
  rw [hyz]
  refine (abs_add_le _ _).trans ?_
  rw [abs_mul] at e4 ⊢
  have hy := abs_nonneg (X / d)
  have pa : |a * e| ≤ u / 1024 := by
    rw [abs_mul]
    have := mul_le_mul ha he (abs_nonneg _) hu0.le
    nlinarith
  have hw : |(1 + a) * (1 + e) - 1| ≤ 2 * u + u / 1024 := by
    have h1 : (1 + a) * (1 + e) - 1 = a + e + a * e := by ring
    rw [h1]
    refine (abs_add_le _ _).trans ?_
    have := abs_add_le a e
    linarith
  have hw' : |(1 + a) * (1 + e)| ≤ 1 + (2 * u + u / 1024) := by
    have := abs_sub_abs_le_abs_sub ((1 + a) * (1 + e)) 1
    rw [abs_one] at this
    linarith
  generalize |X / d| = y at *
  have s1 : y * |(1 + a) * (1 + e) - 1| ≤ y * (2 * u + u / 1024) := mul_le_mul_of_nonneg_left hw hy
  have s2 : y * |(1 + a) * (1 + e)| * v ≤ y * (1 + (2 * u + u / 1024)) * u :=
    mul_le_mul (mul_le_mul_of_nonneg_left hw' hy) hv hv0.le (mul_nonneg hy (by linarith))
  have s3 : y * (1 + (2 * u + u / 1024)) * u ≤ y * (3 / 2 * u) := by
    rw [mul_assoc]
    refine mul_le_mul_of_nonneg_left ?_ hy
    nlinarith
  have s4 : y * (2 * u + u / 1024) + y * (3 / 2 * u) ≤ y * (4 * u) := by
    rw [← mul_add]
    refine mul_le_mul_of_nonneg_left ?_ hy
    linarith
  linarith

section Slab

variable {k : ℤ} {nz : Bool} {bmin bmax o d : NoisyFloat F}

theorem slab_rounded (h1 : F.emin ≤ k + 1) (h2 : k + 1 < F.emax) (hmin : Upto k bmin)
    (hmax : Upto k bmax) (ho : Upto k o) {s : F64 × F64} (h : slab .binary64 nz bmin bmax o d = some s) :
    s = (F64.mul .binary64 (some (rat (nearest F (Scalar.toRat bmin - Scalar.toRat o)))) (F64.recip .binary64 nz (some d.1)),
        F64.mul .binary64 (some (rat (nearest F (Scalar.toRat bmax - Scalar.toRat o)))) (F64.recip .binary64 nz (some d.1))) ∧
      |nearest F (Scalar.toRat bmin - Scalar.toRat o)| ≤ pow2 (k + 1) ∧
      |nearest F (Scalar.toRat bmax - Scalar.toRat o)| ≤ pow2 (k + 1) ∧
      |nearest F (Scalar.toRat bmin - Scalar.toRat o) - (Scalar.toRat bmin - Scalar.toRat o)| ≤
        |Scalar.toRat bmin - Scalar.toRat o| * F.unit ∧
      |nearest F (Scalar.toRat bmax - Scalar.toRat o) - (Scalar.toRat bmax - Scalar.toRat o)| ≤
        |Scalar.toRat bmax - Scalar.toRat o| * F.unit := by
  unfold slab at h
  obtain ⟨x, hx, h⟩ := Option.bind_eq_some_iff.1 h
  obtain ⟨y, hy, h⟩ := Option.bind_eq_some_iff.1 h
  injection h with h
  obtain ⟨ex, bx, eX⟩ := NoisyFloat.sub_upto h1 h2 hmin ho hx
  obtain ⟨ey, by', eY⟩ := NoisyFloat.sub_upto h1 h2 hmax ho hy
  refine ⟨?_, bx, by', eX, eY⟩
  rw [← h]
  show (F64.mul _ (some x.1) (F64.recip _ nz (some d.1)), F64.mul _ (some y.1) (F64.recip _ nz (some d.1))) = _
  rw [ex, ey]

theorem prod_rat (hk : k ≤ 500) {d' w : ℚ} (hd1 : pow2 (-500) ≤ |d'|) (hw : |w| ≤ pow2 (k + 1)) :
    F64.mul .binary64 (some (rat w)) (F64.recip .binary64 nz (some (rat d'))) = some (rat (fdiv w d')) := by
  have hd0 : d' ≠ 0 := fun h0 => by
    rw [h0, abs_zero] at hd1
    exact absurd (pow2_pos (-500)) (not_lt.2 hd1)
  have inv : pow2 (-500) * pow2 500 = 1 := by rw [← pow2_add]; rfl
  have hinvhi : |1 / d'| ≤ pow2 500 := by
    rw [abs_div, abs_one, div_le_iff₀ (abs_pos.2 hd0)]
    have := mul_le_mul_of_nonneg_right hd1 (pow2_pos 500).le
    linarith
  obtain ⟨r1, r2⟩ := binary64_bound (by norm_num) (by norm_num) hinvhi
  have h3 : |w * nearest .binary64 (1 / d')| ≤ pow2 1001 := by
    rw [abs_mul, show (1001 : ℤ) = 501 + 500 by norm_num, pow2_add]
    exact mul_le_mul (hw.trans (pow2_le.2 (by omega))) r2 (abs_nonneg _) (pow2_pos _).le
  obtain ⟨r3, -⟩ := binary64_bound (by norm_num) (by norm_num) h3
  show F64.mul _ _ (if d' = 0 then _ else some (Rounding.binary64.rnd (1 / d'))) = _
  rw [if_neg hd0, r1, F64.mul_rat, r3]
  rfl

theorem slabNear_float (hF : F.Between) (h1 : F.emin ≤ k + 1) (h2 : k + 1 < F.emax) (hk : k ≤ 500) (hmin : Upto k bmin)
    (hmax : Upto k bmax) (ho : Upto k o) (hb : bmin ≤ bmax) (hd : Upto 500 d)
    (hd' : Scalar.toRat d = 0 ∨ pow2 (-500) ≤ |Scalar.toRat d|)
    (hX : Scalar.toRat bmin - Scalar.toRat o = 0 ∨ pow2 (-500) ≤ |Scalar.toRat bmin - Scalar.toRat o|)
    (hY : Scalar.toRat bmax - Scalar.toRat o = 0 ∨ pow2 (-500) ≤ |Scalar.toRat bmax - Scalar.toRat o|)
    {s : F64 × F64} (h : slab .binary64 nz bmin bmax o d = some s) :
    SlabNear (4 * F.unit) s (Scalar.toRat bmin) (Scalar.toRat bmax) (Scalar.toRat o) (Scalar.toRat d) := by
  have hu0 := F.unit_pos
  obtain ⟨⟨qd, hqd⟩, hd2⟩ := hd
  have hqd' : d.1 = rat qd := hqd
  have td : Scalar.toRat d = qd := congrArg XRat.toRat hqd'
  rcases hd' with hd0 | hd1
  · refine .of_still (by linarith) hd0 fun t => ?_
    exact inS_still hF h1 h2 hmin hmax ho hb (by rw [hqd', ← td, hd0]) h t
  · obtain ⟨hs, bx, by', eX, eY⟩ := slab_rounded h1 h2 hmin hmax ho h
    have hle : Scalar.toRat bmin ≤ Scalar.toRat bmax := NoisyFloat.toRat_le hmin.1 hmax.1 hb
    have mXY : nearest F (Scalar.toRat bmin - Scalar.toRat o) ≤ nearest F (Scalar.toRat bmax - Scalar.toRat o) :=
      nearest_mono (by linarith)
    rw [td] at hd1 hd2
    rw [hqd', prod_rat hk hd1 bx, prod_rat hk hd1 by'] at hs
    have hq0 : qd ≠ 0 := fun h0 => by
      rw [h0, abs_zero] at hd1
      exact absurd (pow2_pos (-500)) (not_lt.2 hd1)
    rw [hs, td]
    refine .of_ends rfl rfl hq0 (fdiv_rel hu0 hF.unit_le hF.le_unit eX hX hd1 hd2)
      (fdiv_rel hu0 hF.unit_le hF.le_unit eY hY hd1 hd2) (fun hpos => ?_) fun hneg => ?_
    · exact nearest_mono (mul_le_mul_of_nonneg_right mXY (nearest_nonneg (one_div_pos.2 hpos).le))
    · refine nearest_mono (mul_le_mul_of_nonpos_right mXY ?_)
      have := nearest_mono (F := .binary64) (one_div_neg.2 hneg).le
      rwa [nearest_zero] at this

theorem proper_float (hF : F.Between) (h1 : F.emin ≤ k + 1) (h2 : k + 1 < F.emax) (hk : k ≤ 500) (hmin : Upto k bmin)
    (hmax : Upto k bmax) (ho : Upto k o) (hd : Upto 500 d) (hd' : Scalar.toRat d = 0 ∨ pow2 (-500) ≤ |Scalar.toRat d|)
    {s : F64 × F64} (h : slab .binary64 nz bmin bmax o d = some s)
    (hn : ¬ (Scalar.toRat d = 0 ∧ (Scalar.toRat o = Scalar.toRat bmin ∨ Scalar.toRat o = Scalar.toRat bmax))) : Proper s := by
  obtain ⟨⟨qd, hqd⟩, hd2⟩ := hd
  have hqd' : d.1 = rat qd := hqd
  have td : Scalar.toRat d = qd := congrArg XRat.toRat hqd'
  obtain ⟨hs, bx, by', eX, eY⟩ := slab_rounded h1 h2 hmin hmax ho h
  rcases hd' with hd0 | hd1
  · have hu1 := hF.unit_le
    have nz0 : ∀ X : ℚ, X ≠ 0 → |nearest F X - X| ≤ |X| * F.unit → nearest F X ≠ 0 := by
      intro X hX he h0
      rw [h0, zero_sub, abs_neg] at he
      have := abs_pos.2 hX
      nlinarith
    have key : ∀ u : ℚ, u ≠ 0 → ∃ z, F64.mul .binary64 (some (rat u)) (recip .binary64 nz (some (rat 0))) = some z := by
      intro u hu
      simp only [recip, if_true]
      cases nz
      · simp only [Bool.false_eq_true, if_false, inf, F64.mul, if_neg hu]
        split <;> exact ⟨_, rfl⟩
      · simp only [if_true, negInf, F64.mul, if_neg hu]
        split <;> exact ⟨_, rfl⟩
    obtain ⟨z1, k1⟩ := key _ (nz0 _ (fun h0 => hn ⟨hd0, .inl (by linarith)⟩) eX)
    obtain ⟨z2, k2⟩ := key _ (nz0 _ (fun h0 => hn ⟨hd0, .inr (by linarith)⟩) eY)
    refine ⟨z1, z2, ?_⟩
    rw [hs, hqd', ← td, hd0, k1, k2]
  · rw [td] at hd1
    rw [hqd', prod_rat hk hd1 bx, prod_rat hk hd1 by'] at hs
    exact ⟨_, _, hs⟩

end Slab

end RTree
