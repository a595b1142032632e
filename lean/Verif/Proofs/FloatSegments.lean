import Verif.Proofs.Segments
import Verif.Proofs.FloatError
/-!
# The segment test for floating point coordinates
-/

namespace RTree

open XRat F64
open Scalar (Upto)

variable {F : Format} {D : Nat}

/-- The format is between a few bits and `f64`. -/
structure Format.Between (F : Format) : Prop where
  lo : 9 ≤ F.bits
  hi : F.bits ≤ 52

theorem Format.Between.unit_le (h : F.Between) : F.unit ≤ 1 / 1024 := by
  have h1 := h.lo
  have : pow2 (-(F.bits + 1)) ≤ pow2 (-10) := pow2_le.2 (by omega)
  exact this.trans (by rw [pow2_eq]; norm_num)

theorem Format.Between.le_unit (h : F.Between) : pow2 (-53) ≤ F.unit := by
  have h1 := h.hi
  exact pow2_le.2 (by omega)

/-! ### one division -/

section Div

variable {X Δ x d : ℚ} {u : ℚ}

/-- The error of a rounded quotient of rounded numbers. -/
theorem fdiv_close (hu0 : 0 < u) (hu1 : u ≤ 1 / 1024) (hv : pow2 (-53) ≤ u) (hΔ : Δ ≠ 0) (ex : |x - X| ≤ |X| * u)
    (ed : |d - Δ| ≤ |Δ| * u) (hd : pow2 (-1022) ≤ |1 / d|) :
    |fdiv x d - X / Δ| ≤ |X / Δ| * (5 * u) + u := by
  have ht : Format.tiny .binary64 ≤ u := (show pow2 (-1074) ≤ pow2 (-53) from pow2_le.2 (by norm_num)).trans hv
  have ec := nearest_error64 hd
  have ez := nearest_error_any (F := .binary64) (x * nearest .binary64 (1 / d))
  unfold fdiv
  have hunit : Format.unit .binary64 = pow2 (-53) := rfl
  rw [hunit] at ez
  have hv0 := pow2_pos (-53)
  generalize pow2 (-53) = v at *
  generalize nearest .binary64 (1 / d) = c at *
  generalize nearest .binary64 (x * c) = z at *
  generalize Format.tiny .binary64 = τ at *
  -- reduce to relative errors
  have hΔ' : 0 < |Δ| := abs_pos.2 hΔ
  obtain ⟨e1, he1, hx⟩ : ∃ e1, |e1| ≤ u ∧ x = X * (1 + e1) := by
    by_cases h0 : X = 0
    · refine ⟨0, by simpa using hu0.le, ?_⟩
      rw [h0, abs_zero, zero_mul, sub_zero] at ex
      rw [h0, zero_mul]
      exact abs_nonpos_iff.1 ex
    · refine ⟨(x - X) / X, ?_, by field_simp; ring⟩
      rw [abs_div, div_le_iff₀ (abs_pos.2 h0)]
      linarith
  obtain ⟨e2, he2, hd'⟩ : ∃ e2, |e2| ≤ u ∧ d = Δ * (1 + e2) := by
    refine ⟨(d - Δ) / Δ, ?_, by field_simp; ring⟩
    rw [abs_div, div_le_iff₀ hΔ']
    linarith
  have k2 : 0 < 1 + e2 := by have := (abs_le.1 he2).1; linarith
  have hdne : d ≠ 0 := by rw [hd']; exact mul_ne_zero hΔ k2.ne'
  obtain ⟨e3, he3, hc⟩ : ∃ e3, |e3| ≤ v ∧ c = 1 / d * (1 + e3) := by
    have h1 : 0 < |1 / d| := abs_pos.2 (one_div_ne_zero hdne)
    refine ⟨(c - 1 / d) / (1 / d), ?_, by field_simp; ring⟩
    rw [abs_div, div_le_iff₀ h1]
    linarith
  have hxc : x * c = X / Δ * ((1 + e1) * (1 + e3) / (1 + e2)) := by
    rw [hc, hx, hd']
    field_simp
  -- the relative error of the product
  have hu2 : u * u ≤ u / 1024 := by nlinarith
  obtain ⟨w, hw⟩ : ∃ w, w = (1 + e1) * (1 + e3) / (1 + e2) := ⟨_, rfl⟩
  rw [← hw] at hxc
  have hw' : w * (1 + e2) = (1 + e1) * (1 + e3) := by rw [hw]; field_simp
  have he3' : |e3| ≤ u := he3.trans hv
  obtain ⟨a1, a2⟩ := abs_le.1 he1
  obtain ⟨b1, b2⟩ := abs_le.1 he2
  obtain ⟨c1, c2⟩ := abs_le.1 he3'
  have p1 : |e1 * e3| ≤ u / 1024 := by
    rw [abs_mul]; have := mul_le_mul he1 he3' (abs_nonneg _) hu0.le; linarith
  obtain ⟨q1, q2⟩ := abs_le.1 p1
  have hw1 : |w - 1| ≤ 7 / 2 * u := by
    rw [abs_le]
    constructor
    · by_contra hn
      push Not at hn
      have : w * (1 + e2) < (1 - 7 / 2 * u) * (1 + e2) := mul_lt_mul_of_pos_right (by linarith) k2
      nlinarith
    · by_contra hn
      push Not at hn
      have : (1 + 7 / 2 * u) * (1 + e2) < w * (1 + e2) := mul_lt_mul_of_pos_right (by linarith) k2
      nlinarith
  rw [hxc] at ez
  have hyz : z - X / Δ = (z - X / Δ * w) + X / Δ * (w - 1) := by ring
  rw [hyz]
  refine (abs_add_le _ _).trans ?_
  rw [abs_mul] at ez ⊢
  have hwle : |w| ≤ 1 + 7 / 2 * u := by
    have := abs_sub_abs_le_abs_sub w 1
    rw [abs_one] at this
    linarith
  have hy := abs_nonneg (X / Δ)
  generalize |X / Δ| = y at *
  have s1 : y * |w - 1| ≤ y * (7 / 2 * u) := mul_le_mul_of_nonneg_left hw1 hy
  have s2 : y * |w| * v ≤ y * (1 + 7 / 2 * u) * u :=
    mul_le_mul (mul_le_mul_of_nonneg_left hwle hy) hv hv0.le (by positivity)
  have s3 : y * (1 + 7 / 2 * u) * u ≤ y * (3 / 2 * u) := by
    rw [mul_assoc]
    refine mul_le_mul_of_nonneg_left ?_ hy
    nlinarith
  linarith

/-- A rounded quotient of rounded numbers in the same order is at most one. -/
theorem fdiv_le_one' (hd0 : d ≠ 0) (hd : pow2 (-1022) ≤ |1 / d|) (h : x / d ≤ 1) : fdiv x d ≤ 1 := by
  have e1 := nearest_error64 hd
  have h1 : x * nearest .binary64 (1 / d) ≤ 1 + pow2 (-53) := by
    have hle : d * nearest .binary64 (1 / d) ≤ 1 + pow2 (-53) := by
      have h2 := mul_le_mul_of_nonneg_left e1 (abs_nonneg d)
      rw [← abs_mul, ← mul_assoc, ← abs_mul, mul_sub, mul_one_div_cancel hd0, abs_one, one_mul] at h2
      linarith [(abs_le.1 h2).2]
    have hnn : 0 ≤ d * nearest .binary64 (1 / d) := by
      rcases lt_or_gt_of_ne hd0 with hneg | hpos
      · have : nearest .binary64 (1 / d) ≤ 0 := by
          have := nearest_mono (F := .binary64) (one_div_neg.2 hneg).le
          rwa [nearest_zero] at this
        nlinarith
      · exact mul_nonneg hpos.le (nearest_nonneg (one_div_pos.2 hpos).le)
    have hq : x * nearest .binary64 (1 / d) = x / d * (d * nearest .binary64 (1 / d)) := by
      field_simp
    rw [hq]
    have := pow2_pos (-53)
    rcases le_or_gt 0 (x / d) with h0 | h0
    · nlinarith
    · nlinarith
  have h2 := nearest_mono (F := .binary64) h1
  rwa [show nearest .binary64 (1 + pow2 (-53)) = 1 by decide +kernel] at h2

theorem fdiv_nonneg' (h : 0 ≤ x / d) : 0 ≤ fdiv x d := by
  refine nearest_nonneg ?_
  rcases lt_trichotomy d 0 with hd | rfl | hd
  · have h1 : nearest .binary64 (1 / d) ≤ 0 := by
      have := nearest_mono (F := .binary64) (one_div_neg.2 hd).le
      rwa [nearest_zero] at this
    have h2 : x ≤ 0 := by
      by_contra hn
      push Not at hn
      exact absurd (div_neg_of_pos_of_neg hn hd) (not_lt.2 h)
    exact mul_nonneg_of_nonpos_of_nonpos h2 h1
  · simp
  · have h1 : 0 ≤ nearest .binary64 (1 / d) := nearest_nonneg (one_div_pos.2 hd).le
    have h2 : 0 ≤ x := by
      by_contra hn
      push Not at hn
      exact absurd (div_neg_of_neg_of_pos hn hd) (not_lt.2 h)
    exact mul_nonneg h2 h1

end Div

/-- What is in a computed slab is nearly in the slab. -/
theorem near_of_inS' {y1 y2 z1 z2 t u : ℚ} (hu0 : 0 < u) (hu1 : u ≤ 1 / 1024) (h0 : 0 ≤ t) (h1 : t ≤ 1)
    (e1 : |z1 - y1| ≤ |y1| * (5 * u) + u) (e2 : |z2 - y2| ≤ |y2| * (5 * u) + u) (hz1 : z1 ≤ t) (hz2 : t ≤ z2) :
    y1 - 8 * u ≤ t ∧ t ≤ y2 + 8 * u := by
  rw [abs_le] at e1 e2
  constructor
  · rcases le_total y1 0 with h | h
    · linarith
    · rw [abs_of_nonneg h] at e1
      by_contra hn
      push Not at hn
      nlinarith
  · by_contra hn
    push Not at hn
    rcases le_total 0 y2 with h | h
    · rw [abs_of_nonneg h] at e2
      nlinarith
    · rw [abs_of_nonpos h] at e2
      nlinarith

/-- What is well inside the slab is in the computed slab. -/
theorem inS_of_inside' {y1 y2 z1 z2 t u : ℚ} (hu0 : 0 < u) (hu1 : u ≤ 1 / 1024) (h0 : 0 ≤ t) (h1 : t ≤ 1)
    (e1 : |z1 - y1| ≤ |y1| * (5 * u) + u) (e2 : |z2 - y2| ≤ |y2| * (5 * u) + u) (hy1 : y1 + 8 * u ≤ t) (hy2 : t ≤ y2 - 8 * u) :
    z1 ≤ t ∧ t ≤ z2 := by
  rw [abs_le] at e1 e2
  constructor
  · rcases le_total y1 0 with h | h
    · rw [abs_of_nonpos h] at e1
      nlinarith
    · rw [abs_of_nonneg h] at e1
      nlinarith
  · rw [abs_of_nonneg (by linarith : 0 ≤ y2)] at e2
    nlinarith

/-! ### one dimension -/

namespace NoisyFloat

theorem abs_sub_upto {qa qb : ℚ} {k : ℤ} (ha : |qa| ≤ pow2 k) (hb : |qb| ≤ pow2 k) : |qa - qb| ≤ pow2 (k + 1) := by
  have : pow2 (k + 1) = pow2 k + pow2 k := by
    rw [pow2_add, pow2_eq 1, zpow_one, mul_two]
  rw [this, abs_le]
  rw [abs_le] at ha hb
  exact ⟨by linarith [ha.1, hb.2], by linarith [ha.2, hb.1]⟩

theorem nearest_sub_error {qa qb : ℚ} (na : nearest F qa = qa) (nb : nearest F qb = qb) :
    |nearest F (qa - qb) - (qa - qb)| ≤ |qa - qb| * F.unit := by
  have := nearest_add_error na (b := -qb) (by rw [nearest_neg, nb])
  rwa [← sub_eq_add_neg] at this

theorem rnd_upto {q : ℚ} {c : XRat} {k : ℤ} (h1 : F.emin ≤ k) (h2 : k < F.emax) (hle : |q| ≤ pow2 k)
    (hc : (Rounding.ieee F).rnd q = c) : c = rat (nearest F q) ∧ |nearest F q| ≤ pow2 k := by
  obtain ⟨k1, k2⟩ := ieee_bound h1 h2 hle
  rw [k1] at hc
  exact ⟨hc.symm, k2⟩

/-- The difference of two numbers that are not too large. -/
theorem sub_upto {a b c : NoisyFloat F} {k : ℤ} (h1 : F.emin ≤ k + 1) (h2 : k + 1 < F.emax) (ha : Upto k a) (hb : Upto k b)
    (h : Scalar.sub a b = some c) :
    c.1 = rat (nearest F (Scalar.toRat a - Scalar.toRat b)) ∧
      |nearest F (Scalar.toRat a - Scalar.toRat b)| ≤ pow2 (k + 1) ∧
      |nearest F (Scalar.toRat a - Scalar.toRat b) - (Scalar.toRat a - Scalar.toRat b)| ≤
        |Scalar.toRat a - Scalar.toRat b| * F.unit := by
  obtain ⟨⟨qa, hqa⟩, ha⟩ := ha
  obtain ⟨⟨qb, hqb⟩, hb⟩ := hb
  have hqa' : a.1 = rat qa := hqa
  have hqb' : b.1 = rat qb := hqb
  have ta : Scalar.toRat a = qa := congrArg XRat.toRat hqa'
  have tb : Scalar.toRat b = qb := congrArg XRat.toRat hqb'
  have na : nearest F qa = qa := nearest_of_isOf (by rw [← hqa']; exact a.2)
  have nb : nearest F qb = qb := nearest_of_isOf (by rw [← hqb']; exact b.2)
  have hc : F64.sub (.ieee F) (some a.1) (some b.1) = some c.1 := of_check (F := F) h
  rw [hqa', hqb', F64.sub_rat] at hc
  rw [ta, tb]
  rw [ta] at ha
  rw [tb] at hb
  obtain ⟨k1, k2⟩ := rnd_upto h1 h2 (abs_sub_upto ha hb) (Option.some.inj hc)
  exact ⟨k1, k2, nearest_sub_error na nb⟩

/-- Two finite numbers of a format that does not reach below `2 ^ -500` are equal or so far apart. -/
theorem apart {a b : NoisyFloat F} (ha : Scalar.Finite a) (hb : Scalar.Finite b) (he : -500 ≤ F.emin) :
    a = b ∨ pow2 (-500) ≤ |Scalar.toRat b - Scalar.toRat a| := by
  obtain ⟨qa, hqa⟩ := ha
  obtain ⟨qb, hqb⟩ := hb
  have hqa' : a.1 = rat qa := hqa
  have hqb' : b.1 = rat qb := hqb
  have ta : Scalar.toRat a = qa := congrArg XRat.toRat hqa'
  have tb : Scalar.toRat b = qb := congrArg XRat.toRat hqb'
  have na : nearest F qa = qa := nearest_of_isOf (by rw [← hqa']; exact a.2)
  have nb : nearest F qb = qb := nearest_of_isOf (by rw [← hqb']; exact b.2)
  obtain ⟨m, hm⟩ := multiple_of_nearest na
  obtain ⟨n, hn⟩ := multiple_of_nearest nb
  by_cases hmn : m = n
  · left
    apply Subtype.ext
    rw [hqa', hqb', hm, hn, hmn]
  · right
    rw [ta, tb, hm, hn, ← sub_mul, abs_mul, abs_of_pos (pow2_pos _), ← Int.cast_sub, ← Int.cast_abs]
    have h1 : (1 : ℚ) ≤ ((|n - m| : ℤ) : ℚ) := by
      exact_mod_cast Int.one_le_abs (sub_ne_zero.2 (Ne.symm hmn))
    have h2 : pow2 (-500) ≤ pow2 F.emin := pow2_le.2 he
    have h3 := pow2_pos F.emin
    nlinarith

end NoisyFloat

section Slab

variable {k : ℤ} {nz : Bool} {bmin bmax o p d : NoisyFloat F}

theorem toRat_sub_rounded {c : NoisyFloat F} {q : ℚ} (h : c.1 = rat q) : Scalar.toRat c = q := by
  show (c.1).toRat = q
  rw [h]; rfl

/-- A segment that does not move in the dimension is answered exactly. -/
theorem inS_still (hF : F.Between) (h1 : F.emin ≤ k + 1) (h2 : k + 1 < F.emax) (hmin : Upto k bmin) (hmax : Upto k bmax) (ho : Upto k o) (hb : bmin ≤ bmax)
    (hd : d.1 = rat 0) {s : F64 × F64} (h : slab .binary64 nz bmin bmax o d = some s) (t : ℚ) :
    InS s t ↔ Scalar.toRat bmin ≤ Scalar.toRat o ∧ Scalar.toRat o ≤ Scalar.toRat bmax := by
  unfold slab at h
  obtain ⟨x, hx, h⟩ := Option.bind_eq_some_iff.1 h
  obtain ⟨y, hy, h⟩ := Option.bind_eq_some_iff.1 h
  injection h with h
  obtain ⟨ex, -, eX⟩ := NoisyFloat.sub_upto h1 h2 hmin ho hx
  obtain ⟨ey, -, eY⟩ := NoisyFloat.sub_upto h1 h2 hmax ho hy
  have hle : Scalar.toRat bmin ≤ Scalar.toRat bmax := NoisyFloat.toRat_le hmin.1 hmax.1 hb
  have hu0 := F.unit_pos
  have hu1 := hF.unit_le
  have hmono : nearest F (Scalar.toRat bmin - Scalar.toRat o) ≤ nearest F (Scalar.toRat bmax - Scalar.toRat o) :=
    nearest_mono (by linarith)
  have hs : s = rawSlab nz (nearest F (Scalar.toRat bmin - Scalar.toRat o) - 0)
      (nearest F (Scalar.toRat bmax - Scalar.toRat o) - 0) 0 := by
    rw [← h]
    show (F64.mul _ (some x.1) (F64.recip _ nz (some d.1)), F64.mul _ (some y.1) (F64.recip _ nz (some d.1))) = _
    rw [ex, ey, hd, rawSlab, sub_zero, sub_zero]
    cases nz <;> simp [recip, fin, F64.mul, F64.inf, F64.negInf]
  rw [hs, inS_rawSlab nz 0 0 hmono, InSlab, mul_zero, add_zero]
  generalize hX : Scalar.toRat bmin - Scalar.toRat o = X at *
  generalize hY : Scalar.toRat bmax - Scalar.toRat o = Y at *
  generalize nearest F X = x' at *
  generalize nearest F Y = y' at *
  have l1 : x' ≤ 0 ↔ X ≤ 0 := by
    rw [abs_le] at eX
    constructor
    · intro hx
      by_contra hn
      push Not at hn
      rw [abs_of_pos hn] at eX
      nlinarith
    · intro hx
      rw [abs_of_nonpos hx] at eX
      nlinarith
  have l2 : 0 ≤ y' ↔ 0 ≤ Y := by
    rw [abs_le] at eY
    constructor
    · intro hy
      by_contra hn
      push Not at hn
      rw [abs_of_neg hn] at eY
      nlinarith
    · intro hy
      rw [abs_of_nonneg hy] at eY
      nlinarith
  rw [l1, l2, ← hX, ← hY, _root_.sub_nonpos, _root_.sub_nonneg]

/-- The ends of a computed slab, in order, for a segment that moves. -/
theorem slab_ends_float (hF : F.Between) (h1 : F.emin ≤ k + 1) (h2 : k + 1 < F.emax) (hk : k ≤ 500) (hmin : Upto k bmin)
    (hmax : Upto k bmax) (ho : Upto k o) (hp : Upto k p) (hb : bmin ≤ bmax) (hd : Scalar.sub p o = some d)
    (hmove : pow2 (-500) ≤ |Scalar.toRat p - Scalar.toRat o|) {s : F64 × F64}
    (h : slab .binary64 nz bmin bmax o d = some s) :
    ∃ y1 y2 z1 z2 : ℚ, (∀ t, InS s t ↔ z1 ≤ t ∧ t ≤ z2) ∧ z1 ≤ z2 ∧ y1 ≤ y2 ∧
      |z1 - y1| ≤ |y1| * (5 * F.unit) + F.unit ∧ |z2 - y2| ≤ |y2| * (5 * F.unit) + F.unit ∧
      (y1 ≤ 1 → z1 ≤ 1) ∧ (0 ≤ y2 → 0 ≤ z2) ∧
      (∀ t e, Scalar.toRat bmin - e * |Scalar.toRat p - Scalar.toRat o| ≤
          Scalar.toRat o + t * (Scalar.toRat p - Scalar.toRat o) ∧
        Scalar.toRat o + t * (Scalar.toRat p - Scalar.toRat o) ≤
          Scalar.toRat bmax + e * |Scalar.toRat p - Scalar.toRat o| ↔ y1 - e ≤ t ∧ t ≤ y2 + e) := by
  unfold slab at h
  obtain ⟨x, hx, h⟩ := Option.bind_eq_some_iff.1 h
  obtain ⟨y, hy, h⟩ := Option.bind_eq_some_iff.1 h
  injection h with h
  obtain ⟨ex, bx, eX⟩ := NoisyFloat.sub_upto h1 h2 hmin ho hx
  obtain ⟨ey, by', eY⟩ := NoisyFloat.sub_upto h1 h2 hmax ho hy
  obtain ⟨ed, bd, eΔ⟩ := NoisyFloat.sub_upto h1 h2 hp ho hd
  have hle : Scalar.toRat bmin ≤ Scalar.toRat bmax := NoisyFloat.toRat_le hmin.1 hmax.1 hb
  have hu0 := F.unit_pos
  have hu1 := hF.unit_le
  have hv := hF.le_unit
  have mXY : nearest F (Scalar.toRat bmin - Scalar.toRat o) ≤ nearest F (Scalar.toRat bmax - Scalar.toRat o) :=
    nearest_mono (by linarith)
  have hs : s = (F64.mul .binary64 (some (rat (nearest F (Scalar.toRat bmin - Scalar.toRat o))))
        (F64.recip .binary64 nz (some (rat (nearest F (Scalar.toRat p - Scalar.toRat o))))),
      F64.mul .binary64 (some (rat (nearest F (Scalar.toRat bmax - Scalar.toRat o))))
        (F64.recip .binary64 nz (some (rat (nearest F (Scalar.toRat p - Scalar.toRat o)))))) := by
    rw [← h]
    show (F64.mul _ (some x.1) (F64.recip _ nz (some d.1)), F64.mul _ (some y.1) (F64.recip _ nz (some d.1))) = _
    rw [ex, ey, ed]
  clear h ex ey ed hx hy hd
  have em : Scalar.toRat bmin = Scalar.toRat bmin - Scalar.toRat o + Scalar.toRat o := by ring
  have eM : Scalar.toRat bmax = Scalar.toRat bmax - Scalar.toRat o + Scalar.toRat o := by ring
  have mX : ∀ q : ℚ, q ≤ Scalar.toRat p - Scalar.toRat o → nearest F q ≤ nearest F (Scalar.toRat p - Scalar.toRat o) :=
    fun q hq => nearest_mono hq
  have mX' : ∀ q : ℚ, Scalar.toRat p - Scalar.toRat o ≤ q → nearest F (Scalar.toRat p - Scalar.toRat o) ≤ nearest F q :=
    fun q hq => nearest_mono hq
  generalize hX : Scalar.toRat bmin - Scalar.toRat o = X at *
  generalize hY : Scalar.toRat bmax - Scalar.toRat o = Y at *
  generalize hΔ : Scalar.toRat p - Scalar.toRat o = Δ at *
  rw [em, eM]
  generalize Scalar.toRat o = o'
  have hXY : X ≤ Y := by linarith
  have nX : 0 ≤ X → 0 ≤ nearest F X := fun h => nearest_nonneg h
  have nX' : X ≤ 0 → nearest F X ≤ 0 := fun h => by have := nearest_mono (F := F) h; rwa [nearest_zero] at this
  have nY : 0 ≤ Y → 0 ≤ nearest F Y := fun h => nearest_nonneg h
  have nY' : Y ≤ 0 → nearest F Y ≤ 0 := fun h => by have := nearest_mono (F := F) h; rwa [nearest_zero] at this
  have mX1 := mX X
  have mY1 := mX' Y
  have mX2 := mX' X
  have mY2 := mX Y
  clear mX mX' em eM hmin hmax ho hp hb hle
  generalize nearest F X = x' at *
  generalize nearest F Y = y' at *
  generalize nearest F Δ = d' at *
  -- magnitudes
  have hp500 := pow2_pos (-500)
  have hΔ0 : Δ ≠ 0 := fun h0 => by rw [h0, abs_zero] at hmove; linarith
  have hΔp : 0 < |Δ| := abs_pos.2 hΔ0
  have hdlo : pow2 (-501) ≤ |d'| := by
    have := abs_sub_abs_le_abs_sub Δ d'
    rw [abs_sub_comm] at this
    have h3 : pow2 (-500) = 2 * pow2 (-501) := by
      rw [show (-500 : ℤ) = 1 + -501 by norm_num, pow2_add]; rfl
    nlinarith
  have hsgn : (0 < Δ ↔ 0 < d') := by
    rw [abs_le] at eΔ
    constructor
    · intro h
      rw [abs_of_pos h] at eΔ
      nlinarith
    · intro h
      by_contra hn
      push Not at hn
      rw [abs_of_nonpos hn] at eΔ
      nlinarith
  have hd0 : d' ≠ 0 := fun h0 => by
    rw [h0, abs_zero] at hdlo
    exact absurd (pow2_pos (-501)) (not_lt.2 hdlo)
  have hk1 : pow2 (k + 1) ≤ pow2 501 := pow2_le.2 (by omega)
  have inv : pow2 (-501) * pow2 501 = 1 := by rw [← pow2_add]; rfl
  have hinvlo : pow2 (-1022) ≤ |1 / d'| := by
    rw [abs_div, abs_one, le_div_iff₀ (abs_pos.2 hd0)]
    have h3 : pow2 (-1022) ≤ pow2 (-501) := pow2_le.2 (by norm_num)
    have h4 : |d'| ≤ pow2 501 := bd.trans hk1
    have := mul_le_mul h3 h4 (abs_nonneg _) (pow2_pos _).le
    linarith
  have hinvhi : |1 / d'| ≤ pow2 501 := by
    rw [abs_div, abs_one, div_le_iff₀ (abs_pos.2 hd0)]
    have := mul_le_mul_of_nonneg_right hdlo (pow2_pos 501).le
    linarith
  obtain ⟨r1, r2⟩ := binary64_bound (by norm_num) (by norm_num) hinvhi
  have prod : ∀ w : ℚ, |w| ≤ pow2 (k + 1) →
      F64.mul .binary64 (some (rat w)) (F64.recip .binary64 nz (some (rat d'))) = some (rat (fdiv w d')) := by
    intro w hw
    have h3 : |w * nearest .binary64 (1 / d')| ≤ pow2 1002 := by
      rw [abs_mul, show (1002 : ℤ) = 501 + 501 by norm_num, pow2_add]
      exact mul_le_mul (hw.trans hk1) r2 (abs_nonneg _) (pow2_pos _).le
    obtain ⟨r3, -⟩ := binary64_bound (by norm_num) (by norm_num) h3
    show F64.mul _ _ (if d' = 0 then _ else some (Rounding.binary64.rnd (1 / d'))) = _
    rw [if_neg hd0, r1, F64.mul_rat, r3]
    rfl
  rw [prod x' bx, prod y' by'] at hs
  have cX := fdiv_close hu0 hu1 hv hΔ0 eX eΔ hinvlo
  have cY := fdiv_close hu0 hu1 hv hΔ0 eY eΔ hinvlo
  subst hs
  rcases lt_or_gt_of_ne hΔ0 with hneg | hpos
  · have hdneg : d' < 0 := lt_of_le_of_ne (not_lt.1 fun h => absurd (hsgn.2 h) (not_lt.2 hneg.le)) hd0
    have hz : fdiv y' d' ≤ fdiv x' d' := by
      refine nearest_mono (mul_le_mul_of_nonpos_right mXY ?_)
      have := nearest_mono (F := .binary64) (one_div_neg.2 hdneg).le
      rwa [nearest_zero] at this
    refine ⟨Y / Δ, X / Δ, fdiv y' d', fdiv x' d', fun t => ?_, hz, div_le_div_of_nonpos_of_le hneg.le hXY, cY, cX,
      fun h => fdiv_le_one' hd0 hinvlo ?_, fun h => fdiv_nonneg' ?_, fun t e => ?_⟩
    · rw [InS_rat, min_eq_right hz, max_eq_left hz]
    · rw [div_le_iff_of_neg hneg, one_mul] at h
      rw [div_le_iff_of_neg hdneg, one_mul]
      exact mY1 h
    · have : X ≤ 0 := by
        by_contra hn
        push Not at hn
        exact absurd (div_neg_of_pos_of_neg hn hneg) (not_lt.2 h)
      exact div_nonneg_of_nonpos (nX' this) hdneg.le
    · have k1 : Y / Δ - e ≤ t ↔ Y / Δ ≤ t + e := sub_le_iff_le_add
      have k2 : t ≤ X / Δ + e ↔ t - e ≤ X / Δ := sub_le_iff_le_add.symm
      rw [abs_of_neg hneg, k1, k2, div_le_iff_of_neg hneg, le_div_iff_of_neg hneg]
      constructor <;> rintro ⟨h1, h2⟩ <;> constructor <;> linarith
  · have hdpos : 0 < d' := hsgn.1 hpos
    have hz : fdiv x' d' ≤ fdiv y' d' :=
      nearest_mono (mul_le_mul_of_nonneg_right mXY (nearest_nonneg (one_div_pos.2 hdpos).le))
    refine ⟨X / Δ, Y / Δ, fdiv x' d', fdiv y' d', fun t => ?_, hz, div_le_div_of_nonneg_right hXY hpos.le, cX, cY,
      fun h => fdiv_le_one' hd0 hinvlo ?_, fun h => fdiv_nonneg' ?_, fun t e => ?_⟩
    · rw [InS_rat, min_eq_left hz, max_eq_right hz]
    · rw [div_le_iff₀ hpos, one_mul] at h
      rw [div_le_iff₀ hdpos, one_mul]
      exact mX1 h
    · have : 0 ≤ Y := by
        by_contra hn
        push Not at hn
        exact absurd (div_neg_of_neg_of_pos hn hpos) (not_lt.2 h)
      exact div_nonneg (nY this) hdpos.le
    · have k1 : X / Δ - e ≤ t ↔ X / Δ ≤ t + e := sub_le_iff_le_add
      have k2 : t ≤ Y / Δ + e ↔ t - e ≤ Y / Δ := sub_le_iff_le_add.symm
      rw [abs_of_pos hpos, k1, k2, div_le_iff₀ hpos, le_div_iff₀ hpos]
      constructor <;> rintro ⟨h1, h2⟩ <;> constructor <;> linarith

end Slab

/-! ### segments -/

section Segment

variable {k : ℤ} {nz : Fin D → Bool} {l : Line (NoisyFloat F) D} {b : AABB (NoisyFloat F) D} {r : Bool}
  (hF : F.Between) (h1 : F.emin ≤ k + 1) (h2 : k + 1 < F.emax) (hk : k ≤ 500) (hm : l.Moderate k b) (hb : b.Valid)

theorem Line.of_intersectsBox_float (h : l.intersectsBox .binary64 nz b = some r) :
    ∃ d : SVec (NoisyFloat F) D, (∀ i, Scalar.sub (l.p1.get i) (l.p0.get i) = some (d.get i)) ∧
      (∀ i, ∃ s, slab .binary64 (nz i) (b.min.get i) (b.max.get i) (l.p0.get i) (d.get i) = some s) ∧
      (r = true ↔ ∃ t : ℚ, 0 ≤ t ∧ t ≤ 1 ∧ ∀ i s,
        slab .binary64 (nz i) (b.min.get i) (b.max.get i) (l.p0.get i) (d.get i) = some s → InS s t) := by
  unfold Line.intersectsBox at h
  obtain ⟨d, hd, h⟩ := Option.bind_eq_some_iff.1 h
  exact ⟨d, SVec.sub_get' hd, lineBoundsIntersect_slabs h, lineBoundsIntersect_inS h⟩

include h1 h2 hm in
theorem Line.Moderate.still {d : NoisyFloat F} {i : Fin D} (hi : l.p0.get i = l.p1.get i)
    (hd : Scalar.sub (l.p1.get i) (l.p0.get i) = some d) : d.1 = rat 0 := by
  obtain ⟨e, -, -⟩ := NoisyFloat.sub_upto h1 h2 (hm.p1 i) (hm.p0 i) hd
  rw [e, hi, sub_self, nearest_zero]

include hF h1 h2 hk hm hb in
/-- A reported segment nearly meets the box. -/
theorem Line.meetsWithin_of_intersectsBox_float (h : l.intersectsBox .binary64 nz b = some true) :
    l.MeetsWithin b (8 * F.unit) := by
  obtain ⟨d, hd, hs, hr⟩ := Line.of_intersectsBox_float h
  obtain ⟨t, h0, ht1, ht⟩ := hr.1 rfl
  refine ⟨t, h0, ht1, fun i => ?_⟩
  obtain ⟨s, hs⟩ := hs i
  have hi := ht i s hs
  rcases hm.move i with hz | hz
  · have := (inS_still hF h1 h2 (hm.min i) (hm.max i) (hm.p0 i) (hb i) (hm.still h1 h2 hz (hd i)) hs t).1 hi
    rw [hz, sub_self, abs_zero, mul_zero, mul_zero, sub_zero, add_zero, add_zero, ← hz]
    exact this
  · obtain ⟨y1, y2, z1, z2, k1, -, -, e1, e2, -, -, k2⟩ :=
      slab_ends_float hF h1 h2 hk (hm.min i) (hm.max i) (hm.p0 i) (hm.p1 i) (hb i) (hd i) hz hs
    obtain ⟨hz1, hz2⟩ := (k1 t).1 hi
    exact (k2 t _).2 (near_of_inS' F.unit_pos hF.unit_le h0 ht1 e1 e2 hz1 hz2)

include hF h1 h2 hk hm hb in
/-- A segment that meets a slightly smaller box is reported. -/
theorem Line.intersectsBox_of_meetsWithin_float (h : l.intersectsBox .binary64 nz b = some r)
    (hw : l.MeetsWithin b (-(8 * F.unit))) : r = true := by
  obtain ⟨d, hd, -, hr⟩ := Line.of_intersectsBox_float h
  obtain ⟨t, h0, ht1, ht⟩ := hw
  refine hr.2 ⟨t, h0, ht1, fun i s hs => ?_⟩
  have hi := ht i
  rcases hm.move i with hz | hz
  · refine (inS_still hF h1 h2 (hm.min i) (hm.max i) (hm.p0 i) (hb i) (hm.still h1 h2 hz (hd i)) hs t).2 ?_
    rw [hz, sub_self, abs_zero, mul_zero, mul_zero, sub_zero, add_zero, add_zero, ← hz] at hi
    exact hi
  · obtain ⟨y1, y2, z1, z2, k1, -, -, e1, e2, -, -, k2⟩ :=
      slab_ends_float hF h1 h2 hk (hm.min i) (hm.max i) (hm.p0 i) (hm.p1 i) (hb i) (hd i) hz hs
    obtain ⟨hy1, hy2⟩ := (k2 t _).1 hi
    exact (k1 t).2 (inS_of_inside' F.unit_pos hF.unit_le h0 ht1 e1 e2 (by linarith) (by linarith))

include hF h1 h2 hk hm hb in
/-- A segment that moves in at most one dimension and meets the box is reported. -/
theorem Line.intersectsBox_axis_float (h : l.intersectsBox .binary64 nz b = some r)
    (hax : ∀ i j, l.p0.get i ≠ l.p1.get i → l.p0.get j ≠ l.p1.get j → i = j) (hw : l.Meets b) : r = true := by
  obtain ⟨d, hd, hs, hr⟩ := Line.of_intersectsBox_float h
  obtain ⟨t, h0, ht1, ht⟩ := hw
  have still : ∀ i, l.p0.get i = l.p1.get i → ∀ u s,
      slab .binary64 (nz i) (b.min.get i) (b.max.get i) (l.p0.get i) (d.get i) = some s → InS s u := by
    intro i hi u s hs
    refine (inS_still hF h1 h2 (hm.min i) (hm.max i) (hm.p0 i) (hb i) (hm.still h1 h2 hi (hd i)) hs u).2 ?_
    have := ht i
    simp only [← hi, sub_self, mul_zero, add_zero] at this
    exact this
  by_cases hmove : ∃ j, l.p0.get j ≠ l.p1.get j
  · obtain ⟨j, hj⟩ := hmove
    obtain ⟨s, hs⟩ := hs j
    obtain ⟨y1, y2, z1, z2, k1, hz12, -, -, -, k3, k4, k5⟩ :=
      slab_ends_float hF h1 h2 hk (hm.min j) (hm.max j) (hm.p0 j) (hm.p1 j) (hb j) (hd j)
        ((hm.move j).resolve_left hj) hs
    obtain ⟨hy1, hy2⟩ := (k5 t 0).1 (by have := ht j; rw [zero_mul, sub_zero, add_zero]; exact this)
    rw [sub_zero] at hy1
    rw [add_zero] at hy2
    have hz1 := k3 (hy1.trans ht1)
    have hz2 := k4 (h0.trans hy2)
    refine hr.2 ⟨Max.max 0 z1, le_max_left _ _, max_le (by norm_num) hz1, fun i s' hs' => ?_⟩
    by_cases hi : l.p0.get i = l.p1.get i
    · exact still i hi _ s' hs'
    · obtain rfl := hax i j hi hj
      rw [hs] at hs'
      injection hs' with hs'
      subst hs'
      exact (k1 _).2 ⟨le_max_right _ _, max_le hz2 hz12⟩
  · push Not at hmove
    exact hr.2 ⟨t, h0, ht1, fun i s hs => still i (hmove i) t s hs⟩

end Segment

end RTree
