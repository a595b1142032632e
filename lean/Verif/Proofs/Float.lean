import Verif.Model.Float
import Mathlib.Tactic.Linarith
import Mathlib.Tactic.Ring
import Mathlib.Tactic.Positivity
import Mathlib.Tactic.FieldSimp
import Mathlib.Tactic.NormNum
import Mathlib.Algebra.Order.Field.Power
import Mathlib.Algebra.Order.Floor.Ring
/-! Rounding to binary64: it is monotone, odd, and leaves the numbers of the format alone. -/

namespace RTree

theorem pow2_eq (k : ℤ) : pow2 k = (2 : ℚ) ^ k := by
  cases k with
  | ofNat n => simp [pow2]
  | negSucc n =>
    rw [pow2, zpow_negSucc, Rat.mkRat_eq_div]
    push_cast
    rw [one_div]

theorem pow2_pos (k : ℤ) : 0 < pow2 k := by rw [pow2_eq]; positivity

theorem pow2_le {a b : ℤ} : pow2 a ≤ pow2 b ↔ a ≤ b := by
  rw [pow2_eq, pow2_eq]; exact zpow_le_zpow_iff_right₀ (by norm_num)

theorem pow2_lt {a b : ℤ} : pow2 a < pow2 b ↔ a < b := by
  rw [pow2_eq, pow2_eq]; exact zpow_lt_zpow_iff_right₀ (by norm_num)

theorem pow2_add (a b : ℤ) : pow2 (a + b) = pow2 a * pow2 b := by
  rw [pow2_eq, pow2_eq, pow2_eq]; exact zpow_add₀ (by norm_num) a b

theorem pow2_sub (a b : ℤ) : pow2 (a - b) = pow2 a / pow2 b := by
  rw [pow2_eq, pow2_eq, pow2_eq]; exact zpow_sub₀ (by norm_num) a b

theorem pow2_natCast (n : ℕ) : pow2 n = ((2 ^ n : ℤ) : ℚ) := by rw [pow2_eq]; simp

theorem exponent_spec {q : ℚ} (h : q ≠ 0) : pow2 (exponent q) ≤ |q| ∧ |q| < pow2 (exponent q + 1) := by
  have hn : q.num.natAbs ≠ 0 := by simpa using h
  have hd : q.den ≠ 0 := q.den_nz
  have hq : |q| = (q.num.natAbs : ℚ) / (q.den : ℚ) := by
    conv_lhs => rw [← Rat.num_div_den q]
    rw [abs_div, Nat.abs_cast]
    congr 1
    rw [← Int.cast_abs, Int.abs_eq_natAbs]
    simp
  have n1 : (pow2 (Nat.log2 q.num.natAbs : ℕ)) ≤ (q.num.natAbs : ℚ) := by
    rw [pow2_eq]; exact_mod_cast Nat.log2_self_le hn
  have n2 : (q.num.natAbs : ℚ) < pow2 ((Nat.log2 q.num.natAbs : ℕ) + 1 : ℤ) := by
    have : q.num.natAbs < 2 ^ (Nat.log2 q.num.natAbs + 1) := Nat.lt_log2_self
    rw [pow2_eq]; exact_mod_cast this
  have d1 : (pow2 (Nat.log2 q.den : ℕ)) ≤ (q.den : ℚ) := by
    rw [pow2_eq]; exact_mod_cast Nat.log2_self_le hd
  have d2 : (q.den : ℚ) < pow2 ((Nat.log2 q.den : ℕ) + 1 : ℤ) := by
    have : q.den < 2 ^ (Nat.log2 q.den + 1) := Nat.lt_log2_self
    rw [pow2_eq]; exact_mod_cast this
  have hd0 : (0 : ℚ) < q.den := by exact_mod_cast Nat.pos_of_ne_zero hd
  generalize hA : (Nat.log2 q.num.natAbs : ℤ) = A at n1 n2
  generalize hB : (Nat.log2 q.den : ℤ) = B at d1 d2
  have hlow : pow2 (A - B - 1) ≤ |q| := by
    rw [hq, le_div_iff₀ hd0]
    have : pow2 (A - B - 1) * pow2 (B + 1) = pow2 A := by rw [← pow2_add]; congr 1; ring
    nlinarith [pow2_pos (A - B - 1)]
  have hhigh : |q| < pow2 (A - B + 1) := by
    rw [hq, div_lt_iff₀ hd0]
    have : pow2 (A - B + 1) * pow2 B = pow2 (A + 1) := by rw [← pow2_add]; congr 1; ring
    nlinarith [pow2_pos (A - B + 1)]
  unfold exponent
  rw [hA, hB]
  simp only
  split
  · rename_i hk
    exact ⟨hk, hhigh⟩
  · rename_i hk
    refine ⟨hlow, ?_⟩
    rw [sub_add_cancel]
    exact lt_of_not_ge hk

theorem exponent_neg (q : ℚ) : exponent (-q) = exponent q := by
  simp [exponent]

theorem exponent_le {q : ℚ} (h : q ≠ 0) {k : ℤ} (hk : |q| < pow2 (k + 1)) : exponent q ≤ k := by
  have h1 := (exponent_spec h).1
  have := pow2_lt.1 (lt_of_le_of_lt h1 hk)
  omega

theorem le_exponent {q : ℚ} (h : q ≠ 0) {k : ℤ} (hk : pow2 k ≤ |q|) : k ≤ exponent q := by
  have h1 := (exponent_spec h).2
  have := pow2_lt.1 (lt_of_le_of_lt hk h1)
  omega

theorem exponent_mono {a b : ℚ} (ha : a ≠ 0) (hab : |a| ≤ |b|) : exponent a ≤ exponent b := by
  have hb : b ≠ 0 := fun h => by rw [h, abs_zero] at hab; exact ha (abs_nonpos_iff.1 hab)
  exact exponent_le ha (lt_of_le_of_lt hab (exponent_spec hb).2)

/-! ### rounding to an integer -/

theorem floor_spec (x : ℚ) : (x.floor : ℚ) ≤ x ∧ x < x.floor + 1 :=
  ⟨Int.floor_le x, Int.lt_floor_add_one x⟩

theorem floor_unique {x : ℚ} {f : ℤ} (h1 : (f : ℚ) ≤ x) (h2 : x < f + 1) : x.floor = f :=
  (Int.floor_eq_iff (a := x)).2 ⟨h1, h2⟩

@[simp] theorem roundEven_intCast (n : ℤ) : roundEven (n : ℚ) = n := by
  have hf : (n : ℚ).floor = n := floor_unique (le_refl _) (by linarith)
  unfold roundEven
  rw [hf]
  simp

theorem roundEven_mono {x y : ℚ} (h : x ≤ y) : roundEven x ≤ roundEven y := by
  obtain ⟨hx1, hx2⟩ := floor_spec x
  obtain ⟨hy1, hy2⟩ := floor_spec y
  have hfy : x.floor ≤ y.floor := Int.floor_mono h
  have hlo : ∀ z : ℚ, z.floor ≤ roundEven z ∧ roundEven z ≤ z.floor + 1 := by
    intro z
    unfold roundEven
    simp only
    split
    · omega
    · split
      · omega
      · split <;> omega
  rcases hfy.lt_or_eq with hlt | heq
  · have := (hlo x).2; have := (hlo y).1; omega
  · unfold roundEven
    simp only
    rw [← heq] at hy1 hy2 ⊢
    split
    · split
      · exact le_refl _
      · split
        · omega
        · split <;> omega
    · split
      · split
        · exfalso; linarith
        · split
          · omega
          · exfalso; linarith
      · split
        · split
          · exfalso; linarith
          · split
            · omega
            · exact le_refl _
        · split
          · exfalso; linarith
          · split
            · omega
            · exact le_refl _

theorem roundEven_neg (x : ℚ) : roundEven (-x) = -roundEven x := by
  obtain ⟨h1, h2⟩ := floor_spec x
  rcases h1.lt_or_eq with h1 | h1
  · have hf : (-x).floor = -x.floor - 1 :=
      floor_unique (by push_cast; linarith) (by push_cast; linarith)
    unfold roundEven
    simp only
    rw [hf]
    push_cast
    have e1 : -x - (-(x.floor : ℚ) - 1) = 1 - (x - x.floor) := by ring
    rw [e1]
    generalize x - (x.floor : ℚ) = r
    generalize x.floor = f
    rcases lt_trichotomy r (1 / 2) with h | h | h
    · rw [if_neg (by linarith : ¬ 1 - r < 1 / 2), if_pos (by linarith : 1 / 2 < 1 - r), if_pos h]; ring
    · subst h
      norm_num
      split <;> split <;> omega
    · rw [if_pos (by linarith : 1 - r < 1 / 2), if_neg (by linarith : ¬ r < 1 / 2), if_pos h]; ring
  · rw [← h1, roundEven_intCast, show (-(x.floor : ℚ)) = ((-x.floor : ℤ) : ℚ) by push_cast; rfl, roundEven_intCast]

theorem roundEven_error (x : ℚ) : |roundEven x - x| ≤ 1 / 2 := by
  obtain ⟨h1, h2⟩ := floor_spec x
  unfold roundEven
  simp only
  rw [abs_le]
  split
  · constructor <;> linarith
  · split
    · push_cast; constructor <;> linarith
    · split
      · constructor <;> linarith
      · push_cast; constructor <;> linarith

/-! ### the nearest number of the format -/

/-- What the proofs need of a format. -/
structure Format.Ok (F : Format) : Prop where
  emin : F.emin ≤ 0
  emax : F.emin ≤ F.emax

theorem Format.binary64_ok : Format.binary64.Ok := ⟨by decide, by decide⟩

theorem Format.binary32_ok : Format.binary32.Ok := ⟨by decide, by decide⟩

section Nearest

variable {F : Format}

@[simp] theorem nearest_zero : nearest F 0 = 0 := by
  unfold nearest
  rw [zero_div, show (0 : ℚ) = ((0 : ℤ) : ℚ) by norm_num, roundEven_intCast]
  simp

theorem nearest_neg (q : ℚ) : nearest F (-q) = -nearest F q := by
  have : placeExp F (-q) = placeExp F q := by unfold placeExp; rw [exponent_neg]
  unfold nearest
  rw [this, neg_div, roundEven_neg]
  push_cast
  ring

/-- Numbers of few enough bits in the range of the exponents (unbounded upwards) are not changed. -/
theorem nearest_eq {q : ℚ} {m e : ℤ} (hq : q = m * pow2 e) (hm : |m| ≤ 2 ^ (F.bits + 1)) (he : F.emin ≤ e) : nearest F q = q := by
  by_cases h0 : q = 0
  · rw [h0, nearest_zero]
  have hm0 : m ≠ 0 := fun h => h0 (by rw [hq, h]; simp)
  have key : ∀ p : ℤ, p = placeExp F q → (∃ n : ℤ, q = n * pow2 p) → nearest F q = q := by
    rintro p rfl ⟨n, hn⟩
    unfold nearest
    have : q / pow2 (placeExp F q) = n := by
      rw [div_eq_iff (pow2_pos _).ne']; exact hn
    rw [this, roundEven_intCast, ← hn]
  have habs : |q| = (|m| : ℤ) * pow2 e := by
    rw [hq, abs_mul, abs_of_pos (pow2_pos e)]
    push_cast
    rfl
  rcases hm.lt_or_eq with hlt | heq
  · have hex : exponent q ≤ F.bits + e := by
      refine exponent_le h0 ?_
      rw [habs, show (F.bits : ℤ) + e + 1 = ((F.bits + 1 : ℕ) : ℤ) + e by push_cast; ring, pow2_add]
      refine mul_lt_mul_of_pos_right ?_ (pow2_pos e)
      rw [pow2_natCast]
      exact_mod_cast hlt
    have hp : placeExp F q ≤ e := by unfold placeExp; omega
    obtain ⟨d, hd⟩ := Int.le.dest hp
    refine key _ rfl ⟨m * 2 ^ d, ?_⟩
    have he' : pow2 e = pow2 (placeExp F q) * ((2 ^ d : ℤ) : ℚ) := by rw [← pow2_natCast, ← pow2_add, hd]
    conv_lhs => rw [hq, he']
    push_cast
    ring
  · have hq2 : |q| = pow2 (((F.bits + 1 : ℕ) : ℤ) + e) := by
      rw [habs, heq, pow2_add, pow2_natCast]
    have hex : exponent q = ((F.bits + 1 : ℕ) : ℤ) + e := by
      refine le_antisymm (exponent_le h0 ?_) (le_exponent h0 hq2.ge)
      rw [hq2]; exact pow2_lt.2 (by omega)
    have hp : placeExp F q = e + 1 := by unfold placeExp; omega
    have hmm : m = 2 ^ (F.bits + 1) ∨ m = -2 ^ (F.bits + 1) := by
      rcases abs_choice m with h | h <;> omega
    rcases hmm with rfl | rfl
    · refine key (e + 1) hp.symm ⟨2 ^ F.bits, ?_⟩
      rw [hq, pow2_add]
      push_cast
      rw [show pow2 1 = 2 by rfl]
      ring
    · refine key (e + 1) hp.symm ⟨-2 ^ F.bits, ?_⟩
      rw [hq, pow2_add]
      push_cast
      rw [show pow2 1 = 2 by rfl]
      ring

/-- Integers of few enough bits are not changed. -/
theorem nearest_intCast (hF : F.Ok) {z : ℤ} (h : |z| ≤ 2 ^ (F.bits + 1)) : nearest F (z : ℚ) = z :=
  nearest_eq (m := z) (e := 0) (by rw [show pow2 0 = 1 by rfl, mul_one]) h hF.emin

/-- Powers of two are not changed. -/
theorem nearest_pow2 {k : ℤ} (h : F.emin ≤ k) : nearest F (pow2 k) = pow2 k :=
  nearest_eq (m := 1) (e := k) (by simp) (by rw [abs_one]; exact one_le_pow₀ (by norm_num)) h

theorem nearest_mono_pos {a b : ℚ} (ha : 0 < a) (hab : a ≤ b) : nearest F a ≤ nearest F b := by
  have hb : 0 < b := lt_of_lt_of_le ha hab
  have hex := exponent_mono ha.ne' (by rwa [abs_of_pos ha, abs_of_pos hb] : |a| ≤ |b|)
  have hpl : placeExp F a ≤ placeExp F b := by unfold placeExp; omega
  rcases hpl.lt_or_eq with hlt | heq
  · -- there is a power of two between them
    have hpb : placeExp F b = exponent b - F.bits := by
      unfold placeExp at hlt ⊢; omega
    have hea : exponent a + 1 ≤ exponent b := by
      unfold placeExp at hlt; omega
    have h1 : a < pow2 (exponent b) := by
      have := (exponent_spec ha.ne').2
      rw [abs_of_pos ha] at this
      exact lt_of_lt_of_le this (pow2_le.2 hea)
    have h2 : pow2 (exponent b) ≤ b := by
      have := (exponent_spec hb.ne').1
      rwa [abs_of_pos hb] at this
    have key : ∀ p : ℤ, p ≤ exponent b → ∃ n : ℤ, pow2 (exponent b) / pow2 p = n := by
      intro p hp
      obtain ⟨d, hd⟩ := Int.le.dest hp
      refine ⟨2 ^ d, ?_⟩
      rw [← hd, pow2_add, mul_div_cancel_left₀ _ (pow2_pos _).ne', pow2_natCast]
    have ha' : nearest F a ≤ pow2 (exponent b) := by
      obtain ⟨n, hn⟩ := key (placeExp F a) (by omega)
      have h3 : roundEven (a / pow2 (placeExp F a)) ≤ n := by
        rw [← roundEven_intCast n, ← hn]
        exact roundEven_mono (div_le_div_of_nonneg_right h1.le (pow2_pos _).le)
      unfold nearest
      rw [div_eq_iff (pow2_pos _).ne'] at hn
      rw [hn]
      exact mul_le_mul_of_nonneg_right (by exact_mod_cast h3) (pow2_pos _).le
    have hb' : pow2 (exponent b) ≤ nearest F b := by
      obtain ⟨n, hn⟩ := key (placeExp F b) (by omega)
      have h3 : n ≤ roundEven (b / pow2 (placeExp F b)) := by
        rw [← roundEven_intCast n, ← hn]
        exact roundEven_mono (div_le_div_of_nonneg_right h2 (pow2_pos _).le)
      unfold nearest
      rw [div_eq_iff (pow2_pos _).ne'] at hn
      conv_lhs => rw [hn]
      exact mul_le_mul_of_nonneg_right (by exact_mod_cast h3) (pow2_pos _).le
    exact le_trans ha' hb'
  · unfold nearest
    rw [← heq]
    refine mul_le_mul_of_nonneg_right ?_ (pow2_pos _).le
    exact_mod_cast roundEven_mono (div_le_div_of_nonneg_right hab (pow2_pos _).le)

theorem nearest_nonneg {a : ℚ} (ha : 0 ≤ a) : 0 ≤ nearest F a := by
  unfold nearest
  refine mul_nonneg ?_ (pow2_pos _).le
  have := roundEven_mono (div_nonneg ha (pow2_pos (placeExp F a)).le)
  rw [show (0 : ℚ) = ((0 : ℤ) : ℚ) by norm_num, roundEven_intCast] at this
  exact_mod_cast this

theorem nearest_mono {a b : ℚ} (h : a ≤ b) : nearest F a ≤ nearest F b := by
  rcases lt_or_ge 0 a with ha | ha
  · exact nearest_mono_pos ha h
  · rcases lt_or_ge b 0 with hb | hb
    · have := nearest_mono_pos (F := F) (a := -b) (b := -a) (by linarith) (by linarith)
      rw [nearest_neg, nearest_neg] at this
      linarith
    · have h1 := nearest_nonneg (F := F) hb
      have h2 := nearest_nonneg (F := F) (a := -a) (by linarith)
      rw [nearest_neg] at h2
      linarith

/-- The result is a number of the format. -/
theorem nearest_form (q : ℚ) : ∃ m e : ℤ, nearest F q = m * pow2 e ∧ |m| ≤ 2 ^ (F.bits + 1) ∧ F.emin ≤ e := by
  by_cases h0 : q = 0
  · exact ⟨0, F.emin, by rw [h0]; simp, by simp, le_refl _⟩
  refine ⟨roundEven (q / pow2 (placeExp F q)), placeExp F q, rfl, ?_, le_max_right _ _⟩
  have h1 := (exponent_spec h0).2
  have h2 : |q / pow2 (placeExp F q)| ≤ ((2 ^ (F.bits + 1) : ℤ) : ℚ) := by
    rw [abs_div, abs_of_pos (pow2_pos _), div_le_iff₀ (pow2_pos _)]
    refine le_trans h1.le ?_
    rw [← pow2_natCast, ← pow2_add]
    refine pow2_le.2 ?_
    unfold placeExp
    omega
  rw [abs_le] at h2 ⊢
  constructor
  · have := roundEven_mono h2.1
    rwa [show (-((2 ^ (F.bits + 1) : ℤ) : ℚ)) = ((-2 ^ (F.bits + 1) : ℤ) : ℚ) by push_cast; ring, roundEven_intCast] at this
  · have := roundEven_mono h2.2
    rwa [roundEven_intCast] at this

@[simp] theorem nearest_nearest (q : ℚ) : nearest F (nearest F q) = nearest F q := by
  obtain ⟨m, e, h1, h2, h3⟩ := nearest_form q
  exact nearest_eq h1 h2 h3

/-- The relative error of rounding, for numbers that are not subnormal. -/
theorem nearest_error {q : ℚ} (h : pow2 (F.emin + F.bits) ≤ |q|) : |nearest F q - q| ≤ |q| * pow2 (-(F.bits + 1)) := by
  have h0 : q ≠ 0 := fun h0 => by
    rw [h0, abs_zero] at h
    exact absurd h (not_le.2 (pow2_pos _))
  have hex := le_exponent h0 h
  have hp : placeExp F q = exponent q - F.bits := by unfold placeExp; omega
  have h1 := (exponent_spec h0).1
  have h2 := roundEven_error (q / pow2 (placeExp F q))
  have h3 : nearest F q - q = (roundEven (q / pow2 (placeExp F q)) - q / pow2 (placeExp F q)) * pow2 (placeExp F q) := by
    unfold nearest
    rw [sub_mul, div_mul_cancel₀ _ (pow2_pos _).ne']
  rw [h3, abs_mul, abs_of_pos (pow2_pos _)]
  refine le_trans (mul_le_mul_of_nonneg_right h2 (pow2_pos _).le) ?_
  have h4 : pow2 (placeExp F q) = pow2 (exponent q) * pow2 (-F.bits) := by rw [hp, ← pow2_add]; rfl
  have h5 : pow2 (-F.bits) = 2 * pow2 (-(F.bits + 1)) := by
    rw [show -(F.bits : ℤ) = 1 + -(F.bits + 1) by ring, pow2_add]; rfl
  rw [h4, h5]
  have := pow2_pos (-((F.bits : ℤ) + 1))
  have := pow2_pos (exponent q)
  nlinarith

end Nearest

/-! ### extended rationals -/

namespace XRat

theorem rat_le {a b : ℚ} : rat a ≤ rat b ↔ a ≤ b := by simp [rat]

theorem rat_lt {a b : ℚ} : rat a < rat b ↔ a < b := by simp [rat]

theorem rat_inj {a b : ℚ} : rat a = rat b ↔ a = b := by simp [rat]

@[simp] theorem toRat_rat (q : ℚ) : (rat q).toRat = q := rfl

theorem cases (x : XRat) : x = ⊥ ∨ x = top ∨ ∃ q, x = rat q := by
  match x with
  | none => exact .inl rfl
  | some none => exact .inr (.inl rfl)
  | some (some q) => exact .inr (.inr ⟨q, rfl⟩)

theorem le_top' (x : XRat) : x ≤ top := by
  rcases cases x with h | h | ⟨q, h⟩ <;> subst h <;> simp [rat]

theorem not_top_le (q : ℚ) : ¬ top ≤ rat q := by simp [rat]

theorem not_le_bot (q : ℚ) : ¬ rat q ≤ (⊥ : XRat) := by simp [rat]

theorem not_top_le_bot : ¬ top ≤ (⊥ : XRat) := by simp [top]

theorem top_le {x : XRat} : top ≤ x ↔ x = top :=
  ⟨fun h => le_antisymm (le_top' x) h, fun h => h ▸ le_refl _⟩

end XRat

open XRat

/-! ### the laws of rounding -/

theorem Rounding.Lawful.nonneg {R : Rounding} (h : R.Lawful) {q : ℚ} (hq : 0 ≤ q) : rat 0 ≤ R.rnd q := by
  rw [← h.zero]; exact h.mono hq

theorem Rounding.Lawful.nonpos {R : Rounding} (h : R.Lawful) {q : ℚ} (hq : q ≤ 0) : R.rnd q ≤ rat 0 := by
  rw [← h.zero]; exact h.mono hq

theorem Rounding.exact_lawful : Rounding.exact.Lawful := ⟨fun h => rat_le.2 h, rfl, fun _ => rfl⟩

theorem ieee_rnd_of_lt {F : Format} {q : ℚ} (h : |nearest F q| < pow2 F.emax) :
    (Rounding.ieee F).rnd q = rat (nearest F q) := by
  rw [abs_lt] at h
  show (if _ then _ else if _ then _ else _) = _
  rw [if_neg (not_le.2 h.2), if_neg (not_le.2 h.1)]

theorem Rounding.ieee_lawful (F : Format) : (Rounding.ieee F).Lawful := by
  refine ⟨?_, ?_, ?_⟩
  · intro a b h
    have hm := nearest_mono (F := F) h
    show (if _ then _ else if _ then _ else _) ≤ (if _ then _ else if _ then _ else _)
    have hp := pow2_pos F.emax
    split
    · rw [if_pos (le_trans ‹_› hm)]
    · split
      · exact bot_le
      · split
        · exact le_top' _
        · split
          · exfalso; linarith
          · exact rat_le.2 hm
  · rw [ieee_rnd_of_lt] <;> rw [nearest_zero]
    rw [abs_zero]; exact pow2_pos _
  · intro q
    show F64.neg (some (if _ then _ else if _ then _ else _)) = some (if _ then _ else if _ then _ else _)
    rw [nearest_neg]
    have hp := pow2_pos F.emax
    rcases lt_or_ge (nearest F q) (pow2 F.emax) with h1 | h1
    · rcases lt_or_ge (-pow2 F.emax) (nearest F q) with h2 | h2
      · rw [if_neg (not_le.2 h1), if_neg (not_le.2 h2), if_neg (by linarith), if_neg (by linarith)]
        rfl
      · rw [if_neg (not_le.2 h1), if_pos h2, if_pos (by linarith)]
        rfl
    · rw [if_pos h1, if_neg (by linarith), if_pos (by linarith)]
      rfl

theorem Rounding.binary64_lawful : Rounding.binary64.Lawful := ieee_lawful _

theorem Rounding.binary32_lawful : Rounding.binary32.Lawful := ieee_lawful _

theorem binary64_rnd_of_lt {q : ℚ} (h : |nearest .binary64 q| < pow2 1024) :
    Rounding.binary64.rnd q = rat (nearest .binary64 q) := ieee_rnd_of_lt h

/-- The numbers of the format are left alone. -/
theorem ieee_eq {F : Format} {q : ℚ} (h : nearest F q = q) (h2 : |q| < pow2 F.emax) : (Rounding.ieee F).rnd q = rat q := by
  rw [ieee_rnd_of_lt (by rwa [h]), h]

/-- Binary64 is exact on integers of at most 53 bits. -/
theorem binary64_intCast {z : ℤ} (h : |z| ≤ 2 ^ 53) : Rounding.binary64.rnd (z : ℚ) = rat z := by
  refine ieee_eq (nearest_intCast Format.binary64_ok h) ?_
  have : ((|z| : ℤ) : ℚ) ≤ pow2 53 := by
    rw [show pow2 53 = ((2 ^ 53 : ℤ) : ℚ) by rfl]; exact_mod_cast h
  rw [← Int.cast_abs]
  exact lt_of_le_of_lt this (pow2_lt.2 (by decide))

/-- No overflow: a result of absolute value at most `2 ^ k` stays so. -/
theorem ieee_bound {F : Format} {q : ℚ} {k : ℤ} (hk : F.emin ≤ k) (hk2 : k < F.emax) (h : |q| ≤ pow2 k) :
    (Rounding.ieee F).rnd q = rat (nearest F q) ∧ |nearest F q| ≤ pow2 k := by
  have h1 : |nearest F q| ≤ pow2 k := by
    rw [abs_le] at h ⊢
    have h1 := nearest_mono (F := F) h.1
    have h2 := nearest_mono (F := F) h.2
    rw [nearest_neg, nearest_pow2 hk] at h1
    rw [nearest_pow2 hk] at h2
    exact ⟨h1, h2⟩
  exact ⟨ieee_rnd_of_lt (lt_of_le_of_lt h1 (pow2_lt.2 (by omega))), h1⟩

/-- No overflow: a result of absolute value at most `2 ^ k` stays so. -/
theorem binary64_bound {q : ℚ} {k : ℤ} (hk : -1074 ≤ k) (hk2 : k ≤ 1023) (h : |q| ≤ pow2 k) :
    Rounding.binary64.rnd q = rat (nearest .binary64 q) ∧ |nearest .binary64 q| ≤ pow2 k :=
  ieee_bound (F := .binary64) hk (by show k < 1024; omega) h

/-! ### the operations -/

namespace F64

variable {R : Rounding}

@[simp] theorem add_rat (a b : ℚ) : add R (some (rat a)) (some (rat b)) = some (R.rnd (a + b)) := rfl

@[simp] theorem mul_rat (a b : ℚ) : mul R (some (rat a)) (some (rat b)) = some (R.rnd (a * b)) := rfl

@[simp] theorem sub_rat (a b : ℚ) : sub R (some (rat a)) (some (rat b)) = some (R.rnd (a - b)) := by
  rw [sub_eq_add_neg]; rfl

theorem add_comm' (x y : F64) : add R x y = add R y x := by
  rcases x with _ | x
  · rcases y with _ | _ | _ | _ <;> rfl
  · rcases y with _ | y
    · rcases x with _ | _ | _ <;> rfl
    · rcases x with _ | _ | a <;> rcases y with _ | _ | b <;> try rfl
      show some (R.rnd (a + b)) = some (R.rnd (b + a))
      rw [add_comm]

theorem neg_le {x y : XRat} : ∀ {x' y' : XRat}, neg (some x) = some x' → neg (some y) = some y' → x ≤ y → y' ≤ x' := by
  intro x' y' hx hy h
  rcases x.cases with rfl | rfl | ⟨a, rfl⟩
  · injection hx with hx; subst hx; exact le_top' _
  · obtain rfl := XRat.top_le.1 h
    rw [hx] at hy; injection hy with hy; exact hy.ge
  · injection hx with hx
    rcases y.cases with rfl | rfl | ⟨b, rfl⟩
    · exact absurd h (not_le_bot _)
    · injection hy with hy; subst hy; exact bot_le
    · injection hy with hy
      subst hx hy
      exact rat_le.2 (neg_le_neg (rat_le.1 h))

theorem add_mono (hR : R.Lawful) {x x' y y' z z' : XRat} (hx : x ≤ x') (hy : y ≤ y')
    (h : add R (some x) (some y) = some z) (h' : add R (some x') (some y') = some z') : z ≤ z' := by
  rcases x.cases with rfl | rfl | ⟨a, rfl⟩
  · rcases y.cases with rfl | rfl | ⟨b, rfl⟩
    · cases h; exact bot_le
    · cases h
    · cases h; exact bot_le
  · obtain rfl := XRat.top_le.1 hx
    rcases y'.cases with rfl | rfl | ⟨b', rfl⟩
    · cases h'
    · cases h'; exact le_top' _
    · cases h'; exact le_top' _
  · rcases x'.cases with rfl | rfl | ⟨a', rfl⟩
    · exact absurd hx (not_le_bot _)
    · rcases y'.cases with rfl | rfl | ⟨b', rfl⟩
      · cases h'
      · cases h'; exact le_top' _
      · cases h'; exact le_top' _
    · rcases y.cases with rfl | rfl | ⟨b, rfl⟩
      · cases h; exact bot_le
      · obtain rfl := XRat.top_le.1 hy
        cases h'; exact le_top' _
      · rcases y'.cases with rfl | rfl | ⟨b', rfl⟩
        · exact absurd hy (not_le_bot _)
        · cases h'; exact le_top' _
        · cases h; cases h'
          exact hR.mono (add_le_add (rat_le.1 hx) (rat_le.1 hy))

theorem neg_some (x : XRat) : ∃ x', neg (some x) = some x' := by
  rcases x.cases with rfl | rfl | ⟨a, rfl⟩ <;> exact ⟨_, rfl⟩

theorem sub_mono (hR : R.Lawful) {x x' y y' z z' : XRat} (hx : x ≤ x') (hy : y' ≤ y)
    (h : sub R (some x) (some y) = some z) (h' : sub R (some x') (some y') = some z') : z ≤ z' := by
  obtain ⟨n, hn⟩ := neg_some y
  obtain ⟨n', hn'⟩ := neg_some y'
  rw [sub, hn] at h
  rw [sub, hn'] at h'
  exact add_mono hR hx (neg_le hn' hn hy) h h'

theorem add_nonneg (hR : R.Lawful) {x y : XRat} (hx : rat 0 ≤ x) (hy : rat 0 ≤ y) :
    ∃ z, add R (some x) (some y) = some z ∧ rat 0 ≤ z := by
  rcases x.cases with rfl | rfl | ⟨a, rfl⟩
  · exact absurd hx (not_le_bot _)
  · rcases y.cases with rfl | rfl | ⟨b, rfl⟩
    · exact absurd hy (not_le_bot _)
    · exact ⟨_, rfl, le_top' _⟩
    · exact ⟨_, rfl, le_top' _⟩
  · rcases y.cases with rfl | rfl | ⟨b, rfl⟩
    · exact absurd hy (not_le_bot _)
    · exact ⟨_, rfl, le_top' _⟩
    · exact ⟨_, rfl, hR.nonneg (_root_.add_nonneg (rat_le.1 hx) (rat_le.1 hy))⟩

theorem mul_self_some (hR : R.Lawful) (x : XRat) : ∃ z, mul R (some x) (some x) = some z ∧ rat 0 ≤ z := by
  rcases x.cases with rfl | rfl | ⟨a, rfl⟩
  · exact ⟨_, rfl, le_top' _⟩
  · exact ⟨_, rfl, le_top' _⟩
  · exact ⟨_, rfl, hR.nonneg (mul_self_nonneg a)⟩

theorem mul_self_mono (hR : R.Lawful) {x y z z' : XRat} (hx : rat 0 ≤ x) (hy : x ≤ y)
    (h : mul R (some x) (some x) = some z) (h' : mul R (some y) (some y) = some z') : z ≤ z' := by
  rcases x.cases with rfl | rfl | ⟨a, rfl⟩
  · exact absurd hx (not_le_bot _)
  · obtain rfl := XRat.top_le.1 hy
    rw [h] at h'; cases h'; exact le_refl _
  · rcases y.cases with rfl | rfl | ⟨b, rfl⟩
    · exact absurd hy (not_le_bot _)
    · cases h'; exact le_top' _
    · cases h; cases h'
      have := rat_le.1 hx
      have := rat_le.1 hy
      exact hR.mono (by nlinarith)

theorem mul_self_anti (hR : R.Lawful) {x y z z' : XRat} (hx : x ≤ rat 0) (hy : y ≤ x)
    (h : mul R (some x) (some x) = some z) (h' : mul R (some y) (some y) = some z') : z ≤ z' := by
  rcases x.cases with rfl | rfl | ⟨a, rfl⟩
  · obtain rfl := le_bot_iff.1 hy
    rw [h] at h'; cases h'; exact le_refl _
  · exact absurd hx (not_top_le _)
  · rcases y.cases with rfl | rfl | ⟨b, rfl⟩
    · cases h'; exact le_top' _
    · exact absurd hy (not_top_le _)
    · cases h; cases h'
      have := rat_le.1 hx
      have := rat_le.1 hy
      exact hR.mono (by nlinarith)

theorem sub_nonneg (hR : R.Lawful) {x y z : XRat} (hxy : y ≤ x) (h : sub R (some x) (some y) = some z) : rat 0 ≤ z := by
  rcases x.cases with rfl | rfl | ⟨a, rfl⟩ <;> rcases y.cases with rfl | rfl | ⟨b, rfl⟩
  · cases h
  · exact absurd hxy not_top_le_bot
  · exact absurd hxy (not_le_bot _)
  · cases h; exact le_top' _
  · cases h
  · cases h; exact le_top' _
  · cases h; exact le_top' _
  · exact absurd hxy (not_top_le _)
  · rw [sub_rat] at h; cases h
    exact hR.nonneg (by linarith [rat_le.1 hxy])

theorem sub_nonpos (hR : R.Lawful) {x y z : XRat} (hxy : x ≤ y) (h : sub R (some x) (some y) = some z) : z ≤ rat 0 := by
  rcases x.cases with rfl | rfl | ⟨a, rfl⟩ <;> rcases y.cases with rfl | rfl | ⟨b, rfl⟩
  · cases h
  · cases h; exact bot_le
  · cases h; exact bot_le
  · exact absurd hxy not_top_le_bot
  · cases h
  · exact absurd hxy (not_top_le _)
  · exact absurd hxy (not_le_bot _)
  · cases h; exact bot_le
  · rw [sub_rat] at h; cases h
    exact hR.nonpos (by linarith [rat_le.1 hxy])

end F64

end RTree
