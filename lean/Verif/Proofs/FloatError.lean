import Verif.Proofs.Windows
/-!
# The error of distances calculated in floating point
-/

namespace RTree

open XRat F64

variable {F : Format} {D : Nat}

theorem Format.unit_pos (F : Format) : 0 < F.unit := pow2_pos _

theorem Format.tiny_pos (F : Format) : 0 < F.tiny := pow2_pos _

theorem Format.unit_le (F : Format) : F.unit ≤ 1 / 2 := by
  have : pow2 (-(F.bits + 1)) ≤ pow2 (-1) := pow2_le.2 (by omega)
  exact this.trans (by rw [pow2_eq]; norm_num)

/-- Numbers of the format are multiples of its least positive number. -/
theorem multiple_of_nearest {q : ℚ} (h : nearest F q = q) : ∃ m : ℤ, q = m * pow2 F.emin := by
  obtain ⟨m, e, h1, -, h3⟩ := nearest_form (F := F) q
  obtain ⟨d, hd⟩ := Int.le.dest h3
  refine ⟨m * 2 ^ d, ?_⟩
  rw [← h, h1, ← hd, pow2_add, pow2_natCast]
  push_cast
  ring

/-- The error of rounding a multiple of the least positive number is relative also for subnormal numbers. -/
theorem nearest_error_multiple {q : ℚ} (h : ∃ m : ℤ, q = m * pow2 F.emin) : |nearest F q - q| ≤ |q| * F.unit := by
  obtain ⟨m, hm⟩ := h
  by_cases hs : |m| ≤ 2 ^ (F.bits + 1)
  · rw [nearest_eq hm hs (le_refl _), sub_self, abs_zero]
    exact mul_nonneg (abs_nonneg _) (F.unit_pos).le
  · refine nearest_error ?_
    rw [hm, abs_mul, abs_of_pos (pow2_pos F.emin), show F.emin + (F.bits : ℤ) = (F.bits : ℕ) + F.emin by omega, pow2_add]
    refine mul_le_mul_of_nonneg_right ?_ (pow2_pos _).le
    rw [pow2_natCast, ← Int.cast_abs]
    push Not at hs
    have : (2 : ℤ) ^ F.bits ≤ |m| := by
      rw [pow_succ] at hs
      have : (0 : ℤ) < 2 ^ F.bits := by positivity
      omega
    exact_mod_cast this

/-- The error of sums and differences of numbers of the format. -/
theorem nearest_add_error {a b : ℚ} (ha : nearest F a = a) (hb : nearest F b = b) :
    |nearest F (a + b) - (a + b)| ≤ |a + b| * F.unit := by
  obtain ⟨m, hm⟩ := multiple_of_nearest ha
  obtain ⟨n, hn⟩ := multiple_of_nearest hb
  exact nearest_error_multiple ⟨m + n, by rw [hm, hn]; push_cast; ring⟩

/-- The error of rounding in general. -/
theorem nearest_error_any (q : ℚ) : |nearest F q - q| ≤ |q| * F.unit + F.tiny := by
  by_cases h : pow2 (F.emin + F.bits) ≤ |q|
  · exact (nearest_error h).trans (le_add_of_nonneg_right (F.tiny_pos).le)
  · by_cases h0 : q = 0
    · rw [h0, nearest_zero]; simp [(F.tiny_pos).le]
    push Not at h
    have hp : placeExp F q = F.emin := by
      have : exponent q ≤ F.emin + F.bits - 1 := exponent_le h0 (by
        rw [show F.emin + (F.bits : ℤ) - 1 + 1 = F.emin + F.bits by ring]; exact h)
      unfold placeExp
      omega
    have h2 := roundEven_error (q / pow2 (placeExp F q))
    have h3 : nearest F q - q = (roundEven (q / pow2 (placeExp F q)) - q / pow2 (placeExp F q)) * pow2 (placeExp F q) := by
      unfold nearest
      rw [sub_mul, div_mul_cancel₀ _ (pow2_pos _).ne']
    rw [h3, abs_mul, abs_of_pos (pow2_pos _), hp] at *
    have h4 := pow2_pos F.emin
    have h5 := mul_nonneg (abs_nonneg q) (F.unit_pos).le
    unfold Format.tiny
    nlinarith

namespace NoisyFloat

theorem nearest_of_isOf {q : ℚ} (h : (rat q).isOf F = true) : nearest F q = q :=
  (of_rnd_eq (of_decide_eq_true h)).symm

/-- The square of a calculated difference, if finite, is close to the square of the difference. -/
theorem sq_near {a p c s : NoisyFloat F} (hc : Scalar.sub a p = some c) (hs : Scalar.mul c c = some s) {σ : ℚ}
    (hσ : s.1 = rat σ) :
    (1 - F.unit) ^ 3 * (Scalar.toRat a - Scalar.toRat p) ^ 2 - F.tiny ≤ σ ∧
      σ ≤ (1 + F.unit) ^ 3 * (Scalar.toRat a - Scalar.toRat p) ^ 2 + F.tiny ∧ 0 ≤ σ ∧ nearest F σ = σ := by
  have hR := Rounding.ieee_lawful F
  have hc' := of_check (F := F) hc
  have hs' := of_check (F := F) hs
  have hu := F.unit_pos
  have hu2 := F.unit_le
  have ht := F.tiny_pos
  have hσ0 : 0 ≤ σ := by
    obtain ⟨z, hz, h0⟩ := F64.mul_self_some hR c.1
    rw [hs'] at hz
    injection hz with hz
    rw [← hz, hσ] at h0
    exact rat_le.1 h0
  have hσn : nearest F σ = σ := by
    have := s.2
    rw [hσ] at this
    exact nearest_of_isOf this
  obtain ⟨γ, hγ⟩ : ∃ γ, c.1 = rat γ := by
    rcases c.1.cases with h | h | h
    · rw [h, hσ] at hs'; cases hs'
    · rw [h, hσ] at hs'; cases hs'
    · exact h
  obtain ⟨α, hα⟩ : ∃ α, a.1 = rat α := by
    rcases a.1.cases with h | h | h
    · rcases p.1.cases with h' | h' | ⟨_, h'⟩ <;> rw [h, h', hγ] at hc' <;> cases hc'
    · rcases p.1.cases with h' | h' | ⟨_, h'⟩ <;> rw [h, h', hγ] at hc' <;> cases hc'
    · exact h
  obtain ⟨π, hπ⟩ : ∃ π, p.1 = rat π := by
    rcases p.1.cases with h | h | h
    · rw [h, hα, hγ] at hc'; cases hc'
    · rw [h, hα, hγ] at hc'; cases hc'
    · exact h
  have ea : Scalar.toRat a = α := by show a.1.toRat = α; rw [hα]; rfl
  have ep : Scalar.toRat p = π := by show p.1.toRat = π; rw [hπ]; rfl
  have na : nearest F α = α := nearest_of_isOf (by rw [← hα]; exact a.2)
  have np : nearest F π = π := nearest_of_isOf (by rw [← hπ]; exact p.2)
  rw [hα, hπ, hγ, F64.sub_rat] at hc'
  rw [hγ, hσ, F64.mul_rat] at hs'
  injection hc' with hc'
  injection hs' with hs'
  have e1 := of_rnd_eq hc'
  have e2 := of_rnd_eq hs'
  have h1 : |γ - (α - π)| ≤ |α - π| * F.unit := by
    have := nearest_add_error na (b := -π) (by rw [nearest_neg, np])
    rwa [← sub_eq_add_neg, ← e1] at this
  have h2 : |σ - γ * γ| ≤ |γ * γ| * F.unit + F.tiny := by
    have := nearest_error_any (F := F) (γ * γ)
    rwa [← e2] at this
  rw [ea, ep]
  generalize α - π = δ at h1
  rw [abs_of_nonneg (mul_self_nonneg γ)] at h2
  have h3 : |γ| ≤ (1 + F.unit) * |δ| := by
    have : |γ| ≤ |γ - δ| + |δ| := by simpa using abs_add_le (γ - δ) δ
    nlinarith
  have h4 : (1 - F.unit) * |δ| ≤ |γ| := by
    have : |δ| ≤ |γ - δ| + |γ| := by
      have := abs_sub_abs_le_abs_sub δ γ
      rw [abs_sub_comm δ γ] at this
      linarith
    nlinarith
  have h5 : γ * γ ≤ (1 + F.unit) ^ 2 * δ ^ 2 := by
    rw [← abs_mul_abs_self γ, ← sq_abs δ]
    nlinarith [abs_nonneg γ, abs_nonneg δ, mul_nonneg (by linarith : 0 ≤ 1 + F.unit) (abs_nonneg δ)]
  have h6 : (1 - F.unit) ^ 2 * δ ^ 2 ≤ γ * γ := by
    rw [← abs_mul_abs_self γ, ← sq_abs δ]
    nlinarith [abs_nonneg γ, abs_nonneg δ, mul_nonneg (by linarith : 0 ≤ 1 - F.unit) (abs_nonneg δ)]
  rw [abs_le] at h2
  refine ⟨?_, ?_, hσ0, hσn⟩
  · have : (1 - F.unit) ^ 3 * δ ^ 2 = (1 - F.unit) * ((1 - F.unit) ^ 2 * δ ^ 2) := by ring
    nlinarith
  · have : (1 + F.unit) ^ 3 * δ ^ 2 = (1 + F.unit) * ((1 + F.unit) ^ 2 * δ ^ 2) := by ring
    nlinarith

/-- A finite sum has finite terms, and is close to the exact sum. -/
theorem foldlM_close {l : List (NoisyFloat F)} {x m : NoisyFloat F} (h : l.foldlM Scalar.add x = some m)
    (hx : rat 0 ≤ x.1) (hl : ∀ y ∈ l, rat 0 ≤ y.1) {q : ℚ} (hq : m.1 = rat q) :
    (∃ a, x.1 = rat a) ∧ (∀ y ∈ l, ∃ b, y.1 = rat b) ∧
      (1 - F.unit) ^ l.length * (Scalar.toRat x + (l.map Scalar.toRat).sum) ≤ q ∧
      q ≤ (1 + F.unit) ^ l.length * (Scalar.toRat x + (l.map Scalar.toRat).sum) := by
  have hR := Rounding.ieee_lawful F
  have hu := F.unit_pos
  have hu2 := F.unit_le
  induction l generalizing x with
  | nil =>
    rw [List.foldlM_nil] at h
    injection h with h
    subst h
    have : Scalar.toRat x = q := by show x.1.toRat = q; rw [hq]; rfl
    exact ⟨⟨q, hq⟩, (fun y hy => by cases hy), by simp [this], by simp [this]⟩
  | cons y l ih =>
    rw [List.foldlM_cons] at h
    obtain ⟨w, hw, h⟩ := Option.bind_eq_some_iff.1 h
    have hw' := of_check (F := F) hw
    have hy := hl y List.mem_cons_self
    have hw0 : rat 0 ≤ w.1 := by
      obtain ⟨z, hz, h0⟩ := F64.add_nonneg hR hx hy
      rw [hw'] at hz
      injection hz with hz
      rwa [hz]
    have hl' := fun z hz => hl z (List.mem_cons_of_mem _ hz)
    obtain ⟨⟨ω, hω⟩, h1, h2, h3⟩ := ih h hw0 hl'
    obtain ⟨α, hα⟩ : ∃ a, x.1 = rat a := by
      rcases x.1.cases with h | h | h
      · rw [h] at hx; exact absurd hx (not_le_bot _)
      · rcases y.1.cases with h' | h' | ⟨_, h'⟩
        · rw [h'] at hy; exact absurd hy (not_le_bot _)
        · rw [h, h', hω] at hw'; cases hw'
        · rw [h, h', hω] at hw'; cases hw'
      · exact h
    obtain ⟨β, hβ⟩ : ∃ b, y.1 = rat b := by
      rcases y.1.cases with h | h | h
      · rw [h] at hy; exact absurd hy (not_le_bot _)
      · rw [h, hα, hω] at hw'; cases hw'
      · exact h
    have ex : Scalar.toRat x = α := by show x.1.toRat = α; rw [hα]; rfl
    have ey : Scalar.toRat y = β := by show y.1.toRat = β; rw [hβ]; rfl
    have ew : Scalar.toRat w = ω := by show w.1.toRat = ω; rw [hω]; rfl
    have nx : nearest F α = α := nearest_of_isOf (by rw [← hα]; exact x.2)
    have ny : nearest F β = β := nearest_of_isOf (by rw [← hβ]; exact y.2)
    rw [hα, hβ, hω, F64.add_rat] at hw'
    injection hw' with hw'
    have e := of_rnd_eq hw'
    have h4 := nearest_add_error nx ny
    have hα0 : 0 ≤ α := by rw [hα] at hx; exact rat_le.1 hx
    have hβ0 : 0 ≤ β := by rw [hβ] at hy; exact rat_le.1 hy
    rw [← e, abs_of_nonneg (add_nonneg hα0 hβ0), abs_le] at h4
    have hs : 0 ≤ (l.map Scalar.toRat).sum := by
      refine List.sum_nonneg fun z hz => ?_
      obtain ⟨n, hn, rfl⟩ := List.mem_map.1 hz
      obtain ⟨b, hb⟩ := h1 n hn
      have := hl' n hn
      rw [hb] at this
      show 0 ≤ n.1.toRat
      rw [hb]
      exact rat_le.1 this
    refine ⟨⟨α, hα⟩, fun z hz => ?_, ?_, ?_⟩
    · rcases List.mem_cons.1 hz with rfl | hz
      · exact ⟨β, hβ⟩
      · exact h1 z hz
    · refine le_trans ?_ h2
      rw [List.length_cons, List.map_cons, List.sum_cons, ex, ey, ew, pow_succ, mul_assoc]
      refine mul_le_mul_of_nonneg_left ?_ (pow_nonneg (by linarith) _)
      nlinarith
    · refine le_trans h3 ?_
      rw [List.length_cons, List.map_cons, List.sum_cons, ex, ey, ew, pow_succ, mul_assoc]
      refine mul_le_mul_of_nonneg_left ?_ (pow_nonneg (by linarith) _)
      nlinarith

/-- A finite calculated distance is close to the squared distance. -/
theorem distSq_near {a p : SVec (NoisyFloat F) D} {m : NoisyFloat F} (h : a.distSq p = some m) {q : ℚ} (hq : m.1 = rat q) :
    (1 - F.unit) ^ (D + 2) * sqDist a p - D * F.tiny ≤ q ∧ q ≤ (1 + F.unit) ^ (D + 2) * (sqDist a p + D * F.tiny) := by
  have hR := Rounding.ieee_lawful F
  have hu := F.unit_pos
  have hu2 := F.unit_le
  have ht := F.tiny_pos
  unfold SVec.distSq at h
  obtain ⟨d, hd, h⟩ := Option.bind_eq_some_iff.1 h
  unfold SVec.sqMag at h
  obtain ⟨sq, hsq, h⟩ := Option.bind_eq_some_iff.1 h
  -- all squares are non-negative
  have nn : ∀ (l sq : List (NoisyFloat F)), l.mapM (fun v => Scalar.mul v v) = some sq → ∀ s ∈ sq, rat 0 ≤ s.1 := by
    intro l
    induction l with
    | nil => intro sq h s hs; simp at h; subst h; cases hs
    | cons v l ih =>
      intro sq h s hs
      rw [List.mapM_cons] at h
      obtain ⟨x, hx, h⟩ := Option.bind_eq_some_iff.1 h
      obtain ⟨xs, hxs, h⟩ := Option.bind_eq_some_iff.1 h
      injection h with h
      subst h
      rcases List.mem_cons.1 hs with rfl | hs
      · obtain ⟨z, hz, h0⟩ := F64.mul_self_some hR v.1
        rw [of_check (F := F) hx] at hz
        injection hz with hz
        rwa [hz]
      · exact ih xs hxs s hs
  -- the sum of the squares
  have key : ∀ (is : List (Fin D)) (sq : List (NoisyFloat F)), (is.map d.get).mapM (fun v => Scalar.mul v v) = some sq →
      (∀ s ∈ sq, ∃ b, s.1 = rat b) →
      sq.length = is.length ∧
      (1 - F.unit) ^ 3 * (is.map fun i => (Scalar.toRat (a.get i) - Scalar.toRat (p.get i)) ^ 2).sum - is.length * F.tiny ≤
        (sq.map Scalar.toRat).sum ∧
      (sq.map Scalar.toRat).sum ≤
        (1 + F.unit) ^ 3 * (is.map fun i => (Scalar.toRat (a.get i) - Scalar.toRat (p.get i)) ^ 2).sum + is.length * F.tiny := by
    intro is
    induction is with
    | nil => intro sq h _; simp at h; subst h; simp
    | cons i is ih =>
      intro sq h hfin
      rw [List.map_cons, List.mapM_cons] at h
      obtain ⟨x, hx, h⟩ := Option.bind_eq_some_iff.1 h
      obtain ⟨xs, hxs, h⟩ := Option.bind_eq_some_iff.1 h
      injection h with h
      subst h
      obtain ⟨e0, e1, e2⟩ := ih xs hxs fun s hs => hfin s (List.mem_cons_of_mem _ hs)
      obtain ⟨σ, hσ⟩ := hfin x List.mem_cons_self
      have ex : Scalar.toRat x = σ := by show x.1.toRat = σ; rw [hσ]; rfl
      obtain ⟨f1, f2, -, -⟩ := sq_near (SVec.sub_get' hd i) hx hσ
      refine ⟨by simp [e0], ?_, ?_⟩
      · simp only [List.map_cons, List.sum_cons, List.length_cons, ex]
        push_cast
        linarith
      · simp only [List.map_cons, List.sum_cons, List.length_cons, ex]
        push_cast
        linarith
  have sqd : sqDist a p = ((List.finRange D).map fun i => (Scalar.toRat (a.get i) - Scalar.toRat (p.get i)) ^ 2).sum := by
    rw [sqDist, Fin.sum_univ_def]
  have sq0 : 0 ≤ sqDist a p := Finset.sum_nonneg fun i _ => by positivity
  cases sq with
  | nil => cases h
  | cons x xs =>
    have hnn := nn _ _ hsq
    obtain ⟨g1, g2, g3, g4⟩ := foldlM_close h (hnn x List.mem_cons_self) (fun y hy => hnn y (List.mem_cons_of_mem _ hy)) hq
    obtain ⟨e0, e1, e2⟩ := key (List.finRange D) (x :: xs) hsq fun s hs => by
      rcases List.mem_cons.1 hs with rfl | hs
      · exact g1
      · exact g2 s hs
    rw [← sqd, List.length_finRange] at e1 e2
    rw [List.length_finRange] at e0
    rw [List.map_cons, List.sum_cons] at e1 e2
    generalize Scalar.toRat x + (xs.map Scalar.toRat).sum = S at *
    have hl : xs.length + 1 = D := by simpa using e0
    constructor
    · refine le_trans ?_ g3
      have p0 : 0 ≤ (1 - F.unit) ^ xs.length := pow_nonneg (by linarith) _
      have p1 : (1 - F.unit) ^ xs.length ≤ 1 := pow_le_one₀ (by linarith) (by linarith)
      have := mul_le_mul_of_nonneg_left e1 p0
      refine le_trans ?_ this
      rw [mul_sub, ← mul_assoc, ← pow_add, show xs.length + 3 = D + 2 by omega]
      have : 0 ≤ (D : ℚ) * F.tiny := by positivity
      nlinarith
    · refine le_trans g4 ?_
      have p0 : 0 ≤ (1 + F.unit) ^ xs.length := pow_nonneg (by linarith) _
      refine le_trans (mul_le_mul_of_nonneg_left e2 p0) ?_
      rw [show D + 2 = xs.length + 3 by omega, pow_add, mul_assoc]
      refine mul_le_mul_of_nonneg_left ?_ p0
      have p3 : 1 ≤ (1 + F.unit) ^ 3 := one_le_pow₀ (by linarith)
      have : 0 ≤ (D : ℚ) * F.tiny := by positivity
      nlinarith

/-- Calculated distances are not negative. -/
theorem distSq_nonneg {a p : SVec (NoisyFloat F) D} {m : NoisyFloat F} (h : a.distSq p = some m) : rat 0 ≤ m.1 := by
  have hR := Rounding.ieee_lawful F
  unfold SVec.distSq at h
  obtain ⟨d, -, h⟩ := Option.bind_eq_some_iff.1 h
  unfold SVec.sqMag at h
  obtain ⟨sq, hsq, h⟩ := Option.bind_eq_some_iff.1 h
  have nn : ∀ (l sq : List (NoisyFloat F)), l.mapM (fun v => Scalar.mul v v) = some sq → ∀ s ∈ sq, rat 0 ≤ s.1 := by
    intro l
    induction l with
    | nil => intro sq h s hs; simp at h; subst h; cases hs
    | cons v l ih =>
      intro sq h s hs
      rw [List.mapM_cons] at h
      obtain ⟨x, hx, h⟩ := Option.bind_eq_some_iff.1 h
      obtain ⟨xs, hxs, h⟩ := Option.bind_eq_some_iff.1 h
      injection h with h
      subst h
      rcases List.mem_cons.1 hs with rfl | hs
      · obtain ⟨z, hz, h0⟩ := F64.mul_self_some hR v.1
        rw [of_check (F := F) hx] at hz
        injection hz with hz
        rwa [hz]
      · exact ih xs hxs s hs
  have key : ∀ (l : List (NoisyFloat F)) (x : NoisyFloat F), rat 0 ≤ x.1 → (∀ s ∈ l, rat 0 ≤ s.1) →
      l.foldlM Scalar.add x = some m → rat 0 ≤ m.1 := by
    intro l
    induction l with
    | nil => intro x hx _ h; injection h with h; rwa [← h]
    | cons y l ih =>
      intro x hx hl h
      rw [List.foldlM_cons] at h
      obtain ⟨w, hw, h⟩ := Option.bind_eq_some_iff.1 h
      obtain ⟨z, hz, h0⟩ := F64.add_nonneg hR hx (hl y (by simp))
      rw [of_check (F := F) hw] at hz
      injection hz with hz
      exact ih w (by rwa [hz]) (fun s hs => hl s (by simp [hs])) h
  cases sq with
  | nil => cases h
  | cons x xs =>
    have hnn := nn _ _ hsq
    exact key xs x (hnn x (by simp)) (fun s hs => hnn s (by simp [hs])) h

theorem toRat_le {a b : NoisyFloat F} (ha : Scalar.Finite a) (hb : Scalar.Finite b) (h : a ≤ b) :
    Scalar.toRat a ≤ Scalar.toRat b := by
  obtain ⟨p, hp⟩ := ha
  obtain ⟨q, hq⟩ := hb
  have hp : a.1 = rat p := hp
  have hq : b.1 = rat q := hq
  have h : a.1 ≤ b.1 := h
  show a.1.toRat ≤ b.1.toRat
  rw [hp, hq] at h ⊢
  exact rat_le.1 h

/-- For finite coordinates: the closest point of a box is closest. -/
theorem closest_le {b : AABB (NoisyFloat F) D} {p q : SVec (NoisyFloat F) D} (hp : ∀ i, Scalar.Finite (p.get i))
    (hb : ∀ i, Scalar.Finite (b.min.get i) ∧ Scalar.Finite (b.max.get i)) (hq : AABB.Mem q b) :
    sqDist (b.closest p) p ≤ sqDist q p := by
  refine Finset.sum_le_sum fun i _ => ?_
  obtain ⟨h1, h2⟩ := hq i
  have fq := finite_of_mem (hb i).1 (hb i).2 h1 h2
  have e1 := toRat_le (hb i).1 fq h1
  have e2 := toRat_le fq (hb i).2 h2
  simp only [AABB.closest, SVec.cmin, SVec.cmax]
  rcases le_total (p.get i) (b.min.get i) with h3 | h3
  · have e3 := toRat_le (hp i) (hb i).1 h3
    rw [max_eq_right h3, min_eq_left (le_trans h1 h2)]
    nlinarith
  · have e3 := toRat_le (hb i).1 (hp i) h3
    rw [max_eq_left h3]
    rcases le_total (p.get i) (b.max.get i) with h4 | h4
    · rw [min_eq_left h4]; simp; positivity
    · have e4 := toRat_le (hb i).2 (hp i) h4
      rw [min_eq_right h4]
      nlinarith

end NoisyFloat

end RTree
