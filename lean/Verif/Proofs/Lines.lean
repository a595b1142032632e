import Verif.SpecGeom
import Verif.Proofs.Distance
import Verif.Proofs.Float
import Mathlib.Tactic.Linarith
/-! The slab method: `(tmin, tmax)` is the set of parameters inside all slabs so far. -/

namespace RTree

namespace F64

theorem min_some (a b : XRat) : F64.min (some a) (some b) = some (Min.min a b) := by
  unfold F64.min lt
  rcases lt_or_ge a b with h | h
  · simp [h, min_eq_left h.le]
  · simp [h]

theorem max_some (a b : XRat) : F64.max (some a) (some b) = some (Max.max a b) := by
  unfold F64.max lt
  rcases lt_or_ge b a with h | h
  · simp [h, max_eq_left h.le]
  · simp [h]

theorem min_none (b : F64) : F64.min none b = b := by simp [F64.min, lt]

theorem max_none (b : F64) : F64.max none b = b := by cases b <;> simp [F64.max, lt]

theorem min_none_right (b : F64) : F64.min b none = none := by cases b <;> simp [F64.min, lt]

theorem max_none_right (b : F64) : F64.max b none = none := by simp [F64.max, lt]

end F64

open F64 XRat

/-- What one update does if no operand is NaN: intersect with the interval spanned by `t1` and `t2`. -/
theorem slabStep_some (a b s1 s2 : XRat) :
    slabStep (some a, some b) (some s1, some s2) =
      (some (Max.max a (Min.min s1 s2)), some (Min.min b (Max.max s1 s2))) := by
  simp only [slabStep, min_some, max_some]
  rw [← max_min_distrib_right, ← min_max_distrib_right, max_comm _ a, min_comm _ b]

theorem slabStep_nan_left (a b : XRat) (s2 : XRat) :
    slabStep (some a, some b) (none, some s2) = (some a, some b) := by
  simp only [slabStep, min_none, max_none, min_some, max_some]
  simp

theorem slabStep_nan_right (a b : XRat) (s1 : XRat) :
    slabStep (some a, some b) (some s1, none) = (some a, some b) := by
  simp only [slabStep, min_none, max_none, min_some, max_some]
  simp

theorem slabStep_nan (a b : XRat) : slabStep (some a, some b) (none, none) = (some a, some b) := by
  simp only [slabStep, min_none, max_none, min_some, max_some]
  simp

/-- Once `tmin` and `tmax` are NaN they stay NaN. -/
theorem slabStep_none (s : F64 × F64) : slabStep (none, none) s = (none, none) := by
  simp [slabStep, min_none_right, max_none_right]

/-- `t` is a parameter at which the line is inside the slab. -/
def InSlab (bmin bmax o d t : ℚ) : Prop := bmin ≤ o + t * d ∧ o + t * d ≤ bmax

/-- The interval the slab computation yields for exact arguments. -/
def rawSlab (negZero : Bool) (u v d : ℚ) : F64 × F64 := 
  (F64.mul .exact (fin u) (recip .exact negZero (fin d)), F64.mul .exact (fin v) (recip .exact negZero (fin d)))

theorem rawSlab_ne {negZero : Bool} {u v d : ℚ} (hd : d ≠ 0) :
    rawSlab negZero u v d = (some (rat (u / d)), some (rat (v / d))) := by
  simp only [rawSlab, recip, if_neg hd, F64.fin, F64.mul, Rounding.exact]
  rw [mul_one_div, mul_one_div]

/-- The interval `[tmin, tmax]` is the set `S` of parameters. -/
def Rep (x : F64 × F64) (S : ℚ → Prop) (a b : XRat) : Prop :=
  x = (some a, some b) ∧ ∀ t, S t ↔ a ≤ rat t ∧ rat t ≤ b

theorem Rep.step {x : F64 × F64} {S : ℚ → Prop} {a b : XRat} (h : Rep x S a b) (nz : Bool) {bmin bmax : ℚ} (o d : ℚ)
    (hb : bmin ≤ bmax) :
    ∃ a' b', Rep (slabStep x (rawSlab nz (bmin - o) (bmax - o) d)) (fun t => S t ∧ InSlab bmin bmax o d t) a' b' ∧
      a ≤ a' ∧ b' ≤ b := by
  obtain ⟨rfl, hS⟩ := h
  -- the case without NaN, for an interval representing the slab
  have main : ∀ s1 s2 : XRat,
      (∀ t, InSlab bmin bmax o d t ↔ Min.min s1 s2 ≤ rat t ∧ rat t ≤ Max.max s1 s2) →
      ∃ a' b', Rep (slabStep (some a, some b) (some s1, some s2)) (fun t => S t ∧ InSlab bmin bmax o d t) a' b' ∧
        a ≤ a' ∧ b' ≤ b := by
    intro s1 s2 hs
    refine ⟨_, _, ⟨slabStep_some a b s1 s2, fun t => ?_⟩, le_max_left _ _, min_le_left _ _⟩
    show S t ∧ InSlab bmin bmax o d t ↔ _
    rw [hS, hs, max_le_iff, le_min_iff]
    constructor
    · rintro ⟨⟨h1, h2⟩, h3, h4⟩; exact ⟨⟨h1, h3⟩, h2, h4⟩
    · rintro ⟨⟨h1, h3⟩, h2, h4⟩; exact ⟨⟨h1, h2⟩, h3, h4⟩
  -- the cases in which nothing changes
  have same : ∀ s, slabStep (some a, some b) s = (some a, some b) → (∀ t, InSlab bmin bmax o d t) →
      ∃ a' b', Rep (slabStep (some a, some b) s) (fun t => S t ∧ InSlab bmin bmax o d t) a' b' ∧ a ≤ a' ∧ b' ≤ b := by
    intro s hs hall
    refine ⟨a, b, ⟨hs, fun t => ?_⟩, le_refl _, le_refl _⟩
    rw [← hS]
    exact ⟨fun h => h.1, fun h => ⟨h, hall t⟩⟩
  by_cases hd : d = 0
  · subst hd
    have hin : ∀ t, InSlab bmin bmax o 0 t ↔ bmin ≤ o ∧ o ≤ bmax := by intro t; simp [InSlab]
    have hv : bmin - o ≤ bmax - o := by linarith
    simp only [rawSlab, recip, if_true, F64.fin]
    rcases lt_trichotomy (bmin - o) 0 with hu | hu | hu
    · rcases lt_trichotomy (bmax - o) 0 with hw | hw | hw
      · -- beyond the slab
        have e : ∀ t, ¬ InSlab bmin bmax o 0 t := fun t => by rw [hin]; rintro ⟨-, h⟩; linarith
        cases nz
        · simp only [Bool.false_eq_true, if_false, inf, F64.mul, if_neg hu.ne, if_neg hw.ne, if_neg hu.not_gt,
            if_neg hw.not_gt, negInf]
          exact main _ _ fun t => by simp [e t]
        · simp only [if_true, negInf, F64.mul, if_neg hu.ne, if_neg hw.ne, if_neg hu.not_gt, if_neg hw.not_gt, inf]
          exact main _ _ fun t => by simp [e t]
      · have e : ∀ t, InSlab bmin bmax o 0 t := fun t => by rw [hin]; constructor <;> linarith
        cases nz
        · simp only [Bool.false_eq_true, if_false, inf, F64.mul, if_neg hu.ne, if_pos hw, if_neg hu.not_gt, negInf, nan]
          exact same _ (slabStep_nan_right _ _ _) e
        · simp only [if_true, inf, F64.mul, if_neg hu.ne, if_pos hw, if_neg hu.not_gt, negInf, nan]
          exact same _ (slabStep_nan_right _ _ _) e
      · have e : ∀ t, InSlab bmin bmax o 0 t := fun t => by rw [hin]; constructor <;> linarith
        cases nz
        · simp only [Bool.false_eq_true, if_false, inf, F64.mul, if_neg hu.ne, if_neg hw.ne', if_neg hu.not_gt, negInf,
            if_pos hw]
          exact main _ _ fun t => by simp [e t]
        · simp only [if_true, inf, F64.mul, if_neg hu.ne, if_neg hw.ne', if_neg hu.not_gt, negInf, if_pos hw]
          exact main _ _ fun t => by simp [e t]
    · have e : ∀ t, InSlab bmin bmax o 0 t := fun t => by rw [hin]; constructor <;> linarith
      rcases (by linarith : 0 ≤ bmax - o).lt_or_eq with hw | hw
      · cases nz
        · simp only [Bool.false_eq_true, if_false, inf, F64.mul, if_pos hu, if_neg hw.ne', negInf, if_pos hw, nan]
          exact same _ (slabStep_nan_left _ _ _) e
        · simp only [if_true, inf, F64.mul, if_pos hu, if_neg hw.ne', negInf, if_pos hw, nan]
          exact same _ (slabStep_nan_left _ _ _) e
      · cases nz
        · simp only [Bool.false_eq_true, if_false, inf, F64.mul, if_pos hu, if_pos hw.symm, nan]
          exact same _ (slabStep_nan _ _) e
        · simp only [if_true, negInf, F64.mul, if_pos hu, if_pos hw.symm, nan]
          exact same _ (slabStep_nan _ _) e
    · have hw : 0 < bmax - o := by linarith
      have e : ∀ t, ¬ InSlab bmin bmax o 0 t := fun t => by rw [hin]; rintro ⟨h, -⟩; linarith
      cases nz
      · simp only [Bool.false_eq_true, if_false, inf, F64.mul, if_neg hu.ne', if_neg hw.ne', if_pos hu, if_pos hw]
        exact main _ _ fun t => by simp [e t]
      · simp only [if_true, negInf, F64.mul, if_neg hu.ne', if_neg hw.ne', if_pos hu, if_pos hw]
        exact main _ _ fun t => by simp [e t]
  · rw [rawSlab_ne hd]
    refine main _ _ fun t => ?_
    rcases lt_or_gt_of_ne hd with hneg | hpos
    · have hle : (bmax - o) / d ≤ (bmin - o) / d := div_le_div_of_nonpos_of_le hneg.le (by linarith)
      rw [min_eq_right (rat_le.2 hle), max_eq_left (rat_le.2 hle), rat_le, rat_le, div_le_iff_of_neg hneg,
        le_div_iff_of_neg hneg, InSlab]
      constructor <;> rintro ⟨h1, h2⟩ <;> constructor <;> linarith
    · have hle : (bmin - o) / d ≤ (bmax - o) / d := div_le_div_of_nonneg_right (by linarith) hpos.le
      rw [min_eq_left (rat_le.2 hle), max_eq_right (rat_le.2 hle), rat_le, rat_le, div_le_iff₀ hpos,
        le_div_iff₀ hpos, InSlab]
      constructor <;> rintro ⟨h1, h2⟩ <;> constructor <;> linarith

/-- The interval of the first slab of a ray. -/
theorem first_slab (nz : Bool) {bmin bmax : ℚ} (o d : ℚ) (hb : bmin ≤ bmax) :
    let s := rawSlab nz (bmin - o) (bmax - o) d
    (¬ (d = 0 ∧ (o = bmin ∨ o = bmax)) → ∃ a b, Rep (F64.min s.1 s.2, F64.max s.1 s.2) (InSlab bmin bmax o d) a b) ∧
    ((d = 0 ∧ (o = bmin ∨ o = bmax)) → (F64.min s.1 s.2, F64.max s.1 s.2) = (none, none) ∨
      ∃ a, (F64.min s.1 s.2, F64.max s.1 s.2) = (some a, some a)) := by
  intro s
  have key : ∀ s1 s2 : XRat, s = (some s1, some s2) →
      (F64.min s.1 s.2, F64.max s.1 s.2) = slabStep (some ⊥, some top) s := by
    intro s1 s2 h
    rw [h, slabStep_some, min_some, max_some]
    simp [le_top']
  have hall : Rep (some ⊥, some top) (fun _ => True) ⊥ top := ⟨rfl, fun t => by simp [le_top']⟩
  constructor
  · intro hn
    have hs : ∃ s1 s2 : XRat, s = (some s1, some s2) := by
      by_cases hd : d = 0
      · have hu : bmin - o ≠ 0 := fun h => hn ⟨hd, .inl (by linarith)⟩
        have hv : bmax - o ≠ 0 := fun h => hn ⟨hd, .inr (by linarith)⟩
        have : ∀ u : ℚ, u ≠ 0 → ∃ x : XRat, F64.mul .exact (fin u) (recip .exact nz (fin d)) = some x := by
          intro u hu
          simp only [recip, hd, if_true, F64.fin]
          cases nz
          · simp only [Bool.false_eq_true, if_false, inf, F64.mul, if_neg hu]
            split <;> exact ⟨_, rfl⟩
          · simp only [if_true, negInf, F64.mul, if_neg hu]
            split <;> exact ⟨_, rfl⟩
        obtain ⟨x, hx⟩ := this _ hu
        obtain ⟨y, hy⟩ := this _ hv
        exact ⟨x, y, by simp only [s, rawSlab, hx, hy]⟩
      · exact ⟨_, _, rawSlab_ne hd⟩
    obtain ⟨s1, s2, hs⟩ := hs
    obtain ⟨a, b, h, -, -⟩ := hall.step nz o d hb
    rw [key s1 s2 hs]
    exact ⟨a, b, h.1, fun t => by rw [← h.2]; simp⟩
  · rintro ⟨rfl, ho⟩
    have hz : ∀ u : ℚ, u = 0 → F64.mul .exact (fin u) (recip .exact nz (fin 0)) = none := by
      intro u hu
      simp only [recip, if_true, F64.fin]
      cases nz
      · simp only [Bool.false_eq_true, if_false, inf, F64.mul, if_pos hu, nan]
      · simp only [if_true, negInf, F64.mul, if_pos hu, nan]
    rcases ho with rfl | rfl
    · have h1 : s.1 = none := hz _ (sub_self _)
      rw [h1, min_none, max_none]
      cases h2 : s.2 with
      | none => exact .inl rfl
      | some x => exact .inr ⟨x, rfl⟩
    · have h1 : s.2 = none := hz _ (sub_self _)
      rw [h1, min_none_right, max_none_right]
      exact .inl rfl

variable {N : Type} {D : Nat} [Scalar N] [ExactScalar N]

theorem slab_eq {nz : Bool} {bmin bmax o d : N} {s : F64 × F64} (h : slab .exact nz bmin bmax o d = some s) :
    s = rawSlab nz (Scalar.toRat bmin - Scalar.toRat o) (Scalar.toRat bmax - Scalar.toRat o) (Scalar.toRat d) := by
  unfold slab at h
  obtain ⟨x, hx, h⟩ := Option.bind_eq_some_iff.1 h
  obtain ⟨y, hy, h⟩ := Option.bind_eq_some_iff.1 h
  injection h with h
  rw [← h, ExactScalar.toX_eq x, ExactScalar.toX_eq y, ExactScalar.toX_eq d, ExactScalar.sub_eq hx,
    ExactScalar.sub_eq hy]
  rfl

/-- The parameters at which the line is in the slab of dimension `i`. -/
def InDim (b : AABB N D) (o d : SVec N D) (i : Fin D) (t : ℚ) : Prop :=
  InSlab (Scalar.toRat (b.min.get i)) (Scalar.toRat (b.max.get i)) (Scalar.toRat (o.get i)) (Scalar.toRat (d.get i)) t

theorem slabLoop_spec {nz : Fin D → Bool} {b : AABB N D} (hb : b.Valid) {o d : SVec N D} {dims : List (Fin D)}
    {x y : F64 × F64} {S : ℚ → Prop} {lo hi : XRat} (hx : Rep x S lo hi) (h : slabLoop .exact nz b o d dims x = some y) :
    ∃ lo' hi', Rep y (fun t => S t ∧ ∀ i ∈ dims, InDim b o d i t) lo' hi' ∧ lo ≤ lo' ∧ hi' ≤ hi := by
  induction dims generalizing x S lo hi with
  | nil =>
    simp only [slabLoop, List.foldlM_nil] at h
    injection h with h
    subst h
    exact ⟨lo, hi, ⟨hx.1, fun t => by simp [hx.2]⟩, le_refl _, le_refl _⟩
  | cons i dims ih =>
    rw [slabLoop, List.foldlM_cons] at h
    obtain ⟨z, hz, h⟩ := Option.bind_eq_some_iff.1 h
    obtain ⟨s, hs, hz⟩ := Option.bind_eq_some_iff.1 hz
    injection hz with hz
    rw [slab_eq hs] at hz
    obtain ⟨lo1, hi1, h1, h2, h3⟩ := hx.step (nz i) (Scalar.toRat (o.get i)) (Scalar.toRat (d.get i))
      ((ExactScalar.le_iff _ _).1 (hb i))
    rw [hz] at h1
    obtain ⟨lo2, hi2, h4, h5, h6⟩ := ih h1 h
    refine ⟨lo2, hi2, ⟨h4.1, fun t => ?_⟩, h2.trans h5, h6.trans h3⟩
    rw [← h4.2]
    simp only [List.mem_cons, forall_eq_or_imp, InDim]
    exact and_assoc.symm

theorem slabLoop_none {nz : Fin D → Bool} {b : AABB N D} {o d : SVec N D} {dims : List (Fin D)}
    {y : F64 × F64} (h : slabLoop .exact nz b o d dims (none, none) = some y) : y = (none, none) := by
  induction dims with
  | nil => simp only [slabLoop, List.foldlM_nil] at h; injection h with h; exact h.symm
  | cons i dims ih =>
    rw [slabLoop, List.foldlM_cons] at h
    obtain ⟨z, hz, h⟩ := Option.bind_eq_some_iff.1 h
    obtain ⟨s, hs, hz⟩ := Option.bind_eq_some_iff.1 hz
    injection hz with hz
    rw [slabStep_none] at hz
    subst hz
    exact ih h

/-- An interval between 0 and 1 contains a parameter iff its ends are in order. -/
theorem Rep.le_iff {x : F64 × F64} {S : ℚ → Prop} {a b : XRat} (h : Rep x S a b) (ha : rat 0 ≤ a) :
    F64.le x.1 x.2 = true ↔ (∃ t, S t) ∨ (a = top ∧ b = top) := by
  obtain ⟨rfl, hS⟩ := h
  simp only [F64.le, decide_eq_true_eq]
  constructor
  · intro hab
    rcases XRat.cases a with h | h | ⟨q, h⟩
    · subst h; exact absurd ha (not_le_bot 0)
    · subst h; exact .inr ⟨rfl, le_antisymm (le_top' _) hab⟩
    · subst h; exact .inl ⟨q, (hS q).2 ⟨le_refl _, hab⟩⟩
  · rintro (⟨t, ht⟩ | ⟨rfl, rfl⟩)
    · exact ((hS t).1 ht).1.trans ((hS t).1 ht).2
    · exact le_refl _

/-- An interval has its ends strictly in order iff it contains two parameters. -/
theorem Rep.lt_iff {x : F64 × F64} {S : ℚ → Prop} {a b : XRat} (h : Rep x S a b) :
    F64.lt x.1 x.2 = true ↔ ∃ s t, s < t ∧ S s ∧ S t := by
  obtain ⟨rfl, hS⟩ := h
  simp only [F64.lt, decide_eq_true_eq]
  constructor
  · intro hab
    rcases XRat.cases a with h | h | ⟨q, h⟩ <;> rcases XRat.cases b with h' | h' | ⟨q', h'⟩ <;> subst h <;> subst h'
    · exact absurd hab (lt_irrefl _)
    · exact ⟨0, 1, by norm_num, (hS 0).2 ⟨bot_le, le_top' _⟩, (hS 1).2 ⟨bot_le, le_top' _⟩⟩
    · exact ⟨q' - 1, q', by linarith, (hS _).2 ⟨bot_le, rat_le.2 (by linarith)⟩, (hS _).2 ⟨bot_le, le_refl _⟩⟩
    · exact absurd hab not_lt_bot
    · exact absurd hab (lt_irrefl _)
    · exact absurd hab.le (not_top_le _)
    · exact absurd hab not_lt_bot
    · exact ⟨q, q + 1, by linarith, (hS _).2 ⟨le_refl _, le_top' _⟩, (hS _).2 ⟨rat_le.2 (by linarith), le_top' _⟩⟩
    · exact ⟨q, q', rat_lt.1 hab, (hS _).2 ⟨le_refl _, hab.le⟩, (hS _).2 ⟨hab.le, le_refl _⟩⟩
  · rintro ⟨s, t, hst, hs, ht⟩
    exact ((hS s).1 hs).1.trans_lt ((rat_lt.2 hst).trans_le ((hS t).1 ht).2)

theorem lineBoundsIntersect_iff {nz : Fin D → Bool} {b : AABB N D} (hb : b.Valid) {o d : SVec N D} {r : Bool}
    (h : lineBoundsIntersect .exact nz b o d = some r) :
    r = true ↔ ∃ t : ℚ, 0 ≤ t ∧ t ≤ 1 ∧ b.OnLine (fun i => Scalar.toRat (o.get i)) (fun i => Scalar.toRat (d.get i)) t := by
  unfold lineBoundsIntersect at h
  obtain ⟨y, hy, h⟩ := Option.bind_eq_some_iff.1 h
  injection h with h
  have h0 : Rep (F64.fin 0, F64.fin 1) (fun t => 0 ≤ t ∧ t ≤ 1) (rat 0) (rat 1) :=
    ⟨rfl, fun t => by rw [rat_le, rat_le]⟩
  obtain ⟨lo, hi, h1, h2, h3⟩ := slabLoop_spec hb h0 hy
  rw [← h, h1.le_iff h2]
  constructor
  · rintro (⟨t, ⟨ht0, ht1⟩, ht⟩ | ⟨-, rfl⟩)
    · exact ⟨t, ht0, ht1, fun i => ht i (List.mem_finRange i)⟩
    · exact absurd h3 (not_top_le 1)
  · rintro ⟨t, ht0, ht1, ht⟩
    exact .inl ⟨t, ⟨ht0, ht1⟩, fun i _ => ht i⟩

theorem rayBoundsIntersect_iff {nz : Fin (D + 1) → Bool} {b : AABB N (D + 1)} (hb : b.Valid) {o d : SVec N (D + 1)}
    {r : Bool} (h : rayBoundsIntersect .exact nz b o d = some r) :
    r = true ↔ (∃ s t : ℚ, s < t ∧ b.OnLine (fun i => Scalar.toRat (o.get i)) (fun i => Scalar.toRat (d.get i)) s ∧
        b.OnLine (fun i => Scalar.toRat (o.get i)) (fun i => Scalar.toRat (d.get i)) t) ∧
      ¬ (Scalar.toRat (d.get 0) = 0 ∧ (Scalar.toRat (o.get 0) = Scalar.toRat (b.min.get 0) ∨
        Scalar.toRat (o.get 0) = Scalar.toRat (b.max.get 0))) := by
  unfold rayBoundsIntersect at h
  rw [List.finRange_succ] at h
  obtain ⟨s, hs, h⟩ := Option.bind_eq_some_iff.1 h
  obtain ⟨y, hy, h⟩ := Option.bind_eq_some_iff.1 h
  injection h with h
  rw [← h]
  obtain ⟨f1, f2⟩ := first_slab (nz 0) (Scalar.toRat (o.get 0)) (Scalar.toRat (d.get 0)) ((ExactScalar.le_iff _ _).1 (hb 0))
  rw [← slab_eq hs] at f1 f2
  by_cases hz : Scalar.toRat (d.get 0) = 0 ∧ (Scalar.toRat (o.get 0) = Scalar.toRat (b.min.get 0) ∨
        Scalar.toRat (o.get 0) = Scalar.toRat (b.max.get 0))
  · refine ⟨fun hlt => ?_, fun hr => absurd hz hr.2⟩
    rcases f2 hz with e | ⟨a, e⟩
    · rw [e] at hy
      rw [slabLoop_none hy] at hlt
      cases hlt
    · rw [e] at hy
      obtain ⟨lo, hi, h1, h2, h3⟩ := slabLoop_spec hb (S := fun t => a ≤ rat t ∧ rat t ≤ a) ⟨rfl, fun t => Iff.rfl⟩ hy
      rw [h1.1] at hlt
      simp only [F64.lt, decide_eq_true_eq] at hlt
      exact absurd hlt (not_lt.2 (h3.trans h2))
  · obtain ⟨a, b', f1⟩ := f1 hz
    obtain ⟨lo, hi, h1, -, -⟩ := slabLoop_spec hb f1 hy
    rw [h1.lt_iff]
    have e : ∀ t, (InSlab (Scalar.toRat (b.min.get 0)) (Scalar.toRat (b.max.get 0)) (Scalar.toRat (o.get 0))
        (Scalar.toRat (d.get 0)) t ∧ ∀ i ∈ (List.finRange D).map Fin.succ, InDim b o d i t) ↔
        b.OnLine (fun i => Scalar.toRat (o.get i)) (fun i => Scalar.toRat (d.get i)) t := by
      intro t
      constructor
      · rintro ⟨h0, h1⟩ i
        refine Fin.cases ?_ (fun j => ?_) i
        · exact h0
        · exact h1 j.succ (List.mem_map.2 ⟨j, List.mem_finRange j, rfl⟩)
      · intro h
        exact ⟨h 0, fun i _ => h i⟩
    simp only [e]
    exact ⟨fun h => ⟨h, hz⟩, fun h => h.1⟩

end RTree
