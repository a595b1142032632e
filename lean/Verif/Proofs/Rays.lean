import Verif.Proofs.Segments
import Mathlib.Data.Fintype.Basic
import Mathlib.Data.Finset.Max
import Mathlib.Data.Fintype.Option
/-!
# The ray test with rounding
-/

namespace RTree

open XRat F64
open Scalar (Upto)

variable {N : Type} {D : Nat} [Scalar N]

/-! ### the answer in terms of the computed slabs -/

/-- A slab without NaN. -/
def Proper (s : F64 × F64) : Prop := ∃ z1 z2, s = (some z1, some z2)

theorem slabLoop_nan {R : Rounding} {nz : Fin D → Bool} {b : AABB N D} {o d : SVec N D} {dims : List (Fin D)}
    {y : F64 × F64} (h : slabLoop R nz b o d dims (none, none) = some y) : y = (none, none) := by
  induction dims with
  | nil => simp only [slabLoop, List.foldlM_nil] at h; injection h with h; exact h.symm
  | cons i dims ih =>
    rw [slabLoop, List.foldlM_cons] at h
    obtain ⟨z, hz, h⟩ := Option.bind_eq_some_iff.1 h
    obtain ⟨s, hs, hz⟩ := Option.bind_eq_some_iff.1 hz
    injection hz with hz
    rw [slabStep_none] at hz
    subst hz
    exact ih h

theorem rayBoundsIntersect_slabs {R : Rounding} {nz : Fin (D + 1) → Bool} {b : AABB N (D + 1)} {o d : SVec N (D + 1)}
    {r : Bool} (h : rayBoundsIntersect R nz b o d = some r) (i : Fin (D + 1)) :
    ∃ s, slab R (nz i) (b.min.get i) (b.max.get i) (o.get i) (d.get i) = some s := by
  unfold rayBoundsIntersect at h
  rw [List.finRange_succ] at h
  obtain ⟨s, hs, h⟩ := Option.bind_eq_some_iff.1 h
  obtain ⟨y, hy, h⟩ := Option.bind_eq_some_iff.1 h
  refine Fin.cases ?_ (fun j => ?_) i
  · exact ⟨s, hs⟩
  · exact slabLoop_slabs hy j.succ (List.mem_map.2 ⟨j, List.mem_finRange j, rfl⟩)

/-- The answer in terms of the computed slabs. -/
theorem rayBoundsIntersect_inS {R : Rounding} {nz : Fin (D + 1) → Bool} {b : AABB N (D + 1)} {o d : SVec N (D + 1)}
    {r : Bool} (h : rayBoundsIntersect R nz b o d = some r) :
    r = true ↔ (∃ u t : ℚ, u < t ∧ ∀ i s,
      slab R (nz i) (b.min.get i) (b.max.get i) (o.get i) (d.get i) = some s → InS s u ∧ InS s t) ∧
      ∀ s, slab R (nz 0) (b.min.get 0) (b.max.get 0) (o.get 0) (d.get 0) = some s → Proper s := by
  unfold rayBoundsIntersect at h
  rw [List.finRange_succ] at h
  obtain ⟨s, hs, h⟩ := Option.bind_eq_some_iff.1 h
  obtain ⟨y, hy, h⟩ := Option.bind_eq_some_iff.1 h
  injection h with h
  rw [← h]
  by_cases hp : Proper s
  · obtain ⟨z1, z2, rfl⟩ := hp
    have hall : Rep (some ⊥, some top) (fun _ => True) ⊥ top := ⟨rfl, fun t => by simp [le_top']⟩
    obtain ⟨a, b', h1, -, -⟩ := hall.inS (some z1, some z2)
    have key : (F64.min (some z1) (some z2), F64.max (some z1) (some z2)) = slabStep (some ⊥, some top) (some z1, some z2) := by
      rw [slabStep_some, min_some, max_some]
      simp [le_top']
    rw [← key] at h1
    obtain ⟨lo, hi, h2, -, -⟩ := slabLoop_inS h1 hy
    rw [h2.lt_iff]
    have e : ∀ t, ((True ∧ InS (some z1, some z2) t) ∧ ∀ i ∈ (List.finRange D).map Fin.succ, ∀ s,
        slab R (nz i) (b.min.get i) (b.max.get i) (o.get i) (d.get i) = some s → InS s t) ↔
        ∀ i s, slab R (nz i) (b.min.get i) (b.max.get i) (o.get i) (d.get i) = some s → InS s t := by
      intro t
      constructor
      · rintro ⟨⟨-, h0⟩, h1⟩ i
        refine Fin.cases ?_ (fun j => ?_) i
        · intro s' hs'
          rw [hs] at hs'
          injection hs' with hs'
          exact hs' ▸ h0
        · exact h1 j.succ (List.mem_map.2 ⟨j, List.mem_finRange j, rfl⟩)
      · intro h
        exact ⟨⟨trivial, h 0 _ hs⟩, fun i _ => h i⟩
    simp only [e]
    constructor
    · rintro ⟨u, t, hut, hu, ht⟩
      refine ⟨⟨u, t, hut, fun i s h => ⟨hu i s h, ht i s h⟩⟩, fun s' hs' => ?_⟩
      rw [hs] at hs'
      injection hs' with hs'
      exact ⟨z1, z2, hs'.symm⟩
    · rintro ⟨⟨u, t, hut, h⟩, -⟩
      exact ⟨u, t, hut, fun i s hs => (h i s hs).1, fun i s hs => (h i s hs).2⟩
  · refine ⟨fun hlt => ?_, fun hr => absurd (hr.2 s hs) hp⟩
    exfalso
    have flat : (F64.min s.1 s.2, F64.max s.1 s.2) = (none, none) ∨
        ∃ a, (F64.min s.1 s.2, F64.max s.1 s.2) = (some a, some a) := by
      rcases s with ⟨_ | s1, _ | s2⟩
      · left; simp [min_none, max_none]
      · right; exact ⟨s2, by rw [min_none, max_none]⟩
      · left; rw [min_none_right, max_none_right]
      · exact absurd ⟨s1, s2, rfl⟩ hp
    rcases flat with e | ⟨a, e⟩
    · rw [e] at hy
      rw [slabLoop_nan hy] at hlt
      cases hlt
    · rw [e] at hy
      obtain ⟨lo, hi, h1, h2, h3⟩ := slabLoop_inS (S := fun t => a ≤ rat t ∧ rat t ≤ a) ⟨rfl, fun t => Iff.rfl⟩ hy
      rw [h1.1] at hlt
      simp only [F64.lt, decide_eq_true_eq] at hlt
      exact absurd hlt (not_lt.2 (h3.trans h2))

/-! ### one dimension -/

/-- The slab that is computed is that of a box whose sides are moved by at most `ε` times their distance from the origin. -/
structure SlabNear (ε : ℚ) (s : F64 × F64) (bmin bmax o d : ℚ) : Prop where
  sound : ∀ t, InS s t → bmin - ε * |bmin - o| ≤ o + t * d ∧ o + t * d ≤ bmax + ε * |bmax - o|
  complete : ∀ t, bmin + ε * |bmin - o| ≤ o + t * d → o + t * d ≤ bmax - ε * |bmax - o| → InS s t

theorem SlabNear.of_ends {ε z1 z2 X Y d bmin bmax o : ℚ} (hX : X = bmin - o) (hY : Y = bmax - o) (hd : d ≠ 0)
    (e1 : |z1 - X / d| ≤ |X / d| * ε) (e2 : |z2 - Y / d| ≤ |Y / d| * ε) (hpos : 0 < d → z1 ≤ z2) (hneg : d < 0 → z2 ≤ z1) :
    SlabNear ε (some (rat z1), some (rat z2)) bmin bmax o d := by
  have em : bmin = X + o := by linarith
  have eM : bmax = Y + o := by linarith
  have hX' : |z1 * d - X| ≤ |X| * ε := by
    have h1 := mul_le_mul_of_nonneg_right e1 (abs_nonneg d)
    rw [← abs_mul, sub_mul, div_mul_cancel₀ _ hd, mul_right_comm, ← abs_mul, div_mul_cancel₀ _ hd] at h1
    exact h1
  have hY' : |z2 * d - Y| ≤ |Y| * ε := by
    have h1 := mul_le_mul_of_nonneg_right e2 (abs_nonneg d)
    rw [← abs_mul, sub_mul, div_mul_cancel₀ _ hd, mul_right_comm, ← abs_mul, div_mul_cancel₀ _ hd] at h1
    exact h1
  rw [abs_le] at hX' hY'
  constructor
  · intro t ht
    rw [InS_rat] at ht
    rw [← hX, ← hY, em, eM]
    rcases lt_or_gt_of_ne hd with h | h
    · rw [min_eq_right (hneg h), max_eq_left (hneg h)] at ht
      have k1 := mul_le_mul_of_nonpos_right ht.1 h.le
      have k2 := mul_le_mul_of_nonpos_right ht.2 h.le
      constructor <;> linarith
    · rw [min_eq_left (hpos h), max_eq_right (hpos h)] at ht
      have k1 := mul_le_mul_of_nonneg_right ht.1 h.le
      have k2 := mul_le_mul_of_nonneg_right ht.2 h.le
      constructor <;> linarith
  · intro t h1 h2
    rw [← hX, em] at h1
    rw [← hY, eM] at h2
    rw [InS_rat]
    rcases lt_or_gt_of_ne hd with h | h
    · rw [min_eq_right (hneg h), max_eq_left (hneg h)]
      constructor
      · refine (mul_le_mul_right_of_neg h).1 ?_
        linarith
      · refine (mul_le_mul_right_of_neg h).1 ?_
        linarith
    · rw [min_eq_left (hpos h), max_eq_right (hpos h)]
      constructor
      · exact le_of_mul_le_mul_right (by linarith) h
      · exact le_of_mul_le_mul_right (by linarith) h

theorem SlabNear.of_still {ε : ℚ} (h0 : 0 ≤ ε) {s : F64 × F64} {bmin bmax o d : ℚ} (hd : d = 0)
    (h : ∀ t, InS s t ↔ bmin ≤ o ∧ o ≤ bmax) : SlabNear ε s bmin bmax o d := by
  subst hd
  constructor
  · intro t ht
    rw [h] at ht
    rw [mul_zero, add_zero]
    have k1 := mul_nonneg h0 (abs_nonneg (bmin - o))
    have k2 := mul_nonneg h0 (abs_nonneg (bmax - o))
    exact ⟨by linarith, by linarith⟩
  · intro t k1 k2
    rw [mul_zero, add_zero] at k1 k2
    rw [h]
    have k3 := mul_nonneg h0 (abs_nonneg (bmin - o))
    have k4 := mul_nonneg h0 (abs_nonneg (bmax - o))
    exact ⟨by linarith, by linarith⟩

/-! ### rays -/

section Ray

variable {ε : ℚ} {R : Rounding} {nz : Fin (D + 1) → Bool} {r : Ray N (D + 1)} {b : AABB N (D + 1)} {x : Bool}

/-- Reported rays nearly run through the box. -/
theorem Ray.within_of_intersectsBox
    (hn : ∀ i s, slab R (nz i) (b.min.get i) (b.max.get i) (r.origin.get i) (r.n.get i) = some s →
      SlabNear ε s (Scalar.toRat (b.min.get i)) (Scalar.toRat (b.max.get i)) (Scalar.toRat (r.origin.get i)) (Scalar.toRat (r.n.get i)))
    (h : r.intersectsBox R nz b = some true) :
    ∃ u t : ℚ, u < t ∧ r.InWithin b ε u ∧ r.InWithin b ε t := by
  obtain ⟨⟨u, t, hut, hi⟩, -⟩ := (rayBoundsIntersect_inS h).1 rfl
  refine ⟨u, t, hut, fun i => ?_, fun i => ?_⟩
  · obtain ⟨s, hs⟩ := rayBoundsIntersect_slabs h i
    exact (hn i s hs).sound u (hi i s hs).1
  · obtain ⟨s, hs⟩ := rayBoundsIntersect_slabs h i
    exact (hn i s hs).sound t (hi i s hs).2

/-- Rays that run through a slightly smaller box are reported, unless they run in a side perpendicular to the first dimension. -/
theorem Ray.intersectsBox_of_within
    (hn : ∀ i s, slab R (nz i) (b.min.get i) (b.max.get i) (r.origin.get i) (r.n.get i) = some s →
      SlabNear ε s (Scalar.toRat (b.min.get i)) (Scalar.toRat (b.max.get i)) (Scalar.toRat (r.origin.get i)) (Scalar.toRat (r.n.get i)))
    (hp : ∀ s, slab R (nz 0) (b.min.get 0) (b.max.get 0) (r.origin.get 0) (r.n.get 0) = some s → Proper s)
    {u t : ℚ} (hut : u < t) (hu : r.InWithin b (-ε) u) (ht : r.InWithin b (-ε) t) (h : r.intersectsBox R nz b = some x) :
    x = true := by
  refine (rayBoundsIntersect_inS h).2 ⟨⟨u, t, hut, fun i s hs => ⟨?_, ?_⟩⟩, hp⟩
  · exact (hn i s hs).complete u (by have := (hu i).1; linarith) (by have := (hu i).2; linarith)
  · exact (hn i s hs).complete t (by have := (ht i).1; linarith) (by have := (ht i).2; linarith)

end Ray

/-! ### integer coordinates -/

section Ints

variable [IntScalar N] {nz : Bool} {bmin bmax o d : N} {s : F64 × F64}

theorem slabNear_int (hb : bmin ≤ bmax) (h : slab .binary64 nz bmin bmax o d = some s) :
    SlabNear (pow2 (-51)) s (Scalar.toRat bmin) (Scalar.toRat bmax) (Scalar.toRat o) (Scalar.toRat d) := by
  by_cases hd : Scalar.toRat d = 0
  · refine .of_still (pow2_pos _).le hd fun t => ?_
    rw [inS_zero hb hd h, hd, InSlab, mul_zero, add_zero]
  · obtain ⟨x1, x2, δ, b1, b2, b3, e1, e2, e3, -, h1⟩ := slab_int h
    have hδ : δ ≠ 0 := fun h0 => hd (by rw [← e3, h0]; rfl)
    have hle := (ExactScalar.le_iff _ _).1 hb
    have hx : (x1 : ℚ) ≤ x2 := by rw [e1, e2]; linarith
    rw [h1 hδ]
    refine .of_ends e1 e2 hd ?_ ?_ (fun hpos => ?_) fun hneg => ?_
    · rw [← e3]; exact fdiv_error b1 b3 hδ
    · rw [← e3]; exact fdiv_error b2 b3 hδ
    · rw [← e3] at hpos
      exact nearest_mono (mul_le_mul_of_nonneg_right hx (nearest_nonneg (one_div_pos.2 hpos).le))
    · rw [← e3] at hneg
      refine nearest_mono (mul_le_mul_of_nonpos_right hx ?_)
      have := nearest_mono (F := .binary64) (one_div_neg.2 hneg).le
      rwa [nearest_zero] at this

theorem proper_int (h : slab .binary64 nz bmin bmax o d = some s) :
    Proper s ↔ ¬ (Scalar.toRat d = 0 ∧ (Scalar.toRat o = Scalar.toRat bmin ∨ Scalar.toRat o = Scalar.toRat bmax)) := by
  obtain ⟨x1, x2, δ, -, -, -, e1, e2, e3, h0, h1⟩ := slab_int h
  by_cases hδ : δ = 0
  · have hd : Scalar.toRat d = 0 := by rw [← e3, hδ]; rfl
    rw [h0 hδ, e1, e2]
    simp only [hd, true_and]
    have key : ∀ u : ℚ, (∃ z, F64.mul .exact (fin u) (recip .exact nz (fin 0)) = some z) ↔ u ≠ 0 := by
      intro u
      by_cases hu : u = 0
      · refine ⟨?_, fun h => absurd hu h⟩
        rintro ⟨z, hz⟩
        simp only [recip, if_true, F64.fin] at hz
        cases nz <;> simp [inf, negInf, F64.mul, hu, nan] at hz
      · refine ⟨fun _ => hu, fun _ => ?_⟩
        simp only [recip, if_true, F64.fin]
        cases nz
        · simp only [Bool.false_eq_true, if_false, inf, F64.mul, if_neg hu]
          split <;> exact ⟨_, rfl⟩
        · simp only [if_true, negInf, F64.mul, if_neg hu]
          split <;> exact ⟨_, rfl⟩
    constructor
    · rintro ⟨z1, z2, hz⟩
      simp only [rawSlab, Prod.mk.injEq] at hz
      have k1 := (key _).1 ⟨z1, hz.1⟩
      have k2 := (key _).1 ⟨z2, hz.2⟩
      rintro (h | h)
      · exact k1 (by linarith)
      · exact k2 (by linarith)
    · intro hn
      obtain ⟨z1, k1⟩ := (key (Scalar.toRat bmin - Scalar.toRat o)).2 (fun h => hn (.inl (by linarith)))
      obtain ⟨z2, k2⟩ := (key (Scalar.toRat bmax - Scalar.toRat o)).2 (fun h => hn (.inr (by linarith)))
      exact ⟨z1, z2, by simp only [rawSlab, k1, k2]⟩
  · have hd : Scalar.toRat d ≠ 0 := by rw [← e3]; exact_mod_cast hδ
    rw [h1 hδ]
    exact ⟨fun _ h => hd h.1, fun _ => ⟨_, _, rfl⟩⟩

/-- A fraction computed in binary64 for integers of at most 25 bits. -/
structure Frac (z : ℚ) (p q : ℤ) : Prop where
  num : |p| ≤ 2 ^ 25
  den : 0 < q
  den_le : q ≤ 2 ^ 24
  err : |z - (p : ℚ) / q| ≤ |(p : ℚ) / q| * pow2 (-51)

/-- Such fractions are in the right order. -/
theorem Frac.lt {z z' : ℚ} {p q p' q' : ℤ} (h : Frac z p q) (h' : Frac z' p' q') (hlt : (p : ℚ) / q < (p' : ℚ) / q') : z < z' := by
  have hq : (0 : ℚ) < q := by exact_mod_cast h.den
  have hq' : (0 : ℚ) < q' := by exact_mod_cast h'.den
  have e := h.err
  have e' := h'.err
  have hp : |(p : ℚ)| ≤ 2 ^ 25 := by rw [← Int.cast_abs]; exact_mod_cast h.num
  have hp' : |(p' : ℚ)| ≤ 2 ^ 25 := by rw [← Int.cast_abs]; exact_mod_cast h'.num
  have hql : (q : ℚ) ≤ 2 ^ 24 := by exact_mod_cast h.den_le
  have hql' : (q' : ℚ) ≤ 2 ^ 24 := by exact_mod_cast h'.den_le
  have gap : (1 : ℚ) ≤ p' * q - p * q' := by
    rw [div_lt_div_iff₀ hq hq'] at hlt
    have : p * q' < p' * q := by exact_mod_cast hlt
    have h2 : p * q' + 1 ≤ p' * q := this
    have h3 : ((p * q' + 1 : ℤ) : ℚ) ≤ ((p' * q : ℤ) : ℚ) := by exact_mod_cast h2
    push_cast at h3
    linarith
  -- multiply by the denominators
  have m : |z * q * q' - p * q'| ≤ |(p : ℚ)| * q' * pow2 (-51) := by
    have h1 : z * q * q' - p * q' = (z - p / q) * (q * q') := by field_simp
    rw [h1, abs_mul, abs_of_pos (mul_pos hq hq')]
    refine (mul_le_mul_of_nonneg_right e (mul_pos hq hq').le).trans (le_of_eq ?_)
    rw [abs_div, abs_of_pos hq]
    field_simp
  have m' : |z' * q * q' - p' * q| ≤ |(p' : ℚ)| * q * pow2 (-51) := by
    have h1 : z' * q * q' - p' * q = (z' - p' / q') * (q * q') := by field_simp
    rw [h1, abs_mul, abs_of_pos (mul_pos hq hq')]
    refine (mul_le_mul_of_nonneg_right e' (mul_pos hq hq').le).trans (le_of_eq ?_)
    rw [abs_div, abs_of_pos hq']
    field_simp
  have u : pow2 (-51) = 1 / 2 ^ 51 := by rw [pow2_eq]; norm_num
  rw [u] at m m'
  have b1 : |(p : ℚ)| * q' ≤ 2 ^ 25 * 2 ^ 24 := mul_le_mul hp hql' hq'.le (by norm_num)
  have b2 : |(p' : ℚ)| * q ≤ 2 ^ 25 * 2 ^ 24 := mul_le_mul hp' hql hq.le (by norm_num)
  rw [abs_le] at m m'
  have key : z * q * q' < z' * q * q' := by
    have c1 : |(p : ℚ)| * q' * (1 / 2 ^ 51) ≤ 1 / 4 := by linarith
    have c2 : |(p' : ℚ)| * q * (1 / 2 ^ 51) ≤ 1 / 4 := by linarith
    linarith [m.1, m.2, m'.1, m'.2]
  rw [mul_assoc, mul_assoc] at key
  exact lt_of_mul_lt_mul_right key (mul_pos hq hq').le

/-- The ends of a computed slab, as fractions. -/
theorem slab_frac (hb : bmin ≤ bmax) (hd : Scalar.toRat d ≠ 0) (k1 : |Scalar.toRat bmin| ≤ 2 ^ 24)
    (k2 : |Scalar.toRat bmax| ≤ 2 ^ 24) (k3 : |Scalar.toRat o| ≤ 2 ^ 24) (k4 : |Scalar.toRat d| ≤ 2 ^ 24)
    (h : slab .binary64 nz bmin bmax o d = some s) :
    ∃ (p p' q : ℤ) (z z' : ℚ), Frac z p q ∧ Frac z' p' q ∧ p ≤ p' ∧ (∀ t, InS s t ↔ z ≤ t ∧ t ≤ z') ∧
      ∀ t, InSlab (Scalar.toRat bmin) (Scalar.toRat bmax) (Scalar.toRat o) (Scalar.toRat d) t ↔
        (p : ℚ) / q ≤ t ∧ t ≤ (p' : ℚ) / q := by
  obtain ⟨x1, x2, δ, b1, b2, b3, e1, e2, e3, -, h1⟩ := slab_int h
  have hδ : δ ≠ 0 := fun h0 => hd (by rw [← e3, h0]; rfl)
  have hδ' : (δ : ℚ) ≠ 0 := by exact_mod_cast hδ
  rw [h1 hδ]
  have hle := (ExactScalar.le_iff _ _).1 hb
  have hx : (x1 : ℚ) ≤ x2 := by rw [e1, e2]; linarith
  have hxi : x1 ≤ x2 := by exact_mod_cast hx
  have c1 : |x1| ≤ 2 ^ 25 := by
    have : |(x1 : ℚ)| ≤ 2 ^ 25 := by
      rw [e1, abs_le]
      rw [abs_le] at k1 k3
      constructor <;> linarith [k1.1, k1.2, k3.1, k3.2]
    rw [← Int.cast_abs] at this
    exact_mod_cast this
  have c2 : |x2| ≤ 2 ^ 25 := by
    have : |(x2 : ℚ)| ≤ 2 ^ 25 := by
      rw [e2, abs_le]
      rw [abs_le] at k2 k3
      constructor <;> linarith [k2.1, k2.2, k3.1, k3.2]
    rw [← Int.cast_abs] at this
    exact_mod_cast this
  have c3 : |δ| ≤ 2 ^ 24 := by
    rw [← e3, ← Int.cast_abs] at k4
    exact_mod_cast k4
  rw [← e3]
  have em : Scalar.toRat bmin = x1 + Scalar.toRat o := by linarith
  have eM : Scalar.toRat bmax = x2 + Scalar.toRat o := by linarith
  rw [em, eM]
  generalize Scalar.toRat o = o'
  have f1 := fdiv_error b1 b3 hδ
  have f2 := fdiv_error b2 b3 hδ
  rcases lt_or_gt_of_ne hδ with hneg | hpos
  · have hneg' : (δ : ℚ) < 0 := by exact_mod_cast hneg
    have hz : fdiv x2 δ ≤ fdiv x1 δ := by
      refine nearest_mono (mul_le_mul_of_nonpos_right hx ?_)
      have := nearest_mono (F := .binary64) (one_div_neg.2 hneg').le
      rwa [nearest_zero] at this
    have hf : ∀ x : ℤ, ((-x : ℤ) : ℚ) / ((-δ : ℤ) : ℚ) = (x : ℚ) / δ := fun x => by push_cast; rw [neg_div_neg_eq]
    rw [abs_of_neg hneg] at c3
    refine ⟨-x2, -x1, -δ, fdiv x2 δ, fdiv x1 δ, ⟨by rwa [abs_neg], by omega, c3, by rw [hf]; exact f2⟩,
      ⟨by rwa [abs_neg], by omega, c3, by rw [hf]; exact f1⟩, by omega, fun t => ?_, fun t => ?_⟩
    · rw [InS_rat, min_eq_right hz, max_eq_left hz]
    · rw [hf, hf, div_le_iff_of_neg hneg', le_div_iff_of_neg hneg', InSlab]
      constructor <;> rintro ⟨h1, h2⟩ <;> constructor <;> linarith
  · have hpos' : (0 : ℚ) < δ := by exact_mod_cast hpos
    have hz : fdiv x1 δ ≤ fdiv x2 δ :=
      nearest_mono (mul_le_mul_of_nonneg_right hx (nearest_nonneg (one_div_pos.2 hpos').le))
    rw [abs_of_pos hpos] at c3
    refine ⟨x1, x2, δ, fdiv x1 δ, fdiv x2 δ, ⟨c1, hpos, c3, f1⟩, ⟨c2, hpos, c3, f2⟩, hxi, fun t => ?_, fun t => ?_⟩
    · rw [InS_rat, min_eq_left hz, max_eq_right hz]
    · rw [div_le_iff₀ hpos', le_div_iff₀ hpos', InSlab]
      constructor <;> rintro ⟨h1, h2⟩ <;> constructor <;> linarith

end Ints

/-- Finitely many intervals that meet pairwise have a common point. -/
theorem common_point {ι : Type} [Fintype ι] (P : ι → Prop) (lo hi : ι → ℚ) (h : ∀ i j, P i → P j → lo i ≤ hi j) :
    ∃ t, ∀ i, P i → lo i ≤ t ∧ t ≤ hi i := by
  classical
  by_cases hne : ∃ i, P i
  · obtain ⟨i0, h0⟩ := hne
    obtain ⟨m, hm, hmax⟩ := Finset.exists_max_image (Finset.univ.filter P) lo ⟨i0, by simpa using h0⟩
    have hm' : P m := by simpa using hm
    exact ⟨lo m, fun i hi => ⟨hmax i (by simpa using hi), h m i hm' hi⟩⟩
  · exact ⟨0, fun i hi => absurd ⟨i, hi⟩ hne⟩

/-- Finitely many intervals that overlap pairwise have a common interval. -/
theorem common_interval {ι : Type} [Fintype ι] (P : ι → Prop) (lo hi : ι → ℚ) (h : ∀ i j, P i → P j → lo i < hi j) :
    ∃ u t, u < t ∧ ∀ i, P i → lo i ≤ u ∧ t ≤ hi i := by
  classical
  by_cases hne : ∃ i, P i
  · obtain ⟨i0, h0⟩ := hne
    obtain ⟨m, hm, hmax⟩ := Finset.exists_max_image (Finset.univ.filter P) lo ⟨i0, by simpa using h0⟩
    obtain ⟨n, hn, hmin⟩ := Finset.exists_min_image (Finset.univ.filter P) hi ⟨i0, by simpa using h0⟩
    have hm' : P m := by simpa using hm
    have hn' : P n := by simpa using hn
    exact ⟨lo m, hi n, h m n hm' hn', fun i hi => ⟨hmax i (by simpa using hi), hmin i (by simpa using hi)⟩⟩
  · exact ⟨0, 1, by norm_num, fun i hi => absurd ⟨i, hi⟩ hne⟩

section SmallRay

variable [IntScalar N] {nz : Fin (D + 1) → Bool} {r : Ray N (D + 1)} {b : AABB N (D + 1)} {x : Bool}

theorem Ray.small_ends (hb : b.Valid) (hs : r.Small b) (h : r.intersectsBox .binary64 nz b = some x) :
    ∃ (p p' q : Fin (D + 1) → ℤ) (z z' : Fin (D + 1) → ℚ), ∀ i, Scalar.toRat (r.n.get i) ≠ 0 →
      Frac (z i) (p i) (q i) ∧ Frac (z' i) (p' i) (q i) ∧
      (∀ s t, slab .binary64 (nz i) (b.min.get i) (b.max.get i) (r.origin.get i) (r.n.get i) = some s →
        (InS s t ↔ z i ≤ t ∧ t ≤ z' i)) ∧
      ∀ t, InSlab (Scalar.toRat (b.min.get i)) (Scalar.toRat (b.max.get i)) (Scalar.toRat (r.origin.get i))
        (Scalar.toRat (r.n.get i)) t ↔ (p i : ℚ) / q i ≤ t ∧ t ≤ (p' i : ℚ) / q i := by
  have one : ∀ i, ∃ (p p' q : ℤ) (z z' : ℚ), Scalar.toRat (r.n.get i) ≠ 0 →
      Frac z p q ∧ Frac z' p' q ∧
      (∀ s t, slab .binary64 (nz i) (b.min.get i) (b.max.get i) (r.origin.get i) (r.n.get i) = some s →
        (InS s t ↔ z ≤ t ∧ t ≤ z')) ∧
      ∀ t, InSlab (Scalar.toRat (b.min.get i)) (Scalar.toRat (b.max.get i)) (Scalar.toRat (r.origin.get i))
        (Scalar.toRat (r.n.get i)) t ↔ (p : ℚ) / q ≤ t ∧ t ≤ (p' : ℚ) / q := by
    intro i
    by_cases hd : Scalar.toRat (r.n.get i) = 0
    · exact ⟨0, 0, 0, 0, 0, fun h => absurd hd h⟩
    · obtain ⟨s, hs'⟩ := rayBoundsIntersect_slabs h i
      obtain ⟨p, p', q, z, z', k1, k2, -, k3, k4⟩ := slab_frac (hb i) hd (hs.min i) (hs.max i) (hs.origin i) (hs.n i) hs'
      refine ⟨p, p', q, z, z', fun _ => ⟨k1, k2, fun s' t h' => ?_, k4⟩⟩
      rw [hs'] at h'
      injection h' with h'
      exact h' ▸ k3 t
  choose p p' q z z' hz using one
  exact ⟨p, p', q, z, z', hz⟩

/-- A reported ray of small integers has its line meet the box. -/
theorem Ray.onLine_of_small (hb : b.Valid) (hs : r.Small b) (h : r.intersectsBox .binary64 nz b = some true) :
    ∃ t : ℚ, b.OnLine (fun i => Scalar.toRat (r.origin.get i)) (fun i => Scalar.toRat (r.n.get i)) t := by
  obtain ⟨p, p', q, z, z', hz⟩ := Ray.small_ends hb hs h
  obtain ⟨⟨u, t, hut, hi⟩, -⟩ := (rayBoundsIntersect_inS h).1 rfl
  obtain ⟨T, hT⟩ := common_point (fun i => Scalar.toRat (r.n.get i) ≠ 0) (fun i => (p i : ℚ) / q i)
    (fun i => (p' i : ℚ) / q i) (by
      intro i j hi' hj'
      by_contra hn
      push Not at hn
      have hlt := (hz j hj').2.1.lt (hz i hi').1 hn
      obtain ⟨si, hsi⟩ := rayBoundsIntersect_slabs h i
      obtain ⟨sj, hsj⟩ := rayBoundsIntersect_slabs h j
      have k1 := (((hz i hi').2.2.1 si u hsi).1 (hi i si hsi).1).1
      have k2 := (((hz j hj').2.2.1 sj t hsj).1 (hi j sj hsj).2).2
      linarith)
  refine ⟨T, fun i => ?_⟩
  by_cases hd : Scalar.toRat (r.n.get i) = 0
  · obtain ⟨s, hs'⟩ := rayBoundsIntersect_slabs h i
    have := (inS_zero (hb i) hd hs' u).1 (hi i s hs').1
    rw [hd, InSlab, mul_zero] at this
    dsimp only
    rw [hd, mul_zero]
    exact this
  · exact ((hz i hd).2.2.2 T).2 (hT i hd)

/-- A ray of small integers the line of which runs through the box is reported. -/
theorem Ray.small_of_onLine (hb : b.Valid) (hs : r.Small b) (h : r.intersectsBox .binary64 nz b = some x)
    (hp : ¬ (Scalar.toRat (r.n.get 0) = 0 ∧ (Scalar.toRat (r.origin.get 0) = Scalar.toRat (b.min.get 0) ∨
      Scalar.toRat (r.origin.get 0) = Scalar.toRat (b.max.get 0)))) {u t : ℚ} (hut : u < t)
    (hu : b.OnLine (fun i => Scalar.toRat (r.origin.get i)) (fun i => Scalar.toRat (r.n.get i)) u)
    (ht : b.OnLine (fun i => Scalar.toRat (r.origin.get i)) (fun i => Scalar.toRat (r.n.get i)) t) : x = true := by
  obtain ⟨p, p', q, z, z', hz⟩ := Ray.small_ends hb hs h
  obtain ⟨U, T, hUT, hT⟩ := common_interval (fun i => Scalar.toRat (r.n.get i) ≠ 0) z z' (by
      intro i j hi' hj'
      refine (hz i hi').1.lt (hz j hj').2.1 ?_
      have k1 := (((hz i hi').2.2.2 u).1 (hu i)).1
      have k2 := (((hz j hj').2.2.2 t).1 (ht j)).2
      linarith)
  refine (rayBoundsIntersect_inS h).2 ⟨⟨U, T, hUT, fun i s hs' => ?_⟩, fun s hs' => (proper_int hs').2 hp⟩
  by_cases hd : Scalar.toRat (r.n.get i) = 0
  · have key : ∀ v, InS s v := by
      intro v
      refine (inS_zero (hb i) hd hs' v).2 ?_
      have := hu i
      dsimp only at this
      rw [hd, mul_zero] at this
      rw [hd, InSlab, mul_zero]
      exact this
    exact ⟨key U, key T⟩
  · obtain ⟨h1, h2⟩ := hT i hd
    exact ⟨((hz i hd).2.2.1 s U hs').2 ⟨h1, by linarith⟩, ((hz i hd).2.2.1 s T hs').2 ⟨by linarith, h2⟩⟩

end SmallRay

/-! ### segments of small integers -/

section SmallLine

variable [IntScalar N] {nz : Fin D → Bool} {l : Line N D} {b : AABB N D} {x : Bool}

theorem Line.small_ends (hb : b.Valid) (hs : l.Small b) {d : SVec N D}
    (hd : ∀ i, Scalar.toRat (d.get i) = Scalar.toRat (l.p1.get i) - Scalar.toRat (l.p0.get i))
    (h : ∀ i, ∃ s, slab .binary64 (nz i) (b.min.get i) (b.max.get i) (l.p0.get i) (d.get i) = some s) :
    ∃ (p p' q : Fin D → ℤ) (z z' : Fin D → ℚ), ∀ i, Scalar.toRat (d.get i) ≠ 0 →
      Frac (z i) (p i) (q i) ∧ Frac (z' i) (p' i) (q i) ∧
      (∀ s t, slab .binary64 (nz i) (b.min.get i) (b.max.get i) (l.p0.get i) (d.get i) = some s →
        (InS s t ↔ z i ≤ t ∧ t ≤ z' i)) ∧ p i ≤ p' i ∧
      ∀ t, InSlab (Scalar.toRat (b.min.get i)) (Scalar.toRat (b.max.get i)) (Scalar.toRat (l.p0.get i))
        (Scalar.toRat (d.get i)) t ↔ (p i : ℚ) / q i ≤ t ∧ t ≤ (p' i : ℚ) / q i := by
  have one : ∀ i, ∃ (p p' q : ℤ) (z z' : ℚ), Scalar.toRat (d.get i) ≠ 0 →
      Frac z p q ∧ Frac z' p' q ∧
      (∀ s t, slab .binary64 (nz i) (b.min.get i) (b.max.get i) (l.p0.get i) (d.get i) = some s →
        (InS s t ↔ z ≤ t ∧ t ≤ z')) ∧ p ≤ p' ∧
      ∀ t, InSlab (Scalar.toRat (b.min.get i)) (Scalar.toRat (b.max.get i)) (Scalar.toRat (l.p0.get i))
        (Scalar.toRat (d.get i)) t ↔ (p : ℚ) / q ≤ t ∧ t ≤ (p' : ℚ) / q := by
    intro i
    by_cases hd0 : Scalar.toRat (d.get i) = 0
    · exact ⟨0, 0, 0, 0, 0, fun h => absurd hd0 h⟩
    · obtain ⟨s, hs'⟩ := h i
      have k : |Scalar.toRat (d.get i)| ≤ 2 ^ 24 := by
        have h0 := hs.p0 i
        have h1 := hs.p1 i
        rw [hd i, abs_le]
        rw [abs_le] at h0 h1
        constructor <;> linarith [h0.1, h0.2, h1.1, h1.2]
      obtain ⟨p, p', q, z, z', k1, k2, k0, k3, k4⟩ := slab_frac (hb i) hd0 ((hs.min i).trans (by norm_num))
        ((hs.max i).trans (by norm_num)) ((hs.p0 i).trans (by norm_num)) k hs'
      refine ⟨p, p', q, z, z', fun _ => ⟨k1, k2, fun s' t h' => ?_, k0, k4⟩⟩
      rw [hs'] at h'
      injection h' with h'
      exact h' ▸ k3 t
  choose p p' q z z' hz using one
  exact ⟨p, p', q, z, z', hz⟩

theorem Frac.zero : Frac 0 0 1 := ⟨by norm_num, by norm_num, by norm_num, by simp⟩

theorem Frac.one : Frac 1 1 1 := ⟨by norm_num, by norm_num, by norm_num, by simp [(pow2_pos _).le]⟩

/-- A reported segment of small integers meets the box. -/
theorem Line.meets_of_small (hb : b.Valid) (hs : l.Small b) (h : l.intersectsBox .binary64 nz b = some true) : l.Meets b := by
  obtain ⟨d, hd, hsl, hr⟩ := Line.of_intersectsBox h
  obtain ⟨t, h0, h1, ht⟩ := hr.1 rfl
  obtain ⟨p, p', q, z, z', hz⟩ := Line.small_ends hb hs hd hsl
  have comp : ∀ i, Scalar.toRat (d.get i) ≠ 0 → z i ≤ t ∧ t ≤ z' i := by
    intro i hi
    obtain ⟨s, hs'⟩ := hsl i
    exact ((hz i hi).2.2.1 s t hs').1 (ht i s hs')
  obtain ⟨T, hT⟩ := common_point (ι := Option (Fin D)) (fun i => ∀ j, i = some j → Scalar.toRat (d.get j) ≠ 0)
    (fun i => i.elim 0 fun i => (p i : ℚ) / q i) (fun i => i.elim 1 fun i => (p' i : ℚ) / q i) (by
      intro i j hi' hj'
      rcases i with _ | i <;> rcases j with _ | j
      · norm_num
      · show (0 : ℚ) ≤ (p' j : ℚ) / q j
        by_contra hn
        push Not at hn
        have := (hz j (hj' j rfl)).2.1.lt Frac.zero (by simpa using hn)
        linarith [(comp j (hj' j rfl)).2]
      · show (p i : ℚ) / q i ≤ 1
        by_contra hn
        push Not at hn
        have := Frac.one.lt (hz i (hi' i rfl)).1 (by simpa using hn)
        linarith [(comp i (hi' i rfl)).1]
      · show (p i : ℚ) / q i ≤ (p' j : ℚ) / q j
        by_contra hn
        push Not at hn
        have := (hz j (hj' j rfl)).2.1.lt (hz i (hi' i rfl)).1 hn
        linarith [(comp j (hj' j rfl)).2, (comp i (hi' i rfl)).1])
  obtain ⟨h0', h1'⟩ := hT none (fun j h => by cases h)
  refine ⟨T, h0', h1', fun i => ?_⟩
  dsimp only
  rw [← hd i]
  by_cases hd0 : Scalar.toRat (d.get i) = 0
  · obtain ⟨s, hs'⟩ := hsl i
    have := (inS_zero (hb i) hd0 hs' t).1 (ht i s hs')
    rw [hd0, InSlab, mul_zero] at this
    rw [hd0, mul_zero]
    exact this
  · exact ((hz i hd0).2.2.2.2 T).2 (hT (some i) (fun j h => by cases h; exact hd0))

/-- A segment of small integers that meets the box in more than a point of it is reported. -/
theorem Line.small_of_meets (hb : b.Valid) (hs : l.Small b) (h : l.intersectsBox .binary64 nz b = some x) {u t : ℚ}
    (hut : u < t) (hu0 : 0 ≤ u) (ht1 : t ≤ 1)
    (hu : b.OnLine (fun i => Scalar.toRat (l.p0.get i)) (fun i => Scalar.toRat (l.p1.get i) - Scalar.toRat (l.p0.get i)) u)
    (ht : b.OnLine (fun i => Scalar.toRat (l.p0.get i)) (fun i => Scalar.toRat (l.p1.get i) - Scalar.toRat (l.p0.get i)) t) :
    x = true := by
  obtain ⟨d, hd, hsl, hr⟩ := Line.of_intersectsBox h
  obtain ⟨p, p', q, z, z', hz⟩ := Line.small_ends hb hs hd hsl
  have ex : ∀ i, Scalar.toRat (d.get i) ≠ 0 → (p i : ℚ) / q i ≤ u ∧ t ≤ (p' i : ℚ) / q i := by
    intro i hi
    have k1 := hu i
    have k2 := ht i
    dsimp only at k1 k2
    rw [← hd i] at k1 k2
    exact ⟨(((hz i hi).2.2.2.2 u).1 k1).1, (((hz i hi).2.2.2.2 t).1 k2).2⟩
  obtain ⟨T, hT⟩ := common_point (ι := Option (Fin D)) (fun i => ∀ j, i = some j → Scalar.toRat (d.get j) ≠ 0)
    (fun i => i.elim 0 z) (fun i => i.elim 1 z') (by
      intro i j hi' hj'
      rcases i with _ | i <;> rcases j with _ | j
      · norm_num
      · refine (Frac.zero.lt (hz j (hj' j rfl)).2.1 ?_).le
        have := (ex j (hj' j rfl)).2
        rw [Int.cast_zero, zero_div]
        linarith
      · refine ((hz i (hi' i rfl)).1.lt Frac.one ?_).le
        have := (ex i (hi' i rfl)).1
        rw [Int.cast_one, div_one]
        linarith
      · refine ((hz i (hi' i rfl)).1.lt (hz j (hj' j rfl)).2.1 ?_).le
        linarith [(ex j (hj' j rfl)).2, (ex i (hi' i rfl)).1])
  obtain ⟨h0', h1'⟩ := hT none (fun j h => by cases h)
  refine hr.2 ⟨T, h0', h1', fun i s hs' => ?_⟩
  by_cases hd0 : Scalar.toRat (d.get i) = 0
  · refine (inS_zero (hb i) hd0 hs' T).2 ?_
    have := hu i
    dsimp only at this
    rw [← hd i, hd0, mul_zero] at this
    rw [hd0, InSlab, mul_zero]
    exact this
  · exact ((hz i hd0).2.2.1 s T hs').2 (hT (some i) (fun j h => by cases h; exact hd0))

end SmallLine

end RTree
