import Verif.Props.Floats
import Verif.Proofs.Length
/-!
# Volumes of boxes and lengths of segments (C63, C64)

`none` is a panic, `some (rat q)` the number `q`.  Floating point operations round as in IEEE 754 (`.binary64`).
-/

namespace RTree

open XRat

variable {N : Type} {D : Nat} [Scalar N]

/-! ## C63: volumes -/

section Volumes

/-- C63: the volume of a non-inverted box is non-negative; with integer or floating point coordinates. -/
theorem C63_volume_nonneg {R : Rounding} [FloatScalar R N] {b : AABB N D} (hb : b.Valid) {v : XRat}
    (h : b.volume = some v) : rat 0 ≤ v :=
  (AABB.volume_mono hb (AABB.Le.refl b) h h).1

/-- C63: a box inside another has no greater volume, as calculated; with integer or floating point coordinates. -/
theorem C63_volume_mono {R : Rounding} [FloatScalar R N] {a b : AABB N D} (ha : a.Valid) (hab : a.Le b) {v w : XRat}
    (hv : a.volume = some v) (hw : b.volume = some w) : v ≤ w :=
  (AABB.volume_mono ha hab hv hw).2

/-- C63: so no box shrinks when it is extended to include another: the increase of the volume that selects the subtree for
    a new key is never negative. -/
theorem C63_increase_nonneg {R : Rounding} [FloatScalar R N] {a b : AABB N D} (ha : a.Valid) {d : XRat}
    (h : volumeIncrease a b = .ok d) : rat 0 ≤ d := by
  unfold volumeIncrease at h
  obtain ⟨w, hw, h⟩ := bind_eq_ok.1 h
  obtain ⟨v, hv, h⟩ := bind_eq_ok.1 h
  rw [arith_eq_ok] at hw hv h
  exact F64.sub_nonneg Rounding.binary64_lawful (C63_volume_mono ha (AABB.le_union_left a b) hv hw) h

variable [IntScalar N] {b : AABB N D}

/-- C63: the volume of a box with integer coordinates is the product of its sides, if that is at most `2 ^ 53`. -/
theorem C63_volume_exact (hb : b.Valid) {v : XRat} (h : b.volume = some v) (hs : ∏ i, b.side i ≤ 2 ^ 53) :
    v = rat (∏ i, b.side i) := AABB.volume_int_exact hb h hs

/-- C63: in general it is that up to a relative error of about `(D - 1) * 2 ^ -53`, if it is finite. -/
theorem C63_volume_error (hb : b.Valid) {q : ℚ} (h : b.volume = some (rat q)) :
    (∏ i, b.side i) * (1 - 1 / 2 ^ 53) ^ (D - 1) ≤ q ∧ q ≤ (∏ i, b.side i) * (1 + 1 / 2 ^ 53) ^ (D - 1) := by
  obtain ⟨h1, h2, -, -⟩ := AABB.volume_int_near hb h
  rw [show pow2 (-53) = 1 / 2 ^ 53 by rw [pow2_eq]; norm_num] at h1 h2
  exact ⟨h1, h2⟩

/-- C63: it is zero iff a side of the box has length zero, however large the others are. -/
theorem C63_volume_zero (hb : b.Valid) {v : XRat} (h : b.volume = some v) : v = rat 0 ↔ ∃ i, b.side i = 0 :=
  AABB.volume_int_zero hb h

end Volumes

/-- A witness for C63: the hypotheses hold of boxes in three dimensions whose volume is rounded. -/
def bigBox : AABB I32 3 := ⟨⟨![i32 0, i32 (-5), i32 7]⟩, ⟨![i32 2147483647, i32 2147483641, i32 9]⟩⟩

example : bigBox.Valid := by unfold AABB.Valid; decide +kernel
example : bigBox.volume = some (rat 9223372023969873920) := by decide +kernel
example : ∏ i, bigBox.side i = 2147483647 * 2147483646 * 2 := by
  rw [Fin.prod_univ_three]; decide +kernel
example : AABB.Le ⟨⟨![i32 1, i32 2, i32 8]⟩, ⟨![i32 4, i32 6, i32 9]⟩⟩ bigBox := by unfold AABB.Le; decide +kernel
example : (⟨⟨![i32 1, i32 2, i32 8]⟩, ⟨![i32 4, i32 6, i32 9]⟩⟩ : AABB I32 3).volume = some (rat 12) := by decide +kernel
example : (⟨⟨![i32 1, i32 2, i32 8]⟩, ⟨![i32 4, i32 2, i32 9]⟩⟩ : AABB I32 3).volume = some (rat 0) := by decide +kernel

/-! ## C64: lengths of segments -/

/-- C64: the length of a segment is that of the reversed one, if neither panics; with integer or floating point
    coordinates. -/
theorem C64_len_reverse {R : Rounding} [FloatScalar R N] {l : Line N D} {x y : F64} :
    (l.sqLen .binary64 = some x → l.reverse.sqLen .binary64 = some y → x = y) ∧
      (l.len .binary64 = some x → l.reverse.len .binary64 = some y → x = y) := by
  refine ⟨Line.sqLen_reverse, fun h h' => ?_⟩
  obtain ⟨m, hm, rfl⟩ := Option.map_eq_some_iff.1 h
  obtain ⟨m', hm', rfl⟩ := Option.map_eq_some_iff.1 h'
  rw [Line.sqLen_reverse hm hm']

/-- C64: neither `sq_len` nor `len` panics if the coordinates of the end points lie in a range whose differences do not
    overflow. -/
theorem C64_len_defined (hD : 0 < D) {lo hi : N} (hw : SubDefined lo hi) {l : Line N D}
    (h0 : ∀ i, lo ≤ l.p0.get i ∧ l.p0.get i ≤ hi) (h1 : ∀ i, lo ≤ l.p1.get i ∧ l.p1.get i ≤ hi) :
    (∃ x, l.sqLen .binary64 = some x) ∧ ∃ x, l.len .binary64 = some x := by
  obtain ⟨m, h1, h2⟩ := Line.len_isSome (R := .binary64) hD hw h0 h1
  exact ⟨⟨m, h1⟩, ⟨_, h2⟩⟩

section Lengths

variable [IntScalar N] {l : Line N D}

/-- C64: with integer coordinates `sq_len` is the square of the distance of the end points, if that is at most `2 ^ 53`. -/
theorem C64_sq_len_exact {x : F64} (h : l.sqLen .binary64 = some x) (hs : sqDist l.p1 l.p0 ≤ 2 ^ 53) :
    x = F64.fin (sqDist l.p1 l.p0) := Line.sqLen_exact h hs

/-- C64: in general it is that up to a relative error of about `D * 2 ^ -53`. -/
theorem C64_sq_len_error (hD : D ≤ 2 ^ 53) {x : F64} (h : l.sqLen .binary64 = some x) :
    ∃ q, x = F64.fin q ∧ sqDist l.p1 l.p0 * (1 - 1 / 2 ^ 53) ^ D ≤ q ∧ q ≤ sqDist l.p1 l.p0 * (1 + 1 / 2 ^ 53) ^ D := by
  obtain ⟨q, rfl, h1, h2, -, -⟩ := Line.sqLen_near hD h
  rw [show pow2 (-53) = 1 / 2 ^ 53 by rw [pow2_eq]; norm_num] at h1 h2
  exact ⟨q, rfl, h1, h2⟩

/-- C64: if the distance of the end points is an integer whose square is at most `2 ^ 53`, then `len` is that integer. -/
theorem C64_len_exact {x : F64} (h : l.len .binary64 = some x) {n : ℕ} (hn : sqDist l.p1 l.p0 = (n : ℚ) ^ 2)
    (hs : n ^ 2 ≤ 2 ^ 53) : x = F64.fin n := by
  obtain ⟨m, hm, rfl⟩ := Option.map_eq_some_iff.1 h
  rw [Line.sqLen_exact hm (by rw [hn]; exact_mod_cast hs), hn]
  rcases n.eq_zero_or_pos with rfl | hn0
  · show (if ((0 : ℕ) : ℚ) ^ 2 < 0 then F64.nan else if ((0 : ℕ) : ℚ) ^ 2 = 0 then F64.fin 0 else
      F64.fin (sqrtNearest .binary64 (((0 : ℕ) : ℚ) ^ 2))) = F64.fin _
    norm_num
  · show (if (n : ℚ) ^ 2 < 0 then F64.nan else if (n : ℚ) ^ 2 = 0 then F64.fin 0 else
      F64.fin (sqrtNearest .binary64 ((n : ℚ) ^ 2))) = F64.fin _
    have hp : (0 : ℚ) < (n : ℚ) ^ 2 := by positivity
    rw [if_neg (not_lt.2 hp.le), if_neg hp.ne', sqrtNearest_sq hn0]
    have : n ^ 2 < (2 ^ 53) ^ 2 := by omega
    exact lt_of_pow_lt_pow_left₀ 2 (by positivity) this

/-- C64: in general the square of `len` is the square of the distance up to a relative error of about
    `(D + 2) * 2 ^ -53`; in particular it is neither NaN nor infinite. -/
theorem C64_len_error (hD : D ≤ 2 ^ 53) {x : F64} (h : l.len .binary64 = some x) :
    ∃ r, x = F64.fin r ∧ 0 ≤ r ∧ r ^ 2 * (1 - 1 / 2 ^ 53) ^ 2 ≤ sqDist l.p1 l.p0 * (1 + 1 / 2 ^ 53) ^ D ∧
      sqDist l.p1 l.p0 * (1 - 1 / 2 ^ 53) ^ D ≤ r ^ 2 * (1 + 1 / 2 ^ 53) ^ 2 := by
  obtain ⟨m, hm, rfl⟩ := Option.map_eq_some_iff.1 h
  obtain ⟨q, rfl, h1, h2, h3, h4⟩ := Line.sqLen_near hD hm
  rw [show pow2 (-53) = 1 / 2 ^ 53 by rw [pow2_eq]; norm_num] at h1 h2
  have hs : F64.sqrt (F64.fin q) = if q < 0 then F64.nan else if q = 0 then F64.fin 0 else F64.fin (sqrtNearest .binary64 q) := rfl
  rcases h3 with rfl | h3
  · rw [hs, if_neg (lt_irrefl _), if_pos rfl]
    exact ⟨0, rfl, le_refl _, by rw [zero_pow two_ne_zero, zero_mul]; positivity, by rw [zero_pow two_ne_zero, zero_mul]; exact h1⟩
  · have h0 : 0 < q := by linarith
    obtain ⟨e1, e2, e3⟩ := sqrtNearest_error (F := .binary64) h0
    rw [show Format.binary64.unit = 1 / 2 ^ 53 by rw [Format.unit, pow2_eq]; norm_num [Format.binary64]] at e2 e3
    rw [hs, if_neg (not_lt.2 h0.le), if_neg h0.ne']
    exact ⟨_, rfl, e1.le, e2.trans h2, h1.trans e3⟩

/-- C64: `sq_len` and `len` are zero iff the end points are equal. -/
theorem C64_len_zero (hD : D ≤ 2 ^ 53) {x y : F64} (hx : l.sqLen .binary64 = some x) (hy : l.len .binary64 = some y) :
    (x = F64.fin 0 ↔ l.p0 = l.p1) ∧ (y = F64.fin 0 ↔ l.p0 = l.p1) := by
  obtain ⟨m, hm, rfl⟩ := Option.map_eq_some_iff.1 hy
  rw [hx] at hm
  injection hm with hm
  subst hm
  obtain ⟨q, rfl, hq⟩ := Line.sqLen_near hD hx
  have e : q = 0 ↔ l.p0 = l.p1 := by rw [hq.eq_zero, sqDist_zero]; exact eq_comm
  have hinj : ∀ a : ℚ, F64.fin a = F64.fin 0 ↔ a = 0 := fun a => by
    unfold F64.fin
    rw [Option.some.injEq, rat_inj]
  have hs : F64.sqrt (F64.fin q) = if q < 0 then F64.nan else if q = 0 then F64.fin 0 else F64.fin (sqrtNearest .binary64 q) := rfl
  rw [hinj, hs]
  refine ⟨e, ?_⟩
  rcases hq.2.2.1 with rfl | h
  · rw [if_neg (lt_irrefl _), if_pos rfl, ← e]; simp
  · have h0 : 0 < q := by linarith
    rw [if_neg (not_lt.2 h0.le), if_neg h0.ne', hinj, ← e]
    have := (sqrtNearest_error (F := .binary64) h0).1
    exact ⟨fun h => absurd h this.ne', fun h => absurd h h0.ne'⟩

end Lengths

/-- A segment of length 5, for C64. -/
def seg345 : Line I32 2 := ⟨⟨![i32 1, i32 (-1)]⟩, ⟨![i32 4, i32 3]⟩⟩

example : seg345.sqLen .binary64 = some (F64.fin 25) := by decide +kernel
example : sqDist seg345.p1 seg345.p0 = ((5 : ℕ) : ℚ) ^ 2 := by rw [sqDist, Fin.sum_univ_two]; decide +kernel
example : ∃ x, seg345.len .binary64 = some x :=
  (C64_len_defined (by decide) (I32.subDefined (lo := i32 (-100)) (hi := i32 100) (by decide)) (by decide +kernel) (by decide +kernel)).2
example : seg345.reverse.sqLen .binary64 = some (F64.fin 25) := by decide +kernel
example : (⟨⟨![i32 0, i32 0]⟩, ⟨![i32 2147483647, i32 3]⟩⟩ : Line I32 2).sqLen .binary64 = some (F64.fin 4611686014132420608) := by
  decide +kernel

end RTree
