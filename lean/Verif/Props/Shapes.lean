import Verif.Props.Nearest
import Verif.Props.Join
import Verif.Proofs.Sums
import Verif.Proofs.Rays
/-!
# Box distances, segments, rays and spheres (C40 - C44, C52)

`none` is a panic: an integer overflows, or a float is NaN.  Floating point operations round as in IEEE 754
(`.binary64`).  `IntScalar` are integer coordinates of at most 32 bits such as `i32`; `FloatScalar` are all coordinate
types whose values are `f64` values, such as `i32`, `N32` and `N64`.  Theorems about `.exact` describe what the same
formulas would compute without rounding.
-/

namespace RTree

variable {N : Type} {D : Nat} [Scalar N]

open AABB (Mem)

/-! ## C40: distances between boxes -/

/-- C40: the distance of boxes is symmetric, including whether it panics. -/
theorem C40_sq_dist_symm (R : Rounding) (a b : AABB N D) : a.sqDistTo R b = b.sqDistTo R a := AABB.sqDistTo_comm R a b

section IntDistances

variable [IntScalar N] {a b : AABB N D}

/-- C40 is false of the code: the distance of boxes with `i32` coordinates is calculated in `f64`, and rounded if it
    exceeds `2 ^ 53`. -/
theorem C40_sq_dist_refuted : ∃ (a b : AABB I32 1) (q : ℚ), a.Valid ∧ b.Valid ∧
    a.sqDistTo .binary64 b = some (XRat.rat q) ∧ ¬ a.HasBoxDist b q := by
  refine ⟨⟨⟨![i32 0]⟩, ⟨![i32 0]⟩⟩, ⟨⟨![i32 2147483647]⟩, ⟨![i32 2147483647]⟩⟩, 4611686014132420608, ?_, ?_, ?_, fun h => ?_⟩
  · unfold AABB.Valid; decide +kernel
  · unfold AABB.Valid; decide +kernel
  · decide +kernel
  · have := h.unique (AABB.hasBoxDist_gap (by unfold AABB.Valid; decide +kernel) (by unfold AABB.Valid; decide +kernel))
    rw [Fin.sum_univ_one] at this
    revert this
    decide +kernel

/-- C40, what holds: for non-inverted boxes with integer coordinates the distance is the least squared distance of a point
    of the one to a point of the other if that, or the calculated distance, is below `2 ^ 53`. -/
theorem C40_sq_dist_exact_partial (ha : a.Valid) (hb : b.Valid) {m : XRat} (h : a.sqDistTo .binary64 b = some m) {d : ℚ}
    (hd : a.HasBoxDist b d) (hs : d ≤ 2 ^ 53 ∨ m < XRat.rat (2 ^ 53)) : m = XRat.rat d := by
  rw [hd.unique (AABB.hasBoxDist_gap ha hb)] at hs ⊢
  rcases hs with hs | hs
  · exact AABB.sqDistTo_int_exact' h hs
  · exact AABB.sqDistTo_int_exact h hs

/-- C40, what holds: in general, it is that up to a relative error of about `D * 2 ^ -53`. -/
theorem C40_sq_dist_error_partial (ha : a.Valid) (hb : b.Valid) (hD : D ≤ 2 ^ 53) {m : XRat}
    (h : a.sqDistTo .binary64 b = some m) {d : ℚ} (hd : a.HasBoxDist b d) :
    ∃ q, m = XRat.rat q ∧ d * (1 - 1 / 2 ^ 53) ^ D ≤ q ∧ q ≤ d * (1 + 1 / 2 ^ 53) ^ D := by
  rw [hd.unique (AABB.hasBoxDist_gap ha hb)]
  obtain ⟨q, rfl⟩ := AABB.sqDistTo_int_finite hD h
  have := AABB.sqDistTo_int_near h
  rw [show pow2 (-53) = 1 / 2 ^ 53 by rw [pow2_eq]; norm_num] at this
  exact ⟨q, rfl, this⟩

/-- C40: for non-inverted boxes with integer coordinates the distance is zero iff they share a point. -/
theorem C40_sq_dist_zero (ha : a.Valid) (hb : b.Valid) {m : XRat} (h : a.sqDistTo .binary64 b = some m) :
    m = XRat.rat 0 ↔ ∃ p, Mem p a ∧ Mem p b := by
  rw [← C33_intersects_iff ha hb, AABB.sqDistTo_int_zero h, AABB.gap_sum_zero]
  rfl

end IntDistances

/-- C40: it does not panic for boxes in a window whose differences do not. -/
theorem C40_sq_dist_defined (hD : 0 < D) {lo hi : N} (hw : SubDefined lo hi) {a b : AABB N D} (ha : a.InWindow lo hi)
    (hb : b.InWindow lo hi) : ∃ m, a.sqDistTo .binary64 b = some m :=
  Option.isSome_iff_exists.1 (AABB.sqDistTo_isSome hD Rounding.binary64_lawful hw ha hb)

example : (box 0 0 2 2).Valid ∧ (box 5 6 7 7).Valid ∧
    (box 0 0 2 2).sqDistTo .binary64 (box 5 6 7 7) = some (XRat.rat 25) ∧
    (box 0 0 2 2).sqDistTo .binary64 (box 2 1 7 7) = some (XRat.rat 0) := by
  refine ⟨?_, ?_, ?_, ?_⟩ <;> (try unfold AABB.Valid) <;> decide +kernel

section DistanceJoin

variable {V0 V1 : Type} {c0 c1 : Config} {P0 P1 : SVec N D → Prop} {t0 : Tree (AABB N D) (SVec N D) V0}
  {t1 : Tree (AABB N D) (SVec N D) V1}

theorem distance_on [FloatScalar .binary64 N] (r : XRat) (k0 k1 : SVec N D) (b0 b1 : AABB N D) (x : Bool)
    (hk : (distanceFilter (N := N) (D := D) .binary64 r).testKey (id k0) (id k1) = some true)
    (h0 : (⟨k0, k0⟩ : AABB N D).Le b0) (h1 : (⟨k1, k1⟩ : AABB N D).Le b1)
    (hb : (distanceFilter (N := N) (D := D) .binary64 r).testBounds b0 b1 = some x) : x = true := by
  obtain ⟨m, hm, hk⟩ := Option.bind_eq_some_iff.1 hk
  obtain ⟨rr, hr, hk⟩ := Option.bind_eq_some_iff.1 hk
  obtain ⟨m', hm', hb⟩ := Option.bind_eq_some_iff.1 hb
  obtain ⟨rr', hr', hb⟩ := Option.bind_eq_some_iff.1 hb
  rw [hr] at hr'
  injection hr' with hr'
  subst hr'
  injection hk with hk
  injection hb with hb
  rw [decide_eq_true_eq] at hk
  rw [← hb, decide_eq_true_eq]
  exact lt_of_le_of_lt (AABB.sqDistTo_le_distSq (fun i => h0 i) (fun i => h1 i) hm' hm) hk

/-- C40: a distance join of two trees of points yields every pair of entries whose key test succeeds, each exactly once,
    if no test panics (and so whatever `d` stands in for a panicking test). Coordinates may be integers or `N64`; the key
    test compares calculated distances. -/
theorem C40_distance_join [FloatScalar .binary64 N] (h0 : Reachable c0 P0 t0) (h1 : Reachable c1 P1 t1) (r : XRat)
    (hd : (distanceFilter .binary64 r).DefinedOn id id t0 t1)
    {es : List (SVec N D × V0)} {fs : List (SVec N D × V1)} (hes : t0.iter = .ok es) (hfs : t1.iter = .ok fs) (d : Bool) :
    (∃ out, t0.join id id ((distanceFilter .binary64 r).orElse d) t1 = .ok out ∧
      out.Perm ((es.flatMap fun a => fs.map fun b => (a, b)).filter fun x =>
        decide ((distanceFilter .binary64 r).testKey x.1.1 x.2.1 = some true))) ∧
    t0.leftJoin id id ((distanceFilter .binary64 r).orElse d) t1 =
      .ok (es.map fun a => (a, fs.filter fun b => decide ((distanceFilter .binary64 r).testKey a.1 b.1 = some true))) := by
  obtain rfl : t0.entries = es := by simpa [h0.iter_eq] using hes
  obtain rfl : t1.entries = fs := by simpa [h1.iter_eq] using hfs
  have hR0 : ∀ n ∈ t0.nodes, t0.Occurs n.bounds := fun n hn => .inl ⟨n, hn, rfl⟩
  have hR1 : ∀ n ∈ t1.nodes, t1.Occurs n.bounds := fun n hn => .inl ⟨n, hn, rfl⟩
  have hK0 : ∀ e ∈ t0.entries, ∃ e' ∈ t0.entries, e'.1 = e.1 := fun e he => ⟨e, he, rfl⟩
  have hK1 : ∀ e ∈ t1.entries, ∃ e' ∈ t1.entries, e'.1 = e.1 := fun e he => ⟨e, he, rfl⟩
  have key := PJoinFilter.on (f := distanceFilter .binary64 r) (borrow := id) (borrow' := id) (K := SVec N D) (K' := SVec N D)
    (fun k k' b b' x => distance_on r k k' b b' x) d (RK := fun k => ∃ e ∈ t0.entries, e.1 = k)
    (RK' := fun k => ∃ e ∈ t1.entries, e.1 = k)
    (R := t0.Occurs) (R' := t1.Occurs)
    (fun k k' hk hk' => by
      obtain ⟨e, he, rfl⟩ := hk
      obtain ⟨e', he', rfl⟩ := hk'
      exact hd.2 e he e' he')
    (fun b b' hb hb' => hd.1 b b' hb hb')
  have hkey : ∀ a ∈ t0.entries, ∀ b ∈ t1.entries,
      ((distanceFilter (N := N) (D := D) .binary64 r).orElse d).testKey (id a.1) (id b.1) =
        decide ((distanceFilter (N := N) (D := D) .binary64 r).testKey a.1 b.1 = some true) := by
    intro a ha b hb
    obtain ⟨x, hx⟩ := Option.isSome_iff_exists.1 (hd.2 a ha b hb)
    simp only [id] at hx
    simp only [PJoinFilter.orElse, id, hx, Option.getD_some, Option.some.injEq]
    cases x <;> rfl
  constructor
  · obtain ⟨out, o1, o2⟩ := h0.join_on h1 hK0 hK1 hR0 hR1 key
    refine ⟨out, o1, o2.trans (List.Perm.of_eq (List.filter_congr fun x hx => ?_))⟩
    obtain ⟨a, ha, hx⟩ := List.mem_flatMap.1 hx
    obtain ⟨b, hb, rfl⟩ := List.mem_map.1 hx
    exact hkey a ha b hb
  · rw [h0.leftJoin_on (borrow0 := id) h1 hK0 hK1 hR0 hR1 (fun k hk => by
      obtain ⟨e, he, rfl⟩ := hk
      exact .inr ⟨e, he, rfl⟩) (fun _ => rfl) key]
    congr 1
    refine List.map_congr_left fun a ha => ?_
    congr 1
    exact List.filter_congr fun b hb => hkey a ha b hb

/-- C40: for integer coordinates the key test of a distance join is exact: it compares the squared distance with the rounded
    square of `r`. -/
theorem C40_distance_key [ExactScalar N] {r rr : XRat} (hr : N64.mul .binary64 r r = some rr) {k0 k1 : SVec N D}
    (hd : ((distanceFilter (N := N) (D := D) .binary64 r).testKey k0 k1).isSome) :
    (distanceFilter (N := N) (D := D) .binary64 r).testKey k0 k1 = some true ↔ XRat.rat (sqDist k0 k1) < rr := by
  obtain ⟨x, hx⟩ := Option.isSome_iff_exists.1 hd
  rw [hx]
  obtain ⟨m, hm, hx⟩ := Option.bind_eq_some_iff.1 hx
  obtain ⟨rr', hr', hx⟩ := Option.bind_eq_some_iff.1 hx
  rw [hr] at hr'
  injection hr' with hr'
  subst hr'
  injection hx with hx
  rw [← hx, ExactScalar.toX_eq, SVec.distSq_eq hm, Option.some.injEq, decide_eq_true_eq]

/-- C40 for `i32`: no test of a distance join of non-empty trees of points panics if the points lie in a window in which
    distances do not overflow. -/
theorem C40_distance_join_defined [FullRange N] (hD : 0 < D) {lo hi : N} (hw : SubDefined lo hi)
    (hdist : ∀ p q : SVec N D, (∀ i, lo ≤ p.get i ∧ p.get i ≤ hi) → (∀ i, lo ≤ q.get i ∧ q.get i ≤ hi) → (p.distSq q).isSome)
    (hm0 : 1 ≤ c0.minChildren) (hm1 : 1 ≤ c1.minChildren) (h0 : Reachable c0 P0 t0) (h1 : Reachable c1 P1 t1)
    (hP0 : ∀ k, P0 k → ∀ i, lo ≤ k.get i ∧ k.get i ≤ hi) (hP1 : ∀ k, P1 k → ∀ i, lo ≤ k.get i ∧ k.get i ≤ hi)
    (hne0 : t0.iter ≠ .ok []) (hne1 : t1.iter ≠ .ok []) (r : XRat) :
    (distanceFilter .binary64 r).DefinedOn id id t0 t1 := by
  have hne0' : t0.entries ≠ [] := fun h => hne0 (by rw [h0.iter_eq, h])
  have hne1' : t1.entries ≠ [] := fun h => hne1 (by rw [h1.iter_eq, h])
  obtain ⟨rr, hr, -⟩ := F64.mul_self_some Rounding.binary64_lawful r
  have hr' : N64.mul .binary64 r r = some rr := hr
  have occ0 : ∀ b, t0.Occurs b → b.InWindow lo hi := by
    rintro b (⟨n, hn, rfl⟩ | ⟨e, he, rfl⟩)
    · exact h0.bounds_inWindow hm0 hne0' (fun k hk i => ⟨hP0 k hk i, hP0 k hk i⟩) hn
    · exact fun i => ⟨hP0 _ (h0.keys e he) i, hP0 _ (h0.keys e he) i⟩
  have occ1 : ∀ b, t1.Occurs b → b.InWindow lo hi := by
    rintro b (⟨n, hn, rfl⟩ | ⟨e, he, rfl⟩)
    · exact h1.bounds_inWindow hm1 hne1' (fun k hk i => ⟨hP1 k hk i, hP1 k hk i⟩) hn
    · exact fun i => ⟨hP1 _ (h1.keys e he) i, hP1 _ (h1.keys e he) i⟩
  constructor
  · intro b b' hb hb'
    obtain ⟨m, hm⟩ := C40_sq_dist_defined hD hw (occ0 b hb) (occ1 b' hb')
    simp [distanceFilter, hm, hr']
  · intro e he e' he'
    obtain ⟨m, hm⟩ := Option.isSome_iff_exists.1 (hdist _ _ (hP0 _ (h0.keys e he)) (hP1 _ (h1.keys e' he')))
    simp [distanceFilter, hm, hr']

end DistanceJoin

/-- The hypotheses on arithmetic hold for `i32` coordinates between -1000 and 1000. -/
theorem dist_window_i32 : SubDefined (i32 (-1000)) (i32 1000) ∧ ∀ p q : SVec I32 2,
    (∀ i, i32 (-1000) ≤ p.get i ∧ p.get i ≤ i32 1000) → (∀ i, i32 (-1000) ≤ q.get i ∧ q.get i ≤ i32 1000) →
    (p.distSq q).isSome :=
  ⟨I32.subDefined (by decide), fun _ _ hp hq =>
    Option.isSome_iff_exists.2 (I32.distSq_isSome (by decide) (lo := i32 (-1000)) (hi := i32 1000) (by decide) hp hq)⟩

/-- Points with coordinates between -1000 and 1000. -/
def SamplePoint (p : SVec I32 2) : Prop := ∀ i, i32 (-1000) ≤ p.get i ∧ p.get i ≤ i32 1000

theorem tie_sample : Reachable cfg42 SamplePoint tieTree := by
  refine Reachable.run .new ?_ tie_run
  have : ∀ op ∈ tieOps, ∀ k ∈ op.inserts, ∀ i, i32 (-1000) ≤ k.get i ∧ k.get i ≤ i32 1000 := by decide +kernel
  intro op h k hk
  exact this op h k (by simp [hk])

/-- A distance self-join: the theorems apply, and two close points are found. -/
example (d : Bool) : ∃ out, tieTree.join id id ((distanceFilter .binary64 (XRat.rat 2)).orElse d) tieTree = .ok out ∧
    ((pt (-2) 6, 1), (pt (-1) 6, 2)) ∈ out ∧ ((pt (-5) 6, 0), (pt (-2) 6, 1)) ∉ out := by
  have hne : tieTree.iter ≠ .ok [] := by rw [tie_iter]; simp
  obtain ⟨out, h1, h2⟩ := (C40_distance_join tie_sample tie_sample (XRat.rat 2)
    (C40_distance_join_defined (by decide) dist_window_i32.1 dist_window_i32.2 (by decide) (by decide)
      tie_sample tie_sample (fun _ h => h) (fun _ h => h) hne hne _) tie_iter tie_iter d).1
  refine ⟨out, h1, ?_, ?_⟩ <;> rw [h2.mem_iff]
  · decide +kernel
  · decide +kernel

/-! ## C41: segments -/

/-- C41 is false of the code: `1.0 / delta` is rounded. The segment from (0, 0) to (49, 3) ends in the corner (49, 3) of
    a box, and is not found to intersect it. -/
theorem C41_line_refuted : ∃ (l : Line I32 2) (b : AABB I32 2), b.Valid ∧ l.Meets b ∧
    ∀ negZero, l.intersectsBox .binary64 negZero b = some false := by
  refine ⟨⟨pt 0 0, pt 49 3⟩, box 40 3 49 4, ?_, ⟨1, by norm_num, by norm_num, fun i => ?_⟩, fun nz => ?_⟩
  · unfold AABB.Valid; decide +kernel
  · revert i; decide +kernel
  · revert nz; decide +kernel

section IntLines

variable [IntScalar N] {l : Line N D} {b : AABB N D} {negZero : Fin D → Bool}

/-- C41, what holds: a segment said to intersect a non-inverted box comes, in each dimension, as close to it as `2 ^ -50`
    times its extent in that dimension, whatever the signs of zero differences. -/
theorem C41_line_sound_partial (hb : b.Valid) (h : l.intersectsBox .binary64 negZero b = some true) :
    l.MeetsWithin b (1 / 2 ^ 50) := by
  have := Line.meetsWithin_of_intersectsBox hb h
  rwa [show pow2 (-50) = 1 / 2 ^ 50 by rw [pow2_eq]; norm_num] at this

/-- C41, what holds: a segment that gets into a non-inverted box by `2 ^ -50` times its extent, in each dimension, is said
    to intersect it. -/
theorem C41_line_complete_partial (hb : b.Valid) (hm : l.MeetsWithin b (-(1 / 2 ^ 50))) {r : Bool}
    (h : l.intersectsBox .binary64 negZero b = some r) : r = true := by
  refine Line.intersectsBox_of_meetsWithin hb h ?_
  rwa [show pow2 (-50) = 1 / 2 ^ 50 by rw [pow2_eq]; norm_num]

/-- C41, what holds: a segment parallel to an axis, or of length zero, is said to intersect a non-inverted box iff some point
    of the closed segment lies in the closed box. -/
theorem C41_line_axis_partial (hb : b.Valid)
    (hax : ∀ i j, l.p0.get i ≠ l.p1.get i → l.p0.get j ≠ l.p1.get j → i = j) {r : Bool}
    (h : l.intersectsBox .binary64 negZero b = some r) : r = true ↔ l.Meets b := Line.intersectsBox_axis hb h hax

/-- C41, what holds: with coordinates up to `2 ^ 23` in absolute value, a segment said to intersect a non-inverted box does have
    a point in the closed box; and a segment is said to intersect it if it is in the closed box for more than an instant on
    its way. Missing: segments that touch the box in a single point, which may be found or missed (`C41_line_refuted`). -/
theorem C41_line_small_partial (hb : b.Valid) (hs : l.Small b) {r : Bool}
    (h : l.intersectsBox .binary64 negZero b = some r) :
    (r = true → l.Meets b) ∧
    ∀ s t : ℚ, 0 ≤ s → s < t → t ≤ 1 →
      b.OnLine (fun i => Scalar.toRat (l.p0.get i)) (fun i => Scalar.toRat (l.p1.get i) - Scalar.toRat (l.p0.get i)) s →
      b.OnLine (fun i => Scalar.toRat (l.p0.get i)) (fun i => Scalar.toRat (l.p1.get i) - Scalar.toRat (l.p0.get i)) t →
      r = true :=
  ⟨fun hr => Line.meets_of_small hb hs (hr ▸ h),
    fun _ _ h0 hst h1 hs' ht' => Line.small_of_meets hb hs h hst h0 h1 hs' ht'⟩

end IntLines

/-- C41, what holds: without rounding, a segment would be said to intersect a non-inverted box iff some point of the closed
    segment lies in the closed box. -/
theorem C41_line_exact_partial [ExactScalar N] (negZero : Fin D → Bool) {l : Line N D} {b : AABB N D} (hb : b.Valid)
    {r : Bool} (h : l.intersectsBox .exact negZero b = some r) : r = true ↔ l.Meets b := Line.intersectsBox_iff hb h

/-- C41: the test does not panic if all coordinates lie in a window whose differences do not overflow. -/
theorem C41_line_defined (negZero : Fin D → Bool) {lo hi : N} (hw : SubDefined lo hi) {l : Line N D} {b : AABB N D}
    (hb : b.InWindow lo hi) (h0 : ∀ i, lo ≤ l.p0.get i ∧ l.p0.get i ≤ hi) (h1 : ∀ i, lo ≤ l.p1.get i ∧ l.p1.get i ≤ hi) :
    ∃ r, l.intersectsBox .binary64 negZero b = some r :=
  Option.isSome_iff_exists.1 (Line.intersectsBox_isSome hw hb h0 h1)

/-- Axis-parallel, degenerate, touching and missing segments. -/
example :
    (Line.mk (pt 0 0) (pt 0 9)).intersectsBox .binary64 (fun _ => false) (box 0 4 2 6) = some true ∧
    (Line.mk (pt 0 0) (pt 0 9)).intersectsBox .binary64 (fun _ => true) (box 0 4 2 6) = some true ∧
    (Line.mk (pt 0 0) (pt 0 9)).intersectsBox .binary64 (fun _ => false) (box 1 4 2 6) = some false ∧
    (Line.mk (pt 2 6) (pt 2 6)).intersectsBox .binary64 (fun _ => false) (box 0 4 2 6) = some true ∧
    (Line.mk (pt 3 6) (pt 3 6)).intersectsBox .binary64 (fun _ => false) (box 0 4 2 6) = some false ∧
    (Line.mk (pt 0 0) (pt 1 1)).intersectsBox .binary64 (fun _ => false) (box 1 1 2 2) = some true ∧
    (Line.mk (pt 6 0) (pt 1 5)).intersectsBox .binary64 (fun _ => false) (box 0 0 5 5) = some true ∧
    (Line.mk (pt (-2) 3) (pt 2 7)).intersectsBox .binary64 (fun _ => false) (box 0 0 4 4) = some false := by
  decide +kernel

/-- A segment well inside a box, one well outside. -/
example : (Line.mk (pt 0 0) (pt 9 7)).MeetsWithin (box 4 3 6 5) (-(1 / 2 ^ 50)) ∧
    ¬ (Line.mk (pt 0 0) (pt 9 7)).MeetsWithin (box 0 6 2 8) (1 / 2 ^ 50) := by
  constructor
  · refine ⟨1 / 2, by norm_num, by norm_num, fun i => ?_⟩
    revert i; decide +kernel
  · rintro ⟨t, h0, h1, h⟩
    have e0 := (h 0).2
    have e1 := (h 1).1
    simp [Scalar.toRat, Scalar.toX, pt, box] at e0 e1
    norm_num at e0 e1
    linarith

section LineQueries

variable {V : Type} {c : Config} {P : AABB N D → Prop} {t : Tree (AABB N D) (AABB N D) V}

/-- C41: `filter_iter(IntersectsFilter::new(line))` over non-inverted boxes yields exactly the entries whose box the segment
    is said to intersect, each once, in the order of `iter`, if no test panics: no entry is lost by pruning, although the
    tests are rounded. Coordinates may be integers, `N32` or `N64`. -/
theorem C41_line_query {R : Rounding} [FloatScalar R N] (hP : ∀ k, P k → k.Valid) (h : Reachable c P t) (negZero : Fin D → Bool) (l : Line N D)
    (hd : (l.filter .binary64 negZero).DefinedOn id t) {es : List (AABB N D × V)} (hes : t.iter = .ok es) (d : Bool) :
    ∃ r, t.filterIter id ((l.filter .binary64 negZero).orElse d) = .ok r ∧
      Selects (fun e => l.intersectsBox .binary64 negZero e.1 = some true) es r := by
  obtain rfl : t.entries = es := by simpa [h.iter_eq] using hes
  refine PFilter.filterIter_exact h hd (fun k b x hk ht hle hb => ?_) d fun e he x hx => ?_
  · obtain ⟨δ, hδ, ht⟩ := Option.bind_eq_some_iff.1 ht
    obtain ⟨δ', hδ', hb⟩ := Option.bind_eq_some_iff.1 hb
    rw [hδ] at hδ'
    injection hδ' with hδ'
    subst hδ'
    exact lineBoundsIntersect_mono Rounding.binary64_lawful (hP k hk) hle ht hb
  · have hx : l.intersectsBox .binary64 negZero e.1 = some x := hx
    rw [hx, Option.some.injEq]

/-- C41 for `i32`: if all coordinates lie in a window no wider than `i32::MAX`, no test overflows on a non-empty tree. -/
theorem C41_line_query_defined {lo hi : I32} (hw : hi.1 - lo.1 ≤ 2147483647) {P : AABB I32 D → Prop}
    {t : Tree (AABB I32 D) (AABB I32 D) V} (hm : 1 ≤ c.minChildren) (hP : ∀ k, P k → k.InWindow lo hi)
    (h : Reachable c P t) (hne : t.iter ≠ .ok []) (negZero : Fin D → Bool) {l : Line I32 D}
    (h0 : ∀ i, lo ≤ l.p0.get i ∧ l.p0.get i ≤ hi) (h1 : ∀ i, lo ≤ l.p1.get i ∧ l.p1.get i ≤ hi) :
    (l.filter .binary64 negZero).DefinedOn id t := by
  have hne' : t.entries ≠ [] := fun h0 => hne (by rw [h.iter_eq, h0])
  exact ⟨fun n hn => Line.intersectsBox_isSome (I32.subDefined hw) (h.bounds_inWindow hm hne' hP hn) h0 h1,
    fun e he => Line.intersectsBox_isSome (I32.subDefined hw) (hP _ (h.keys e he)) h0 h1⟩

/-- Coordinates up to `2 ^ 23`. -/
theorem small_of_window {b : AABB I32 D} (hb : b.InWindow (i32 (-8388608)) (i32 8388608)) {l : Line I32 D}
    (h0 : ∀ i, i32 (-8388608) ≤ l.p0.get i ∧ l.p0.get i ≤ i32 8388608)
    (h1 : ∀ i, i32 (-8388608) ≤ l.p1.get i ∧ l.p1.get i ≤ i32 8388608) : l.Small b := by
  have key : ∀ a : I32, i32 (-8388608) ≤ a ∧ a ≤ i32 8388608 → |Scalar.toRat a| ≤ 2 ^ 23 := by
    rintro a ⟨k1, k2⟩
    have k1 : (-8388608 : ℤ) ≤ a.1 := k1
    have k2 : a.1 ≤ (8388608 : ℤ) := k2
    show |((a.1 : ℤ) : ℚ)| ≤ 2 ^ 23
    rw [abs_le]
    constructor
    · have : ((-8388608 : ℤ) : ℚ) ≤ (a.1 : ℚ) := by exact_mod_cast k1
      norm_num at this ⊢
      linarith
    · have : (a.1 : ℚ) ≤ ((8388608 : ℤ) : ℚ) := by exact_mod_cast k2
      norm_num at this ⊢
      linarith
  exact ⟨fun i => key _ (hb i).1, fun i => key _ (hb i).2, fun i => key _ (h0 i), fun i => key _ (h1 i)⟩

/-- C41, what holds for `i32` coordinates up to `2 ^ 23` in absolute value: `filter_iter(IntersectsFilter::new(line))` over the
    non-inverted boxes of a tree does not panic; every entry it yields has a box that contains a point of the segment; every
    entry whose box contains the segment for more than an instant is yielded; in the order of `iter`, and none more often.
    Missing: boxes the segment touches in a single point, which may be yielded or not. -/
theorem C41_line_query_small_partial {P : AABB I32 D → Prop} {t : Tree (AABB I32 D) (AABB I32 D) V} (hm : 1 ≤ c.minChildren)
    (hP : ∀ k, P k → k.Valid ∧ k.InWindow (i32 (-8388608)) (i32 8388608)) (h : Reachable c P t) (hne : t.iter ≠ .ok [])
    (negZero : Fin D → Bool) {l : Line I32 D}
    (h0 : ∀ i, i32 (-8388608) ≤ l.p0.get i ∧ l.p0.get i ≤ i32 8388608)
    (h1 : ∀ i, i32 (-8388608) ≤ l.p1.get i ∧ l.p1.get i ≤ i32 8388608) {es : List (AABB I32 D × V)} (hes : t.iter = .ok es)
    (d : Bool) :
    (l.filter .binary64 negZero).DefinedOn id t ∧
    ∃ r, t.filterIter id ((l.filter .binary64 negZero).orElse d) = .ok r ∧ r.Sublist es ∧ (∀ e ∈ r, l.Meets e.1) ∧
      ∃ f : AABB I32 D × V → Bool, r = es.filter f ∧ ∀ e ∈ es, (∃ u w : ℚ, 0 ≤ u ∧ u < w ∧ w ≤ 1 ∧
        e.1.OnLine (fun i => Scalar.toRat (l.p0.get i)) (fun i => Scalar.toRat (l.p1.get i) - Scalar.toRat (l.p0.get i)) u ∧
        e.1.OnLine (fun i => Scalar.toRat (l.p0.get i)) (fun i => Scalar.toRat (l.p1.get i) - Scalar.toRat (l.p0.get i)) w) →
        f e = true := by
  have hd := C41_line_query_defined (by decide) hm (fun k hk => (hP k hk).2) h hne negZero h0 h1
  obtain ⟨r, hr, f, hf, hrf⟩ := C41_line_query (fun k hk => (hP k hk).1) h negZero l hd hes d
  obtain rfl : t.entries = es := by simpa [h.iter_eq] using hes
  refine ⟨hd, r, hr, by rw [hrf]; exact List.filter_sublist, fun e he => ?_, f, hrf, fun e he hw => ?_⟩
  · rw [hrf, List.mem_filter] at he
    have hk := hP e.1 (h.keys e he.1)
    exact Line.meets_of_small hk.1 (small_of_window hk.2 h0 h1) ((hf e he.1).1 he.2)
  · have hk := hP e.1 (h.keys e he)
    obtain ⟨u, w, hu, huw, hw1, k1, k2⟩ := hw
    obtain ⟨x, hx⟩ := Option.isSome_iff_exists.1 (hd.2 e he)
    have hx' : l.intersectsBox .binary64 negZero e.1 = some x := hx
    refine (hf e he).2 (hx'.trans ?_)
    rw [Line.small_of_meets hk.1 (small_of_window hk.2 h0 h1) hx' huw hu hw1 k1 k2]

end LineQueries

/-- The sample tree and a segment meet the hypotheses. -/
example : ∃ r, sampleTree.filterIter id ((Line.filter .binary64 (fun _ => false) ⟨pt 0 3, pt 4 3⟩).orElse false) = .ok r ∧
    r.map Prod.snd = [3, 60, 4] ∧
    Selects (fun e => (Line.mk (pt 0 3) (pt 4 3)).intersectsBox .binary64 (fun _ => false) e.1 = some true) sampleEntries r := by
  obtain ⟨r, h1, h2⟩ := C41_line_query (l := ⟨pt 0 3, pt 4 3⟩) (fun _ h => h.2) sample_reachable (fun _ => false)
    (C41_line_query_defined (lo := i32 (-1000)) (hi := i32 1000) (by decide) (by decide) (fun _ h => h.1)
      sample_reachable (by rw [sample_iter]; simp [sampleEntries]) _ (by decide +kernel) (by decide +kernel)) sample_iter false
  refine ⟨r, h1, ?_, h2⟩
  have h3 : sampleTree.filterIter id ((Line.filter .binary64 (fun _ => false) ⟨pt 0 3, pt 4 3⟩).orElse false) =
      .ok [(box 0 2 1 3, 3), (box 1 3 1 3, 60), (box 2 2 3 3, 4)] := by
    refine (Res.ok_getD [] (by decide +kernel)).trans ?_
    congr 1
    decide +kernel
  rw [h1] at h3
  injection h3 with h3
  rw [h3]
  rfl

/-! ## C42: rays -/

/-- C42 is false of the code: a box behind the origin is reported, a box touched only at a corner is not, and neither is a
    box met by a ray that runs along its side. -/
theorem C42_ray_refuted :
    (∃ (r : Ray I32 2) (b : AABB I32 2), b.Valid ∧ r.intersectsBox .binary64 (fun _ => false) b = some true ∧ ¬ r.Meets b) ∧
    (∃ (r : Ray I32 2) (b : AABB I32 2), b.Valid ∧ r.intersectsBox .binary64 (fun _ => false) b = some false ∧ r.Meets b) ∧
    ∃ (r : Ray I32 2) (b : AABB I32 2), b.Valid ∧ (∀ i, b.min.get i < b.max.get i) ∧
      r.intersectsBox .binary64 (fun _ => false) b = some false ∧
      ∃ s t : ℚ, 0 ≤ s ∧ s < t ∧
        b.OnLine (fun i => Scalar.toRat (r.origin.get i)) (fun i => Scalar.toRat (r.n.get i)) s ∧
        b.OnLine (fun i => Scalar.toRat (r.origin.get i)) (fun i => Scalar.toRat (r.n.get i)) t := by
  refine ⟨⟨⟨pt 0 0, pt 1 1⟩, box (-2) (-2) (-1) (-1), ?_, ?_, ?_⟩, ⟨⟨pt 0 0, pt 1 1⟩, box 1 1 1 1, ?_, ?_, ?_⟩,
    ⟨⟨pt 0 0, pt 0 1⟩, box 0 1 1 2, ?_, ?_, ?_, ?_⟩⟩
  · unfold AABB.Valid; decide +kernel
  · decide +kernel
  · rintro ⟨t, ht, hb⟩
    have := (hb 0).2
    simp [Scalar.toRat, Scalar.toX, pt, box] at this
    linarith
  · unfold AABB.Valid; decide +kernel
  · decide +kernel
  · refine ⟨1, by norm_num, fun i => ?_⟩
    revert i; decide +kernel
  · unfold AABB.Valid; decide +kernel
  · decide +kernel
  · decide +kernel
  · refine ⟨1, 2, by norm_num, by norm_num, fun i => ?_, fun i => ?_⟩ <;>
      (revert i; decide +kernel)

/-- What holds of C42, without rounding: the test answers whether the whole line through the ray - not just the half-line -
    runs through a non-inverted box for a proper interval, except that it answers no if the line runs inside a side
    perpendicular to the first dimension. Missing: boxes behind the origin are reported; boxes touched in a point, or
    along such a side, are not; and the code rounds. -/
theorem C42_ray_exact_partial [ExactScalar N] (negZero : Fin (D + 1) → Bool) {r : Ray N (D + 1)} {b : AABB N (D + 1)}
    (hb : b.Valid) {x : Bool} (h : r.intersectsBox .exact negZero b = some x) :
    x = true ↔
      (∃ s t : ℚ, s < t ∧
        b.OnLine (fun i => Scalar.toRat (r.origin.get i)) (fun i => Scalar.toRat (r.n.get i)) s ∧
        b.OnLine (fun i => Scalar.toRat (r.origin.get i)) (fun i => Scalar.toRat (r.n.get i)) t) ∧
      ¬ (Scalar.toRat (r.n.get 0) = 0 ∧ (Scalar.toRat (r.origin.get 0) = Scalar.toRat (b.min.get 0) ∨
        Scalar.toRat (r.origin.get 0) = Scalar.toRat (b.max.get 0))) :=
  rayBoundsIntersect_iff hb h

/-- What holds of C42, in exact arithmetic: a ray that enters the interior of a box is reported to intersect it. -/
theorem C42_ray_interior_partial [ExactScalar N] (negZero : Fin (D + 1) → Bool) {r : Ray N (D + 1)} {b : AABB N (D + 1)}
    {t : ℚ} (ht : b.InsideLine (fun i => Scalar.toRat (r.origin.get i)) (fun i => Scalar.toRat (r.n.get i)) t)
    {x : Bool} (h : r.intersectsBox .exact negZero b = some x) : x = true := by
  have hb : b.Valid := fun i => (ExactScalar.le_iff _ _).2 ((ht i).1.trans (ht i).2).le
  rw [C42_ray_exact_partial negZero hb h]
  constructor
  · -- a bit further along the line one is still inside
    have key : ∀ (dims : List (Fin (D + 1))), ∃ ε : ℚ, 0 < ε ∧ ∀ s, 0 ≤ s → s ≤ ε → ∀ i ∈ dims,
        Scalar.toRat (b.min.get i) ≤ Scalar.toRat (r.origin.get i) + (t + s) * Scalar.toRat (r.n.get i) ∧
        Scalar.toRat (r.origin.get i) + (t + s) * Scalar.toRat (r.n.get i) ≤ Scalar.toRat (b.max.get i) := by
      intro dims
      induction dims with
      | nil => exact ⟨1, by norm_num, fun _ _ _ i hi => by cases hi⟩
      | cons j dims ih =>
        obtain ⟨ε, hε, h1⟩ := ih
        obtain ⟨h2, h3⟩ := ht j
        simp only at h2 h3
        generalize hn : Scalar.toRat (r.n.get j) = n at h2 h3
        generalize ho : Scalar.toRat (r.origin.get j) = o at h2 h3
        generalize hu : Scalar.toRat (b.min.get j) = u at h2 h3
        generalize hv : Scalar.toRat (b.max.get j) = v at h2 h3
        have hc : 0 < |n| + 1 := by positivity
        let δ := min (o + t * n - u) (v - (o + t * n)) / (|n| + 1)
        have hδ : 0 < δ := div_pos (lt_min (by linarith) (by linarith)) hc
        refine ⟨min ε δ, lt_min hε hδ, fun s hs hsε i hi => ?_⟩
        rcases List.mem_cons.1 hi with rfl | hi
        · rw [hn, ho, hu, hv]
          have h4 : s ≤ δ := le_trans hsε (min_le_right _ _)
          have h5 : s * (|n| + 1) ≤ min (o + t * n - u) (v - (o + t * n)) := by
            rwa [le_div_iff₀ hc] at h4
          have h6 : |s * n| ≤ s * (|n| + 1) := by
            rw [abs_mul, abs_of_nonneg hs]
            nlinarith [abs_nonneg n]
          have h7 := le_trans h5 (min_le_left _ _)
          have h8 := le_trans h5 (min_le_right _ _)
          have h9 := abs_le.1 (le_refl |s * n|)
          have e : (t + s) * n = t * n + s * n := by ring
          rw [e]
          constructor <;> linarith [h9.1, h9.2]
        · exact h1 s hs (le_trans hsε (min_le_left _ _)) i hi
    obtain ⟨ε, hε, h1⟩ := key (List.finRange (D + 1))
    refine ⟨t, t + ε, by linarith, fun i => ?_, fun i => h1 ε hε.le (le_refl _) i (List.mem_finRange i)⟩
    exact ⟨(ht i).1.le, (ht i).2.le⟩
  · rintro ⟨h0, h1⟩
    have h2 := ht 0
    simp only [h0, mul_zero, add_zero] at h2
    rcases h1 with h1 | h1 <;> rw [h1] at h2
    · exact lt_irrefl _ h2.1
    · exact lt_irrefl _ h2.2

section IntRays

variable [IntScalar N] {r : Ray N (D + 1)} {b : AABB N (D + 1)} {negZero : Fin (D + 1) → Bool}

/-- What holds of C42, with rounding: if a ray is said to intersect a non-inverted box, its line runs, for a proper interval,
    through the box after each side is moved outwards by `2 ^ -51` times its distance from the origin; and if its line runs,
    for a proper interval, through the box after each side is moved inwards by so much, the ray is said to intersect the box,
    unless it runs along a side perpendicular to the first dimension. Missing: see above. -/
theorem C42_ray_rounded_partial (hb : b.Valid) {x : Bool} (h : r.intersectsBox .binary64 negZero b = some x) :
    (x = true → ∃ s t : ℚ, s < t ∧ r.InWithin b (1 / 2 ^ 51) s ∧ r.InWithin b (1 / 2 ^ 51) t) ∧
    (¬ r.AlongFirst b → ∀ s t : ℚ, s < t → r.InWithin b (-(1 / 2 ^ 51)) s → r.InWithin b (-(1 / 2 ^ 51)) t → x = true) := by
  rw [show (1 : ℚ) / 2 ^ 51 = pow2 (-51) by rw [pow2_eq]; norm_num]
  constructor
  · rintro rfl
    exact Ray.within_of_intersectsBox (fun i s hs => slabNear_int (hb i) hs) h
  · intro hp s t hst hs ht
    exact Ray.intersectsBox_of_within (fun i s hs => slabNear_int (hb i) hs) (fun s hs => (proper_int hs).2 hp) hst hs ht h

/-- What holds of C42, with rounding: for integers up to `2 ^ 24` in absolute value, the line of a ray that is said to intersect
    a non-inverted box does meet the closed box, possibly in a point only; and a ray whose line runs through the box for a
    proper interval is said to intersect it, unless it runs along a side perpendicular to the first dimension.
    Missing: boxes behind the origin are reported; boxes that are only touched may be or not. -/
theorem C42_ray_small_partial (hb : b.Valid) (hs : r.Small b) {x : Bool} (h : r.intersectsBox .binary64 negZero b = some x) :
    (x = true → ∃ t : ℚ, b.OnLine (fun i => Scalar.toRat (r.origin.get i)) (fun i => Scalar.toRat (r.n.get i)) t) ∧
    (¬ r.AlongFirst b → ∀ s t : ℚ, s < t →
      b.OnLine (fun i => Scalar.toRat (r.origin.get i)) (fun i => Scalar.toRat (r.n.get i)) s →
      b.OnLine (fun i => Scalar.toRat (r.origin.get i)) (fun i => Scalar.toRat (r.n.get i)) t → x = true) :=
  ⟨fun hx => Ray.onLine_of_small hb hs (hx ▸ h), fun hp _ _ hst hu ht => Ray.small_of_onLine hb hs h hp hst hu ht⟩

/-- C42, with rounding: a ray along a side perpendicular to the first dimension is said not to intersect the box. -/
theorem C42_ray_along {x : Bool} (h : r.intersectsBox .binary64 negZero b = some x) (ha : r.AlongFirst b) : x = false := by
  rcases x with _ | _
  · rfl
  · obtain ⟨s, hs⟩ := rayBoundsIntersect_slabs h 0
    exact absurd ha ((proper_int hs).1 (((rayBoundsIntersect_inS h).1 rfl).2 s hs))

end IntRays

/-- C42: the test does not panic in a window whose differences do not overflow. -/
theorem C42_ray_defined (hD : 0 < D) (negZero : Fin D → Bool) {lo hi : N} (hw : SubDefined lo hi) {r : Ray N D}
    {b : AABB N D} (hb : b.InWindow lo hi) (h0 : ∀ i, lo ≤ r.origin.get i ∧ r.origin.get i ≤ hi) :
    ∃ x, r.intersectsBox .binary64 negZero b = some x :=
  Option.isSome_iff_exists.1 (Ray.intersectsBox_isSome hD hw hb h0)

/-- What holds of C42: `filter_iter(IntersectsFilter::new(ray))` over non-inverted boxes yields exactly the entries whose box
    the ray is said to intersect, each once, in the order of `iter`, if no test panics. Missing: see above. -/
theorem C42_ray_query_partial {V : Type} {c : Config} {R : Rounding} [FloatScalar R N] {P : AABB N D → Prop}
    {t : Tree (AABB N D) (AABB N D) V} (hP : ∀ k, P k → k.Valid) (h : Reachable c P t) (negZero : Fin D → Bool)
    (l : Ray N D) (hd : (l.filter .binary64 negZero).DefinedOn id t) {es : List (AABB N D × V)} (hes : t.iter = .ok es)
    (d : Bool) :
    ∃ r, t.filterIter id ((l.filter .binary64 negZero).orElse d) = .ok r ∧
      Selects (fun e => l.intersectsBox .binary64 negZero e.1 = some true) es r := by
  obtain rfl : t.entries = es := by simpa [h.iter_eq] using hes
  refine PFilter.filterIter_exact h hd (fun k b x hk ht hle hb => ?_) d fun e he x hx => ?_
  · exact rayBoundsIntersect_mono Rounding.binary64_lawful (hP k hk) hle ht hb
  · have hx : l.intersectsBox .binary64 negZero e.1 = some x := hx
    rw [hx, Option.some.injEq]

/-- C42 for `i32`: if all coordinates lie in a window no wider than `i32::MAX`, no test overflows on a non-empty tree. -/
theorem C42_ray_query_defined (hD : 0 < D) {V : Type} {c : Config} {lo hi : I32} (hw : hi.1 - lo.1 ≤ 2147483647)
    {P : AABB I32 D → Prop} {t : Tree (AABB I32 D) (AABB I32 D) V} (hm : 1 ≤ c.minChildren)
    (hP : ∀ k, P k → k.InWindow lo hi) (h : Reachable c P t) (hne : t.iter ≠ .ok []) (negZero : Fin D → Bool)
    {l : Ray I32 D} (h0 : ∀ i, lo ≤ l.origin.get i ∧ l.origin.get i ≤ hi) : (l.filter .binary64 negZero).DefinedOn id t := by
  have hne' : t.entries ≠ [] := fun h0 => hne (by rw [h.iter_eq, h0])
  exact ⟨fun n hn => Ray.intersectsBox_isSome hD (I32.subDefined hw) (h.bounds_inWindow hm hne' hP hn) h0,
    fun e he => Ray.intersectsBox_isSome hD (I32.subDefined hw) (hP _ (h.keys e he)) h0⟩

example : (Ray.mk (pt 0 0) (pt 2 1)).intersectsBox .binary64 (fun _ => false) (box 3 1 5 3) = some true ∧
    (Ray.mk (pt 0 0) (pt 2 1)).intersectsBox .exact (fun _ => false) (box 3 1 5 3) = some true ∧
    (Ray.mk (pt 0 0) (pt 2 1)).intersectsBox .binary64 (fun _ => false) (box 3 3 5 5) = some false ∧
    (box 3 1 5 3).InsideLine (fun i => Scalar.toRat ((pt 0 0).get i)) (fun i => Scalar.toRat ((pt 2 1).get i)) 2 := by
  refine ⟨by decide +kernel, by decide +kernel, by decide +kernel, fun i => ?_⟩
  revert i; decide +kernel

/-- A ray through the sample tree. -/
example : ∃ r, sampleTree.filterIter id ((Ray.filter .binary64 (fun _ => false) ⟨pt 2 4, pt 2 1⟩).orElse false) = .ok r ∧
    r.map Prod.snd = [10] ∧
    Selects (fun e => (Ray.mk (pt 2 4) (pt 2 1)).intersectsBox .binary64 (fun _ => false) e.1 = some true) sampleEntries r := by
  obtain ⟨r, h1, h2⟩ := C42_ray_query_partial (l := ⟨pt 2 4, pt 2 1⟩) (fun _ h => h.2) sample_reachable (fun _ => false)
    (C42_ray_query_defined (by decide) (lo := i32 (-1000)) (hi := i32 1000) (by decide) (by decide) (fun _ h => h.1)
      sample_reachable (by rw [sample_iter]; simp [sampleEntries]) _ (by decide +kernel)) sample_iter false
  refine ⟨r, h1, ?_, h2⟩
  have h3 : sampleTree.filterIter id ((Ray.filter .binary64 (fun _ => false) ⟨pt 2 4, pt 2 1⟩).orElse false) =
      .ok [(box 5 5 6 6, 10)] := by
    refine (Res.ok_getD [] (by decide +kernel)).trans ?_
    congr 1
    decide +kernel
  rw [h1] at h3
  injection h3 with h3
  rw [h3]
  rfl

/-! ## C43: spheres -/

/-- C43 is false of the code: distances and the radius are squared in `f64`, so that for large radii a point just outside of
    the sphere is said to intersect it. -/
theorem C43_sphere_refuted : ∃ (s : Sphere I32 2) (p : SVec I32 2), 0 ≤ Scalar.toRat s.radius ∧
    s.intersectsPoint .binary64 p = some true ∧ ¬ sqDist p s.center ≤ Scalar.toRat s.radius ^ 2 := by
  refine ⟨⟨pt 0 0, i32 2147483647⟩, pt 2147483647 1, by decide +kernel, by decide +kernel, ?_⟩
  simp only [sqDist]
  decide +kernel

section Spheres

variable [IntScalar N]

/-- C43, what holds: for integer coordinates and a radius whose square is below `2 ^ 53`, a sphere is said to intersect a
    point iff their squared distance is at most the squared radius. -/
theorem C43_sphere_point_partial {s : Sphere N D} (hr : Scalar.toRat s.radius ^ 2 < 2 ^ 53) {p : SVec N D} {r : Bool}
    (h : s.intersectsPoint .binary64 p = some r) : r = true ↔ sqDist p s.center ≤ Scalar.toRat s.radius ^ 2 :=
  Sphere.intersectsPoint_int_exact h hr

/-- C43: for a non-negative radius every point it is said to intersect lies in its bounds. -/
theorem C43_sphere_bounds {s : Sphere N D} (hr : 0 ≤ Scalar.toRat s.radius) {b : AABB N D} (hb : s.bounds = some b)
    {p : SVec N D} (h : s.intersectsPoint .binary64 p = some true) : Mem p b := Sphere.bounds_mem_int hr hb h

/-- C43: `filter_iter(BoundedIntersectsFilter::new_bounded(sphere))` over points with integer coordinates yields exactly the
    entries the sphere is said to intersect, each once, in the order of `iter`, if no test overflows. -/
theorem C43_sphere_query {V : Type} {c : Config} {P : SVec N D → Prop} {t : Tree (AABB N D) (SVec N D) V}
    (h : Reachable c P t) {s : Sphere N D} (hr : 0 ≤ Scalar.toRat s.radius) {f : PFilter (AABB N D) (SVec N D)}
    (hf : s.boundedFilter .binary64 = some f) (hd : f.DefinedOn id t) {es : List (SVec N D × V)} (hes : t.iter = .ok es)
    (d : Bool) :
    ∃ r, t.filterIter id (f.orElse d) = .ok r ∧
      Selects (fun e => s.intersectsPoint .binary64 e.1 = some true) es r := by
  obtain rfl : t.entries = es := by simpa [h.iter_eq] using hes
  obtain ⟨sb, hsb, rfl⟩ := Option.map_eq_some_iff.1 hf
  refine PFilter.filterIter_exact h hd (fun k b x hk ht hle hb => ?_) d fun e he x hx => ?_
  · injection hb with hb
    rw [← hb]
    refine C33_intersects_mono (AABB.Le.refl _) hle (b := ⟨k, k⟩) ?_
    have hm := C43_sphere_bounds hr hsb ht
    simp only [Bounds.intersects, AABB.intersectsBox, Bool.and_eq_true, SVec.allLe_iff, SVec.allGe_iff]
    exact ⟨fun i => (hm i).1, fun i => (hm i).2⟩
  · have hx : s.intersectsPoint .binary64 e.1 = some x := hx
    rw [hx, Option.some.injEq]

end Spheres

/-- C43 for a window: no test overflows. -/
theorem C43_sphere_defined (hD : 0 < D) {V : Type} {c : Config} {P : SVec N D → Prop} {t : Tree (AABB N D) (SVec N D) V}
    (h : Reachable c P t) {lo hi : N} (hw : SubDefined lo hi) {s : Sphere N D} {f : PFilter (AABB N D) (SVec N D)}
    (hf : s.boundedFilter .binary64 = some f) (hP : ∀ k, P k → ∀ i, lo ≤ k.get i ∧ k.get i ≤ hi)
    (hc : ∀ i, lo ≤ s.center.get i ∧ s.center.get i ≤ hi) : f.DefinedOn id t := by
  obtain ⟨sb, hsb, rfl⟩ := Option.map_eq_some_iff.1 hf
  exact ⟨fun _ _ => rfl, fun e he => Sphere.intersectsPoint_isSome hD hw hc (hP _ (h.keys e he))⟩

/-- A sphere query on a tree of points; with a negative radius the same points would "intersect" but be pruned. -/
example : ∃ f, (Sphere.mk (pt (-2) 5) (i32 3)).boundedFilter .binary64 = some f ∧ f.DefinedOn id tieTree ∧
    tieTree.filterIter id (f.orElse false) = .ok [(pt (-2) 6, 1), (pt (-1) 6, 2)] := by
  obtain ⟨f, hf⟩ := Option.isSome_iff_exists.1
    (show ((Sphere.mk (pt (-2) 5) (i32 3)).boundedFilter .binary64).isSome by decide +kernel)
  refine ⟨f, hf, C43_sphere_defined (by decide) tie_sample dist_window_i32.1 hf (fun _ h => h) (by decide +kernel), ?_⟩
  have : f = (Sphere.boundedFilter .binary64 (Sphere.mk (pt (-2) 5) (i32 3))).getD ⟨fun _ => none, fun _ => none⟩ := by
    rw [hf]; rfl
  rw [this]
  refine (Res.ok_getD [] (by decide +kernel)).trans ?_
  congr 1
  decide +kernel

/-! ## C44: bounds of segments -/

section LineBounds

/-- C44: the bounds of a segment contain every point of it. -/
theorem C44_line_bounds [ExactScalar N] (l : Line N D) {t : ℚ} (h0 : 0 ≤ t) (h1 : t ≤ 1) :
    (Bounded.bounds l : AABB N D).OnLine (fun i => Scalar.toRat (l.p0.get i))
      (fun i => Scalar.toRat (l.p1.get i) - Scalar.toRat (l.p0.get i)) t := l.onLine_bounds h0 h1

/-- C44: the bounds of a segment intersect every box the segment meets, inverted or not. -/
theorem C44_line_bounds_intersect [ExactScalar N] {l : Line N D} {b : AABB N D} (h : l.Meets b) :
    Bounds.intersects (Bounded.bounds l : AABB N D) b = true := h.intersects

/-- C44: `filter_iter(BoundedIntersectsFilter::new_bounded(line))` over non-inverted boxes with integer coordinates yields
    exactly the entries whose box the segment is said to intersect, each once, in the order of `iter`, if no key test
    overflows: the same as the unbounded filter. -/
theorem C44_line_bounded_query [IntScalar N] {V : Type} {c : Config} {P : AABB N D → Prop} {t : Tree (AABB N D) (AABB N D) V}
    (hP : ∀ k, P k → k.Valid) (h : Reachable c P t) (negZero : Fin D → Bool) (l : Line N D)
    (hd : (l.boundedFilter .binary64 negZero).DefinedOn id t) {es : List (AABB N D × V)} (hes : t.iter = .ok es) (d : Bool) :
    ∃ r, t.filterIter id ((l.boundedFilter .binary64 negZero).orElse d) = .ok r ∧
      Selects (fun e => l.intersectsBox .binary64 negZero e.1 = some true) es r := by
  obtain rfl : t.entries = es := by simpa [h.iter_eq] using hes
  refine PFilter.filterIter_exact h hd (fun k b x hk ht hle hb => ?_) d fun e he x hx => ?_
  · injection hb with hb
    rw [← hb]
    exact C33_intersects_mono (AABB.Le.refl _) hle (Line.bounds_of_intersectsBox (hP k hk) ht)
  · have hx : l.intersectsBox .binary64 negZero e.1 = some x := hx
    rw [hx, Option.some.injEq]

/-- C44 for `i32`: if the coordinates of the keys and the segment lie in a window no wider than `i32::MAX`, no test
    overflows, also on an empty tree. -/
theorem C44_line_bounded_defined {V : Type} {c : Config} {lo hi : I32} (hw : hi.1 - lo.1 ≤ 2147483647)
    {P : AABB I32 D → Prop} {t : Tree (AABB I32 D) (AABB I32 D) V} (hP : ∀ k, P k → k.InWindow lo hi)
    (h : Reachable c P t) (negZero : Fin D → Bool) {l : Line I32 D}
    (h0 : ∀ i, lo ≤ l.p0.get i ∧ l.p0.get i ≤ hi) (h1 : ∀ i, lo ≤ l.p1.get i ∧ l.p1.get i ≤ hi) :
    (l.boundedFilter .binary64 negZero).DefinedOn id t :=
  ⟨fun _ _ => rfl, fun e he => Line.intersectsBox_isSome (I32.subDefined hw) (hP _ (h.keys e he)) h0 h1⟩

end LineBounds

example : (Line.boundedFilter .binary64 (fun _ => false) ⟨pt 0 3, pt 4 3⟩).DefinedOn id sampleTree ∧
    sampleTree.filterIter id ((Line.boundedFilter .binary64 (fun _ => false) ⟨pt 0 3, pt 4 3⟩).orElse false) =
      .ok [(box 0 2 1 3, 3), (box 1 3 1 3, 60), (box 2 2 3 3, 4)] := by
  refine ⟨C44_line_bounded_defined (lo := i32 (-1000)) (hi := i32 1000) (by decide) (fun _ h => h.1)
      sample_reachable _ (by decide +kernel) (by decide +kernel), ?_⟩
  refine (Res.ok_getD [] (by decide +kernel)).trans ?_
  congr 1
  decide +kernel

/-! ## C52: empty trees -/

/-- C52 is false of the code: on the bounds of an empty tree of `i32` points or boxes the tests made by a distance join
    and by a segment query overflow. -/
theorem C52_empty_tests_refuted {K V : Type} (c : Config) [Bounded K (AABB I32 2)] :
    ∃ (b : AABB I32 2) (l : Line I32 2), b.Valid ∧
      (distanceFilter (N := I32) (D := 2) .binary64 (XRat.rat 5)).testBounds
        (Tree.new c : Tree (AABB I32 2) K V).root.bounds b = none ∧
      (l.filter .binary64 fun _ => false).testBounds (Tree.new c : Tree (AABB I32 2) K V).root.bounds = none := by
  refine ⟨box 0 0 1 1, ⟨pt 1 1, pt 2 2⟩, ?_, ?_, ?_⟩
  · unfold AABB.Valid; decide +kernel
  · show (distanceFilter (N := I32) (D := 2) .binary64 (XRat.rat 5)).testBounds AABB.empty (box 0 0 1 1) = none
    decide +kernel
  · show Line.intersectsBox .binary64 _ ⟨pt 1 1, pt 2 2⟩ (AABB.empty : AABB I32 2) = none
    decide +kernel

/-- What holds of C52: on a non-empty tree in a window no wider than `i32::MAX` they do not overflow. Missing: empty
    trees. -/
theorem C52_nonempty_partial {K V : Type} {c : Config} [Bounded K (AABB I32 D)] [BEq K] [LawfulKey K (AABB I32 D)]
    (hD : 0 < D) {lo hi : I32} (hw : hi.1 - lo.1 ≤ 2147483647) (hm : 1 ≤ c.minChildren) {P : K → Prop}
    {t : Tree (AABB I32 D) K V} (h : Reachable c P t) (hne : t.iter ≠ .ok [])
    (hP : ∀ k, P k → (Bounded.bounds k : AABB I32 D).InWindow lo hi) {n : Node (AABB I32 D) K V} (hn : n ∈ t.nodes) :
    (∀ (b : AABB I32 D) (r : XRat), b.InWindow lo hi →
      ((distanceFilter (N := I32) (D := D) .binary64 r).testBounds n.bounds b).isSome) ∧
    ∀ (l : Line I32 D) (negZero : Fin D → Bool), (∀ i, lo ≤ l.p0.get i ∧ l.p0.get i ≤ hi) →
      (∀ i, lo ≤ l.p1.get i ∧ l.p1.get i ≤ hi) → ((l.filter .binary64 negZero).testBounds n.bounds).isSome := by
  have hne' : t.entries ≠ [] := fun h0 => hne (by rw [h.iter_eq, h0])
  have hb := h.bounds_inWindow hm hne' hP hn
  refine ⟨fun b r hbw => ?_, fun l nz h0 h1 => Line.intersectsBox_isSome (I32.subDefined hw) hb h0 h1⟩
  obtain ⟨m, hm⟩ := C40_sq_dist_defined hD (I32.subDefined hw) hb hbw
  obtain ⟨rr, hr, -⟩ := F64.mul_self_some Rounding.binary64_lawful r
  have hr' : N64.mul .binary64 r r = some rr := hr
  simp [distanceFilter, hm, hr']

end RTree
