import Verif.Cases.Geometry
import Verif.Props.Debug
/-!
# The theorems about the shapes, applied to concrete cases

As `Verif/Cases/Trees.lean`.
-/

namespace RTree

open XRat

theorem valid_box : (box 0 0 2 2).Valid ∧ (box 5 6 7 7).Valid ∧ (box 4 3 6 5).Valid := by
  refine ⟨?_, ?_, ?_⟩ <;> unfold AABB.Valid <;> decide +kernel

/-- The point of `box 0 0 2 2` and of `box 5 6 7 7` that are closest are `(2, 2)` and `(5, 6)`. -/
theorem box_dist : (box 0 0 2 2).HasBoxDist (box 5 6 7 7) 25 := by
  refine ⟨⟨pt 2 2, pt 5 6, ?_, ?_, ?_⟩, fun p q hp hq => ?_⟩
  · unfold AABB.Mem; decide +kernel
  · unfold AABB.Mem; decide +kernel
  · rw [sqDist, Fin.sum_univ_two]; decide +kernel
  · have h0 : (p.get 0).1 ≤ 2 := (hp 0).2
    have h1 : (p.get 1).1 ≤ 2 := (hp 1).2
    have h2 : 5 ≤ (q.get 0).1 := (hq 0).1
    have h3 : 6 ≤ (q.get 1).1 := (hq 1).1
    rw [sqDist, Fin.sum_univ_two]
    show (25 : ℚ) ≤ (((p.get 0).1 : ℚ) - ((q.get 0).1 : ℚ)) ^ 2 + (((p.get 1).1 : ℚ) - ((q.get 1).1 : ℚ)) ^ 2
    have e0 : ((p.get 0).1 : ℚ) - ((q.get 0).1 : ℚ) ≤ -3 := by
      have : (p.get 0).1 - (q.get 0).1 ≤ -3 := by omega
      exact_mod_cast this
    have e1 : ((p.get 1).1 : ℚ) - ((q.get 1).1 : ℚ) ≤ -4 := by
      have : (p.get 1).1 - (q.get 1).1 ≤ -4 := by omega
      exact_mod_cast this
    nlinarith

theorem box_sqDist : (box 0 0 2 2).sqDistTo .binary64 (box 5 6 7 7) = some (rat 25) := by decide +kernel

theorem sample_nonempty : sampleTree.iter ≠ .ok [] := by rw [sample_iter]; simp [sampleEntries]

example := C02_no_panic_i32_points (by decide) (by decide) cfg42_sound.safe (lo := i32 (-1000)) (hi := i32 1000) (by decide) (ops := tieOps) (by
  have : ∀ op ∈ tieOps, ∀ k ∈ op.inserts, ∀ i, i32 (-1000) ≤ k.get i ∧ k.get i ≤ i32 1000 := by decide +kernel
  intro op h k hk
  exact this op h k (by simp [hk]))
/-- The boxes of `floatOps` are not beyond the greatest and the least number. -/
theorem float_inside : Reachable cfg42 (fun k => ∀ i, k.min.get i ≤ Scalar.maxVal ∧ Scalar.minVal ≤ k.max.get i) floatTree := by
  refine Reachable.run .new (fun op h k hk => ?_) (Res.ok_getD _ (by decide +kernel))
  have : ∀ op ∈ floatOps, ∀ k ∈ op.inserts, ∀ i, k.min.get i ≤ Scalar.maxVal ∧ Scalar.minVal ≤ k.max.get i := by decide +kernel
  exact this op h k (by simp [hk])

example := C19_float_bounds_exact (fun _ hk => hk) float_inside (n := floatTree.root) List.mem_cons_self
example := C52_nonempty_partial (by decide) (lo := i32 (-1000)) (hi := i32 1000) (by decide) (by decide) sample_reachable
  sample_nonempty (fun _ hk => hk.1) (n := sampleTree.root) List.mem_cons_self
example := C75_contains (GBox.mk (⟨false, i32 1⟩ : UserVec) ⟨true, i32 5⟩) ⟨⟨true, i32 5⟩, ⟨true, i32 9⟩⟩ ⟨true, i32 1⟩ (by intro i; cases i <;> decide +kernel)

/-- User code that fails for odd values, after writing a part. -/
def oddFails (n : Nat) : Fmt.M Unit := fun _ t => if n % 2 = 1 then (.error .err, t ++ ['?']) else (.ok (), t ++ ['e'])

theorem box_calm (b : AABB I32 2) (k : Fmt.Sink) (s : List Char) (p : Panic) : (Fmt.debugBox Fmt.debugI32 b k s).1 ≠ .error (.own p) := by
  rcases (C76_boxes.2.1 b k s).1 with h | ⟨_, _, h⟩ <;> rw [h] <;> intro h <;> cases h

theorem odd_calm (n : Nat) (k : Fmt.Sink) (s : List Char) (p : Panic) : (oddFails n k s).1 ≠ .error (.own p) := by
  unfold oddFails; split <;> intro h <;> cases h

example := C76_user_code_fails (dv := oddFails) sample_reachable box_calm box_calm odd_calm

/-- The bounds and the children of the root of the sample tree. -/
def sampleRoot : AABB I32 2 × List (Node (AABB I32 2) (AABB I32 2) Nat) :=
  match sampleTree.root with
  | .inner b cs => (b, cs)
  | .leaf b _ => (b, [])

example : sampleRoot.2.length = 3 := by decide +kernel

example := C49_insert_descends (a := sampleTree.alloc) (l := 0) (b := sampleRoot.1) (cs := sampleRoot.2) (k := box 0 1 3 3) (v := 5)
  (Res.ok_getD (.leaf sampleRoot.1 [], none) (by decide +kernel))

example := C40_sq_dist_exact_partial valid_box.1 valid_box.2.1 box_sqDist box_dist (.inl (by norm_num))
example := C40_sq_dist_error_partial valid_box.1 valid_box.2.1 (by decide) box_sqDist box_dist
example := C40_sq_dist_zero valid_box.1 valid_box.2.1 box_sqDist
example := C40_sq_dist_defined (by decide) (I32.subDefined (lo := i32 (-100)) (hi := i32 100) (by decide)) (a := box 0 0 2 2) (b := box 5 6 7 7)
  (by unfold AABB.InWindow; decide +kernel) (by unfold AABB.InWindow; decide +kernel)
example := C40_distance_key (r := rat 5) (rr := rat 25) (by decide +kernel) (k0 := pt 0 3) (k1 := pt 4 0) (by decide +kernel)

theorem line_inside : (Line.mk (pt 0 0) (pt 9 7)).MeetsWithin (box 4 3 6 5) (-(1 / 2 ^ 50)) := by
  refine ⟨1 / 2, by norm_num, by norm_num, fun i => ?_⟩
  revert i; decide +kernel

theorem line_meets : (Line.mk (pt 0 0) (pt 9 7)).Meets (box 4 3 6 5) := by
  refine ⟨1 / 2, by norm_num, by norm_num, fun i => ?_⟩
  revert i; decide +kernel

theorem line_found : (Line.mk (pt 0 0) (pt 9 7)).intersectsBox .binary64 (fun _ => false) (box 4 3 6 5) = some true := by decide +kernel

/-- A segment of floats. -/
def fline : Line N64 2 := ⟨fpt (n64 0) (n64 (1 / 2)), fpt (n64 3) (n64 (5 / 2))⟩

example := C41_line_query_defined_float (t := floatTree) (l := fline) (by decide +kernel) (fun _ => false)
example := C41_line_n64_partial (l := fline) (b := fbox (n64 0) (n64 0) (n64 (1 / 2)) (n64 1)) (by unfold AABB.Valid; decide +kernel)
  (by refine ⟨?_, ?_, ?_, ?_, ?_⟩ <;> decide +kernel) (fun _ => false)
example := C41_line_n32_partial (D := 1) (l := ⟨fpt1 (n32 0), fpt1 (n32 (5 / 2))⟩) (b := ⟨fpt1 (n32 1), fpt1 (n32 (7 / 2))⟩) (by unfold AABB.Valid; decide +kernel)
  (by decide +kernel) (fun _ => true)
example := C41_line_sound_partial valid_box.2.2 line_found
example := C41_line_complete_partial valid_box.2.2 line_inside line_found
example := C41_line_axis_partial (l := ⟨pt 0 4, pt 9 4⟩) valid_box.2.2 (by decide +kernel) (negZero := fun _ => false) (r := true) (by decide +kernel)
example := C41_line_exact_partial (fun _ => false) valid_box.2.2 (l := ⟨pt 0 0, pt 9 7⟩) (r := true) (by decide +kernel)
example := C41_line_defined (fun _ => false) (I32.subDefined (lo := i32 (-100)) (hi := i32 100) (by decide)) (l := ⟨pt 0 0, pt 9 7⟩) (b := box 4 3 6 5)
  (by unfold AABB.InWindow; decide +kernel) (by decide +kernel) (by decide +kernel)

example := C42_ray_query_defined_float (t := floatTree) (by decide) (r := ⟨fpt (n64 0) (n64 (1 / 2)), fpt (n64 3) (n64 (5 / 2))⟩) (by decide +kernel) (fun _ => false)
example := C42_ray_exact_partial (fun _ => false) valid_box.2.2 (r := ⟨pt 0 0, pt 9 7⟩) (x := true) (by decide +kernel)
example := C42_ray_interior_partial (fun _ => false) (r := ⟨pt 0 0, pt 2 1⟩) (b := box 3 1 5 3) (t := 2) (fun i => by revert i; decide +kernel) (x := true) (by decide +kernel)
example := C42_ray_defined (by decide) (fun _ => false) (I32.subDefined (lo := i32 (-100)) (hi := i32 100) (by decide)) (r := ⟨pt 0 0, pt 9 7⟩) (b := box 4 3 6 5)
  (by unfold AABB.InWindow; decide +kernel) (by decide +kernel)

theorem line_small : (Line.mk (pt 0 0) (pt 9 7)).Small (box 4 3 6 5) := by refine ⟨?_, ?_, ?_, ?_⟩ <;> decide +kernel

theorem ray_small : (Ray.mk (pt 0 0) (pt 9 7)).Small (box 4 3 6 5) := by refine ⟨?_, ?_, ?_, ?_⟩ <;> decide +kernel

theorem ray_found : (Ray.mk (pt 0 0) (pt 9 7)).intersectsBox .binary64 (fun _ => false) (box 4 3 6 5) = some true := by decide +kernel

/-- The ray leads from (0, 0) into the box at (9/2, 7/2) and further at (45/8, 35/8). -/
theorem ray_within : (Ray.mk (pt 0 0) (pt 9 7)).InWithin (box 4 3 6 5) (-(1 / 2 ^ 51)) (1 / 2) ∧
    (Ray.mk (pt 0 0) (pt 9 7)).InWithin (box 4 3 6 5) (-(1 / 2 ^ 51)) (5 / 8) := by
  constructor <;> (intro i; revert i; decide +kernel)

example := C41_line_small_partial valid_box.2.2 line_small line_found
example := (C41_line_small_partial valid_box.2.2 line_small line_found).2 (1 / 2) (5 / 8) (by norm_num) (by norm_num) (by norm_num)
  (fun i => by revert i; decide +kernel) (fun i => by revert i; decide +kernel)
example := (C42_ray_rounded_partial valid_box.2.2 ray_found).2 (fun h => absurd h.1 (by decide +kernel)) _ _ (by norm_num) ray_within.1 ray_within.2
example := (C42_ray_small_partial valid_box.2.2 ray_small ray_found).1 rfl
example := (C42_ray_small_partial valid_box.2.2 ray_small ray_found).2 (fun h => absurd h.1 (by decide +kernel)) (1 / 2) (5 / 8) (by norm_num)
  (fun i => by revert i; decide +kernel) (fun i => by revert i; decide +kernel)
example := C42_ray_along (r := ⟨pt 4 0, pt 0 1⟩) (b := box 4 3 6 5) (negZero := fun _ => false) (x := false) (by decide +kernel)
  ⟨by decide +kernel, .inl (by decide +kernel)⟩
example := C42_ray_n64_partial (r := ⟨fpt (n64 0) (n64 (1 / 2)), fpt (n64 3) (n64 (5 / 2))⟩) (b := fbox (n64 0) (n64 0) (n64 (1 / 2)) (n64 1))
  (by unfold AABB.Valid; decide +kernel) (by refine ⟨?_, ?_, ?_, ?_, ?_, ?_, ?_⟩ <;> decide +kernel) (fun _ => false)
example := C42_ray_n32_partial (D := 0) (r := ⟨fpt1 (n32 0), fpt1 (n32 (5 / 2))⟩) (b := ⟨fpt1 (n32 1), fpt1 (n32 (7 / 2))⟩) (by unfold AABB.Valid; decide +kernel)
  (by decide +kernel) (fun _ => true)

example := C41_line_query_small_partial (l := ⟨pt 0 3, pt 4 3⟩) (by decide)
  (fun _ h => ⟨h.2, fun i => ⟨⟨le_trans (by decide) (h.1 i).1.1, le_trans (h.1 i).1.2 (by decide)⟩, ⟨le_trans (by decide) (h.1 i).2.1, le_trans (h.1 i).2.2 (by decide)⟩⟩⟩)
  sample_reachable (by rw [sample_iter]; simp [sampleEntries]) (fun _ => false) (by decide +kernel) (by decide +kernel) sample_iter false

/-- A sphere of floats. -/
def fsphere : Sphere N64 2 := ⟨fpt (n64 0) (n64 (1 / 2)), n64 3⟩

/-- A sphere of integers. -/
def isphere : Sphere I32 2 := ⟨pt (-2) 5, i32 3⟩

theorem isphere_filter : ∃ f, isphere.boundedFilter .binary64 = some f :=
  Option.isSome_iff_exists.1 (by decide +kernel)

theorem isphere_defined : isphere_filter.choose.DefinedOn id tieTree :=
  C43_sphere_defined (by decide) tie_sample dist_window_i32.1 isphere_filter.choose_spec (fun _ h => h) (by decide +kernel)

example := C43_sphere_float_partial (by decide) near_reachable (s := fsphere) (by decide +kernel) near_iter false
example := C43_sphere_point_partial (s := isphere) (by decide +kernel) (p := pt (-2) 6) (r := true) (by decide +kernel)
example := C43_sphere_bounds (s := isphere) (by decide +kernel) (b := box (-5) 2 1 8) (by decide +kernel) (p := pt (-2) 6) (by decide +kernel)
example := C43_sphere_query tie_sample (s := isphere) (by decide +kernel) isphere_filter.choose_spec isphere_defined tie_iter false

example := C44_line_bounded_float_partial float_reachable (l := fline) (by decide +kernel) (fun _ => false) float_reachable.iter_eq true
example := C44_line_bounds (Line.mk (pt 0 0) (pt 9 7)) (t := 1 / 3) (by norm_num) (by norm_num)
example := C44_line_bounds_intersect line_meets
example := C44_line_bounded_query (fun _ h => h.2) sample_reachable (fun _ => false) ⟨pt 0 3, pt 4 3⟩
  (C44_line_bounded_defined (lo := i32 (-1000)) (hi := i32 1000) (by decide) (fun _ h => h.1)
      sample_reachable _ (by decide +kernel) (by decide +kernel)) sample_iter false

end RTree
