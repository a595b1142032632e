import Verif.Model.Lines
/-!
# Filters whose tests may panic

The tests of filters made from segments, spheres and distances calculate with scalars and may overflow.
`none` is that panic.  Simplification: the iterators of the model take tests that do not panic, so such a filter is used
through `orElse d`, which answers `d` in place of a panic; the theorems show that on the trees they speak about no
test panics, and hold for every `d`.
-/

namespace RTree

/-- A `SpatialFilter` (filter.rs 6-27) whose tests may panic. -/
structure PFilter (B K : Type) where
  testBounds : B → Option Bool
  testKey : K → Option Bool

/-- The filter that answers `d` in place of a panic. Modelling device: stands for no code of the crate. -/
def PFilter.orElse {B K : Type} (f : PFilter B K) (d : Bool) : SpatialFilter B K :=
  ⟨fun b => (f.testBounds b).getD d, fun k => (f.testKey k).getD d⟩

/-- A `JoinFilter` (filter.rs 176-198) whose tests may panic. -/
structure PJoinFilter (B0 B1 K0 K1 : Type) where
  testBounds : B0 → B1 → Option Bool
  testKey : K0 → K1 → Option Bool

/-- The filter that answers `d` in place of a panic. Modelling device: stands for no code of the crate. -/
def PJoinFilter.orElse {B0 B1 K0 K1 : Type} (f : PJoinFilter B0 B1 K0 K1) (d : Bool) : JoinFilter B0 B1 K0 K1 :=
  ⟨fun b0 b1 => (f.testBounds b0 b1).getD d, fun k0 k1 => (f.testKey k0 k1).getD d⟩

variable {N : Type} {D : Nat} [Scalar N]

/-- filter.rs 32-53 (`IntersectsFilter::new(line)`) for box keys. -/
def Line.filter (R : Rounding) (negZero : Fin D → Bool) (l : Line N D) : PFilter (AABB N D) (AABB N D) :=
  ⟨l.intersectsBox R negZero, l.intersectsBox R negZero⟩

/-- filter.rs 62-93 (`BoundedIntersectsFilter::new_bounded(line)`) for box keys. -/
def Line.boundedFilter (R : Rounding) (negZero : Fin D → Bool) (l : Line N D) : PFilter (AABB N D) (AABB N D) :=
  ⟨fun b => some (Bounds.intersects (Bounded.bounds l) b), l.intersectsBox R negZero⟩

/-- filter.rs 32-53 (`IntersectsFilter::new(ray)`) for box keys. -/
def Ray.filter (R : Rounding) (negZero : Fin D → Bool) (r : Ray N D) : PFilter (AABB N D) (AABB N D) :=
  ⟨r.intersectsBox R negZero, r.intersectsBox R negZero⟩

/-- filter.rs 62-93 (`BoundedIntersectsFilter::new_bounded(sphere)`) for point keys; creating it panics if the bounds of the
    sphere overflow. -/
def Sphere.boundedFilter (R : Rounding) (s : Sphere N D) : Option (PFilter (AABB N D) (SVec N D)) :=
  s.bounds.map fun b => ⟨fun b' => some (Bounds.intersects b b'), s.intersectsPoint R⟩

/-- lib.rs 874-890 (`DistanceFilter` in the test `join`): pairs of points closer than `r`. -/
def distanceFilter (R : Rounding) (r : XRat) : PJoinFilter (AABB N D) (AABB N D) (SVec N D) (SVec N D) :=
  ⟨fun b0 b1 => do return decide ((← b0.sqDistTo R b1) < (← N64.mul R r r)),
   fun k0 k1 => do return decide (Scalar.toX (← k0.distSq k1) < (← N64.mul R r r))⟩

end RTree
