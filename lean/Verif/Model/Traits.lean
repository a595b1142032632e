import Verif.Basic
/-!
# The traits of the crate

The user-implementable traits, as Lean type classes *without* laws.  The contracts the documentation
attaches to them are stated separately in `Verif/Spec.lean`.
-/

namespace RTree

/-- bounds.rs 19-33 (`trait Bounds: Contains<Self> + Intersects<Self>`), contains.rs 1-3,
    intersects.rs 5-7. -/
class Bounds (B : Type) where
  empty : B
  union : B → B → B
  unionAll : List B → B
  contains : B → B → Bool
  intersects : B → B → Bool

/-- bounds.rs 35-37 (`trait Bounded<B>`). -/
class Bounded (K : Type) (B : outParam Type) where
  bounds : K → B

/-- bounds.rs 39-41 (`trait Volume`), together with the operations on `N64` the crate uses
    (split.rs 20-38, 73-75, 126; select.rs 21, 40-46).
    `volume` (scalar subtraction, `n64(..)`) and the `N64` subtraction may panic: `none` is an
    arithmetic panic.
    Simplification: the type of volumes and its operations are arbitrary, no law is assumed (for the boxes of the crate
    they are those of `N64`, see `Verif/Model/Geom.lean`). -/
class Volume (B : Type) where
  Vol : Type
  volume : B → Option Vol
  sub : Vol → Vol → Option Vol
  /-- `a < b` -/
  lt : Vol → Vol → Bool
  /-- `N64::cmp` -/
  cmp : Vol → Vol → Ordering
  /-- `N64::neg_infinity()` -/
  negInf : Vol

/-- filter.rs 6-27 (`trait SpatialFilter`). -/
structure SpatialFilter (B K : Type) where
  testBounds : B → Bool
  testKey : K → Bool

/-- filter.rs 161-171 (`NoFilter`). -/
def noFilter (B K : Type) : SpatialFilter B K := ⟨fun _ => true, fun _ => true⟩

/-- filter.rs 176-198 (`trait JoinFilter`). -/
structure JoinFilter (BL BR KL KR : Type) where
  testBounds : BL → BR → Bool
  testKey : KL → KR → Bool

/-- filter.rs 202-237 (`JoiningFilter`): the filter left_join hands to the right-hand iterator;
    `new` captures the bounds of the left key. -/
def joiningFilter {BL BR KL KR : Type} [Bounded KL BL] (key : KL) (f : JoinFilter BL BR KL KR) :
    SpatialFilter BR KR :=
  ⟨fun b => f.testBounds (Bounded.bounds key) b, fun k => f.testKey key k⟩

/-- ranking.rs 14-39 (`trait Ranking`), `Metric` is a parameter.  Both functions may panic (in the crate's own
    implementation: arithmetic overflow, ranking.rs 45-52). -/
structure Ranking (B K M : Type) where
  boundsMin : B → Res M
  rankKey : K → Res M

end RTree
