import Verif.Model.Traits
import Verif.Model.Select
import Verif.Model.Float
import Mathlib.Order.Lattice
import Mathlib.Data.Fintype.Basic
import Mathlib.Data.Fin.VecNotation
import Mathlib.Algebra.Order.Ring.Rat
/-!
# Vectors, boxes and their traits (vector.rs, bounds.rs, ranking.rs, filter.rs, geom/sphere.rs, geom/line.rs)

Scalars are an arbitrary totally ordered type with *checked* arithmetic: `none` is the overflow panic of a debug build
(or the NaN panic of `N64`).
-/

namespace RTree

/-- The scalar operations used by vector.rs, bounds.rs, ranking.rs: `Ord`, `num_traits::Bounded`,
    `Add`, `Sub`, `Mul` (checked) and `Into<f64>`.
    Simplification: `Into<f64>` does not return NaN.
    bounds.rs 131-133, 149-151, vector.rs 36-142, ranking.rs 45-47 (the trait bounds). -/
class Scalar (N : Type) extends LinearOrder N where
  /-- `num_traits::Bounded::min_value()` -/
  minVal : N
  /-- `num_traits::Bounded::max_value()` -/
  maxVal : N
  add : N → N → Option N
  sub : N → N → Option N
  mul : N → N → Option N
  /-- `Into<f64>` -/
  toX : N → XRat

/-- vector.rs 33 (`SVec<N, D>([N; D])`). -/
@[ext] structure SVec (N : Type) (D : Nat) where
  get : Fin D → N

/-- vector.rs 33-36 (`derive(PartialEq)`, `Eq`): componentwise. -/
instance {N : Type} {D : Nat} [DecidableEq N] : DecidableEq (SVec N D) := fun a b =>
  decidable_of_iff (∀ i, a.get i = b.get i) ⟨fun h => SVec.ext (funext h), fun h _ => h ▸ rfl⟩

/-- bounds.rs 44-48 (`AABB`), always over `SVec` (`SAABB`, bounds.rs 129).
    Boxes over user-defined `Vector` types: see `Model/Vectors.lean`. -/
@[ext] structure AABB (N : Type) (D : Nat) where
  min : SVec N D
  max : SVec N D

/-- bounds.rs 44 (`derive(PartialEq)`): componentwise. -/
instance {N : Type} {D : Nat} [DecidableEq N] : DecidableEq (AABB N D) := fun a b =>
  decidable_of_iff (a.min = b.min ∧ a.max = b.max) ⟨fun h => AABB.ext h.1 h.2, fun h => ⟨h ▸ rfl, h ▸ rfl⟩⟩

namespace SVec

variable {N : Type} {D : Nat} [Scalar N]

/-- vector.rs 49-51 (`all_le`). -/
def allLe (a b : SVec N D) : Bool := (List.finRange D).all fun i => decide (a.get i ≤ b.get i)

/-- vector.rs 52-54 (`all_ge`). -/
def allGe (a b : SVec N D) : Bool := (List.finRange D).all fun i => decide (a.get i ≥ b.get i)

/-- vector.rs 56-58 (`componentwise_min`). -/
def cmin (a b : SVec N D) : SVec N D := ⟨fun i => min (a.get i) (b.get i)⟩

/-- vector.rs 59-61 (`componentwise_max`). -/
def cmax (a b : SVec N D) : SVec N D := ⟨fun i => max (a.get i) (b.get i)⟩

/-- vector.rs 42-44 (`min_value`). -/
def minValue : SVec N D := ⟨fun _ => Scalar.minVal⟩

/-- vector.rs 45-47 (`max_value`). -/
def maxValue : SVec N D := ⟨fun _ => Scalar.maxVal⟩

/-- The components in index order (vector.rs 65-67 `zip`, `self.0.iter()`). -/
def toList (a : SVec N D) : List N := (List.finRange D).map a.get

end SVec

namespace AABB

variable {N : Type} {D : Nat} [Scalar N]

/-- bounds.rs 52-59 (`Contains<V> for AABB<V>`): as written, `min.all_ge(point) && max.all_le(point)`. -/
def containsPoint (b : AABB N D) (p : SVec N D) : Bool := b.min.allGe p && b.max.allLe p

/-- bounds.rs 61-68 (`Contains<AABB<V>> for AABB<V>`). -/
def containsBox (a b : AABB N D) : Bool := a.min.allLe b.max && a.max.allGe b.min

/-- bounds.rs 70-77 (`Intersects<V> for AABB<V>`). -/
def intersectsPoint (b : AABB N D) (p : SVec N D) : Bool := b.min.allLe p && b.max.allGe p

/-- bounds.rs 79-86 (`Intersects<AABB<V>> for AABB<V>`). -/
def intersectsBox (a b : AABB N D) : Bool := a.min.allLe b.max && a.max.allGe b.min

/-- bounds.rs 92-97 (`empty`). -/
def empty : AABB N D := ⟨SVec.maxValue, SVec.minValue⟩

/-- bounds.rs 99-104 (`union`). -/
def union (a b : AABB N D) : AABB N D := ⟨a.min.cmin b.min, a.max.cmax b.max⟩

/-- bounds.rs 106-112 (`union_all`). -/
def unionAll (bs : List (AABB N D)) : AABB N D := bs.foldl union empty

end AABB

variable {N : Type} {D : Nat} [Scalar N]

/-- bounds.rs 88-113 (`Bounds for AABB<V>`). -/
instance : Bounds (AABB N D) where
  empty := AABB.empty
  union := AABB.union
  unionAll := AABB.unionAll
  contains := AABB.containsBox
  intersects := AABB.intersectsBox

/-- bounds.rs 115-125 (`Bounded<AABB<V>> for V`). -/
instance : Bounded (SVec N D) (AABB N D) := ⟨fun p => ⟨p, p⟩⟩

/-- bounds.rs 175-182 (`Bounded<SAABB> for SAABB`). -/
instance : Bounded (AABB N D) (AABB N D) := ⟨id⟩

/-- vector.rs 135-142 (`Intersects<SAABB> for SVec`): delegates to `contains`. -/
def SVec.intersectsBox (p : SVec N D) (b : AABB N D) : Bool := b.containsPoint p

namespace N64

/-- `+` on `N64`: `none` is the panic on NaN. bounds.rs 170. -/
def add (R : Rounding) (a b : XRat) : Option XRat := F64.add R (some a) (some b)

/-- `-` on `N64`: `none` is the panic on NaN. split.rs 73, select.rs 21. -/
def sub (R : Rounding) (a b : XRat) : Option XRat := F64.sub R (some a) (some b)

/-- `*` on `N64`: `none` is the panic on NaN. bounds.rs 144, 168. -/
def mul (R : Rounding) (a b : XRat) : Option XRat := F64.mul R (some a) (some b)

/-- `N64::cmp`. select.rs 40-46, split.rs 75. -/
def cmp (a b : XRat) : Ordering := if a < b then .lt else if a = b then .eq else .gt

end N64

/-- The side lengths of a box (bounds.rs 141-143); `none` if a subtraction overflows. -/
def AABB.lengths (b : AABB N D) : Option (List XRat) :=
  (List.finRange D).mapM fun i => (Scalar.sub (b.max.get i) (b.min.get i)).map Scalar.toX

/-- bounds.rs 131-147 (`Volume for SAABB`); panics for `D = 0` and if a product is NaN. -/
def AABB.volume (b : AABB N D) : Option XRat := do
  match ← b.lengths with
  | [] => none
  | l :: ls => ls.foldlM (N64.mul .binary64) l

/-- bounds.rs 131-147 (`Volume for SAABB`), with the operations on `N64`: split.rs 20-38, 73-75, 126; select.rs 21,
    40-46. -/
instance : Volume (AABB N D) where
  Vol := XRat
  volume := AABB.volume
  sub := N64.sub .binary64
  lt a b := decide (a < b)
  cmp := N64.cmp
  negInf := ⊥

section Distance

/-- vector.rs 76-85 (`sq_mag`): `reduce(+)` of the squares; panics for `D = 0` and on overflow. -/
def SVec.sqMag (a : SVec N D) : Option N := do
  let sq ← a.toList.mapM fun v => Scalar.mul v v
  match sq with
  | [] => none
  | x :: xs => xs.foldlM Scalar.add x

/-- vector.rs 124-133 (`Sub for SVec`). -/
def SVec.sub (a b : SVec N D) : Option (SVec N D) :=
  if h : ∀ i, (Scalar.sub (a.get i) (b.get i)).isSome then
    some ⟨fun i => (Scalar.sub (a.get i) (b.get i)).get (h i)⟩
  else none

/-- ranking.rs 45-52 (`PointDistance for SVec`). -/
def SVec.distSq (a p : SVec N D) : Option N := do (← a.sub p).sqMag

/-- ranking.rs 54-65 (`PointDistance for AABB`). -/
def AABB.distSq (b : AABB N D) (p : SVec N D) : Option N := ((p.cmax b.min).cmin b.max).distSq p

/-- bounds.rs 158-169: the squared gap of two boxes in one dimension; `none` if a subtraction overflows. -/
def AABB.sqGap (R : Rounding) (a b : AABB N D) (i : Fin D) : Option XRat := do
  let lhsThenRhs := Scalar.toX (← Scalar.sub (b.min.get i) (a.max.get i))
  let rhsThenLhs := Scalar.toX (← Scalar.sub (a.min.get i) (b.max.get i))
  let dist := Max.max (Max.max lhsThenRhs rhsThenLhs) (XRat.rat 0)
  N64.mul R dist dist

/-- bounds.rs 149-173 (`sq_dist_to`): `none` if a subtraction overflows or `D = 0`. -/
def AABB.sqDistTo (R : Rounding) (a b : AABB N D) : Option XRat := do
  match ← (List.finRange D).mapM (a.sqGap R b) with
  | [] => none
  | x :: xs => xs.foldlM (N64.add R) x

/-- ranking.rs 79-108 (`EuclideanDistanceRanking`) for point keys; the metric is the scalar type. -/
def euclidPoints (p : SVec N D) : Ranking (AABB N D) (SVec N D) N :=
  ⟨fun b => arith (b.distSq p), fun k => arith (k.distSq p)⟩

/-- ranking.rs 79-108 (`EuclideanDistanceRanking`) for box keys; the metric is the scalar type. -/
def euclidBoxes (p : SVec N D) : Ranking (AABB N D) (AABB N D) N :=
  ⟨fun b => arith (b.distSq p), fun k => arith (k.distSq p)⟩

end Distance

section Filters

/-- filter.rs 32-53 (`IntersectsFilter`): `ib`/`ik` are the two `Intersects` implementations of the space. -/
def intersectsFilter {B K S : Type} (ib : S → B → Bool) (ik : S → K → Bool) (space : S) : SpatialFilter B K :=
  ⟨ib space, ik space⟩

/-- filter.rs 62-93 (`BoundedIntersectsFilter`). -/
def boundedIntersectsFilter {B K S : Type} [Bounds B] [Bounded S B] (ik : S → K → Bool) (space : S) :
    SpatialFilter B K :=
  ⟨Bounds.intersects (Bounded.bounds space), ik space⟩

/-- filter.rs 98-120 (`ContainsFilter`). -/
def containsFilter {B K S : Type} (ib : S → B → Bool) (ck : S → K → Bool) (space : S) : SpatialFilter B K :=
  ⟨ib space, ck space⟩

/-- filter.rs 129-158 (`BoundedContainsFilter`). -/
def boundedContainsFilter {B K S : Type} [Bounds B] [Bounded S B] (ck : S → K → Bool) (space : S) :
    SpatialFilter B K :=
  ⟨Bounds.intersects (Bounded.bounds space), ck space⟩

end Filters

/-- geom/sphere.rs 9-12. -/
structure Sphere (N : Type) (D : Nat) where
  center : SVec N D
  radius : N

/-- geom/sphere.rs 14-30 (`Bounded for Sphere`); `none` if a coordinate overflows. -/
def Sphere.bounds (s : Sphere N D) : Option (AABB N D) :=
  if h : ∀ i, (Scalar.sub (s.center.get i) s.radius).isSome ∧ (Scalar.add (s.center.get i) s.radius).isSome then
    some ⟨⟨fun i => (Scalar.sub (s.center.get i) s.radius).get (h i).1⟩,
      ⟨fun i => (Scalar.add (s.center.get i) s.radius).get (h i).2⟩⟩
  else none

/-- vector.rs 76-85 (`sq_mag`) for `f64` components, `into()` of the given ones; panics for `D = 0` only. -/
def SVec.sqMagF64 (R : Rounding) (a : SVec N D) : Option F64 :=
  match a.toList.map fun v => F64.mul R (some (Scalar.toX v)) (some (Scalar.toX v)) with
  | [] => none
  | x :: xs => some (xs.foldl (F64.add R) x)

/-- geom/sphere.rs 32-41 (`Intersects<SVec> for Sphere`); `none` if a subtraction overflows or `D = 0`. -/
def Sphere.intersectsPoint (R : Rounding) (s : Sphere N D) (p : SVec N D) : Option Bool := do
  let m ← (← p.sub s.center).sqMagF64 R
  let radius : F64 := some (Scalar.toX s.radius)
  return F64.le m (F64.mul R radius radius)

/-- geom/line.rs 9-10. -/
structure Line (N : Type) (D : Nat) where
  p0 : SVec N D
  p1 : SVec N D

/-- geom/line.rs 12-22 (`Bounded for Line`). -/
instance : Bounded (Line N D) (AABB N D) := ⟨fun l => ⟨l.p0.cmin l.p1, l.p0.cmax l.p1⟩⟩

/-- `i32`. A scalar type used by the tests of the crate, lib.rs 434-913. -/
abbrev I32 : Type := { x : ℤ // -2147483648 ≤ x ∧ x ≤ 2147483647 }

namespace I32

/-- Checked arithmetic of a debug build. Modelling device: stands for no code of the crate. -/
def check (x : ℤ) : Option I32 :=
  if h : -2147483648 ≤ x ∧ x ≤ 2147483647 then some ⟨x, h⟩ else none

end I32

/-- `i32` as a scalar: `num_traits::Bounded` gives `MIN`/`MAX`, arithmetic panics on overflow.
    A scalar type used by the tests of the crate, lib.rs 434-913. -/
instance : Scalar I32 where
  toLinearOrder := inferInstance
  maxVal := ⟨2147483647, by decide⟩
  minVal := ⟨-2147483648, by decide⟩
  add a b := I32.check (a.1 + b.1)
  sub a b := I32.check (a.1 - b.1)
  mul a b := I32.check (a.1 * b.1)
  toX a := XRat.rat a.1

/-- Whether a value is one of the format: an infinity or a number that rounding does not change.
    Modelling device: stands for no code of the crate. -/
def XRat.isOf (F : Format) : XRat → Bool
  | some (some q) => decide ((Rounding.ieee F).rnd q = XRat.rat q)
  | _ => true

/-- `noisy_float::NoisyFloat`: floating point numbers without NaN. `N32` is the coordinate type of the test at
    lib.rs 694-760; `N64` has all the traits coordinates need.
    Simplification: the two zeros are identified. -/
abbrev NoisyFloat (F : Format) : Type := { x : XRat // x.isOf F = true }

/-- `N32`: the coordinate type of the test at lib.rs 694-760. -/
abbrev N32 : Type := NoisyFloat .binary32

/-- `N64` as coordinate type; the type of volumes and distances, bounds.rs 4. -/
abbrev N64 : Type := NoisyFloat .binary64

namespace NoisyFloat

/-- The greatest finite number. Modelling device: stands for no code of the crate. -/
def maxFinite (F : Format) : ℚ := ((2 ^ (F.bits + 1) - 1 : ℕ) : ℚ) * pow2 (F.emax - F.bits - 1)

/-- A result, `none` for NaN: the panic of `NoisyFloat` (a debug assertion) on NaN.
    Modelling device: stands for no code of the crate (the result of an operation is always one of the format). -/
def check (F : Format) : F64 → Option (NoisyFloat F)
  | none => none
  | some x => if h : x.isOf F = true then some ⟨x, h⟩ else none

end NoisyFloat

/-- `N32` and `N64` as coordinates: `num_traits::Bounded` gives the least and greatest *finite* numbers; arithmetic rounds,
    overflows to the infinities and panics on NaN. The bounds of vector.rs 38-133, bounds.rs 131-173, ranking.rs 45-65. -/
instance (F : Format) : Scalar (NoisyFloat F) where
  toLinearOrder := inferInstance
  maxVal := (NoisyFloat.check F (F64.fin (NoisyFloat.maxFinite F))).getD ⟨⊥, rfl⟩
  minVal := (NoisyFloat.check F (F64.fin (-NoisyFloat.maxFinite F))).getD ⟨⊥, rfl⟩
  add a b := NoisyFloat.check F (F64.add (.ieee F) (some a.1) (some b.1))
  sub a b := NoisyFloat.check F (F64.sub (.ieee F) (some a.1) (some b.1))
  mul a b := NoisyFloat.check F (F64.mul (.ieee F) (some a.1) (some b.1))
  toX a := a.1

end RTree
