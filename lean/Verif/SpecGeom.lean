import Verif.Model.Geom
import Verif.Model.Shapes
import Verif.Spec
import Mathlib.Algebra.BigOperators.Fin
/-!
# Specification vocabulary for boxes

Boxes as sets of points.
-/

namespace RTree

variable {N : Type} {D : Nat} [Scalar N]

namespace AABB

/-- The point lies in the (closed) box. -/
def Mem (p : SVec N D) (b : AABB N D) : Prop := ∀ i, b.min.get i ≤ p.get i ∧ p.get i ≤ b.max.get i

/-- Geometric containment of boxes, side by side: `a` lies inside `b`. -/
def Le (a b : AABB N D) : Prop := ∀ i, b.min.get i ≤ a.min.get i ∧ a.max.get i ≤ b.max.get i

/-- A box that is not inverted. -/
def Valid (a : AABB N D) : Prop := ∀ i, a.min.get i ≤ a.max.get i

end AABB

/-- Every scalar lies between `min_value()` and `max_value()`: so for integers, but not for `N64`, which has
    infinities. -/
class FullRange (N : Type) [Scalar N] : Prop where
  minVal_le : ∀ a : N, Scalar.minVal ≤ a
  le_maxVal : ∀ a : N, a ≤ Scalar.maxVal

/-- The scalar is not an infinity. -/
def Scalar.Finite (a : N) : Prop := ∃ q : ℚ, Scalar.toX a = XRat.rat q

/-- The number a scalar stands for (0 for an infinity). -/
def Scalar.toRat (a : N) : ℚ := (Scalar.toX a).toRat

/-- The contract of an ordered number type: the order is that of the rationals, the conversion to `f64` is exact, and
    arithmetic that does not overflow is exact. -/
class ExactScalar (N : Type) [Scalar N] : Prop where
  toX_eq : ∀ a : N, Scalar.toX a = XRat.rat (Scalar.toRat a)
  le_iff : ∀ a b : N, a ≤ b ↔ Scalar.toRat a ≤ Scalar.toRat b
  add_eq : ∀ {a b c : N}, Scalar.add a b = some c → Scalar.toRat c = Scalar.toRat a + Scalar.toRat b
  sub_eq : ∀ {a b c : N}, Scalar.sub a b = some c → Scalar.toRat c = Scalar.toRat a - Scalar.toRat b
  mul_eq : ∀ {a b c : N}, Scalar.mul a b = some c → Scalar.toRat c = Scalar.toRat a * Scalar.toRat b

/-- Arithmetic that respects the order, exact or not: sums, and squares of differences to a fixed `p` as one moves away
    from `p`. -/
class MonoScalar (N : Type) [Scalar N] : Prop where
  add_mono : ∀ {a a' b b' c c' : N}, a ≤ a' → b ≤ b' → Scalar.add a b = some c → Scalar.add a' b' = some c' → c ≤ c'
  sq_right : ∀ {p a a' c c' s s' : N}, p ≤ a → a ≤ a' → Scalar.sub a p = some c → Scalar.sub a' p = some c' →
    Scalar.mul c c = some s → Scalar.mul c' c' = some s' → s ≤ s'
  sq_left : ∀ {p a a' c c' s s' : N}, a' ≤ a → a ≤ p → Scalar.sub a p = some c → Scalar.sub a' p = some c' →
    Scalar.mul c c = some s → Scalar.mul c' c' = some s' → s ≤ s'

/-- The contract of a number type whose values are `f64` values: the order is theirs, and arithmetic that does not panic
    yields the exact result, rounded by `R`. So for `N64` (`binary64`), `N32` (`binary32`), and integers of at most 32 bits
    (`binary64`, or exactly). -/
class FloatScalar (R : outParam Rounding) (N : Type) [Scalar N] : Prop where
  lawful : R.Lawful
  le_iff : ∀ a b : N, a ≤ b ↔ Scalar.toX a ≤ Scalar.toX b
  add_eq : ∀ {a b c : N}, Scalar.add a b = some c →
    F64.add R (some (Scalar.toX a)) (some (Scalar.toX b)) = some (Scalar.toX c)
  sub_eq : ∀ {a b c : N}, Scalar.sub a b = some c →
    F64.sub R (some (Scalar.toX a)) (some (Scalar.toX b)) = some (Scalar.toX c)
  mul_eq : ∀ {a b c : N}, Scalar.mul a b = some c →
    F64.mul R (some (Scalar.toX a)) (some (Scalar.toX b)) = some (Scalar.toX c)

/-- The contract of an integer type of at most 32 bits. -/
class IntScalar (N : Type) [Scalar N] : Prop extends ExactScalar N where
  int_eq : ∀ a : N, ∃ z : ℤ, Scalar.toRat a = z ∧ |z| ≤ 2 ^ 32

/-- The relative error of rounding to nearest: `2 ^ -53` for `f64`, `2 ^ -24` for `f32`. -/
def Format.unit (F : Format) : ℚ := pow2 (-(F.bits + 1))

/-- The least positive number of a format: `2 ^ -1074` for `f64`, `2 ^ -149` for `f32`. -/
def Format.tiny (F : Format) : ℚ := pow2 F.emin

/-- The squared euclidean distance of two points. -/
def sqDist (p q : SVec N D) : ℚ := ∑ i, (Scalar.toRat (p.get i) - Scalar.toRat (q.get i)) ^ 2

/-- `m` is the squared distance of the box to the point: the least squared distance of its points. -/
def AABB.HasDist (b : AABB N D) (p : SVec N D) (m : ℚ) : Prop :=
  (∃ q, Mem q b ∧ sqDist q p = m) ∧ ∀ q, Mem q b → m ≤ sqDist q p

/-- `m` is the squared distance of two boxes: the least squared distance of a point of the one and a point of the other. -/
def AABB.HasBoxDist (a b : AABB N D) (m : ℚ) : Prop :=
  (∃ p q, Mem p a ∧ Mem q b ∧ sqDist p q = m) ∧ ∀ p q, Mem p a → Mem q b → m ≤ sqDist p q

/-- The length of a side of the box. -/
def AABB.side (b : AABB N D) (i : Fin D) : ℚ := Scalar.toRat (b.max.get i) - Scalar.toRat (b.min.get i)

/-- The segment from the end to the start. -/
def Line.reverse (l : Line N D) : Line N D := ⟨l.p1, l.p0⟩

/-- The point `origin + t * direction` lies in the (closed) box. -/
def AABB.OnLine (b : AABB N D) (origin direction : Fin D → ℚ) (t : ℚ) : Prop :=
  ∀ i, Scalar.toRat (b.min.get i) ≤ origin i + t * direction i ∧ origin i + t * direction i ≤ Scalar.toRat (b.max.get i)

/-- The point `origin + t * direction` lies strictly inside the box. -/
def AABB.InsideLine (b : AABB N D) (origin direction : Fin D → ℚ) (t : ℚ) : Prop :=
  ∀ i, Scalar.toRat (b.min.get i) < origin i + t * direction i ∧ origin i + t * direction i < Scalar.toRat (b.max.get i)

/-- Some point of the closed segment lies in the closed box. -/
def Line.Meets (l : Line N D) (b : AABB N D) : Prop :=
  ∃ t : ℚ, 0 ≤ t ∧ t ≤ 1 ∧ b.OnLine (fun i => Scalar.toRat (l.p0.get i))
    (fun i => Scalar.toRat (l.p1.get i) - Scalar.toRat (l.p0.get i)) t

/-- Some point of the closed segment lies in the box after its sides are moved outwards (inwards, if `ε` is negative), in
    each dimension by `ε` times the extent of the segment in that dimension. -/
def Line.MeetsWithin (l : Line N D) (b : AABB N D) (ε : ℚ) : Prop :=
  ∃ t : ℚ, 0 ≤ t ∧ t ≤ 1 ∧ ∀ i,
    Scalar.toRat (b.min.get i) - ε * |Scalar.toRat (l.p1.get i) - Scalar.toRat (l.p0.get i)| ≤
      Scalar.toRat (l.p0.get i) + t * (Scalar.toRat (l.p1.get i) - Scalar.toRat (l.p0.get i)) ∧
    Scalar.toRat (l.p0.get i) + t * (Scalar.toRat (l.p1.get i) - Scalar.toRat (l.p0.get i)) ≤
      Scalar.toRat (b.max.get i) + ε * |Scalar.toRat (l.p1.get i) - Scalar.toRat (l.p0.get i)|

/-- The scalar is finite and at most `2 ^ k` in absolute value. -/
def Scalar.Upto (k : ℤ) (a : N) : Prop := Scalar.Finite a ∧ |Scalar.toRat a| ≤ pow2 k

/-- The coordinates of a segment and a box are finite and at most `2 ^ k` in absolute value, and in every dimension the ends of
    the segment are equal or at least `2 ^ -500` apart. -/
structure Line.Moderate (k : ℤ) (l : Line N D) (b : AABB N D) : Prop where
  min : ∀ i, Scalar.Upto k (b.min.get i)
  max : ∀ i, Scalar.Upto k (b.max.get i)
  p0 : ∀ i, Scalar.Upto k (l.p0.get i)
  p1 : ∀ i, Scalar.Upto k (l.p1.get i)
  move : ∀ i, l.p0.get i = l.p1.get i ∨ pow2 (-500) ≤ |Scalar.toRat (l.p1.get i) - Scalar.toRat (l.p0.get i)|

/-- Some point of the half-line from the origin in the direction of `n` lies in the closed box. -/
def Ray.Meets (r : Ray N D) (b : AABB N D) : Prop :=
  ∃ t : ℚ, 0 ≤ t ∧ b.OnLine (fun i => Scalar.toRat (r.origin.get i)) (fun i => Scalar.toRat (r.n.get i)) t

/-- The point `origin + t * n` lies in the box after each side is moved outwards (inwards, if `ε` is negative) by `ε` times its
    distance from the origin. -/
def Ray.InWithin (r : Ray N D) (b : AABB N D) (ε t : ℚ) : Prop :=
  ∀ i, Scalar.toRat (b.min.get i) - ε * |Scalar.toRat (b.min.get i) - Scalar.toRat (r.origin.get i)| ≤
      Scalar.toRat (r.origin.get i) + t * Scalar.toRat (r.n.get i) ∧
    Scalar.toRat (r.origin.get i) + t * Scalar.toRat (r.n.get i) ≤
      Scalar.toRat (b.max.get i) + ε * |Scalar.toRat (b.max.get i) - Scalar.toRat (r.origin.get i)|

/-- The numbers of a ray and a box are at most `2 ^ 24` in absolute value. -/
structure Ray.Small (r : Ray N D) (b : AABB N D) : Prop where
  min : ∀ i, |Scalar.toRat (b.min.get i)| ≤ 2 ^ 24
  max : ∀ i, |Scalar.toRat (b.max.get i)| ≤ 2 ^ 24
  origin : ∀ i, |Scalar.toRat (r.origin.get i)| ≤ 2 ^ 24
  n : ∀ i, |Scalar.toRat (r.n.get i)| ≤ 2 ^ 24

/-- The coordinates of a ray and a box are finite and at most `2 ^ k` in absolute value; the components of the direction are zero
    or between `2 ^ -500` and `2 ^ 500`; and the origin lies in the plane of a side of the box or at least `2 ^ -500` from
    it. -/
structure Ray.Moderate (k : ℤ) (r : Ray N D) (b : AABB N D) : Prop where
  min : ∀ i, Scalar.Upto k (b.min.get i)
  max : ∀ i, Scalar.Upto k (b.max.get i)
  origin : ∀ i, Scalar.Upto k (r.origin.get i)
  n : ∀ i, Scalar.Upto 500 (r.n.get i)
  move : ∀ i, Scalar.toRat (r.n.get i) = 0 ∨ pow2 (-500) ≤ |Scalar.toRat (r.n.get i)|
  fromMin : ∀ i, Scalar.toRat (b.min.get i) - Scalar.toRat (r.origin.get i) = 0 ∨
    pow2 (-500) ≤ |Scalar.toRat (b.min.get i) - Scalar.toRat (r.origin.get i)|
  fromMax : ∀ i, Scalar.toRat (b.max.get i) - Scalar.toRat (r.origin.get i) = 0 ∨
    pow2 (-500) ≤ |Scalar.toRat (b.max.get i) - Scalar.toRat (r.origin.get i)|

/-- The line through the ray runs in a side of the box perpendicular to the first dimension, or beside the box in the plane of
    that side. -/
def Ray.AlongFirst (r : Ray N (D + 1)) (b : AABB N (D + 1)) : Prop :=
  Scalar.toRat (r.n.get 0) = 0 ∧ (Scalar.toRat (r.origin.get 0) = Scalar.toRat (b.min.get 0) ∨
    Scalar.toRat (r.origin.get 0) = Scalar.toRat (b.max.get 0))

/-- The coordinates of a segment and a box are at most `2 ^ 23` in absolute value. -/
structure Line.Small (l : Line N D) (b : AABB N D) : Prop where
  min : ∀ i, |Scalar.toRat (b.min.get i)| ≤ 2 ^ 23
  max : ∀ i, |Scalar.toRat (b.max.get i)| ≤ 2 ^ 23
  p0 : ∀ i, |Scalar.toRat (l.p0.get i)| ≤ 2 ^ 23
  p1 : ∀ i, |Scalar.toRat (l.p1.get i)| ≤ 2 ^ 23

/-- No test panics on the bounds and keys of the tree. -/
def PFilter.DefinedOn {B K V Q : Type} (f : PFilter B Q) (borrow : K → Q) (t : Tree B K V) : Prop :=
  (∀ n ∈ t.nodes, (f.testBounds n.bounds).isSome) ∧ ∀ e ∈ t.entries, (f.testKey (borrow e.1)).isSome

/-- `b` is the bounds of a node or of a key of the tree. -/
def Tree.Occurs {B K V : Type} [Bounded K B] (t : Tree B K V) (b : B) : Prop :=
  (∃ n ∈ t.nodes, n.bounds = b) ∨ ∃ e ∈ t.entries, Bounded.bounds e.1 = b

/-- No test panics on the bounds and keys of the two trees. -/
def PJoinFilter.DefinedOn {B B' K K' V V' Q Q' : Type} [Bounded K B] [Bounded K' B'] (f : PJoinFilter B B' Q Q')
    (borrow : K → Q) (borrow' : K' → Q') (t : Tree B K V) (t' : Tree B' K' V') : Prop :=
  (∀ b b', t.Occurs b → t'.Occurs b' → (f.testBounds b b').isSome) ∧
    ∀ e ∈ t.entries, ∀ e' ∈ t'.entries, (f.testKey (borrow e.1) (borrow' e'.1)).isSome

end RTree
