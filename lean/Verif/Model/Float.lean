import Mathlib.Order.WithBot
import Mathlib.Algebra.Order.Ring.Rat
import Mathlib.Data.Rat.Floor
import Mathlib.Data.Nat.Sqrt
/-!
# Binary floating point (`f64`, `N64`)

`f64` values are NaN, the two infinities and rationals; every operation rounds its exact result.  The rounding is a
parameter of the operations: `binary64` is what the hardware does (IEEE 754 round to nearest, ties to even, with
overflow to infinity and gradual underflow), `exact` is the idealisation without rounding, overflow and underflow, in
terms of which some properties are stated.
Simplification: the two zeros are identified; where the sign of a zero matters (`1.0 / x`) it is a parameter.
-/

namespace RTree

/-- The values of `f64` other than NaN: the rationals and the two infinities (only the rationals that are multiples of a
    power of two in the range of the format occur). Modelling device: stands for no code of the crate. -/
abbrev XRat : Type := WithBot (WithTop ℚ)

namespace XRat

/-- A finite value. Modelling device: stands for no code of the crate. -/
abbrev rat (q : ℚ) : XRat := ((q : WithTop ℚ) : WithBot (WithTop ℚ))

/-- `f64::INFINITY`. Modelling device: stands for no code of the crate. -/
abbrev top : XRat := ((⊤ : WithTop ℚ) : WithBot (WithTop ℚ))

/-- The finite value, 0 for the infinities. Modelling device: stands for no code of the crate. -/
def toRat : XRat → ℚ
  | some (some q) => q
  | _ => 0

end XRat

/-- `f64`: `none` is NaN.
    The numbers of intersects.rs 9-81, geom/sphere.rs 36-39, bounds.rs 141-170 (there wrapped into `N64`, which panics on
    NaN). -/
abbrev F64 : Type := Option XRat

/-- `2 ^ k`. Modelling device: stands for no code of the crate. -/
def pow2 : ℤ → ℚ
  | .ofNat n => ((2 ^ n : ℕ) : ℚ)
  | .negSucc n => mkRat 1 (2 ^ (n + 1))

/-- The exponent of a nonzero number: the greatest `k` with `2 ^ k ≤ |q|`.
    Modelling device: stands for no code of the crate. -/
def exponent (q : ℚ) : ℤ :=
  let k : ℤ := (Nat.log2 q.num.natAbs : ℤ) - (Nat.log2 q.den : ℤ)
  if pow2 k ≤ |q| then k else k - 1

/-- Round to the nearest integer, ties to even. Modelling device: stands for no code of the crate. -/
def roundEven (x : ℚ) : ℤ :=
  let f := x.floor
  if x - f < 1 / 2 then f else if 1 / 2 < x - f then f + 1 else if f % 2 = 0 then f else f + 1

/-- A binary floating point format: the number of fraction bits (one less than the number of significant bits), the
    exponent of the least subnormal number and the exponent at which numbers overflow.
    Modelling device: stands for no code of the crate. -/
structure Format where
  bits : ℕ
  emin : ℤ
  emax : ℤ

/-- `f64`: IEEE 754 binary64. The format of the numbers of intersects.rs, geom/sphere.rs and bounds.rs. -/
def Format.binary64 : Format := ⟨52, -1074, 1024⟩

/-- `f32`: IEEE 754 binary32. The format of the coordinates in the test at lib.rs 694-760. -/
def Format.binary32 : Format := ⟨23, -149, 128⟩

/-- The exponent of the last place of a number of the size of `q`, at least that of the subnormal numbers.
    Modelling device: stands for no code of the crate. -/
def placeExp (F : Format) (q : ℚ) : ℤ := max (exponent q - F.bits) F.emin

/-- The nearest number of the format, ties to even, for an unbounded range upwards.
    Modelling device: stands for no code of the crate. -/
def nearest (F : Format) (q : ℚ) : ℚ := roundEven (q / pow2 (placeExp F q)) * pow2 (placeExp F q)

/-- The nearest number of the format to the square root of a positive number.
    Simplification: no ties, overflow and underflow, which do not occur for square roots of numbers of the format.
    Modelling device: stands for no code of the crate. -/
def sqrtNearest (F : Format) (q : ℚ) : ℚ :=
  let e := exponent q / 2 - F.bits
  let y := q / pow2 (2 * e)
  let s := Nat.sqrt y.floor.toNat
  (if ((s : ℚ) + 1 / 2) ^ 2 < y then (s : ℚ) + 1 else s) * pow2 e

/-- How the exact result of an operation becomes a value. Modelling device: stands for no code of the crate. -/
structure Rounding where
  rnd : ℚ → XRat

namespace Rounding

/-- No rounding, an unlimited range: an idealisation. Modelling device: stands for no code of the crate. -/
def exact : Rounding := ⟨XRat.rat⟩

/-- IEEE 754 rounding to nearest, ties to even, with overflow to infinity.
    Modelling device: stands for no code of the crate. -/
def ieee (F : Format) : Rounding := ⟨fun q =>
  let r := nearest F q
  if pow2 F.emax ≤ r then XRat.top else if r ≤ -pow2 F.emax then ⊥ else XRat.rat r⟩

/-- What the operations on `f64` of the crate do, e.g. intersects.rs 41-54, geom/sphere.rs 39, and those of `N64`, e.g.
    bounds.rs 143-144, 167-170. -/
abbrev binary64 : Rounding := ieee .binary64

/-- What the operations on `N32` coordinates do; the coordinates in the test at lib.rs 694-760. -/
abbrev binary32 : Rounding := ieee .binary32

end Rounding

namespace F64

/-- A finite value. Modelling device: stands for no code of the crate. -/
def fin (q : ℚ) : F64 := some (XRat.rat q)

/-- `f64::INFINITY`. The value of `1.0 / 0.0`, intersects.rs 41, 49. -/
def inf : F64 := some XRat.top

/-- `f64::NEG_INFINITY`; split.rs 20. -/
def negInf : F64 := some ⊥

/-- NaN. Modelling device: stands for no code of the crate. -/
def nan : F64 := none

/-- `<` on `f64`: false if an operand is NaN. intersects.rs 10, 18, 57. -/
def lt : F64 → F64 → Bool
  | some a, some b => decide (a < b)
  | _, _ => false

/-- `<=` on `f64`: false if an operand is NaN. intersects.rs 80, geom/sphere.rs 39. -/
def le : F64 → F64 → Bool
  | some a, some b => decide (a ≤ b)
  | _, _ => false

/-- `-x`. Modelling device: stands for no code of the crate (`a - b` is `a + (-b)`). -/
def neg : F64 → F64
  | some (some (some a)) => fin (-a)
  | some (some none) => negInf
  | some none => inf
  | none => nan

/-- `x + y`: the sum of opposite infinities is NaN. vector.rs 83, bounds.rs 170, geom/sphere.rs 39. -/
def add (R : Rounding) : F64 → F64 → F64
  | some (some (some a)), some (some (some b)) => some (R.rnd (a + b))
  | some (some none), some none => nan
  | some none, some (some none) => nan
  | some (some none), some _ => inf
  | some _, some (some none) => inf
  | some none, some _ => negInf
  | some _, some none => negInf
  | _, _ => nan

/-- `x - y`. bounds.rs 141-147, split.rs 73, select.rs 21. -/
def sub (R : Rounding) (x y : F64) : F64 := add R x (neg y)

/-- `x * y`: zero times an infinity is NaN, otherwise the signs multiply. vector.rs 82, bounds.rs 144, 168,
    intersects.rs 42-43, 50-51, 73-74, geom/sphere.rs 39. -/
def mul (R : Rounding) : F64 → F64 → F64
  | some (some (some a)), some (some (some b)) => some (R.rnd (a * b))
  | some (some (some a)), some (some none) => if a = 0 then nan else if 0 < a then inf else negInf
  | some (some (some a)), some none => if a = 0 then nan else if 0 < a then negInf else inf
  | some (some none), some (some (some b)) => if b = 0 then nan else if 0 < b then inf else negInf
  | some none, some (some (some b)) => if b = 0 then nan else if 0 < b then negInf else inf
  | some (some none), some (some none) => inf
  | some none, some none => inf
  | some (some none), some none => negInf
  | some none, some (some none) => negInf
  | _, _ => nan

/-- `1.0 / x`; `negZero` is the sign of `x` if `x` is zero. intersects.rs 41, 49, 72. -/
def recip (R : Rounding) (negZero : Bool) : F64 → F64
  | some (some (some a)) => if a = 0 then (if negZero then negInf else inf) else some (R.rnd (1 / a))
  | some _ => fin 0
  | none => nan

/-- `f64::sqrt`, correctly rounded; NaN for negative numbers. geom/line.rs 42. -/
def sqrt : F64 → F64
  | some (some (some a)) => if a < 0 then nan else if a = 0 then fin 0 else fin (sqrtNearest .binary64 a)
  | some (some none) => inf
  | _ => nan

/-- intersects.rs 9-15 (`f64_min`). -/
def min (lhs rhs : F64) : F64 := if lt lhs rhs then lhs else rhs

/-- intersects.rs 17-23 (`f64_max`): `lhs > rhs` is `rhs < lhs`. -/
def max (lhs rhs : F64) : F64 := if lt rhs lhs then lhs else rhs

end F64

/-- What the operations need of rounding: it respects the order, zero and signs.
    Modelling device: stands for no code of the crate. -/
structure Rounding.Lawful (R : Rounding) : Prop where
  mono : ∀ {a b : ℚ}, a ≤ b → R.rnd a ≤ R.rnd b
  zero : R.rnd 0 = XRat.rat 0
  neg : ∀ q : ℚ, F64.neg (some (R.rnd q)) = some (R.rnd (-q))

end RTree
