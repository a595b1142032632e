import Verif.Model.Geom
import Mathlib.Tactic.IntervalCases
/-!
# Machine integers as coordinates, in both build profiles

The integer types that have all the traits coordinates need (`Ord`, `num_traits::Bounded`, `Add`, `Sub`, `Mul` and
`Into<f64>`): `i8`, `i16`, `i32`, `u8`, `u16`, `u32`. Whether overflow panics or wraps around depends on the profile the crate
is built with (Cargo.toml sets none, so it is the default: `debug` checks, `release` wraps).
-/

namespace RTree

/-- The integer types that are `Into<f64>`: bounds.rs 131-133, 149-151, vector.rs 36-133, ranking.rs 45-47 (the trait
    bounds). -/
inductive IntTy
  | i8 | i16 | i32 | u8 | u16 | u32
deriving DecidableEq

/-- `cargo build` and `cargo build --release`; the crate sets neither `overflow-checks` nor `debug-assertions`.
    Cargo.toml 1-17. -/
inductive Profile
  | debug | release
deriving DecidableEq

namespace IntTy

/-- `BITS`. Modelling device: stands for no code of the crate. -/
def bits : IntTy → ℕ
  | i8 | u8 => 8
  | i16 | u16 => 16
  | i32 | u32 => 32

/-- `MIN`. Modelling device: stands for no code of the crate. -/
def lo : IntTy → ℤ
  | i8 => -128
  | i16 => -32768
  | i32 => -2147483648
  | u8 | u16 | u32 => 0

/-- `MAX`. Modelling device: stands for no code of the crate. -/
def hi (T : IntTy) : ℤ := T.lo + 2 ^ T.bits - 1

/-- The value of the type that is equal to `x` modulo `2 ^ BITS`. Modelling device: stands for no code of the crate. -/
def wrap (T : IntTy) (x : ℤ) : ℤ := (x - T.lo) % 2 ^ T.bits + T.lo

theorem wrap_mem (T : IntTy) (x : ℤ) : T.lo ≤ T.wrap x ∧ T.wrap x ≤ T.hi := by
  have h : (0 : ℤ) < 2 ^ T.bits := by positivity
  have h1 := Int.emod_nonneg (x - T.lo) h.ne'
  have h2 := Int.emod_lt_of_pos (x - T.lo) h
  unfold wrap hi
  omega

end IntTy

/-- The integers of a type, in a program built with the profile. Modelling device: stands for no code of the crate. -/
@[ext] structure MInt (T : IntTy) (pr : Profile) where
  val : ℤ
  mem : T.lo ≤ val ∧ val ≤ T.hi

namespace MInt

variable {T : IntTy} {pr : Profile}

/-- The order of the integers. Modelling device: stands for no code of the crate. -/
instance : LinearOrder (MInt T pr) := LinearOrder.lift' (fun a : MInt T pr => a.val) fun _ _ h => MInt.ext h

/-- The result of an operation: if `x` is out of range, a debug build panics and a release build wraps around.
    Modelling device: stands for no code of the crate. -/
def result (T : IntTy) : (pr : Profile) → ℤ → Option (MInt T pr)
  | .debug, x => if h : T.lo ≤ x ∧ x ≤ T.hi then some ⟨x, h⟩ else none
  | .release, x => some ⟨T.wrap x, T.wrap_mem x⟩

end MInt

/-- Integers as coordinates: `num_traits::Bounded` gives `MIN`/`MAX`. The trait bounds of vector.rs 36-142, bounds.rs 131-173,
    ranking.rs 45-65. -/
instance {T : IntTy} {pr : Profile} : Scalar (MInt T pr) where
  toLinearOrder := inferInstance
  maxVal := ⟨T.hi, by cases T <;> decide, le_refl _⟩
  minVal := ⟨T.lo, le_refl _, by cases T <;> decide⟩
  add a b := MInt.result T pr (a.1 + b.1)
  sub a b := MInt.result T pr (a.1 - b.1)
  mul a b := MInt.result T pr (a.1 * b.1)
  toX a := XRat.rat a.1

end RTree
