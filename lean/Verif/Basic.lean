/-!
# Results and panics

Every function of the model that can panic in Rust (or misread an untagged union) returns
`Res α`.  A panic is an explicit error value, never a default value.
-/

namespace RTree

/-- The ways an operation of the crate can go wrong.  Each constructor names its source.
    Modelling device: stands for no code of the crate. -/
inductive Panic where
  /-- undefined behaviour: reading `NodeChildren.inner` of a leaf or `.leaf` of an inner node (node.rs 45-48, 109-153);
      in the raw-memory models also any invalid access, move or deallocation (see `Verif/Model/FCVec.lean`,
      `Verif/Model/RcMut.lean`) -/
  | ub
  /-- `Option::unwrap` on `None` (node.rs 424, split.rs 122-123) -/
  | unwrapNone
  /-- `panic!("Vector is full")` (fc_vec.rs 215-217) -/
  | vectorFull
  /-- slice / FCVec index out of bounds (fc_vec.rs 246, 269, 293, 310; slice indexing) -/
  | indexOutOfBounds
  /-- level-mismatch panics (node.rs 361, 402, 405, 811, 1348, 1367) -/
  | levelMismatch
  /-- `unreachable!()` (node.rs 421) -/
  | unreachable
  /-- `panic!("Must have more than 2 values!")` (split.rs 18, 107) -/
  | tooFewToSplit
  /-- `panic!("Vector is too large")` (fc_vec.rs 172-174) -/
  | vectorTooLarge
  /-- arithmetic overflow of a scalar type, NaN check of `N64` (bounds.rs 143, ranking.rs 50) -/
  | arithmetic
  /-- a failed `assert!` or `assert_eq!` (node.rs 925-926, 1066, 1076, 1083, 1174-1175, 1254) -/
  | assertFailed
  /-- model artefact: a fuel-bounded loop ran out of fuel; stands for non-termination -/
  | diverge
  deriving DecidableEq, Repr

/-- Result of a possibly panicking computation. Modelling device: stands for no code of the crate. -/
abbrev Res (α : Type) := Except Panic α

/-- `Option::unwrap`. Used at many places, e.g. node.rs 424, split.rs 122-123. -/
def unwrap {α : Type} : Option α → Res α
  | some a => .ok a
  | none => .error .unwrapNone

/-- An arithmetic operation on scalars that panics when it is not defined.
    The operators of bounds.rs, vector.rs, ranking.rs. -/
def arith {α : Type} : Option α → Res α
  | some a => .ok a
  | none => .error .arithmetic

/-- Slice indexing `s[i]`. Used at many places, e.g. iter_stack.rs 168-244. -/
def index {α : Type} (l : List α) (i : Nat) : Res α :=
  match l[i]? with
  | some a => .ok a
  | none => .error .indexOutOfBounds

@[simp] theorem ok_bind {α β : Type} (a : α) (f : α → Res β) : (Except.ok a : Res α) >>= f = f a := rfl

@[simp] theorem error_bind {α β : Type} (e : Panic) (f : α → Res β) :
    (Except.error e : Res α) >>= f = .error e := rfl

@[simp] theorem pure_eq_ok {α : Type} (a : α) : (pure a : Res α) = .ok a := rfl

@[simp] theorem throw_eq_error {α : Type} (e : Panic) : (throw e : Res α) = .error e := rfl

theorem bind_eq_ok {α β : Type} {x : Res α} {f : α → Res β} {b : β} :
    x >>= f = .ok b ↔ ∃ a, x = .ok a ∧ f a = .ok b := by
  cases x <;> simp

/-- `Sat x E P`: a returned value satisfies `P`, and a panic satisfies `E`.
    Modelling device: stands for no code of the crate. -/
def Sat {α : Type} (x : Res α) (E : Panic → Prop) (P : α → Prop) : Prop :=
  match x with
  | .ok a => P a
  | .error e => E e

namespace Sat

variable {α β : Type} {E : Panic → Prop}

@[simp] theorem ok {a : α} {P : α → Prop} : Sat (.ok a) E P ↔ P a := Iff.rfl
@[simp] theorem error {e : Panic} {P : α → Prop} : Sat (.error e : Res α) E P ↔ E e := Iff.rfl
@[simp] theorem pure {a : α} {P : α → Prop} : Sat (Pure.pure a : Res α) E P ↔ P a := Iff.rfl

theorem mono {x : Res α} {P Q : α → Prop} (h : Sat x E P) (hPQ : ∀ a, P a → Q a) : Sat x E Q := by
  cases x with
  | ok a => exact hPQ a h
  | error e => exact h

theorem bind {x : Res α} {f : α → Res β} {P : α → Prop} {Q : β → Prop}
    (h : Sat x E P) (hf : ∀ a, P a → Sat (f a) E Q) : Sat (x >>= f) E Q := by
  cases x with
  | ok a => exact hf a h
  | error e => exact h

theorem map {x : Res α} {f : α → β} {P : α → Prop} {Q : β → Prop}
    (h : Sat x E P) (hf : ∀ a, P a → Q (f a)) : Sat (f <$> x) E Q := by
  cases x with
  | ok a => exact hf a h
  | error e => exact h

theorem and {x : Res α} {P Q : α → Prop} (h₁ : Sat x E P) (h₂ : Sat x E Q) :
    Sat x E (fun a => P a ∧ Q a) := by
  cases x with
  | ok a => exact ⟨h₁, h₂⟩
  | error e => exact h₁

/-- A `Sat` fact about a computation that returned. -/
theorem of_ok {x : Res α} {P : α → Prop} {a : α} (h : Sat x E P) (hx : x = .ok a) : P a := by
  subst hx; exact h

/-- A `Sat` fact whose error clause is impossible gives a returned value. -/
theorem exists_ok {x : Res α} {P : α → Prop} (h : Sat x E P) (hE : ∀ e, ¬ E e) :
    ∃ a, x = .ok a ∧ P a := by
  cases x with
  | ok a => exact ⟨a, rfl, h⟩
  | error e => exact absurd h (hE e)

theorem unwrap {o : Option α} {P : α → Prop} (h : ∀ a, o = some a → P a)
    (hE : o = none → E .unwrapNone) : Sat (RTree.unwrap o) E P := by
  cases o with
  | none => exact hE rfl
  | some a => exact h a rfl

theorem arith {o : Option α} {P : α → Prop} (h : ∀ a, o = some a → P a)
    (hE : o = none → E .arithmetic) : Sat (RTree.arith o) E P := by
  cases o with
  | none => exact hE rfl
  | some a => exact h a rfl

theorem index {l : List α} {i : Nat} {P : α → Prop} (hi : i < l.length) (h : P l[i]) :
    Sat (RTree.index l i) E P := by
  simp [RTree.index, hi, h]

end Sat

end RTree
