import Verif.Model.Tree
import Verif.Model.Geom
/-!
# `Debug` output, in the form `{:?}` (lib.rs 87, node.rs 955-967, 1093-1105, 1132-1141, 1220-1232, bounds.rs 44, vector.rs 152-159)

The form `{:#?}` is not modelled.
-/

namespace RTree.Fmt

open Lean in
/-- A text, as the list of its characters. Modelling device: stands for no code of the crate. -/
macro "txt!" s:str : term => do
  let cs := (s.getString.toList.map fun c => Syntax.mkCharLit c).toArray
  `([$cs,*])

/-- How formatting ends early: `fmt::Error`, a panic of user code, or a panic or undefined behaviour of the crate. Modelling device: stands for no code of the crate. -/
inductive Stop where
  | err
  | user
  | own (p : Panic)

/-- Where the text goes (`fmt::Write`): how many characters of a string it takes, after the text it has already taken. Modelling device: stands for no code of the crate. -/
abbrev Sink := List Char → List Char → Nat

/-- Computations that write text (what has been written stays written); the builders of `std::fmt` stop at the first error. Modelling device: stands for
    no code of the crate. -/
def M (α : Type) := Sink → List Char → Except Stop α × List Char

/-- What comes next, if nothing went wrong. Modelling device: stands for no code of the crate. -/
def andThen {α β : Type} (f : α → M β) (k : Sink) : Except Stop α × List Char → Except Stop β × List Char
  | (.ok a, t) => f a k t
  | (.error e, t) => (.error e, t)

/-- Sequencing. Modelling device: stands for no code of the crate. -/
instance : Monad M where
  pure a := fun _ t => (.ok a, t)
  bind x f := fun k t => andThen f k (x k t)

/-- `Formatter::write_str` (`std`): an error if the sink does not take all of it. Modelling device: stands for no code of the crate. -/
def write (s : List Char) : M Unit := fun k t =>
  if s.length ≤ k t s then (.ok (), t ++ s) else (.error .err, t ++ s.take (k t s))

/-- A panic, or undefined behaviour, of the crate. Modelling device: stands for no code of the crate. -/
def lift {α : Type} (r : Res α) : M α := fun _ t =>
  match r with
  | .ok a => (.ok a, t)
  | .error e => (.error (.own e), t)

/-- The fields after the first one, and the end. `DebugStruct` of `std`. Modelling device: stands for no code of the crate. -/
def moreFields : List (List Char × M Unit) → M Unit
  | [] => write (txt! " }")
  | (name, x) :: fs => do
    write (txt! ", ")
    write name
    write (txt! ": ")
    x
    moreFields fs

/-- `debug_struct(..).field(..)...finish()` with at least one field (`std`). Modelling device: stands for no code of the crate. -/
def debugStruct (name : List Char) (first : List Char × M Unit) (fs : List (List Char × M Unit)) : M Unit := do
  write name
  write (txt! " { ")
  write first.1
  write (txt! ": ")
  first.2
  moreFields fs

/-- The entries after the first one, and the end. `DebugList` of `std`. Modelling device: stands for no code of the crate. -/
def moreEntries : List (M Unit) → M Unit
  | [] => write (txt! "]")
  | x :: xs => do
    write (txt! ", ")
    x
    moreEntries xs

/-- `debug_list().entries(..).finish()` (`std`). Modelling device: stands for no code of the crate. -/
def debugList : List (M Unit) → M Unit
  | [] => do
    write (txt! "[")
    write (txt! "]")
  | x :: xs => do
    write (txt! "[")
    x
    moreEntries xs

/-- `Debug for (K, V)` (`std`). Modelling device: stands for no code of the crate. -/
def debugPair {K V : Type} (dk : K → M Unit) (dv : V → M Unit) (e : K × V) : M Unit := do
  write (txt! "(")
  dk e.1
  write (txt! ", ")
  dv e.2
  write (txt! ")")

section

variable {B K V : Type} (db : B → M Unit) (dk : K → M Unit) (dv : V → M Unit)

/-- node.rs 955-967 (`NodeContainer`), 1093-1105 (`NodeRef`), 1132-1141 (`InnerNodeChildrenRef`), 1220-1232 (`NodeChildrenRef`); the children are read as the level says
    (node.rs 991-1007). -/
def debugNode : Nat → Node B K V → M Unit
  | 0, n => debugStruct (txt! "Node") (txt! "bounds", db n.bounds) [(txt! "node", do
      let es ← lift n.leafChildren
      debugList (es.map (debugPair dk dv)))]
  | l + 1, n => debugStruct (txt! "Node") (txt! "bounds", db n.bounds) [(txt! "node", do
      let cs ← lift n.innerChildren
      debugList (cs.map (debugNode l)))]

/-- lib.rs 87-90 (`derive(Debug)` on `RTree`). -/
def debugTree (t : Tree B K V) : M Unit := debugStruct (txt! "RTree") (txt! "root", debugNode db dk dv t.level t.root) []

end

/-- The decimal digits of a number below `10 ^ fuel`; `Debug` of numbers in `std`. Modelling device: stands for no code of the crate. -/
def decimal : Nat → Nat → List Char
  | 0, _ => []
  | fuel + 1, n => if n < 10 then [Char.ofNat (48 + n)] else decimal fuel (n / 10) ++ [Char.ofNat (48 + n % 10)]

/-- `Debug for i32` (`std`). Modelling device: stands for no code of the crate. -/
def debugI32 (x : I32) : M Unit := write (if x.1 < 0 then '-' :: decimal 10 x.1.natAbs else decimal 10 x.1.natAbs)

/-- vector.rs 152-159 (`Debug for SVec`). -/
def debugSVec {N : Type} {D : Nat} (dn : N → M Unit) (v : SVec N D) : M Unit := debugList (v.toList.map dn)

/-- bounds.rs 44 (`derive(Debug)` on `AABB`). -/
def debugBox {N : Type} {D : Nat} (dn : N → M Unit) (b : AABB N D) : M Unit :=
  debugStruct (txt! "AABB") (txt! "min", debugSVec dn b.min) [(txt! "max", debugSVec dn b.max)]

end RTree.Fmt
