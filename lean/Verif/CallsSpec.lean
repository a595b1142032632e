import Verif.Model.Callbacks
import Verif.Spec
/-!
# What iterators may do when filters panic or answer inconsistently

`code n` is what the `n`-th call of user code answers, `none` if it panics.  A call of `next` makes the calls of user code with the numbers `n` to
`n' - 1`.
-/

namespace RTree.Calls

variable {B K V Q F E : Type}

/-- What a query asks its filter, for what it may yield. -/
structure Query (F E : Type) where
  /-- The filter accepts this. -/
  accepts : F → E → Prop
  /-- The filter turns this down, or the bounds of something it is part of. -/
  rejects : F → E → Prop
  /-- What the filter may be asked about at once. -/
  lump : List E → Prop

/-- Unordered iteration over a tree with these nodes: the filter is asked about entries and about the bounds of nodes. -/
def iterQuery (borrow : K → Q) (nodes : List (Node B K V)) : Query (SpatialFilter B Q) (K × V) where
  accepts f e := f.testKey (borrow e.1) = true
  rejects f e := f.testKey (borrow e.1) = false ∨ ∃ node ∈ nodes, e ∈ node.entries ∧ f.testBounds node.bounds = false
  lump es := (∃ e, es = [e]) ∨ ∃ node ∈ nodes, es = node.entries

/-- A join of two trees with these nodes: the filter is asked about pairs of entries and about the bounds of pairs of nodes. -/
def joinQuery {B0 B1 K0 K1 V0 V1 Q0 Q1 : Type} (borrow0 : K0 → Q0) (borrow1 : K1 → Q1) (nodes0 : List (Node B0 K0 V0)) (nodes1 : List (Node B1 K1 V1)) :
    Query (JoinFilter B0 B1 Q0 Q1) ((K0 × V0) × (K1 × V1)) where
  accepts f x := f.testKey (borrow0 x.1.1) (borrow1 x.2.1) = true
  rejects f x := f.testKey (borrow0 x.1.1) (borrow1 x.2.1) = false ∨
    ∃ n0 ∈ nodes0, ∃ n1 ∈ nodes1, x.1 ∈ n0.entries ∧ x.2 ∈ n1.entries ∧ f.testBounds n0.bounds n1.bounds = false
  lump xs := (∃ x, xs = [x]) ∨ ∃ n0 ∈ nodes0, ∃ n1 ∈ nodes1, xs.Perm (n0.entries.flatMap fun a => n1.entries.map fun b => (a, b))

/-- Between call `n` and call `n'` of user code, the filter turned down `e` or the bounds of something it is part of. -/
def TurnedDown (q : Query F E) (code : Nat → Option F) (n n' : Nat) (e : E) : Prop :=
  ∃ m f, n ≤ m ∧ m < n' ∧ code m = some f ∧ q.rejects f e

/-- One call of `next`, which ends as `out`; `todo` is what can still come before the call, `todo'` after it. -/
def Step (q : Query F E) (code : Nat → Option F) (n : Nat) (todo : List E) (out : Except Stop (Option E)) (n' : Nat) (todo' : List E) : Prop :=
  match out with
  /- the end: all the others have been turned down -/
  | .ok none => n ≤ n' ∧ (∀ e ∈ todo, TurnedDown q code n n' e) ∧ todo' = []
  /- something: the ones before it have been turned down, and it has been accepted, by the last call -/
  | .ok (some e) => n < n' ∧ ∃ skipped f, todo = skipped ++ e :: todo' ∧ (∀ x ∈ skipped, TurnedDown q code n n' x) ∧
      code (n' - 1) = some f ∧ q.accepts f e
  /- the last call panicked: what it was asked about is lost -/
  | .error .user => n < n' ∧ code (n' - 1) = none ∧ ∃ skipped lost, todo = skipped ++ lost ++ todo' ∧
      (∀ x ∈ skipped, TurnedDown q code n n' x) ∧ q.lump lost
  /- the crate itself never panics, and there is no undefined behaviour -/
  | .error (.own _) => False

/-- Some calls of `next` one after the other, with panics caught. -/
def Story (q : Query F E) (code : Nat → Option F) : Nat → List E → List (Except Stop (Option E)) → Prop
  | _, _, [] => True
  | n, todo, out :: outs => ∃ n' todo', Step q code n todo out n' todo' ∧ Story q code n' todo' outs

/-- What some calls of `next` yielded. -/
def yields {α : Type} (outs : List (Except Stop (Option α))) : List α := outs.filterMap fun o =>
  match o with
  | .ok (some e) => some e
  | _ => none

end RTree.Calls
