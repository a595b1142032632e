import Verif.Model.RawQuery
import Verif.Model.Join
/-!
# Joins of trees in raw memory (join.rs 10-207)

`next` called until it returns `None`.  Simplified: the stack of the iterator is the recursion (the stack itself in raw memory is `Verif/Model/RawStack.lean`), and
both trees have the same types and are in one memory.  As in the code the slots of a pair are read when the product of the slices gets to the pair, and a pair of nodes
is entered when its bounds have passed the filter.
-/

namespace RTree.Raw

variable {B K V Q : Type}

/-- Pairs of entries. Modelling device: stands for no code of the crate. -/
abbrev EntryPairs (K V : Type) := List ((K × V) × (K × V))

/-- join.rs 20-36, 50-60 (`RewindableIter`, `ProductIter::next`): the rest of a round of the first iterator, `n` slots from slot `i` on, the second being at slot `j`. -/
def productRound (visit : Nat → Nat → TM B K V (EntryPairs K V)) (j : Nat) : Nat → Nat → TM B K V (EntryPairs K V)
  | 0, _ => pure []
  | n + 1, i => do
    let es ← visit i j
    let rest ← productRound visit j n (i + 1)
    pure (es ++ rest)

/-- join.rs 50-60 (`ProductIter::next`): the rest of the product, `m` slots of the second slice from slot `j` on; `n` is the length of the first slice. -/
def productLoop (visit : Nat → Nat → TM B K V (EntryPairs K V)) (n : Nat) : Nat → Nat → TM B K V (EntryPairs K V)
  | 0, _ => pure []
  | m + 1, j => do
    let es ← productRound visit j n 0
    let rest ← productLoop visit n m (j + 1)
    pure (es ++ rest)

/-- join.rs 194-203: a pair of entries. -/
def visitEntries (E : TEnv) (borrow : K → Q) (f : JoinFilter B B Q Q) (v0 v1 : FCVec) (i j : Nat) : TM B K V (EntryPairs K V) := do
  let cell0 ← v0.get E.entry i
  let e0 ← lift cell0.asEntry
  let cell1 ← v1.get E.entry j
  let e1 ← lift cell1.asEntry
  pure (if f.testKey (borrow e0.1) (borrow e1.1) then [(e0, e1)] else [])

/-- join.rs 112-119: the length of the slice a node of the given level contributes; node.rs 992-1006 (`children`). -/
def sliceLen (level : Nat) (n : RNode B) : Nat :=
  match level with
  | 0 => 1
  | _ + 1 => n.vec.len

/-- join.rs 112-119: an element of the slice a node of the given level contributes. -/
def sliceAt (E : TEnv) (level : Nat) (n : RNode B) (i : Nat) : TM B K V (RNode B) :=
  match level with
  | 0 => pure n
  | _ + 1 => nodeAt E n.vec i

/-- join.rs 178-192: a pair of nodes. -/
def visitNodes (E : TEnv) (f : JoinFilter B B Q Q) (rec : RNode B → RNode B → TM B K V (EntryPairs K V)) (l0 l1 : Nat) (n0 n1 : RNode B) (i j : Nat) :
    TM B K V (EntryPairs K V) := do
  let c0 ← sliceAt E l0 n0 i
  let c1 ← sliceAt E l1 n1 j
  (if f.testBounds c0.bounds c1.bounds then rec c0 c1 else pure [] : TM B K V (EntryPairs K V))

/-- join.rs 168-207 (`next`) until the end, below a pair of nodes; 99-123 (`start_join`). -/
def joinNode (E : TEnv) (borrow : K → Q) (f : JoinFilter B B Q Q) (p0 p1 : Nat) : Nat → RNode B → RNode B → TM B K V (EntryPairs K V)
  | 0, n0, n1 => productLoop (visitEntries E borrow f n0.vec n1.vec) n0.vec.len n1.vec.len 0
  | l + 1, n0, n1 =>
    productLoop (visitNodes E f (joinNode E borrow f p0 p1 l) (l + 1 - p0) (l + 1 - p1) n0 n1) (sliceLen (l + 1 - p0) n0) (sliceLen (l + 1 - p1) n1) 0

namespace RTree

/-- lib.rs 262-276 (`RTree::join`), join.rs 125-154 (`JoinIter::new`): everything yielded. -/
def join (E : TEnv) (borrow : K → Q) (f : JoinFilter B B Q Q) (t0 t1 : RTree B) : TM B K V (EntryPairs K V) :=
  let height := max t0.level t1.level
  if f.testBounds t0.root.bounds t1.root.bounds then joinNode E borrow f (height - t0.level) (height - t1.level) height t0.root t1.root else pure []

end RTree

end RTree.Raw
