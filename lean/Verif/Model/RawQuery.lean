import Verif.Model.RawTree
/-!
# Unordered iteration over a tree in raw memory (iter.rs)

`next` called until it returns `None`.  Simplified: the stack of the iterator is the recursion (the stack itself in raw memory is
`Verif/Model/RawStack.lean`).  As in the code a slot is read when the slice iterator gets to it, and a node is entered when its bounds
have passed the filter.
-/

namespace RTree.Raw

variable {B K V Q : Type}

/-- iter.rs 89-97: the rest of a leaf, `n` slots from slot `i` on. -/
def queryLeaf (E : TEnv) (borrow : K → Q) (f : SpatialFilter B Q) (v : FCVec) : Nat → Nat → TM B K V (List (K × V))
  | 0, _ => pure []
  | n + 1, i => do
    let cell ← v.get E.entry i
    let e ← lift cell.asEntry
    let rest ← queryLeaf E borrow f v n (i + 1)
    pure (if f.testKey (borrow e.1) then e :: rest else rest)

/-- iter.rs 75-88: the rest of an inner node, `n` slots from slot `i` on. -/
def queryInner (E : TEnv) (f : SpatialFilter B Q) (rec : RNode B → TM B K V (List (K × V))) (v : FCVec) : Nat → Nat → TM B K V (List (K × V))
  | 0, _ => pure []
  | n + 1, i => do
    let c ← nodeAt E v i
    let es ← (if f.testBounds c.bounds then rec c else pure [] : TM B K V (List (K × V)))
    let rest ← queryInner E f rec v n (i + 1)
    pure (es ++ rest)

/-- iter.rs 69-102 (`Iter::next`) until the end, below a node. -/
def queryNode (E : TEnv) (borrow : K → Q) (f : SpatialFilter B Q) : Nat → RNode B → TM B K V (List (K × V))
  | 0, node => queryLeaf E borrow f node.vec node.vec.len 0
  | l + 1, node => queryInner E f (queryNode E borrow f l) node.vec node.vec.len 0

namespace RTree

/-- lib.rs 114-126 (`RTree::filter_iter`), iter.rs 132-142, 160-173: everything yielded. -/
def filterIter (E : TEnv) (borrow : K → Q) (f : SpatialFilter B Q) (t : RTree B) : TM B K V (List (K × V)) :=
  if f.testBounds t.root.bounds then queryNode E borrow f t.level t.root else pure []

/-- lib.rs 93-96 (`RTree::iter`), iter.rs 43-61, 112-114: everything yielded. -/
def iter (E : TEnv) (t : RTree B) : TM B K V (List (K × V)) := queryNode E id (noFilter B K) t.level t.root

end RTree

end RTree.Raw
