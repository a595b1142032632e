import Verif.Model.Iter
/-!
# Mutable iteration (iter.rs 175-305, lib.rs 98-101, 128-140)

A `&mut Value` reference is modelled by its address: the position of the value in the tree, counted from left
to right.  The control flow of the mutable iterators reads only bounds and keys (iter.rs 216-249 is the text of
68-102 with `inner_children_mut`/`leaf_children_mut`), so a mutable iterator is the shared one run on the tree in
which every value is replaced by its address.
-/

namespace RTree

variable {B K V Q : Type}

mutual
/-- The node with each value replaced by its address, the first address being `a`.
    Modelling device: stands for no code of the crate. -/
def Node.addressed (a : Nat) : Node B K V → Node B K Nat
  | .leaf b es => .leaf b ((es.zipIdx a).map fun e => (e.1.1, e.2))
  | .inner b cs => .inner b (addressedList a cs)
/-- See `Node.addressed`. Modelling device: stands for no code of the crate. -/
def addressedList (a : Nat) : List (Node B K V) → List (Node B K Nat)
  | [] => []
  | c :: cs => c.addressed a :: addressedList (a + c.size) cs
/-- The number of values below a node (the number of addresses it takes).
    Modelling device: stands for no code of the crate. -/
def Node.size : Node B K V → Nat
  | .leaf _ es => es.length
  | .inner _ cs => sizeList cs
/-- See `Node.size`. Modelling device: stands for no code of the crate. -/
def sizeList : List (Node B K V) → Nat
  | [] => 0
  | c :: cs => c.size + sizeList cs
end

mutual
/-- Replacing the value at address `a` (relative to the node) by its image under `g`.
    What `*value = …` by the client does after iter.rs 243. -/
def Node.modifyAt (a : Nat) (g : V → V) : Node B K V → Node B K V
  | .leaf b es => .leaf b (es.modify a fun e => (e.1, g e.2))
  | .inner b cs => .inner b (modifyAtList a g cs)
/-- See `Node.modifyAt`. Modelling device: stands for no code of the crate. -/
def modifyAtList (a : Nat) (g : V → V) : List (Node B K V) → List (Node B K V)
  | [] => []
  | c :: cs => if a < c.size then c.modifyAt a g :: cs else c :: modifyAtList (a - c.size) g cs
end

namespace Tree

/-- The tree with each value replaced by its address. Modelling device: stands for no code of the crate. -/
def addressed (t : Tree B K V) : Tree B K Nat := { alloc := t.alloc, level := t.level, root := t.root.addressed 0 }

/-- Writing through the reference with address `a`: `*value = g(*value)`. What the client does after iter.rs 243. -/
def modifyAt (a : Nat) (g : V → V) (t : Tree B K V) : Tree B K V := { t with root := t.root.modifyAt a g }

/-- lib.rs 98-101 (`RTree::iter_mut`), iter.rs 178-262: the keys and references yielded. -/
def iterMut (t : Tree B K V) : Res (List (K × Nat)) := t.addressed.iter

/-- lib.rs 128-140 (`RTree::filter_iter_mut`), iter.rs 264-305: the keys and references yielded. -/
def filterIterMut (borrow : K → Q) (f : SpatialFilter B Q) (t : Tree B K V) : Res (List (K × Nat)) :=
  t.addressed.filterIter borrow f

/-- A client loop `for (key, value) in refs { *value = u(key, *value) }`. Client code. -/
def writeAll (u : K → V → V) (refs : List (K × Nat)) (t : Tree B K V) : Tree B K V :=
  refs.foldl (fun t r => t.modifyAt r.2 (u r.1)) t

end Tree

end RTree
