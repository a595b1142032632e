import Verif.Model.RawQuery
import Verif.Model.Sorted
/-!
# Sorted iteration over a tree in raw memory (iter.rs 307-412, 488-562)

The priority queue of the iterator holds references to nodes and to entries.  A reference to a node is modelled by the header read through it, a reference to an entry
by the entry: while the iterator lives the tree is borrowed and does not change.  Simplified: the array of the priority queue is not in the memory of the model, and
`SortedIter` is `FilterSortedIter` with a ranking that never returns `None` (iter.rs 362-412 is the text of 505-562 without the `match`).
-/

namespace RTree.Raw

variable {B K V S : Type} [LE S]

/-- iter.rs 341-344 (`union SortedIterItem`): untagged; reading the wrong field is `Panic.ub`. -/
inductive RawItem (B K V : Type) where
  | node (n : RNode B)
  | entry (e : K × V)

/-- iter.rs 393, 539 (`value.node`). -/
def RawItem.getNode : RawItem B K V → Res (RNode B)
  | .node n => .ok n
  | .entry _ => .error .ub

/-- iter.rs 390, 536 (`value.entry`). -/
def RawItem.getEntry : RawItem B K V → Res (K × V)
  | .entry e => .ok e
  | .node _ => .error .ub

/-- iter.rs 346 (`IterHeap`). -/
abbrev RawHeap (B K V S : Type) [LE S] := RTree.Heap (Score S) (RawItem B K V)

namespace Sorted

/-- iter.rs 505-519 (`FilterSortedIter::new`), 362-374 (`SortedIter::new`). -/
def new (hp : RawHeap B K V S) (r : Ranking B K (Option S)) (level : Nat) (root : RNode B) : Res hp.H := do
  match ← r.boundsMin root.bounds with
  | some m => pure (hp.push (⟨m, level + 1⟩, .node root) hp.empty)
  | none => pure hp.empty

/-- iter.rs 541-548 (`for entry in node.leaf_children()`), 395-400: `n` slots from slot `i` on. -/
def pushEntries (E : TEnv) (hp : RawHeap B K V S) (r : Ranking B K (Option S)) (v : FCVec) : Nat → Nat → hp.H → TM B K V hp.H
  | 0, _, q => pure q
  | n + 1, i, q => do
    let cell ← v.get E.entry i
    let e ← lift cell.asEntry
    let m ← lift (r.rankKey e.1)
    pushEntries E hp r v n (i + 1) (match m with | some m => hp.push (⟨m, 0⟩, .entry e) q | none => q)

/-- iter.rs 550-557 (`for child in node.inner_children()`), 402-407; `l` is `level - 1`: `n` slots from slot `i` on. -/
def pushNodes (E : TEnv) (hp : RawHeap B K V S) (r : Ranking B K (Option S)) (l : Nat) (v : FCVec) : Nat → Nat → hp.H → TM B K V hp.H
  | 0, _, q => pure q
  | n + 1, i, q => do
    let c ← nodeAt E v i
    let m ← lift (r.boundsMin c.bounds)
    pushNodes E hp r l v n (i + 1) (match m with | some m => hp.push (⟨m, l⟩, .node c) q | none => q)

/-- iter.rs 529-562 (`FilterSortedIter::next`), 383-412 (`SortedIter::next`): the loop, with fuel. -/
def nextLoop (E : TEnv) (hp : RawHeap B K V S) (r : Ranking B K (Option S)) : Nat → hp.H → TM B K V (Option (K × V) × hp.H)
  | 0, _ => lift (.error .diverge)
  | fuel + 1, q =>
    match hp.pop q with
    | none => pure (none, q)
    | some ((score, value), q) =>
      match score.level with
      | 0 => do
        let e ← lift value.getEntry
        pure (some e, q)
      | 1 => do
        let node ← lift value.getNode
        let q ← pushEntries E hp r node.vec node.vec.len 0 q
        nextLoop E hp r fuel q
      | l + 2 => do
        let node ← lift value.getNode
        let q ← pushNodes E hp r (l + 1) node.vec node.vec.len 0 q
        nextLoop E hp r fuel q

/-- Calling `next` at most `k` times. Client code: iter.rs 383, 529 (`Iterator::next`) called repeatedly. -/
def takeLoop (E : TEnv) (hp : RawHeap B K V S) (r : Ranking B K (Option S)) (fuel : Nat) : Nat → hp.H → TM B K V (List (K × V))
  | 0, _ => pure []
  | k + 1, q => do
    let (o, q) ← nextLoop E hp r fuel q
    match o with
    | some e => do
      let rest ← takeLoop E hp r fuel k q
      pure (e :: rest)
    | none => pure []

end Sorted

namespace RTree

/-- A number of steps that suffices for every loop of a sorted iterator over the tree: what it would be if all nodes were full.
    Modelling device: a bound that makes loops structurally recursive; stands for no code. -/
def sortedFuel (t : RTree B) : Nat := (t.alloc.maxChildren + 1) ^ (t.level + 1) + 1

/-- lib.rs 230-239 (`RTree::filter_iter_asc_by`), 202-207 (`iter_asc_by`): the first `k` entries; with `k = 1` lib.rs 173-179 (`filter_min_by`), 146-151 (`min_by`). -/
def filterFirstAscBy (E : TEnv) (hp : RawHeap B K V S) (r : Ranking B K (Option S)) (k : Nat) (t : RTree B) : TM B K V (List (K × V)) := do
  let q ← lift (Sorted.new hp r t.level t.root)
  Sorted.takeLoop E hp r t.sortedFuel k q

end RTree

end RTree.Raw
