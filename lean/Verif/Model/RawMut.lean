import Verif.Model.RawSorted
/-!
# Mutable iteration over a tree in raw memory (iter.rs 175-305, 414-486, 564-640)

A `&mut Value` is modelled by the place of the entry: the vector of the leaf and the index of the slot.  Between two calls of `next` the client may do anything with the
references it has; this is the parameter `step`, which is run whenever the iterator has yielded a reference.  Simplified as in `Verif/Model/RawQuery.lean` and
`Verif/Model/RawSorted.lean`: the stack of the unordered iterator is the recursion, and a reference to a node is the header read through it (a client cannot write to headers).
-/

namespace RTree.Raw

variable {B K V Q S σ : Type}

/-- A reference to an entry. iter.rs 243 (`(&entry.0, &mut entry.1)`). -/
abbrev Place := FCVec × Nat

/-- The location of the value: a block of memory and an index in it. Modelling device: stands for no code of the crate. -/
def Place.loc (p : Place) : Nat × Nat := (p.1.buf.block, p.2)

section Unordered

variable (E : TEnv) (borrow : K → Q) (f : SpatialFilter B Q) (step : σ → K × Place → TM B K V σ)

/-- iter.rs 236-245 (the arm for leaves of `IterMut::next`): the rest of a leaf, `n` slots from slot `i` on. -/
def mutLeaf (v : FCVec) : Nat → Nat → σ → TM B K V σ
  | 0, _, s => pure s
  | n + 1, i, s => do
    let cell ← v.get E.entry i
    let e ← lift cell.asEntry
    let s ← (if f.testKey (borrow e.1) then step s (e.1, (v, i)) else pure s : TM B K V σ)
    mutLeaf v n (i + 1) s

/-- iter.rs 222-235 (the arm for inner nodes): the rest of an inner node, `n` slots from slot `i` on. -/
def mutInner (rec : RNode B → σ → TM B K V σ) (v : FCVec) : Nat → Nat → σ → TM B K V σ
  | 0, _, s => pure s
  | n + 1, i, s => do
    let c ← nodeAt E v i
    let s ← (if f.testBounds c.bounds then rec c s else pure s : TM B K V σ)
    mutInner rec v n (i + 1) s

/-- iter.rs 216-249 (`IterMut::next`) until the end, below a node. -/
def mutNode : Nat → RNode B → σ → TM B K V σ
  | 0, node, s => mutLeaf E borrow f step node.vec node.vec.len 0 s
  | l + 1, node, s => mutInner E f (mutNode l) node.vec node.vec.len 0 s

/-- lib.rs 128-140 (`RTree::filter_iter_mut`), iter.rs 264-305; lib.rs 98-101 (`RTree::iter_mut`), iter.rs 182-210, 252-262, is the case of a filter that accepts everything. -/
def RTree.filterIterMut (t : RTree B) (s : σ) : TM B K V σ :=
  if f.testBounds t.root.bounds then mutNode E borrow f step t.level t.root s else pure s

end Unordered

section Sorted

variable [LE S]

/-- iter.rs 415-418 (`union SortedIterItemMut`): untagged; reading the wrong field is `Panic.ub`. -/
inductive RawItemMut (B : Type) where
  | node (n : RNode B)
  | entry (p : Place)

/-- iter.rs 467, 617 (`value.node`). -/
def RawItemMut.getNode : RawItemMut B → Res (RNode B)
  | .node n => .ok n
  | .entry _ => .error .ub

/-- iter.rs 464, 614 (`value.entry`). -/
def RawItemMut.getEntry : RawItemMut B → Res Place
  | .entry p => .ok p
  | .node _ => .error .ub

/-- iter.rs 346 (`IterHeap`). -/
abbrev RawHeapMut (B S : Type) [LE S] := RTree.Heap (Score S) (RawItemMut B)

namespace SortedMut

variable (E : TEnv) (hp : RawHeapMut B S) (r : Ranking B K (Option S))

/-- iter.rs 581-597 (`FilterSortedIterMut::new`), 434-448 (`SortedIterMut::new`). -/
def new (level : Nat) (root : RNode B) : Res hp.H := do
  match ← r.boundsMin root.bounds with
  | some m => pure (hp.push (⟨m, level + 1⟩, .node root) hp.empty)
  | none => pure hp.empty

/-- iter.rs 619-626 (`for entry in node.leaf_children_mut()`), 469-474: `n` slots from slot `i` on. -/
def pushEntries (v : FCVec) : Nat → Nat → hp.H → TM B K V hp.H
  | 0, _, q => pure q
  | n + 1, i, q => do
    let cell ← v.get E.entry i
    let e ← lift cell.asEntry
    let m ← lift (r.rankKey e.1)
    pushEntries v n (i + 1) (match m with | some m => hp.push (⟨m, 0⟩, .entry (v, i)) q | none => q)

/-- iter.rs 628-635 (`for child in node.inner_children_mut()`), 476-481; `l` is `level - 1`: `n` slots from slot `i` on. -/
def pushNodes (l : Nat) (v : FCVec) : Nat → Nat → hp.H → TM B K V hp.H
  | 0, _, q => pure q
  | n + 1, i, q => do
    let c ← nodeAt E v i
    let m ← lift (r.boundsMin c.bounds)
    pushNodes l v n (i + 1) (match m with | some m => hp.push (⟨m, l⟩, .node c) q | none => q)

/-- iter.rs 607-640 (`FilterSortedIterMut::next`), 457-486 (`SortedIterMut::next`): the loop, with fuel. -/
def nextLoop : Nat → hp.H → TM B K V (Option (K × Place) × hp.H)
  | 0, _ => lift (.error .diverge)
  | fuel + 1, q =>
    match hp.pop q with
    | none => pure (none, q)
    | some ((score, value), q) =>
      match score.level with
      | 0 => do
        let p ← lift value.getEntry
        let e ← readEntry E p
        pure (some (e.1, p), q)
      | 1 => do
        let node ← lift value.getNode
        let q ← pushEntries E hp r node.vec node.vec.len 0 q
        nextLoop fuel q
      | l + 2 => do
        let node ← lift value.getNode
        let q ← pushNodes E hp r (l + 1) node.vec node.vec.len 0 q
        nextLoop fuel q

/-- Calling `next` at most `k` times. Client code: iter.rs 457, 607 (`Iterator::next`) called repeatedly. -/
def takeLoop (step : σ → K × Place → TM B K V σ) (fuel : Nat) : Nat → hp.H → σ → TM B K V σ
  | 0, _, s => pure s
  | k + 1, q, s => do
    let (o, q) ← nextLoop E hp r fuel q
    match o with
    | some e => do
      let s ← step s e
      takeLoop step fuel k q s
    | none => pure s

end SortedMut

/-- lib.rs 251-260 (`RTree::filter_iter_asc_by_mut`), 213-218 (`iter_asc_by_mut`): the first `k` references; with `k = 1` lib.rs 190-196 (`filter_min_by_mut`), 157-162 (`min_by_mut`). -/
def RTree.filterFirstAscByMut (E : TEnv) (hp : RawHeapMut B S) (r : Ranking B K (Option S)) (step : σ → K × Place → TM B K V σ) (k : Nat) (t : RTree B) (s : σ) : TM B K V σ := do
  let q ← lift (SortedMut.new hp r t.level t.root)
  SortedMut.takeLoop E hp r step t.sortedFuel k q s

end Sorted

end RTree.Raw
