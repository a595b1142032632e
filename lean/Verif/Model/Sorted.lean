import Verif.Model.Mut
/-!
# Iteration in ascending rank (iter.rs 307-641, lib.rs 142-260)

`std::collections::BinaryHeap` is not modelled: the iterators run on any implementation of a priority queue
that satisfies its documented contract (`Heap`).
-/

namespace RTree

variable {B K V M S : Type}

/-- iter.rs 346 (`Reverse<(Metric, usize)>`): the score of a heap item, without the `Reverse`. -/
structure Score (M : Type) where
  metric : M
  level : Nat

/-- `Ord` of the tuple `(Metric, usize)`: lexicographic. iter.rs 346. -/
instance [LE M] : LE (Score M) :=
  ⟨fun a b => a.metric ≤ b.metric ∧ (b.metric ≤ a.metric → a.level ≤ b.level)⟩

/-- `BinaryHeap<Ranked<Reverse<S>, T>>` (iter.rs 307-339, 346) as an abstract data type: what `push` and `pop` do to the
    multiset of items, and that `pop` returns an item of least score (the greatest `Reverse`).
    Nothing is assumed about the order among items of equal score.
    Not modelled: the array and its sifting. -/
structure Heap (S T : Type) [LE S] where
  /-- the states of the heap -/
  H : Type
  empty : H
  push : S × T → H → H
  pop : H → Option ((S × T) × H)
  /-- the items in the heap, in no particular order -/
  items : H → List (S × T)
  items_empty : items empty = []
  items_push : ∀ x h, (items (push x h)).Perm (x :: items h)
  pop_none : ∀ {h}, pop h = none → items h = []
  pop_some : ∀ {h x h'}, pop h = some (x, h') → (items h).Perm (x :: items h') ∧ ∀ y ∈ items h, x.1 ≤ y.1

/-- A generic heap: one implementation for all item types, whose behaviour depends on the scores only (`Ranked` compares
    scores only, iter.rs 312-339): renaming the items commutes with the operations. -/
structure UniformHeap (S : Type) [LE S] where
  heap : (T : Type) → Heap S T
  map : {T U : Type} → (T → U) → (heap T).H → (heap U).H
  map_empty : ∀ {T U : Type} (f : T → U), map f (heap T).empty = (heap U).empty
  map_push : ∀ {T U : Type} (f : T → U) (x : S × T) (h : (heap T).H),
    map f ((heap T).push x h) = (heap U).push (x.1, f x.2) (map f h)
  map_pop : ∀ {T U : Type} (f : T → U) (h : (heap T).H),
    (heap U).pop (map f h) = ((heap T).pop h).map fun r => ((r.1.1, f r.1.2), map f r.2)

/-- iter.rs 341-344 (`union SortedIterItem`), 415-418 (`SortedIterItemMut`): untagged; reading the wrong field is
    `Panic.ub`. -/
inductive SortedItem (B K V : Type) where
  | node (n : Node B K V)
  | entry (e : K × V)

/-- iter.rs 393, 467, 539, 617 (`value.node`). -/
def SortedItem.getNode : SortedItem B K V → Res (Node B K V)
  | .node n => .ok n
  | .entry _ => .error .ub

/-- iter.rs 390, 464, 536, 614 (`value.entry`). -/
def SortedItem.getEntry : SortedItem B K V → Res (K × V)
  | .entry e => .ok e
  | .node _ => .error .ub

/-- iter.rs 346 (`IterHeap`). -/
abbrev IterHeap (B K V M : Type) [LE M] := Heap (Score M) (SortedItem B K V)

namespace SortedIter

variable [LE M]

/-- iter.rs 362-374 (`SortedIter::new`), 434-448 (`SortedIterMut::new`). -/
def new (hp : IterHeap B K V M) (r : Ranking B K M) (level : Nat) (root : Node B K V) : Res hp.H := do
  let m ← r.boundsMin root.bounds
  pure (hp.push (⟨m, level + 1⟩, .node root) hp.empty)

/-- iter.rs 395-400 (`for entry in node.leaf_children()`), 469-474. -/
def pushEntries (hp : IterHeap B K V M) (r : Ranking B K M) (es : List (K × V)) (h : hp.H) : Res hp.H :=
  es.foldlM (fun h e => do
    let m ← r.rankKey e.1
    pure (hp.push (⟨m, 0⟩, .entry e) h)) h

/-- iter.rs 402-407 (`for child in node.inner_children()`), 476-481; `l` is `level - 1`. -/
def pushNodes (hp : IterHeap B K V M) (r : Ranking B K M) (l : Nat) (cs : List (Node B K V)) (h : hp.H) : Res hp.H :=
  cs.foldlM (fun h c => do
    let m ← r.boundsMin c.bounds
    pure (hp.push (⟨m, l⟩, .node c) h)) h

/-- iter.rs 383-412 (`SortedIter::next`), 457-486 (`SortedIterMut::next`): the loop, with fuel. -/
def nextLoop (hp : IterHeap B K V M) (r : Ranking B K M) : Nat → hp.H → Res (Option (K × V) × hp.H)
  | 0, _ => .error .diverge
  | fuel + 1, h =>
    match hp.pop h with
    | none => .ok (none, h)
    | some ((score, value), h) =>
      match score.level with
      | 0 => do pure (some (← value.getEntry), h)
      | 1 => do
        let node ← value.getNode
        let h ← pushEntries hp r (← node.leafChildren) h
        nextLoop hp r fuel h
      | l + 2 => do
        let node ← value.getNode
        let h ← pushNodes hp r (l + 1) (← node.innerChildren) h
        nextLoop hp r fuel h

/-- Calling `next` until it returns `None` (at most `n` times).
    Client code: iter.rs 383, 529 (`Iterator::next`) called repeatedly. -/
def collectLoop (hp : IterHeap B K V M) (r : Ranking B K M) (fuel : Nat) : Nat → hp.H → Res (List (K × V))
  | 0, _ => .error .diverge
  | n + 1, h => do
    match ← nextLoop hp r fuel h with
    | (some e, h) => do pure (e :: (← collectLoop hp r fuel n h))
    | (none, _) => pure []

/-- Calling `next` at most `k` times (`Iterator::take(k)`): no call after the `k`-th.
    Client code: iter.rs 383, 529 (`Iterator::next`) called repeatedly. -/
def takeLoop (hp : IterHeap B K V M) (r : Ranking B K M) (fuel : Nat) : Nat → hp.H → Res (List (K × V))
  | 0, _ => .ok []
  | k + 1, h => do
    match ← nextLoop hp r fuel h with
    | (some e, h) => do pure (e :: (← takeLoop hp r fuel k h))
    | (none, _) => pure []

end SortedIter

namespace FilterSortedIter

variable [LE S]

/-- iter.rs 505-519 (`FilterSortedIter::new`), 581-597 (`FilterSortedIterMut::new`). -/
def new (hp : IterHeap B K V S) (r : Ranking B K (Option S)) (level : Nat) (root : Node B K V) : Res hp.H := do
  match ← r.boundsMin root.bounds with
  | some m => pure (hp.push (⟨m, level + 1⟩, .node root) hp.empty)
  | none => pure hp.empty

/-- iter.rs 541-548 (`for entry in node.leaf_children()`), 619-626. -/
def pushEntries (hp : IterHeap B K V S) (r : Ranking B K (Option S)) (es : List (K × V)) (h : hp.H) : Res hp.H :=
  es.foldlM (fun h e => do
    match ← r.rankKey e.1 with
    | some m => pure (hp.push (⟨m, 0⟩, .entry e) h)
    | none => pure h) h

/-- iter.rs 550-557 (`for child in node.inner_children()`), 628-635; `l` is `level - 1`. -/
def pushNodes (hp : IterHeap B K V S) (r : Ranking B K (Option S)) (l : Nat) (cs : List (Node B K V)) (h : hp.H) :
    Res hp.H :=
  cs.foldlM (fun h c => do
    match ← r.boundsMin c.bounds with
    | some m => pure (hp.push (⟨m, l⟩, .node c) h)
    | none => pure h) h

/-- iter.rs 529-562 (`FilterSortedIter::next`), 607-640 (`FilterSortedIterMut::next`): the loop, with fuel. -/
def nextLoop (hp : IterHeap B K V S) (r : Ranking B K (Option S)) : Nat → hp.H → Res (Option (K × V) × hp.H)
  | 0, _ => .error .diverge
  | fuel + 1, h =>
    match hp.pop h with
    | none => .ok (none, h)
    | some ((score, value), h) =>
      match score.level with
      | 0 => do pure (some (← value.getEntry), h)
      | 1 => do
        let node ← value.getNode
        let h ← pushEntries hp r (← node.leafChildren) h
        nextLoop hp r fuel h
      | l + 2 => do
        let node ← value.getNode
        let h ← pushNodes hp r (l + 1) (← node.innerChildren) h
        nextLoop hp r fuel h

/-- Calling `next` until it returns `None` (at most `n` times).
    Client code: iter.rs 383, 529 (`Iterator::next`) called repeatedly. -/
def collectLoop (hp : IterHeap B K V S) (r : Ranking B K (Option S)) (fuel : Nat) : Nat → hp.H → Res (List (K × V))
  | 0, _ => .error .diverge
  | n + 1, h => do
    match ← nextLoop hp r fuel h with
    | (some e, h) => do pure (e :: (← collectLoop hp r fuel n h))
    | (none, _) => pure []

/-- Calling `next` at most `k` times (`Iterator::take(k)`): no call after the `k`-th.
    Client code: iter.rs 383, 529 (`Iterator::next`) called repeatedly. -/
def takeLoop (hp : IterHeap B K V S) (r : Ranking B K (Option S)) (fuel : Nat) : Nat → hp.H → Res (List (K × V))
  | 0, _ => .ok []
  | k + 1, h => do
    match ← nextLoop hp r fuel h with
    | (some e, h) => do pure (e :: (← takeLoop hp r fuel k h))
    | (none, _) => pure []

end FilterSortedIter

namespace Tree

/-- A number of steps that suffices for every loop of a sorted iterator over the tree.
    Modelling device: a bound that makes loops structurally recursive; stands for no code. -/
def sortedFuel (t : Tree B K V) : Nat := t.root.weight + 1

/-- lib.rs 202-207 (`RTree::iter_asc_by`): everything yielded. -/
def iterAscBy [LE M] (hp : IterHeap B K V M) (r : Ranking B K M) (t : Tree B K V) : Res (List (K × V)) := do
  SortedIter.collectLoop hp r t.sortedFuel t.sortedFuel (← SortedIter.new hp r t.level t.root)

/-- lib.rs 146-151 (`RTree::min_by`). -/
def minBy [LE M] (hp : IterHeap B K V M) (r : Ranking B K M) (t : Tree B K V) : Res (Option (K × V)) := do
  pure (← SortedIter.nextLoop hp r t.sortedFuel (← SortedIter.new hp r t.level t.root)).1

/-- lib.rs 230-239 (`RTree::filter_iter_asc_by`): everything yielded. -/
def filterIterAscBy [LE S] (hp : IterHeap B K V S) (r : Ranking B K (Option S)) (t : Tree B K V) :
    Res (List (K × V)) := do
  FilterSortedIter.collectLoop hp r t.sortedFuel t.sortedFuel (← FilterSortedIter.new hp r t.level t.root)

/-- lib.rs 173-179 (`RTree::filter_min_by`). -/
def filterMinBy [LE S] (hp : IterHeap B K V S) (r : Ranking B K (Option S)) (t : Tree B K V) :
    Res (Option (K × V)) := do
  pure (← FilterSortedIter.nextLoop hp r t.sortedFuel (← FilterSortedIter.new hp r t.level t.root)).1

/-- The first `k` entries: `tree.iter_asc_by(ranking).take(k)`. Client code of lib.rs 202-207. -/
def firstAscBy [LE M] (hp : IterHeap B K V M) (r : Ranking B K M) (k : Nat) (t : Tree B K V) : Res (List (K × V)) := do
  SortedIter.takeLoop hp r t.sortedFuel k (← SortedIter.new hp r t.level t.root)

/-- The first `k` entries: `tree.filter_iter_asc_by(ranking).take(k)`. Client code of lib.rs 230-239. -/
def filterFirstAscBy [LE S] (hp : IterHeap B K V S) (r : Ranking B K (Option S)) (k : Nat) (t : Tree B K V) :
    Res (List (K × V)) := do
  FilterSortedIter.takeLoop hp r t.sortedFuel k (← FilterSortedIter.new hp r t.level t.root)

/-- The same for `filter_iter_asc_by_mut` (`iter_asc_by_mut`, with a ranking without `None`). Client code of lib.rs 251-260. -/
def filterFirstAscByMut [LE S] (hp : IterHeap B K Nat S) (r : Ranking B K (Option S)) (k : Nat) (t : Tree B K V) :
    Res (List (K × Nat)) :=
  t.addressed.filterFirstAscBy hp r k

/-- lib.rs 213-218 (`RTree::iter_asc_by_mut`): the keys and references yielded (see `Verif/Model/Mut.lean`). -/
def iterAscByMut [LE M] (hp : IterHeap B K Nat M) (r : Ranking B K M) (t : Tree B K V) : Res (List (K × Nat)) :=
  t.addressed.iterAscBy hp r

/-- lib.rs 157-162 (`RTree::min_by_mut`). -/
def minByMut [LE M] (hp : IterHeap B K Nat M) (r : Ranking B K M) (t : Tree B K V) : Res (Option (K × Nat)) :=
  t.addressed.minBy hp r

/-- lib.rs 251-260 (`RTree::filter_iter_asc_by_mut`). -/
def filterIterAscByMut [LE S] (hp : IterHeap B K Nat S) (r : Ranking B K (Option S)) (t : Tree B K V) :
    Res (List (K × Nat)) :=
  t.addressed.filterIterAscBy hp r

/-- lib.rs 190-196 (`RTree::filter_min_by_mut`). -/
def filterMinByMut [LE S] (hp : IterHeap B K Nat S) (r : Ranking B K (Option S)) (t : Tree B K V) :
    Res (Option (K × Nat)) :=
  t.addressed.filterMinBy hp r

end Tree

end RTree
