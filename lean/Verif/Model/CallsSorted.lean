import Verif.Model.Callbacks
import Verif.Model.BinaryHeap
/-!
# Sorted iterators whose rankings panic or answer inconsistently (iter.rs 307-641)

As in `Model/Callbacks.lean`; the user code of a sorted iterator is the ranking and the order of its metric.  `code n` is what the `n`-th call of user code would
answer to each question, `none` is a panic.  The state is the array of the `BinaryHeap` of the standard library (see `Model/BinaryHeap.lean`); the
positions that it accesses without a check are checked here, so that undefined behaviour is visible.
-/

namespace RTree.Calls

/-- What one call of user code would answer: `Ranking::bounds_min`, `Ranking::rank_key` (ranking.rs 14-39), whose answer is a metric or, for the
    filtering iterators, an optional metric; `PartialOrd::partial_cmp` of the metric. -/
structure RankCode (B K A Mt : Type) where
  boundsMin : B → Option A
  rankKey : K → Option A
  cmp : Mt → Mt → Option (Option Ordering)

variable {S B K V A Mt T α β : Type}

/-- One call of user code, with a question. Modelling device: stands for no code of the crate. -/
def askFor (code : Nat → RankCode B K A Mt) (question : RankCode B K A Mt → Option β) : M S β := fun s n =>
  match question (code n) with
  | some a => (.ok a, s, n + 1)
  | none => (.error .user, s, n + 1)

namespace BinaryHeap

/-- `a <= b` for two items (iter.rs 321-328, 346): `PartialOrd::le` calls `partial_cmp` of `Ranked`, that of `Reverse`, that of the tuple, and so that of
    the metric of `b`, and only if this answers `Equal` compares the levels. -/
def le (code : Nat → RankCode B K A Mt) (a b : Score Mt × T) : M S Bool := do
  match ← askFor code fun f => f.cmp b.1.metric a.1.metric with
  | some .lt => pure true
  | some .eq => pure (decide (b.1.level ≤ a.1.level))
  | some .gt => pure false
  | none => pure false

/-- The element at a position; out of bounds is undefined behaviour (`get_unchecked` in std).  Used through iter.rs 346. -/
def get (d : List α) (i : Nat) : Res α :=
  match d[i]? with
  | some x => .ok x
  | none => .error .ub

/-- std, `BinaryHeap::sift_up(0, pos)`, with fuel.  Used through iter.rs 346. -/
def siftUp (code : Nat → RankCode B K A Mt) : Nat → Nat → M (List (Score Mt × T)) Unit
  | 0, _ => own (.error .diverge)
  | fuel + 1, pos =>
    if 0 < pos then do
      let d ← self
      let parent := (pos - 1) / 2
      let x ← own (get d pos)
      let y ← own (get d parent)
      if ← le code x y then pure ()
      else do
        put (RTree.BinaryHeap.swap d pos parent)
        siftUp code fuel parent
    else pure ()

/-- std, `BinaryHeap::sift_down_to_bottom`, the loop with the hole at `pos`, with fuel: where the hole ends.  Used through iter.rs 346. -/
def siftDown (code : Nat → RankCode B K A Mt) : Nat → Nat → M (List (Score Mt × T)) Nat
  | 0, _ => own (.error .diverge)
  | fuel + 1, pos => do
    let d ← self
    let child := 2 * pos + 1
    if child ≤ d.length - 2 then do
      let x ← own (get d child)
      let y ← own (get d (child + 1))
      let child := if ← le code x y then child + 1 else child
      put (RTree.BinaryHeap.swap d pos child)
      siftDown code fuel child
    else if child = d.length - 1 then do
      put (RTree.BinaryHeap.swap d pos child)
      pure child
    else pure pos

/-- std, `BinaryHeap::push`.  iter.rs 367, 396, 403. -/
def push (code : Nat → RankCode B K A Mt) (x : Score Mt × T) : M (List (Score Mt × T)) Unit := do
  let d ← self
  put (d ++ [x])
  siftUp code (d.length + 1) d.length

/-- std, `BinaryHeap::pop`: an item that has been taken out is dropped if a comparison panics.  iter.rs 387. -/
def pop (code : Nat → RankCode B K A Mt) : M (List (Score Mt × T)) (Option (Score Mt × T)) := do
  let d ← self
  match d.getLast? with
  | none => pure none
  | some item => do
    match d.dropLast with
    | [] => do
      put []
      pure (some item)
    | top :: rest => do
      put (item :: rest)
      let pos ← siftDown code (rest.length + 2) 0
      siftUp code (pos + 1) pos
      pure (some top)

end BinaryHeap

/-- The state of a sorted iterator: iter.rs 348-356 (`SortedIter::entries`), and the same for the other three. -/
abbrev SortedHeap (B K V Mt : Type) := List (Score Mt × SortedItem B K V)

open Calls.BinaryHeap (push pop)

namespace SortedIter

/-- iter.rs 362-374 (`SortedIter::new`), 434-448 (`SortedIterMut::new`): the state is the iterator being made. -/
def new (code : Nat → RankCode B K Mt Mt) (level : Nat) (root : Node B K V) : M (SortedHeap B K V Mt) Unit := do
  put []
  let m ← askFor code fun f => f.boundsMin root.bounds
  push code (⟨m, level + 1⟩, .node root)

/-- iter.rs 395-400 (`for entry in node.leaf_children()`), 469-474. -/
def pushEntries (code : Nat → RankCode B K Mt Mt) : List (K × V) → M (SortedHeap B K V Mt) Unit
  | [] => pure ()
  | e :: es => do
    let m ← askFor code fun f => f.rankKey e.1
    push code (⟨m, 0⟩, .entry e)
    pushEntries code es

/-- iter.rs 402-407 (`for child in node.inner_children()`), 476-481; `l` is `level - 1`. -/
def pushNodes (code : Nat → RankCode B K Mt Mt) (l : Nat) : List (Node B K V) → M (SortedHeap B K V Mt) Unit
  | [] => pure ()
  | c :: cs => do
    let m ← askFor code fun f => f.boundsMin c.bounds
    push code (⟨m, l⟩, .node c)
    pushNodes code l cs

/-- iter.rs 383-412 (`SortedIter::next`), 457-486 (`SortedIterMut::next`): the loop, with fuel. -/
def nextLoop (code : Nat → RankCode B K Mt Mt) : Nat → M (SortedHeap B K V Mt) (Option (K × V))
  | 0 => own (.error .diverge)
  | fuel + 1 => do
    match ← pop code with
    | none => pure none
    | some (score, value) =>
      match score.level with
      | 0 => do pure (some (← own value.getEntry))
      | 1 => do
        let node ← own value.getNode
        let es ← own node.leafChildren
        pushEntries code es
        nextLoop code fuel
      | l + 2 => do
        let node ← own value.getNode
        let cs ← own node.innerChildren
        pushNodes code (l + 1) cs
        nextLoop code fuel

/-- `k` calls of `next`, with panics caught. Client code of iter.rs 383, 457. -/
def nexts (code : Nat → RankCode B K Mt Mt) (fuel : Nat) : Nat → M (SortedHeap B K V Mt) (List (Except Stop (Option (K × V))))
  | 0 => pure []
  | k + 1 => do
    let r ← catching (nextLoop code fuel)
    pure (r :: (← nexts code fuel k))

end SortedIter

namespace FilterSortedIter

/-- iter.rs 505-519 (`FilterSortedIter::new`), 581-597 (`FilterSortedIterMut::new`): the state is the iterator being made. -/
def new (code : Nat → RankCode B K (Option Mt) Mt) (level : Nat) (root : Node B K V) : M (SortedHeap B K V Mt) Unit := do
  put []
  match ← askFor code fun f => f.boundsMin root.bounds with
  | some m => push code (⟨m, level + 1⟩, .node root)
  | none => pure ()

/-- iter.rs 541-548 (`for entry in node.leaf_children()`), 619-626. -/
def pushEntries (code : Nat → RankCode B K (Option Mt) Mt) : List (K × V) → M (SortedHeap B K V Mt) Unit
  | [] => pure ()
  | e :: es => do
    match ← askFor code fun f => f.rankKey e.1 with
    | some m => do
      push code (⟨m, 0⟩, .entry e)
      pushEntries code es
    | none => pushEntries code es

/-- iter.rs 550-557 (`for child in node.inner_children()`), 628-635; `l` is `level - 1`. -/
def pushNodes (code : Nat → RankCode B K (Option Mt) Mt) (l : Nat) : List (Node B K V) → M (SortedHeap B K V Mt) Unit
  | [] => pure ()
  | c :: cs => do
    match ← askFor code fun f => f.boundsMin c.bounds with
    | some m => do
      push code (⟨m, l⟩, .node c)
      pushNodes code l cs
    | none => pushNodes code l cs

/-- iter.rs 529-562 (`FilterSortedIter::next`), 607-640 (`FilterSortedIterMut::next`): the loop, with fuel. -/
def nextLoop (code : Nat → RankCode B K (Option Mt) Mt) : Nat → M (SortedHeap B K V Mt) (Option (K × V))
  | 0 => own (.error .diverge)
  | fuel + 1 => do
    match ← pop code with
    | none => pure none
    | some (score, value) =>
      match score.level with
      | 0 => do pure (some (← own value.getEntry))
      | 1 => do
        let node ← own value.getNode
        let es ← own node.leafChildren
        pushEntries code es
        nextLoop code fuel
      | l + 2 => do
        let node ← own value.getNode
        let cs ← own node.innerChildren
        pushNodes code (l + 1) cs
        nextLoop code fuel

/-- `k` calls of `next`, with panics caught. Client code of iter.rs 529, 607. -/
def nexts (code : Nat → RankCode B K (Option Mt) Mt) (fuel : Nat) : Nat → M (SortedHeap B K V Mt) (List (Except Stop (Option (K × V))))
  | 0 => pure []
  | k + 1 => do
    let r ← catching (nextLoop code fuel)
    pure (r :: (← nexts code fuel k))

end FilterSortedIter

end RTree.Calls
