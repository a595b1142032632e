import Verif.Model.Sorted
/-!
# `std::collections::BinaryHeap` (alloc/src/collections/binary_heap/mod.rs), as used by iter.rs 346, 366, 383-408

The array and its sifting, as in the standard library (since Rust 1.53).  `le a b` is `a <= b`.  A `Hole` in the array is modelled by leaving its element at the
position of the hole (`Hole::move_to` is then a swap), which is also what `Hole::drop` restores.  This is code of the standard library, not of the crate: the
theorems about sorted iteration hold for every heap with the contract `Heap`; here is the one that is used.
-/

namespace RTree.BinaryHeap

variable {α : Type}

/-- std, `Hole::move_to` (binary_heap/mod.rs): moves the element at `j` to the hole at `i`, and the hole to `j`.  Used through iter.rs 346. -/
def swap (d : List α) (i j : Nat) : List α :=
  match d[i]?, d[j]? with
  | some x, some y => (d.set i y).set j x
  | _, _ => d

/-- `a <= b` for the elements at two positions. Modelling device: stands for no code of the crate. -/
def leAt (le : α → α → Bool) (d : List α) (i j : Nat) : Bool :=
  match d[i]?, d[j]? with
  | some x, some y => le x y
  | _, _ => true

/-- std, `BinaryHeap::sift_up(0, pos)`, with fuel at least `pos`.  Used through iter.rs 346. -/
def siftUp (le : α → α → Bool) : Nat → Nat → List α → List α
  | 0, _, d => d
  | fuel + 1, pos, d =>
    if 0 < pos then
      let parent := (pos - 1) / 2
      if leAt le d pos parent then d else siftUp le fuel parent (swap d pos parent)
    else d

/-- std, `BinaryHeap::sift_down_to_bottom`, the loop with the hole at `pos`, with fuel at least `len - pos`: the array, and where the hole ends.
    Used through iter.rs 346. -/
def siftDown (le : α → α → Bool) : Nat → Nat → List α → List α × Nat
  | 0, pos, d => (d, pos)
  | fuel + 1, pos, d =>
    let child := 2 * pos + 1
    if child ≤ d.length - 2 then
      let child := if leAt le d child (child + 1) then child + 1 else child
      siftDown le fuel child (swap d pos child)
    else if child = d.length - 1 then (swap d pos child, child)
    else (d, pos)

/-- std, `BinaryHeap::push`.  iter.rs 367, 396, 403. -/
def push (le : α → α → Bool) (x : α) (d : List α) : List α := siftUp le d.length d.length (d ++ [x])

/-- std, `BinaryHeap::pop`.  iter.rs 387. -/
def pop (le : α → α → Bool) (d : List α) : Option (α × List α) :=
  match d.getLast? with
  | none => none
  | some item =>
    match d.dropLast with
    | [] => some (item, [])
    | top :: rest =>
      let (d, pos) := siftDown le (rest.length + 1) 0 (item :: rest)
      some (top, siftUp le pos pos d)

/-- iter.rs 307-346: `a <= b` for `Ranked<Reverse<(Metric, usize)>, _>`: compares the scores, the other way round. -/
def leRanked {M T : Type} [LE M] [DecidableLE M] (a b : Score M × T) : Bool :=
  if b.1.metric ≤ a.1.metric then
    if a.1.metric ≤ b.1.metric then decide (b.1.level ≤ a.1.level) else true
  else false

end RTree.BinaryHeap
