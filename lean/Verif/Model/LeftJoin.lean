import Verif.Model.Iter
/-!
# Left joins (left_join.rs, iter_stack.rs 313-380)

Every yielded right-hand iterator works on its own stack: that the reused allocation (rc_mut.rs) never aliases is the
subject of `Verif/Model/RcMut.lean`.
-/

namespace RTree

/-- left_join.rs 20-23 (`RewindableIter`). -/
structure RewindIter (α : Type) where
  slice : List α
  i : Nat

namespace RewindIter

variable {α : Type}

/-- left_join.rs 26-28 (`new`). -/
def new (slice : List α) : RewindIter α := ⟨slice, 0⟩

/-- left_join.rs 30-32 (`rewind`). -/
def rewind (it : RewindIter α) : RewindIter α := ⟨it.slice, 0⟩

/-- left_join.rs 34-36 (`remainder_iter`): `slice[i..]` panics if `i` is too large. -/
def remainder (it : RewindIter α) : Res (List α) :=
  if it.i ≤ it.slice.length then .ok (it.slice.drop it.i) else .error .indexOutOfBounds

/-- left_join.rs 42-50 (`next`). -/
def next (it : RewindIter α) : Option α × RewindIter α :=
  if h : it.i < it.slice.length then (some it.slice[it.i], ⟨it.slice, it.i + 1⟩) else (none, it)

/-- `Iterator::find`: calls `next` until the predicate holds (at most `n` times). iter_stack.rs 354. -/
def findLoop (p : α → Bool) : Nat → RewindIter α → Res (Option α × RewindIter α)
  | 0, _ => .error .diverge
  | n + 1, it =>
    match it.next with
    | (some x, it) => if p x then .ok (some x, it) else findLoop p n it
    | (none, it) => .ok (none, it)

/-- `Iterator::find`. iter_stack.rs 354. -/
def find (p : α → Bool) (it : RewindIter α) : Res (Option α × RewindIter α) :=
  findLoop p (it.slice.length + 1) it

end RewindIter

namespace InnerIterStack

variable {L I : Type} {B K V : Type}

/-- iter_stack.rs 259-266, 278-284 (`IndexMut` by a range): `s[start..stop]` panics unless `start <= stop <= s.len()`. -/
def checkRange (s : IterStack L I) (start stop : Nat) : Res Unit :=
  if start ≤ stop ∧ stop ≤ s.length then .ok () else .error .indexOutOfBounds

/-- iter_stack.rs 326-344 (`next`), 346-365 (`find`): the loop at position `i` of the range `start .. stop` (`start` is at
    least one, written `start0 + 1`); `step` is `Iterator::next` or `Iterator::find` of the inner iterators and `mk` makes
    an inner iterator of a node's children. -/
def findLoop (step : I → Res (Option (Node B K V) × I)) (mk : List (Node B K V) → I) (start0 stop : Nat) :
    Nat → Nat → IterStack L I → Res (Option (Node B K V) × IterStack L I)
  | fuel, i, s =>
    if start0 + 1 + i < stop then
      match fuel with
      | 0 => .error .diverge
      | fuel + 1 => do
        let it ← s.getInner (start0 + i)
        let (found, it) ← step it
        let s ← s.setInner (start0 + i) it
        match found with
        | some child =>
          match i with
          | 0 => pure (some child, s)
          | i' + 1 => do
            let s ← s.setInner (start0 + i') (mk (← child.innerChildren))
            findLoop step mk start0 stop fuel i' s
        | none => findLoop step mk start0 stop fuel (i + 1) s
    else .ok (none, s)

end InnerIterStack

/-- left_join.rs 17-18 (`RewindableTreeIter`). -/
abbrev RewindTreeIter (B K V : Type) := IterStack (RewindIter (K × V)) (RewindIter (Node B K V))

/-- Number of nodes and entries that the inner iterators can still visit; only used to bound loops.
    Modelling device: a bound that makes loops structurally recursive; stands for no code. -/
def RewindTreeIter.weight {B K V : Type} (s : RewindTreeIter B K V) : Nat :=
  (s.map fun | .leaf _ => 0 | .inner it => weightList (it.slice.drop it.i)).sum

variable {BL BR KL KR VL VR QL QR : Type}

/-- left_join.rs 53-63 (`LeftJoinIter`, without the filter and the allocation). -/
structure LeftJoinIter (BL BR KL KR VL VR : Type) where
  left : TreeIter BL KL VL
  right : RewindTreeIter BR KR VR

namespace LeftJoinIter

/-- left_join.rs 108-139 (`LeftJoinIter::new`). -/
def new (rootL : Node BL KL VL) (levelL : Nat) (rootR : Node BR KR VR) (levelR : Nat) :
    Res (LeftJoinIter BL BR KL KR VL VR) := do
  let left : TreeIter BL KL VL := IterStack.newBox [] (List.replicate (levelL + 1) [])
  let left ← left.setInner levelL [rootL]
  let right : RewindTreeIter BR KR VR := IterStack.newBox (.new []) (List.replicate (levelR + 1) (.new []))
  let right ← right.setInner levelR (.new [rootR])
  pure ⟨left, right⟩

/-- left_join.rs 65-75 (`iterate_left_children`). -/
def iterateLeftChildren (s : TreeIter BL KL VL) (node : Node BL KL VL) : Nat → Res (TreeIter BL KL VL)
  | l + 1 => do s.setInner l (← node.innerChildren)
  | 0 => do s.setLeaf (← node.leafChildren)

/-- left_join.rs 77-90 (`iterate_right_children`). -/
def iterateRightChildren (s : RewindTreeIter BR KR VR) (node : Option (Node BR KR VR)) : Nat →
    Res (RewindTreeIter BR KR VR)
  | l + 1 =>
    match node with
    | some n => do s.setInner l (.new (← n.innerChildren))
    | none => s.setInner l (.new [])
  | 0 =>
    match node with
    | some n => do s.setLeaf (.new (← n.leafChildren))
    | none => s.setLeaf (.new [])

/-- left_join.rs 92-100 (`rewind`): positions `i .. stop` of the range whose last position is `stop - 1`; indices are
    shifted by one (the range never includes entry 0). -/
def rewindLoop (stop : Nat) : Nat → Nat → RewindTreeIter BR KR VR → Res (RewindTreeIter BR KR VR)
  | 0, _, s => .ok s
  | n + 1, i, s =>
    if i + 1 = stop then do
      let it ← s.getInner i
      let s ← s.setInner i it.rewind
      rewindLoop stop n (i + 1) s
    else do
      let s ← s.setInner i (.new [])
      rewindLoop stop n (i + 1) s

/-- left_join.rs 187-192, 240-245 (`iter_right`): where the range of right iterators at `l + 1` ends. -/
def rightStop (it : LeftJoinIter BL BR KL KR VL VR) (l : Nat) : Nat :=
  if l + 2 = it.left.length then it.right.length else l + 2

/-- left_join.rs 177-182 (`iter_left`): where the range of left iterators at `l + 1` ends. -/
def leftStop (it : LeftJoinIter BL BR KL KR VL VR) (l : Nat) : Nat :=
  if l + 2 = it.right.length then it.left.length else l + 2

/-- `slice::Iter::next`. left_join.rs 208, iter_stack.rs 333. -/
def sliceNext {α : Type} : List α → Res (Option α × List α)
  | [] => .ok (none, [])
  | a :: as => .ok (some a, as)

/-- iter_stack.rs 198-217 (`map_into`), for the inner iterators from position `i`. -/
def remainderLoop (s : RewindTreeIter BR KR VR) : Nat → Nat → Res (List (List (Node BR KR VR)))
  | 0, _ => .ok []
  | n + 1, i => do
    let cs ← (← s.getInner i).remainder
    pure (cs :: (← remainderLoop s n (i + 1)))

/-- left_join.rs 209-219, 34-36 (`remainder_iter`), iter_stack.rs 198-217 (`map_into`): the stack handed to the right-hand
    iterator. -/
def remainders (s : RewindTreeIter BR KR VR) : Res (TreeIter BR KR VR) := do
  let leaf ← (← s.getLeaf).remainder
  let inner ← remainderLoop s (s.length - 1) 0
  pure (IterStack.newBox leaf inner)

/-- left_join.rs 160-251 (`next`): the loop at `level`, with fuel; `minHeight` is `cmp::min(left.len(), right.len())`. -/
def nextLoop (f : JoinFilter BL BR QL QR) (minHeight : Nat) : Nat → Nat → LeftJoinIter BL BR KL KR VL VR →
    Res (Option ((KL × VL) × TreeIter BR KR VR) × LeftJoinIter BL BR KL KR VL VR)
  | 0, _, _ => .error .diverge
  | fuel + 1, level, it =>
    let ascend (it : LeftJoinIter BL BR KL KR VL VR) : Res _ :=
      if level + 1 = minHeight then .ok (none, it)
      else do
        let stop := it.rightStop level
        InnerIterStack.checkRange it.right (level + 1) stop
        let right ← rewindLoop (stop - 1) (stop - (level + 1)) level it.right
        nextLoop f minHeight fuel (level + 1) ⟨it.left, right⟩
    match level with
    | l + 1 => do
      let stop := it.leftStop l
      InnerIterStack.checkRange it.left (l + 1) stop
      let (nodeLeft, left) ← InnerIterStack.findLoop sliceNext id l stop ((it.left.weight + 1) * (it.left.length + 1)) 0 it.left
      let it : LeftJoinIter BL BR KL KR VL VR := ⟨left, it.right⟩
      match nodeLeft with
      | some nodeLeft => do
        let stop := it.rightStop l
        InnerIterStack.checkRange it.right (l + 1) stop
        let (nodeRight, right) ← InnerIterStack.findLoop (RewindIter.find fun n => f.testBounds nodeLeft.bounds n.bounds)
          RewindIter.new l stop ((it.right.weight + 1) * (it.right.length + 1)) 0 it.right
        let left ← iterateLeftChildren it.left nodeLeft l
        let right ← iterateRightChildren right nodeRight l
        nextLoop f minHeight fuel l ⟨left, right⟩
      | none => ascend it
    | 0 => do
      match ← it.left.getLeaf with
      | e :: rest => do
        let left ← it.left.setLeaf rest
        let stack ← remainders it.right
        pure (some (e, stack), ⟨left, it.right⟩)
      | [] => ascend it

/-- left_join.rs 160-251 (`next`). -/
def next (f : JoinFilter BL BR QL QR) (it : LeftJoinIter BL BR KL KR VL VR) :
    Res (Option ((KL × VL) × TreeIter BR KR VR) × LeftJoinIter BL BR KL KR VL VR) :=
  let minHeight := min it.left.length it.right.length
  if minHeight = 0 then .ok (none, it)
  else nextLoop f minHeight ((it.left.weight + 1) * (it.left.length + 1)) 0 it

/-- Calling `next` until it returns `None` (at most `n` times), and collecting every yielded right-hand iterator
    (left_join.rs 220-223: filtered by `JoiningFilter::new(key.borrow(), filter)`). -/
def collectLoop [Bounded QL BL] (borrowL : KL → QL) (borrowR : KR → QR) (f : JoinFilter BL BR QL QR) :
    Nat → LeftJoinIter BL BR KL KR VL VR → Res (List ((KL × VL) × List (KR × VR)))
  | 0, _ => .error .diverge
  | n + 1, it => do
    match ← next f it with
    | (some (e, stack), it) => do
      let matched ← stack.collect borrowR (joiningFilter (borrowL e.1) f)
      pure ((e, matched) :: (← collectLoop borrowL borrowR f n it))
    | (none, _) => pure []

end LeftJoinIter

/-- lib.rs 278-292 (`RTree::left_join`): everything yielded, with everything the right-hand iterators yield. -/
def Tree.leftJoin [Bounded QL BL] (borrowL : KL → QL) (borrowR : KR → QR) (f : JoinFilter BL BR QL QR) (tl : Tree BL KL VL)
    (tr : Tree BR KR VR) : Res (List ((KL × VL) × List (KR × VR))) := do
  let it ← LeftJoinIter.new tl.root tl.level tr.root tr.level
  LeftJoinIter.collectLoop borrowL borrowR f (it.left.weight + 1) it

end RTree
