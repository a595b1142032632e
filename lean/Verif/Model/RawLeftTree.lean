import Verif.Model.RawJoin
import Verif.Model.LeftJoin
/-!
# Left joins of trees in raw memory (left_join.rs, iter_stack.rs 313-380, iter.rs 69-102, 144-173)

The trees are in memory, and an iterator over the children of a node is a slice of memory with a position.  Simplified: both trees have the same types and are in one
memory, and the stacks are values (the stacks themselves in raw memory, and the boxes they share, are the subject of `Verif/Model/RawLeft.lean`).
-/

namespace RTree.Raw

variable {B K V Q : Type}

/-- A `&[Node]`: empty, a root alone (`slice::from_ref`), or the children of a node. left_join.rs 65-90, 116-133. -/
inductive NodeSlice (B : Type) where
  | none
  | one (n : RNode B)
  | all (v : FCVec)

/-- The length of a slice. left_join.rs 43. -/
def NodeSlice.len : NodeSlice B → Nat
  | .none => 0
  | .one _ => 1
  | .all v => v.len

/-- An element of a slice. left_join.rs 44. -/
def NodeSlice.at (E : TEnv) : NodeSlice B → Nat → TM B K V (RNode B)
  | .none, _ => panic .indexOutOfBounds
  | .one n, 0 => pure n
  | .one _, _ + 1 => panic .indexOutOfBounds
  | .all v, i => nodeAt E v i

/-- A `&[(Key, Value)]`: empty, or the entries of a leaf. left_join.rs 65-90, 113-131. -/
inductive EntrySlice where
  | none
  | all (v : FCVec)

/-- The length of a slice. left_join.rs 43. -/
def EntrySlice.len : EntrySlice → Nat
  | .none => 0
  | .all v => v.len

/-- An element of a slice. left_join.rs 44. -/
def EntrySlice.at (E : TEnv) : EntrySlice → Nat → TM B K V (K × V)
  | .none, _ => panic .indexOutOfBounds
  | .all v, i => do
    let cell ← v.get E.entry i
    lift cell.asEntry

/-- left_join.rs 20-23 (`RewindableIter`), and `slice::Iter` likewise: a slice and the number of elements already yielded. -/
structure Cursor (σ : Type) where
  slice : σ
  i : Nat

/-- left_join.rs 42-50 (`RewindableIter::next`), and `slice::Iter::next` (iter_stack.rs 333, left_join.rs 208). -/
def nextNode (E : TEnv) (c : Cursor (NodeSlice B)) : TM B K V (Option (RNode B) × Cursor (NodeSlice B)) :=
  if c.i < c.slice.len then do
    let n ← c.slice.at E c.i
    pure (some n, ⟨c.slice, c.i + 1⟩)
  else pure (none, c)

/-- left_join.rs 208 (`slice::Iter::next`). -/
def nextEntry (E : TEnv) (c : Cursor EntrySlice) : TM B K V (Option (K × V) × Cursor EntrySlice) :=
  if c.i < c.slice.len then do
    let e ← c.slice.at E c.i
    pure (some e, ⟨c.slice, c.i + 1⟩)
  else pure (none, c)

/-- `Iterator::find`, on at most `n` elements. iter_stack.rs 354, iter.rs 78. -/
def findNode (E : TEnv) (p : RNode B → Bool) : Nat → Cursor (NodeSlice B) → TM B K V (Option (RNode B) × Cursor (NodeSlice B))
  | 0, _ => panic .diverge
  | n + 1, c => do
    let (o, c) ← nextNode E c
    match o with
    | some x => (if p x then pure (some x, c) else findNode E p n c : TM B K V (Option (RNode B) × Cursor (NodeSlice B)))
    | none => pure (none, c)

/-- `Iterator::find`, on at most `n` elements. iter.rs 91-94. -/
def findEntry (E : TEnv) (p : K × V → Bool) : Nat → Cursor EntrySlice → TM B K V (Option (K × V) × Cursor EntrySlice)
  | 0, _ => panic .diverge
  | n + 1, c => do
    let (o, c) ← nextEntry E c
    match o with
    | some x => (if p x then pure (some x, c) else findEntry E p n c : TM B K V (Option (K × V) × Cursor EntrySlice))
    | none => pure (none, c)

/-- iter.rs 19-20 (`TreeIter`), left_join.rs 17-18 (`RewindableTreeIter`). -/
abbrev SliceStack (B : Type) := IterStack (Cursor EntrySlice) (Cursor (NodeSlice B))

/-- iter_stack.rs 326-344 (`InnerIterStack::next`), 346-365 (`find`): the loop at position `i` of the range `start0 + 1 .. stop`. -/
def findInner (step : Cursor (NodeSlice B) → TM B K V (Option (RNode B) × Cursor (NodeSlice B))) (start0 stop : Nat) :
    Nat → Nat → SliceStack B → TM B K V (Option (RNode B) × SliceStack B)
  | fuel, i, s =>
    if start0 + 1 + i < stop then
      match fuel with
      | 0 => panic .diverge
      | fuel + 1 => do
        let it ← lift (s.getInner (start0 + i))
        let (found, it) ← step it
        let s ← lift (s.setInner (start0 + i) it)
        match found with
        | some child =>
          match i with
          | 0 => pure (some child, s)
          | i' + 1 => do
            let s ← lift (s.setInner (start0 + i') ⟨.all child.vec, 0⟩)
            findInner step start0 stop fuel i' s
        | none => findInner step start0 stop fuel (i + 1) s
    else pure (none, s)

/-- left_join.rs 53-63 (`LeftJoinIter`, without the filter and the allocation). -/
structure MemLeftJoin (B : Type) where
  left : SliceStack B
  right : SliceStack B

namespace MemLeftJoin

/-- left_join.rs 108-139 (`LeftJoinIter::new`). -/
def new (rootL : RNode B) (levelL : Nat) (rootR : RNode B) (levelR : Nat) : Res (MemLeftJoin B) := do
  let left : SliceStack B := IterStack.newBox ⟨.none, 0⟩ (List.replicate (levelL + 1) ⟨.none, 0⟩)
  let left ← left.setInner levelL ⟨.one rootL, 0⟩
  let right : SliceStack B := IterStack.newBox ⟨.none, 0⟩ (List.replicate (levelR + 1) ⟨.none, 0⟩)
  let right ← right.setInner levelR ⟨.one rootR, 0⟩
  pure ⟨left, right⟩

/-- left_join.rs 65-75 (`iterate_left_children`), 77-90 (`iterate_right_children`). -/
def iterateChildren (s : SliceStack B) (node : Option (RNode B)) : Nat → Res (SliceStack B)
  | l + 1 =>
    match node with
    | some n => s.setInner l ⟨.all n.vec, 0⟩
    | none => s.setInner l ⟨.none, 0⟩
  | 0 =>
    match node with
    | some n => s.setLeaf ⟨.all n.vec, 0⟩
    | none => s.setLeaf ⟨.none, 0⟩

/-- left_join.rs 92-100 (`rewind`): `n` positions from `i` on, of a range whose last position is `stop - 1`; indices are shifted by one. -/
def rewindLoop (stop : Nat) : Nat → Nat → SliceStack B → Res (SliceStack B)
  | 0, _, s => .ok s
  | n + 1, i, s =>
    if i + 1 = stop then do
      let it ← s.getInner i
      let s ← s.setInner i ⟨it.slice, 0⟩
      rewindLoop stop n (i + 1) s
    else do
      let s ← s.setInner i ⟨.none, 0⟩
      rewindLoop stop n (i + 1) s

/-- left_join.rs 187-192, 240-245 (`iter_right`): where the range of right iterators at `l + 1` ends. -/
def rightStop (it : MemLeftJoin B) (l : Nat) : Nat := if l + 2 = it.left.length then it.right.length else l + 2

/-- left_join.rs 177-182 (`iter_left`): where the range of left iterators at `l + 1` ends. -/
def leftStop (it : MemLeftJoin B) (l : Nat) : Nat := if l + 2 = it.right.length then it.left.length else l + 2

/-- left_join.rs 34-36 (`remainder_iter`): `slice[i..]` panics if `i` is too large. -/
def remainder {σ : Type} (len : σ → Nat) (c : Cursor σ) : Res (Cursor σ) := if c.i ≤ len c.slice then .ok c else .error .indexOutOfBounds

/-- iter_stack.rs 198-217 (`map_into`), for the inner iterators from position `i`. -/
def remainderLoop (s : SliceStack B) : Nat → Nat → Res (List (Cursor (NodeSlice B)))
  | 0, _ => .ok []
  | n + 1, i => do
    let c ← remainder NodeSlice.len (← s.getInner i)
    pure (c :: (← remainderLoop s n (i + 1)))

/-- left_join.rs 209-219, iter_stack.rs 198-217 (`map_into`): the stack handed to the right-hand iterator. -/
def remainders (s : SliceStack B) : Res (SliceStack B) := do
  let leaf ← remainder EntrySlice.len (← s.getLeaf)
  let inner ← remainderLoop s (s.length - 1) 0
  pure (IterStack.newBox leaf inner)

/-- left_join.rs 235-247 (`Op::Ascend`): leaves `level`; `loop` is the loop of `next` at the level above. -/
def ascend {β : Type} (minHeight level : Nat) (loop : MemLeftJoin B → TM B K V (Option β × MemLeftJoin B)) (it : MemLeftJoin B) : TM B K V (Option β × MemLeftJoin B) :=
  if level + 1 = minHeight then pure (none, it)
  else do
    lift (InnerIterStack.checkRange it.right (level + 1) (it.rightStop level))
    let right ← lift (rewindLoop (it.rightStop level - 1) (it.rightStop level - (level + 1)) level it.right)
    loop ⟨it.left, right⟩

/-- left_join.rs 160-251 (`next`): the loop at `level`, with fuel; `inner` is fuel for the loops over the stacks. -/
def nextLoop (E : TEnv) (f : JoinFilter B B Q Q) (inner minHeight : Nat) : Nat → Nat → MemLeftJoin B → TM B K V (Option ((K × V) × SliceStack B) × MemLeftJoin B)
  | 0, _, _ => panic .diverge
  | fuel + 1, level, it =>
    match level with
    | l + 1 => do
      lift (InnerIterStack.checkRange it.left (l + 1) (it.leftStop l))
      let (nodeLeft, left) ← findInner (nextNode E) l (it.leftStop l) inner 0 it.left
      let it : MemLeftJoin B := ⟨left, it.right⟩
      match nodeLeft with
      | some nodeLeft => do
        lift (InnerIterStack.checkRange it.right (l + 1) (it.rightStop l))
        let (nodeRight, right) ← findInner (fun c => findNode E (fun n => f.testBounds nodeLeft.bounds n.bounds) (c.slice.len + 1) c) l (it.rightStop l) inner 0 it.right
        let left ← lift (iterateChildren it.left (some nodeLeft) l)
        let right ← lift (iterateChildren right nodeRight l)
        nextLoop E f inner minHeight fuel l ⟨left, right⟩
      | none => ascend minHeight (l + 1) (nextLoop E f inner minHeight fuel (l + 2)) it
    | 0 => do
      let c ← lift it.left.getLeaf
      let (o, c) ← nextEntry E c
      match o with
      | some e => do
        let left ← lift (it.left.setLeaf c)
        let stack ← lift (remainders it.right)
        pure (some (e, stack), ⟨left, it.right⟩)
      | none => ascend minHeight 0 (nextLoop E f inner minHeight fuel 1) it

/-- left_join.rs 160-251 (`next`). -/
def next (E : TEnv) (f : JoinFilter B B Q Q) (fuel : Nat) (it : MemLeftJoin B) : TM B K V (Option ((K × V) × SliceStack B) × MemLeftJoin B) :=
  let minHeight := min it.left.length it.right.length
  if minHeight = 0 then pure (none, it)
  else nextLoop E f fuel minHeight fuel 0 it

end MemLeftJoin

namespace SliceStack

/-- iter.rs 69-102 (`Iter::next`), 160-173 (`FilterIter::next`): the loop at `level`, with fuel. -/
def nextLoop (E : TEnv) (borrow : K → Q) (f : SpatialFilter B Q) : Nat → Nat → SliceStack B → TM B K V (Option (K × V) × SliceStack B)
  | fuel, level, s =>
    if level < s.length then
      match fuel with
      | 0 => panic .diverge
      | fuel + 1 =>
        match level with
        | l + 1 => do
          let it ← lift (s.getInner l)
          let (found, it) ← findNode E (fun n => f.testBounds n.bounds) (it.slice.len + 1) it
          let s ← lift (s.setInner l it)
          match found with
          | some node => do
            let s ← lift (MemLeftJoin.iterateChildren s (some node) l)
            nextLoop E borrow f fuel l s
          | none => nextLoop E borrow f fuel (l + 2) s
        | 0 => do
          let it ← lift s.getLeaf
          let (found, it) ← findEntry E (fun e => f.testKey (borrow e.1)) (it.slice.len + 1) it
          let s ← lift (s.setLeaf it)
          match found with
          | some e => pure (some e, s)
          | none => nextLoop E borrow f fuel 1 s
    else pure (none, s)

/-- Calling `next` until it returns `None` (at most `n` times). Client code: iter.rs 170-172 (`Iterator::next`) called repeatedly. -/
def collectLoop (E : TEnv) (borrow : K → Q) (f : SpatialFilter B Q) (fuel : Nat) : Nat → SliceStack B → TM B K V (List (K × V))
  | 0, _ => panic .diverge
  | n + 1, s => do
    let (o, s) ← nextLoop E borrow f fuel 0 s
    match o with
    | some e => do
      let es ← collectLoop E borrow f fuel n s
      pure (e :: es)
    | none => pure []

end SliceStack

/-- Calling `next` until it returns `None` (at most `n` times), and collecting every yielded right-hand iterator before the next call. Client code: left_join.rs 160-251
    (`Iterator::next`) called repeatedly. -/
def MemLeftJoin.collectLoop [Bounded Q B] (E : TEnv) (borrow : K → Q) (f : JoinFilter B B Q Q) (fuel : Nat) : Nat → MemLeftJoin B → TM B K V (List ((K × V) × List (K × V)))
  | 0, _ => panic .diverge
  | n + 1, it => do
    let (o, it) ← MemLeftJoin.next E f fuel it
    match o with
    | some (e, stack) => do
      let matched ← SliceStack.collectLoop E borrow (joiningFilter (borrow e.1) f) fuel fuel stack
      let rest ← MemLeftJoin.collectLoop E borrow f fuel n it
      pure ((e, matched) :: rest)
    | none => pure []

/-- A bound for loops over the stack of a tree of this height. Modelling device: a bound that makes loops structurally recursive; stands for no code. -/
def stackFuel (cap level : Nat) : Nat := ((level + 2) * (cap + 1) ^ (level + 3) + 1) * (level + 3)

namespace RTree

/-- lib.rs 278-292 (`RTree::left_join`): everything yielded, with everything the right-hand iterators yield. -/
def leftJoin [Bounded Q B] (E : TEnv) (borrow : K → Q) (f : JoinFilter B B Q Q) (t0 t1 : RTree B) : TM B K V (List ((K × V) × List (K × V))) := do
  let it ← lift (MemLeftJoin.new t0.root t0.level t1.root t1.level)
  let fuel := stackFuel t0.alloc.maxChildren t0.level + stackFuel t1.alloc.maxChildren t1.level
  MemLeftJoin.collectLoop E borrow f fuel fuel it

end RTree

end RTree.Raw
