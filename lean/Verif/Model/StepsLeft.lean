import Verif.Model.Steps
import Verif.Model.RawLeftTree
/-!
# Left joins of trees in raw memory, as single accesses (left_join.rs, iter_stack.rs 313-380, iter.rs 69-102, 144-173)

`Verif/Model/RawLeftTree.lean` written as programs of single accesses to blocks; that running them alone gives the functions there is proved (`C81_same_code`).
-/

namespace RTree.Raw.Steps

variable {B K V Q : Type}

/-- An element of a slice. left_join.rs 44. -/
def NodeSlice.at (E : TEnv) : NodeSlice B → Nat → Prog (Cell B K V) (RNode B)
  | .none, _ => panic .indexOutOfBounds
  | .one n, 0 => pure n
  | .one _, _ + 1 => panic .indexOutOfBounds
  | .all v, i => nodeAt E v i

/-- An element of a slice. left_join.rs 44. -/
def EntrySlice.at (E : TEnv) : EntrySlice → Nat → Prog (Cell B K V) (K × V)
  | .none, _ => panic .indexOutOfBounds
  | .all v, i => do
    let cell ← FCVec.get E.entry v i
    lift cell.asEntry

/-- left_join.rs 42-50 (`RewindableIter::next`), and `slice::Iter::next` (iter_stack.rs 333, left_join.rs 208). -/
def nextNode (E : TEnv) (c : Cursor (NodeSlice B)) : Prog (Cell B K V) (Option (RNode B) × Cursor (NodeSlice B)) :=
  if c.i < c.slice.len then do
    let n ← NodeSlice.at E c.slice c.i
    pure (some n, ⟨c.slice, c.i + 1⟩)
  else pure (none, c)

/-- left_join.rs 208 (`slice::Iter::next`). -/
def nextEntry (E : TEnv) (c : Cursor EntrySlice) : Prog (Cell B K V) (Option (K × V) × Cursor EntrySlice) :=
  if c.i < c.slice.len then do
    let e ← EntrySlice.at E c.slice c.i
    pure (some e, ⟨c.slice, c.i + 1⟩)
  else pure (none, c)

/-- `Iterator::find`, on at most `n` elements. iter_stack.rs 354, iter.rs 78. -/
def findNode (E : TEnv) (p : RNode B → Bool) : Nat → Cursor (NodeSlice B) → Prog (Cell B K V) (Option (RNode B) × Cursor (NodeSlice B))
  | 0, _ => panic .diverge
  | n + 1, c => do
    let (o, c) ← nextNode E c
    match o with
    | some x => (if p x then pure (some x, c) else findNode E p n c : Prog (Cell B K V) (Option (RNode B) × Cursor (NodeSlice B)))
    | none => pure (none, c)

/-- `Iterator::find`, on at most `n` elements. iter.rs 91-94. -/
def findEntry (E : TEnv) (p : K × V → Bool) : Nat → Cursor EntrySlice → Prog (Cell B K V) (Option (K × V) × Cursor EntrySlice)
  | 0, _ => panic .diverge
  | n + 1, c => do
    let (o, c) ← nextEntry E c
    match o with
    | some x => (if p x then pure (some x, c) else findEntry E p n c : Prog (Cell B K V) (Option (K × V) × Cursor EntrySlice))
    | none => pure (none, c)

/-- iter_stack.rs 326-344 (`InnerIterStack::next`), 346-365 (`find`): the loop at position `i` of the range `start0 + 1 .. stop`. -/
def findInner (step : Cursor (NodeSlice B) → Prog (Cell B K V) (Option (RNode B) × Cursor (NodeSlice B))) (start0 stop : Nat) :
    Nat → Nat → SliceStack B → Prog (Cell B K V) (Option (RNode B) × SliceStack B)
  | fuel, i, s =>
    if start0 + 1 + i < stop then
      match fuel with
      | 0 => panic .diverge
      | fuel + 1 => do
        let it ← lift (s.getInner (start0 + i))
        let (found, it) ← step it
        let s ← lift (s.setInner (start0 + i) it)
        match found with
        | some child =>
          match i with
          | 0 => pure (some child, s)
          | i' + 1 => do
            let s ← lift (s.setInner (start0 + i') ⟨.all child.vec, 0⟩)
            findInner step start0 stop fuel i' s
        | none => findInner step start0 stop fuel (i + 1) s
    else pure (none, s)

namespace MemLeftJoin

/-- left_join.rs 235-247 (`Op::Ascend`): leaves `level`; `loop` is the loop of `next` at the level above. -/
def ascend {β : Type} (minHeight level : Nat) (loop : MemLeftJoin B → Prog (Cell B K V) (Option β × MemLeftJoin B)) (it : MemLeftJoin B) : Prog (Cell B K V) (Option β × MemLeftJoin B) :=
  if level + 1 = minHeight then pure (none, it)
  else do
    lift (InnerIterStack.checkRange it.right (level + 1) (it.rightStop level))
    let right ← lift (Raw.MemLeftJoin.rewindLoop (it.rightStop level - 1) (it.rightStop level - (level + 1)) level it.right)
    loop ⟨it.left, right⟩

/-- left_join.rs 160-251 (`next`): the loop at `level`, with fuel; `inner` is fuel for the loops over the stacks. -/
def nextLoop (E : TEnv) (f : JoinFilter B B Q Q) (inner minHeight : Nat) : Nat → Nat → MemLeftJoin B → Prog (Cell B K V) (Option ((K × V) × SliceStack B) × MemLeftJoin B)
  | 0, _, _ => panic .diverge
  | fuel + 1, level, it =>
    match level with
    | l + 1 => do
      lift (InnerIterStack.checkRange it.left (l + 1) (it.leftStop l))
      let (nodeLeft, left) ← findInner (nextNode E) l (it.leftStop l) inner 0 it.left
      let it : MemLeftJoin B := ⟨left, it.right⟩
      match nodeLeft with
      | some nodeLeft => do
        lift (InnerIterStack.checkRange it.right (l + 1) (it.rightStop l))
        let (nodeRight, right) ← findInner (fun c => findNode E (fun n => f.testBounds nodeLeft.bounds n.bounds) (c.slice.len + 1) c) l (it.rightStop l) inner 0 it.right
        let left ← lift (Raw.MemLeftJoin.iterateChildren it.left (some nodeLeft) l)
        let right ← lift (Raw.MemLeftJoin.iterateChildren right nodeRight l)
        nextLoop E f inner minHeight fuel l ⟨left, right⟩
      | none => ascend minHeight (l + 1) (nextLoop E f inner minHeight fuel (l + 2)) it
    | 0 => do
      let c ← lift it.left.getLeaf
      let (o, c) ← nextEntry E c
      match o with
      | some e => do
        let left ← lift (it.left.setLeaf c)
        let stack ← lift (Raw.MemLeftJoin.remainders it.right)
        pure (some (e, stack), ⟨left, it.right⟩)
      | none => ascend minHeight 0 (nextLoop E f inner minHeight fuel 1) it

/-- left_join.rs 160-251 (`next`). -/
def next (E : TEnv) (f : JoinFilter B B Q Q) (fuel : Nat) (it : MemLeftJoin B) : Prog (Cell B K V) (Option ((K × V) × SliceStack B) × MemLeftJoin B) :=
  let minHeight := min it.left.length it.right.length
  if minHeight = 0 then pure (none, it)
  else nextLoop E f fuel minHeight fuel 0 it

end MemLeftJoin

namespace SliceStack

/-- iter.rs 69-102 (`Iter::next`), 160-173 (`FilterIter::next`): the loop at `level`, with fuel. -/
def nextLoop (E : TEnv) (borrow : K → Q) (f : SpatialFilter B Q) : Nat → Nat → SliceStack B → Prog (Cell B K V) (Option (K × V) × SliceStack B)
  | fuel, level, s =>
    if level < s.length then
      match fuel with
      | 0 => panic .diverge
      | fuel + 1 =>
        match level with
        | l + 1 => do
          let it ← lift (s.getInner l)
          let (found, it) ← findNode E (fun n => f.testBounds n.bounds) (it.slice.len + 1) it
          let s ← lift (s.setInner l it)
          match found with
          | some node => do
            let s ← lift (Raw.MemLeftJoin.iterateChildren s (some node) l)
            nextLoop E borrow f fuel l s
          | none => nextLoop E borrow f fuel (l + 2) s
        | 0 => do
          let it ← lift s.getLeaf
          let (found, it) ← findEntry E (fun e => f.testKey (borrow e.1)) (it.slice.len + 1) it
          let s ← lift (s.setLeaf it)
          match found with
          | some e => pure (some e, s)
          | none => nextLoop E borrow f fuel 1 s
    else pure (none, s)

/-- Calling `next` until it returns `None` (at most `n` times). Client code: iter.rs 170-172 (`Iterator::next`) called repeatedly. -/
def collectLoop (E : TEnv) (borrow : K → Q) (f : SpatialFilter B Q) (fuel : Nat) : Nat → SliceStack B → Prog (Cell B K V) (List (K × V))
  | 0, _ => panic .diverge
  | n + 1, s => do
    let (o, s) ← nextLoop E borrow f fuel 0 s
    match o with
    | some e => do
      let es ← collectLoop E borrow f fuel n s
      pure (e :: es)
    | none => pure []

end SliceStack

/-- Calling `next` until it returns `None` (at most `n` times), and collecting every yielded right-hand iterator before the next call. Client code: left_join.rs 160-251
    (`Iterator::next`) called repeatedly. -/
def MemLeftJoin.collectLoop [Bounded Q B] (E : TEnv) (borrow : K → Q) (f : JoinFilter B B Q Q) (fuel : Nat) : Nat → MemLeftJoin B → Prog (Cell B K V) (List ((K × V) × List (K × V)))
  | 0, _ => panic .diverge
  | n + 1, it => do
    let (o, it) ← MemLeftJoin.next E f fuel it
    match o with
    | some (e, stack) => do
      let matched ← SliceStack.collectLoop E borrow (joiningFilter (borrow e.1) f) fuel fuel stack
      let rest ← MemLeftJoin.collectLoop E borrow f fuel n it
      pure ((e, matched) :: rest)
    | none => pure []

namespace RTree

/-- lib.rs 278-292 (`RTree::left_join`): everything yielded, with everything the right-hand iterators yield. -/
def leftJoin [Bounded Q B] (E : TEnv) (borrow : K → Q) (f : JoinFilter B B Q Q) (t0 t1 : RTree B) : Prog (Cell B K V) (List ((K × V) × List (K × V))) := do
  let it ← lift (Raw.MemLeftJoin.new t0.root t0.level t1.root t1.level)
  let fuel := stackFuel t0.alloc.maxChildren t0.level + stackFuel t1.alloc.maxChildren t1.level
  MemLeftJoin.collectLoop E borrow f fuel fuel it

end RTree

end RTree.Raw.Steps
