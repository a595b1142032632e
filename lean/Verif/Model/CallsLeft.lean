import Verif.Model.Callbacks
/-!
# Left joins whose filter panics or answers inconsistently (left_join.rs, iter_stack.rs 346-365, iter.rs 160-173)

As in `Model/Callbacks.lean`, `code n` is what the `n`-th call of user code answers, `none` is a panic.  The user code of a left join is the join filter (whose
clones ask the same sequence of answers), its `Clone` and the `Bounded` implementation of the left keys.  The left join and the right-hand iterators it has
yielded can be used in any order, so they are one state.  Every right-hand iterator works on its own stack (rc_mut.rs; see `Verif/Model/RcMut.lean`).
-/

namespace RTree.Calls

/-- What one call of user code would answer to the questions of a left join: `JoinFilter::test_bounds`, `JoinFilter::test_key` (filter.rs 176-198) and
    `Bounded::bounds` (bounds.rs 35-37) of a left key. -/
structure JoinCode (BL BR QL QR : Type) extends JoinFilter BL BR QL QR where
  bounds : QL → BL

variable {S F L B K V : Type}

/-- iter_stack.rs 346-365 (`InnerIterStack::find`), for a range of rewindable iterators with a predicate that is user code: the loop at position `i` of the range
    `start0 + 1 .. stop`; how it ends and the stack. -/
def findLoop (code : Nat → Option F) (test : F → Node B K V → Bool) (start0 stop : Nat) :
    Nat → Nat → IterStack L (RewindIter (Node B K V)) → M S (Except Stop (Option (Node B K V)) × IterStack L (RewindIter (Node B K V)))
  | fuel, i, s =>
    if start0 + 1 + i < stop then
      match fuel with
      | 0 => own (.error .diverge)
      | fuel + 1 => do
        let it ← own (s.getInner (start0 + i))
        let (found, it) ← searchBy code test RewindIter.next (it.slice.length + 1) it
        let s ← own (s.setInner (start0 + i) it)
        match found with
        | .error e => pure (.error e, s)
        | .ok (some child) =>
          match i with
          | 0 => pure (.ok (some child), s)
          | i' + 1 => do
            let cs ← own child.innerChildren
            let s ← own (s.setInner (start0 + i') (.new cs))
            findLoop code test start0 stop fuel i' s
        | .ok none => findLoop code test start0 stop fuel (i + 1) s
    else pure (.ok none, s)

variable {BL BR KL KR VL VR QL QR : Type}

namespace LeftJoinIter

open RTree.LeftJoinIter

/-- left_join.rs 235-247 (`Op::Ascend`): leaves `level`; `loop` is the loop of `next` at the level above. -/
def ascend (minHeight level : Nat) (loop : M (LeftJoinIter BL BR KL KR VL VR) (Option ((KL × VL) × BL × TreeIter BR KR VR))) :
    M (LeftJoinIter BL BR KL KR VL VR) (Option ((KL × VL) × BL × TreeIter BR KR VR)) :=
  if level + 1 = minHeight then pure none
  else do
    let it ← self
    let stop := it.rightStop level
    own (InnerIterStack.checkRange it.right (level + 1) stop)
    let right ← own (rewindLoop (stop - 1) (stop - (level + 1)) level it.right)
    put ⟨it.left, right⟩
    loop

/-- left_join.rs 160-251 (`next`): the loop at `level`, with fuel; what it yields is the left entry, what `bounds` answered for its key (filter.rs 211-222,
    `JoiningFilter::new`) and the stack of the right-hand iterator.  The filter is cloned, and then the bounds are asked for, when the stack has been made. -/
def nextLoop (code : Nat → Option (JoinCode BL BR QL QR)) (borrowL : KL → QL) (minHeight : Nat) : Nat → Nat →
    M (LeftJoinIter BL BR KL KR VL VR) (Option ((KL × VL) × BL × TreeIter BR KR VR))
  | 0, _ => own (.error .diverge)
  | fuel + 1, level => do
    let it ← self
    match level with
    | l + 1 => do
      let stop := it.leftStop l
      own (InnerIterStack.checkRange it.left (l + 1) stop)
      let (nodeLeft, left) ← own (InnerIterStack.findLoop sliceNext id l stop ((it.left.weight + 1) * (it.left.length + 1)) 0 it.left)
      let it : LeftJoinIter BL BR KL KR VL VR := ⟨left, it.right⟩
      put it
      match nodeLeft with
      | some nodeLeft => do
        let stop := it.rightStop l
        own (InnerIterStack.checkRange it.right (l + 1) stop)
        let (found, right) ← findLoop code (fun f (n : Node BR KR VR) => f.testBounds nodeLeft.bounds n.bounds) l stop
          ((it.right.weight + 1) * (it.right.length + 1)) 0 it.right
        put ⟨it.left, right⟩
        let nodeRight ← raise found
        let left ← own (iterateLeftChildren it.left nodeLeft l)
        let right ← own (iterateRightChildren right nodeRight l)
        put ⟨left, right⟩
        nextLoop code borrowL minHeight fuel l
      | none => ascend minHeight (l + 1) (nextLoop code borrowL minHeight fuel (l + 2))
    | 0 => do
      match ← own it.left.getLeaf with
      | e :: rest => do
        let left ← own (it.left.setLeaf rest)
        put ⟨left, it.right⟩
        let stack ← own (remainders it.right)
        let _ ← ask code
        let f ← ask code
        pure (some (e, f.bounds (borrowL e.1), stack))
      | [] => ascend minHeight 0 (nextLoop code borrowL minHeight fuel 1)

/-- left_join.rs 160-251 (`next`): the fuel suffices for every stack. -/
def next (code : Nat → Option (JoinCode BL BR QL QR)) (borrowL : KL → QL) : M (LeftJoinIter BL BR KL KR VL VR) (Option ((KL × VL) × BL × TreeIter BR KR VR)) := do
  let it ← self
  let minHeight := min it.left.length it.right.length
  if minHeight = 0 then pure none
  else nextLoop code borrowL minHeight ((it.left.weight + 1) * (it.left.length + 1)) 0

end LeftJoinIter

/-- filter.rs 200-237 (`JoiningFilter`): what the filter of a right-hand iterator asks its clone of the join filter. -/
def joiningCode (code : Nat → Option (JoinCode BL BR QL QR)) (bounds : BL) (key : QL) : Nat → Option (SpatialFilter BR QR) :=
  fun n => (code n).map fun f => ⟨fun b => f.testBounds bounds b, fun k => f.testKey key k⟩

/-- A right-hand iterator that has been yielded: left_join.rs 220-223, iter.rs 117-124 (`FilterIter`), filter.rs 202-209 (`JoiningFilter`). -/
structure RightIter (BL BR KL KR VL VR : Type) where
  entry : KL × VL
  bounds : BL
  stack : TreeIter BR KR VR

/-- A left join and the right-hand iterators it has yielded, in order.
    Modelling device: stands for no code of the crate. -/
structure LeftSession (BL BR KL KR VL VR : Type) where
  join : LeftJoinIter BL BR KL KR VL VR
  rights : List (RightIter BL BR KL KR VL VR)

/-- What a client may do: call `next` of the left join, or of the right-hand iterator with this number. Client code. -/
inductive LeftCmd where
  | next
  | right (i : Nat)

/-- How such a call ends; `none` if there is no right-hand iterator with that number. Client code. -/
inductive LeftOut (KL KR VL VR : Type) where
  | next (r : Except Stop (Option (KL × VL)))
  | right (r : Except Stop (Option (KR × VR)))
  | nothing

namespace LeftSession

/-- One call, with panics caught. Client code of left_join.rs 160-251, iter.rs 160-173. -/
def call (code : Nat → Option (JoinCode BL BR QL QR)) (borrowL : KL → QL) (borrowR : KR → QR) (s : LeftSession BL BR KL KR VL VR) (n : Nat) :
    LeftCmd → LeftOut KL KR VL VR × LeftSession BL BR KL KR VL VR × Nat
  | .next =>
    let x := LeftJoinIter.next code borrowL s.join n
    match x.1 with
    | .error e => (.next (.error e), ⟨x.2.1, s.rights⟩, x.2.2)
    | .ok none => (.next (.ok none), ⟨x.2.1, s.rights⟩, x.2.2)
    | .ok (some (e, b, stack)) => (.next (.ok (some e)), ⟨x.2.1, s.rights ++ [⟨e, b, stack⟩]⟩, x.2.2)
  | .right i =>
    match s.rights[i]? with
    | none => (.nothing, s, n)
    | some it =>
      let x := TreeIter.next (joiningCode code it.bounds (borrowL it.entry.1)) borrowR it.stack n
      (.right x.1, ⟨s.join, s.rights.set i { it with stack := x.2.1 }⟩, x.2.2)

/-- Some calls one after the other. Client code of left_join.rs 160-251, iter.rs 160-173. -/
def calls (code : Nat → Option (JoinCode BL BR QL QR)) (borrowL : KL → QL) (borrowR : KR → QR) : List LeftCmd → LeftSession BL BR KL KR VL VR → Nat →
    List (LeftOut KL KR VL VR) × LeftSession BL BR KL KR VL VR × Nat
  | [], s, n => ([], s, n)
  | cmd :: cmds, s, n =>
    let x := call code borrowL borrowR s n cmd
    let y := calls code borrowL borrowR cmds x.2.1 x.2.2
    (x.1 :: y.1, y.2)

end LeftSession

end RTree.Calls
