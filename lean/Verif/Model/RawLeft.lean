import Verif.Model.RawStack
import Verif.Model.CallsLeft
import Verif.Model.Layout
/-!
# Left joins in raw memory (left_join.rs, iter_stack.rs 58-217, 309-380, rc_mut.rs)

The left join of `Model/CallsLeft.lean`, with its two stacks in boxed slices (as in `Model/RawStack.lean`) and the stacks of the right-hand iterators in boxes of
rc_mut.rs, which the left join and a right-hand iterator can own together.

A box of rc_mut.rs is one allocation with a flag and a slice of `union Entry`s; its number is the same in `heads` (the layout it was allocated with, and the
flag) and in `values` (the slice).  Pointers to the slice are relative to its start; that the slice lies within the allocation is the subject of
`Verif/Model/Layout.lean`.

Not modelled: the guard of `init_into` when it unwinds (its entries are unions, so dropping them does nothing; and nothing panics there).
-/

namespace RTree.Raw

open Calls (own self put raise catching ask searchBy Stop JoinCode joiningCode LeftCmd LeftOut)

variable {α β : Type}

/-- rc_mut.rs 9-13 (`RcMutBox`), without the value: the layout of the allocation and `shared`. -/
structure RcHead where
  layout : Layout
  shared : Bool

/-- The boxes of rc_mut.rs; `none` if freed. Modelling device: stands for no code of the crate. -/
structure BoxMem (α : Type) where
  heads : List (Option RcHead)
  values : Heap α

/-- The layouts of the entries of the three kinds of stacks, and `isize::MAX`. iter_stack.rs 11-14 (`union Entry`), left_join.rs 14-18. -/
structure JoinEnv where
  left : Env
  right : Env
  value : Env
  align : Nat

/-- The layout of a slice of `n` entries, or a panic. iter_stack.rs 73-75 (`IterStackAllocHelper::layout`). -/
def JoinEnv.slice (J : JoinEnv) (n : Nat) : Res Layout :=
  match Layout.array J.value.maxBytes ⟨J.value.size, J.align⟩ n with
  | some l => .ok l
  | none => .error .unwrapNone

/-- rc_mut.rs 26-32 (`box_layout`). -/
def JoinEnv.boxLayout (J : JoinEnv) (n : Nat) : Res Layout := do
  match Layout.boxLayout J.value.maxBytes (← J.slice n) with
  | some l => .ok l
  | none => .error .unwrapNone

namespace BoxMem

/-- Something that is done with the values in the boxes. Modelling device: stands for no code of the crate. -/
def onValues (x : Calls.M (Heap α) β) : Calls.M (BoxMem α) β := fun m n =>
  let r := x m.values n
  (r.1, ⟨m.heads, r.2.1⟩, r.2.2)

/-- The header of a box, which must not have been freed. Modelling device: stands for no code of the crate. -/
def head (b : Nat) : Calls.M (BoxMem α) RcHead := do
  let m ← self
  match m.heads[b]? with
  | some (some c) => pure c
  | _ => own (.error .ub)

/-- `shared.set(v)`. rc_mut.rs 72, 92. -/
def setShared (b : Nat) (v : Bool) : Calls.M (BoxMem α) Unit := do
  let c ← head b
  let m ← self
  put ⟨m.heads.set b (some ⟨c.layout, v⟩), m.values⟩

/-- `shared.replace(false)`. rc_mut.rs 179-182, 198. -/
def takeShared (b : Nat) : Calls.M (BoxMem α) Bool := do
  let c ← head b
  setShared b false
  pure c.shared

/-- rc_mut.rs 34-41 (`allocate_for_layout`), 69-73 (`new_for_layout`), 162-173 (`Clone for RcMutAlloc`), for `n` entries. -/
def allocate (J : JoinEnv) (n : Nat) : Calls.M (BoxMem α) Nat := do
  let layout ← own (J.boxLayout n)
  let m ← self
  put ⟨m.heads ++ [some ⟨layout, false⟩], m.values ++ [some ⟨n * J.value.size, List.replicate n none⟩]⟩
  pure m.heads.length

/-- `alloc::dealloc`: the layout has to be the one of the allocation. rc_mut.rs 186, 202. -/
def dealloc (b : Nat) (layout : Layout) : Calls.M (BoxMem α) Unit := do
  let c ← head b
  if c.layout = layout then do
    let m ← self
    put ⟨m.heads.set b none, m.values.set b none⟩
  else own (.error .ub)

/-- rc_mut.rs 175-190 (`Drop for RcMutAlloc`): the value is not dropped. -/
def dropAlloc (J : JoinEnv) (b n : Nat) : Calls.M (BoxMem α) Unit := do
  if ← takeShared b then pure ()
  else dealloc b (← own (J.boxLayout n))

variable {L I : Type}

/-- iter_stack.rs 296-307 (`Drop for IterStack`): reads every entry. -/
def dropInPlace (E : Env) (b : BoxStack) : M (StackEntry L I) (List L × List I) := do
  let leaf ← (if b.len ≠ 0 then do pure [← b.getLeaf (I := I) E] else pure [] : M (StackEntry L I) (List L))
  let inner ← b.dropInner (L := L) (I := I) E (b.len - 1) 0
  pure (leaf, inner)

/-- rc_mut.rs 195-206 (`Drop for RcMut`) of the box `b` for `n` entries: drops the value if it is the last owner. -/
def dropHandle (J : JoinEnv) (b n : Nat) : Calls.M (BoxMem (StackEntry L I)) Unit := do
  if ← takeShared b then pure ()
  else do
    let _ ← onValues (onHeap (dropInPlace J.value ⟨some ⟨b, 0⟩, n⟩))
    dealloc b (Layout.forBox (← own (J.slice n)))

end BoxMem

variable {BL BR KL KR VL VR QL QR : Type}

/-- What the slots of the right stack of a left join hold. left_join.rs 17-18 (`RewindableTreeIter`). -/
abbrev RewindEntry (B K V : Type) := StackEntry (RewindIter (K × V)) (RewindIter (Node B K V))

/-- Memory. Modelling device: stands for no code of the crate. -/
structure JoinMem (BL BR KL KR VL VR : Type) where
  left : Heap (TreeEntry BL KL VL)
  right : Heap (RewindEntry BR KR VR)
  boxes : BoxMem (TreeEntry BR KR VR)

/-- left_join.rs 53-63 (`LeftJoinIter`): the fields that never change; `room` is the length in `IterStackAllocHelper`, of `right_alloc`. -/
structure RawLeftJoin where
  left : BoxStack
  right : BoxStack
  room : Nat

/-- Memory and the box of `right_alloc`. rc_mut.rs 23 (`RcMutAlloc`), left_join.rs 60. -/
structure JoinState (BL BR KL KR VL VR : Type) where
  mem : JoinMem BL BR KL KR VL VR
  alloc : Nat

namespace JoinState

/-- Something that is done in the memory of left stacks. Modelling device: stands for no code of the crate. -/
def onLeft (x : Calls.M (Heap (TreeEntry BL KL VL)) β) : Calls.M (JoinState BL BR KL KR VL VR) β := fun s n =>
  let r := x s.mem.left n
  (r.1, ⟨⟨r.2.1, s.mem.right, s.mem.boxes⟩, s.alloc⟩, r.2.2)

/-- Something that is done in the memory of right stacks. Modelling device: stands for no code of the crate. -/
def onRight (x : Calls.M (Heap (RewindEntry BR KR VR)) β) : Calls.M (JoinState BL BR KL KR VL VR) β := fun s n =>
  let r := x s.mem.right n
  (r.1, ⟨⟨s.mem.left, r.2.1, s.mem.boxes⟩, s.alloc⟩, r.2.2)

/-- Something that is done with boxes. Modelling device: stands for no code of the crate. -/
def onBoxes (x : Calls.M (BoxMem (TreeEntry BR KR VR)) β) : Calls.M (JoinState BL BR KL KR VL VR) β := fun s n =>
  let r := x s.mem.boxes n
  (r.1, ⟨⟨s.mem.left, s.mem.right, r.2.1⟩, s.alloc⟩, r.2.2)

/-- `*self = …` in rc_mut.rs 89: another box. -/
def setAlloc (b : Nat) : Calls.M (JoinState BL BR KL KR VL VR) Unit := fun s n => (.ok (), ⟨s.mem, b⟩, n)

end JoinState

namespace RawLeftJoin

open JoinState

/-- left_join.rs 108-139 (`LeftJoinIter::new`); the box of `right_alloc` is in the state afterwards. -/
def new (J : JoinEnv) (room : Nat → Nat) (rootL : Node BL KL VL) (levelL : Nat) (rootR : Node BR KR VR) (levelR : Nat) :
    Calls.M (JoinState BL BR KL KR VL VR) RawLeftJoin := do
  let left ← onLeft (onHeap (BoxStack.newBox J.left room ([] : List (KL × VL)) (List.replicate (levelL + 1) ([] : List (Node BL KL VL)))))
  onLeft (onHeap (left.setInner (L := List (KL × VL)) J.left levelL [rootL]))
  let right ← onRight (onHeap (BoxStack.newBox J.right room (.new [] : RewindIter (KR × VR)) (List.replicate (levelR + 1) (.new [] : RewindIter (Node BR KR VR)))))
  onRight (onHeap (right.setInner (L := RewindIter (KR × VR)) J.right levelR (.new [rootR])))
  setAlloc (← onBoxes (BoxMem.allocate J (levelR + 2)))
  pure ⟨left, right, levelR + 2⟩

/-- left_join.rs 65-75 (`iterate_left_children`). -/
def iterateLeftChildren (E : Env) (b : BoxStack) (node : Node BL KL VL) : Nat → Calls.M (Heap (TreeEntry BL KL VL)) Unit
  | l + 1 => do onHeap (b.setInner (L := List (KL × VL)) E l (← own node.innerChildren))
  | 0 => do onHeap (b.setLeaf (I := List (Node BL KL VL)) E (← own node.leafChildren))

/-- left_join.rs 77-90 (`iterate_right_children`). -/
def iterateRightChildren (E : Env) (b : BoxStack) (node : Option (Node BR KR VR)) : Nat → Calls.M (Heap (RewindEntry BR KR VR)) Unit
  | l + 1 =>
    match node with
    | some n => do onHeap (b.setInner (L := RewindIter (KR × VR)) E l (.new (← own n.innerChildren)))
    | none => onHeap (b.setInner (L := RewindIter (KR × VR)) E l (.new ([] : List (Node BR KR VR))))
  | 0 =>
    match node with
    | some n => do onHeap (b.setLeaf (I := RewindIter (Node BR KR VR)) E (.new (← own n.leafChildren)))
    | none => onHeap (b.setLeaf (I := RewindIter (Node BR KR VR)) E (.new ([] : List (KR × VR))))

/-- left_join.rs 92-100 (`rewind`): `n` positions from `i` on, of a range whose last position is `stop - 1`; indices are shifted by one. -/
def rewindLoop (E : Env) (b : BoxStack) (stop : Nat) : Nat → Nat → Calls.M (Heap (RewindEntry BR KR VR)) Unit
  | 0, _ => pure ()
  | n + 1, i =>
    if i + 1 = stop then do
      let it ← onHeap (b.getInner (L := RewindIter (KR × VR)) (I := RewindIter (Node BR KR VR)) E i)
      onHeap (b.setInner (L := RewindIter (KR × VR)) E i it.rewind)
      rewindLoop E b stop n (i + 1)
    else do
      onHeap (b.setInner (L := RewindIter (KR × VR)) E i (.new ([] : List (Node BR KR VR))))
      rewindLoop E b stop n (i + 1)

/-- left_join.rs 187-192, 240-245 (`iter_right`): where the range of right iterators at `l + 1` ends. -/
def rightStop (j : RawLeftJoin) (l : Nat) : Nat := if l + 2 = j.left.len then j.right.len else l + 2

/-- left_join.rs 177-182 (`iter_left`): where the range of left iterators at `l + 1` ends. -/
def leftStop (j : RawLeftJoin) (l : Nat) : Nat := if l + 2 = j.right.len then j.left.len else l + 2

/-- iter_stack.rs 259-266, 278-284 (`IndexMut` by a range). -/
def checkRange (b : BoxStack) (start stop : Nat) : Res Unit := if start ≤ stop ∧ stop ≤ b.len then .ok () else .error .indexOutOfBounds

/-- iter_stack.rs 326-344 (`InnerIterStack::next`) on the left stack: the loop at position `i` of the range `start0 + 1 .. stop`. -/
def nextLeft (E : Env) (b : BoxStack) (start0 stop : Nat) : Nat → Nat → Calls.M (Heap (TreeEntry BL KL VL)) (Option (Node BL KL VL))
  | fuel, i =>
    if start0 + 1 + i < stop then
      match fuel with
      | 0 => own (.error .diverge)
      | fuel + 1 => do
        let it ← onHeap (b.getInner (L := List (KL × VL)) (I := List (Node BL KL VL)) E (start0 + i))
        let (found, it) ← own (RTree.LeftJoinIter.sliceNext it)
        onHeap (b.setInner (L := List (KL × VL)) E (start0 + i) it)
        match found with
        | some child =>
          match i with
          | 0 => pure (some child)
          | i' + 1 => do
            onHeap (b.setInner (L := List (KL × VL)) E (start0 + i') (← own child.innerChildren))
            nextLeft E b start0 stop fuel i'
        | none => nextLeft E b start0 stop fuel (i + 1)
    else pure none

/-- iter_stack.rs 346-365 (`InnerIterStack::find`) on the right stack: the loop at position `i` of the range `start0 + 1 .. stop`. -/
def findRight {F : Type} (E : Env) (code : Nat → Option F) (test : F → Node BR KR VR → Bool) (b : BoxStack) (start0 stop : Nat) :
    Nat → Nat → Calls.M (Heap (RewindEntry BR KR VR)) (Option (Node BR KR VR))
  | fuel, i =>
    if start0 + 1 + i < stop then
      match fuel with
      | 0 => own (.error .diverge)
      | fuel + 1 => do
        let it ← onHeap (b.getInner (L := RewindIter (KR × VR)) (I := RewindIter (Node BR KR VR)) E (start0 + i))
        let (found, it) ← searchBy code test RewindIter.next (it.slice.length + 1) it
        onHeap (b.setInner (L := RewindIter (KR × VR)) E (start0 + i) it)
        match ← raise found with
        | some child =>
          match i with
          | 0 => pure (some child)
          | i' + 1 => do
            let cs ← own child.innerChildren
            onHeap (b.setInner (L := RewindIter (KR × VR)) E (start0 + i') (.new cs))
            findRight E code test b start0 stop fuel i'
        | none => findRight E code test b start0 stop fuel (i + 1)
    else pure none

/-- iter_stack.rs 100-107 (`Guard::push`): writes entry `i` of the target. -/
def pushEntry (E : Env) (target : BoxStack) (i : Nat) (e : TreeEntry BR KR VR) : M (TreeEntry BR KR VR) Unit := do
  panicIf (¬ i < target.len) .vectorFull
  write E (← target.place E i) e

/-- iter_stack.rs 140-145 (`init_into`), 213-214 (`map_into`): `n` inner entries from index `i + 1` on, with left_join.rs 34-36, 213 (`remainder_iter`). -/
def mapInner (J : JoinEnv) (right target : BoxStack) : Nat → Nat → Calls.M (JoinState BL BR KL KR VL VR) Unit
  | 0, _ => pure ()
  | n + 1, i => do
    let it ← onRight (onHeap (right.getInner (L := RewindIter (KR × VR)) (I := RewindIter (Node BR KR VR)) J.right i))
    let cs ← own it.remainder
    onBoxes (BoxMem.onValues (onHeap (pushEntry J.value target (i + 1) (.inner cs))))
    mapInner J right target n (i + 1)

/-- iter_stack.rs 84-148 (`init_into`), 198-217 (`map_into`), left_join.rs 34-36, 211-217: copies the remainders of the right stack to a box.
    The assertion of `Guard::finish` cannot fail: every entry has been pushed. -/
def mapInto (J : JoinEnv) (right target : BoxStack) : Calls.M (JoinState BL BR KL KR VL VR) Unit := do
  if target.len ≠ right.len then own (.error .indexOutOfBounds)
  else if 0 < target.len then do
    let it ← onRight (onHeap (right.getLeaf (L := RewindIter (KR × VR)) (I := RewindIter (Node BR KR VR)) J.right))
    let es ← own it.remainder
    onBoxes (BoxMem.onValues (onHeap (pushEntry J.value target 0 (.leaf es))))
    mapInner J right target (target.len - 1) 0
  else pure ()

/-- rc_mut.rs 82-97 (`make_mut_init_raw`), with `map_into` as the callback (left_join.rs 210-218): the box of the new handle. -/
def makeMut (J : JoinEnv) (j : RawLeftJoin) : Calls.M (JoinState BL BR KL KR VL VR) Nat := do
  let s ← self
  let c ← onBoxes (BoxMem.head s.alloc)
  if c.shared then do
    let b ← onBoxes (BoxMem.allocate J j.room)
    setAlloc b
    onBoxes (BoxMem.dropAlloc J s.alloc j.room)
  let s ← self
  onBoxes (BoxMem.setShared s.alloc true)
  mapInto J j.right ⟨some ⟨s.alloc, 0⟩, j.room⟩
  pure s.alloc

/-- left_join.rs 208-223: the left entry `e` has been taken out; makes its right-hand iterator.  If `Clone` of the filter or `Bounded` of the key panics, the new
    handle is dropped. -/
def yieldRight (J : JoinEnv) (code : Nat → Option (JoinCode BL BR QL QR)) (borrowL : KL → QL) (j : RawLeftJoin) (e : KL × VL) :
    Calls.M (JoinState BL BR KL KR VL VR) (Option ((KL × VL) × BL × Nat)) := do
  let b ← makeMut J j
  match ← catching (do let _ ← ask code; ask code) with
  | .ok f => pure (some (e, f.bounds (borrowL e.1), b))
  | .error stop => do
    onBoxes (BoxMem.dropHandle J b j.room)
    raise (.error stop)

/-- left_join.rs 235-247 (`Op::Ascend`): leaves `level`; `loop` is the loop of `next` at the level above. -/
def ascend (J : JoinEnv) (j : RawLeftJoin) (minHeight level : Nat) (loop : Calls.M (JoinState BL BR KL KR VL VR) (Option ((KL × VL) × BL × Nat))) :
    Calls.M (JoinState BL BR KL KR VL VR) (Option ((KL × VL) × BL × Nat)) :=
  if level + 1 = minHeight then pure none
  else do
    own (checkRange j.right (level + 1) (j.rightStop level))
    onRight (rewindLoop J.right j.right (j.rightStop level - 1) (j.rightStop level - (level + 1)) level)
    loop

/-- A bound for loops over the left stack. Modelling device: stands for no code of the crate. -/
def leftFuel (m : JoinMem BL BR KL KR VL VR) (j : RawLeftJoin) : Nat :=
  (RTree.TreeIter.weight (BoxStack.entries m.left j.left) + 1) * (j.left.len + 1)

/-- A bound for loops over the right stack. Modelling device: stands for no code of the crate. -/
def rightFuel (m : JoinMem BL BR KL KR VL VR) (j : RawLeftJoin) : Nat :=
  (RTree.RewindTreeIter.weight (BoxStack.entries m.right j.right) + 1) * (j.right.len + 1)

/-- left_join.rs 160-251 (`next`): the loop at `level`, with fuel; what it yields is the left entry, what `bounds` answered for its key and the box with the
    stack of the right-hand iterator. -/
def nextLoop (J : JoinEnv) (code : Nat → Option (JoinCode BL BR QL QR)) (borrowL : KL → QL) (j : RawLeftJoin) (minHeight : Nat) : Nat → Nat →
    Calls.M (JoinState BL BR KL KR VL VR) (Option ((KL × VL) × BL × Nat))
  | 0, _ => own (.error .diverge)
  | fuel + 1, level =>
    match level with
    | l + 1 => do
      own (checkRange j.left (l + 1) (j.leftStop l))
      let s ← self
      let nodeLeft ← onLeft (nextLeft J.left j.left l (j.leftStop l) (leftFuel s.mem j) 0)
      match nodeLeft with
      | some nodeLeft => do
        own (checkRange j.right (l + 1) (j.rightStop l))
        let s ← self
        let nodeRight ← onRight (findRight J.right code (fun f (n : Node BR KR VR) => f.testBounds nodeLeft.bounds n.bounds) j.right l (j.rightStop l)
          (rightFuel s.mem j) 0)
        onLeft (iterateLeftChildren J.left j.left nodeLeft l)
        onRight (iterateRightChildren J.right j.right nodeRight l)
        nextLoop J code borrowL j minHeight fuel l
      | none => ascend J j minHeight (l + 1) (nextLoop J code borrowL j minHeight fuel (l + 2))
    | 0 => do
      match ← onLeft (onHeap (j.left.getLeaf (L := List (KL × VL)) (I := List (Node BL KL VL)) J.left)) with
      | e :: rest => do
        onLeft (onHeap (j.left.setLeaf (I := List (Node BL KL VL)) J.left rest))
        yieldRight J code borrowL j e
      | [] => ascend J j minHeight 0 (nextLoop J code borrowL j minHeight fuel 1)

/-- left_join.rs 160-251 (`next`): the fuel suffices for every stack. -/
def next (J : JoinEnv) (code : Nat → Option (JoinCode BL BR QL QR)) (borrowL : KL → QL) (j : RawLeftJoin) :
    Calls.M (JoinState BL BR KL KR VL VR) (Option ((KL × VL) × BL × Nat)) := do
  let minHeight := min j.left.len j.right.len
  if minHeight = 0 then pure none
  else do
    let s ← self
    nextLoop J code borrowL j minHeight (leftFuel s.mem j) 0

/-- Dropping a `LeftJoinIter`: its fields in order. left_join.rs 53-63, iter_stack.rs 296-307, rc_mut.rs 175-190. -/
def drop (J : JoinEnv) (j : RawLeftJoin) : Calls.M (JoinState BL BR KL KR VL VR) Unit := do
  let _ ← onLeft (onHeap (j.left.drop (L := List (KL × VL)) (I := List (Node BL KL VL)) J.left))
  let _ ← onRight (onHeap (j.right.drop (L := RewindIter (KR × VR)) (I := RewindIter (Node BR KR VR)) J.right))
  let s ← self
  onBoxes (BoxMem.dropAlloc J s.alloc j.room)

end RawLeftJoin

/-! ## Clients that use many left joins -/

/-- A right-hand iterator: its left entry and the bounds of that (filter.rs 202-209, `JoiningFilter`), and the box of its stack (rc_mut.rs 193, `RcMut`) unless
    dropped. -/
structure RawRight (BL KL VL : Type) where
  entry : KL × VL
  bounds : BL
  box : Option Nat

/-- A left join: itself and the box of its `right_alloc`, unless dropped; the room of its boxes; its user code and the number of calls that had; the right-hand
    iterators that it yielded. Client code. -/
structure RawLeft (BL BR KL KR VL VR QL QR : Type) where
  join : Option (RawLeftJoin × Nat)
  room : Nat
  code : Nat → Option (JoinCode BL BR QL QR)
  clock : Nat
  rights : List (RawRight BL KL VL)

/-- What a client does: make a left join, call `next` of the `i`-th one or of the `k`-th right-hand iterator it has yielded, drop one of them. Client code. -/
inductive RawLeftCmd (BL BR KL KR VL VR QL QR : Type) where
  | start (tl : Tree BL KL VL) (tr : Tree BR KR VR) (code : Nat → Option (JoinCode BL BR QL QR))
  | next (i : Nat)
  | right (i k : Nat)
  | dropJoin (i : Nat)
  | dropRight (i k : Nat)

/-- Memory, the left joins made so far, and how each call of `next` ended (of which left join, which call, how it ended). Client code. -/
structure LeftRun (BL BR KL KR VL VR QL QR : Type) where
  mem : JoinMem BL BR KL KR VL VR
  joins : List (RawLeft BL BR KL KR VL VR QL QR)
  log : List (Nat × LeftCmd × LeftOut KL KR VL VR)

namespace LeftRun

/-- After a call of `next` of the `i`-th left join; a panic of user code is caught. Client code. -/
def afterNext (s : LeftRun BL BR KL KR VL VR QL QR) (i : Nat) (x : RawLeft BL BR KL KR VL VR QL QR) (j : RawLeftJoin) :
    Except Stop (Option ((KL × VL) × BL × Nat)) × JoinState BL BR KL KR VL VR × Nat → Res (LeftRun BL BR KL KR VL VR QL QR)
  | (.ok none, st, n) => .ok ⟨st.mem, s.joins.set i { x with join := some (j, st.alloc), clock := n }, s.log ++ [(i, .next, .next (.ok none))]⟩
  | (.ok (some (e, bounds, b)), st, n) => .ok ⟨st.mem,
      s.joins.set i { x with join := some (j, st.alloc), clock := n, rights := x.rights ++ [⟨e, bounds, some b⟩] }, s.log ++ [(i, .next, .next (.ok (some e)))]⟩
  | (.error .user, st, n) => .ok ⟨st.mem, s.joins.set i { x with join := some (j, st.alloc), clock := n }, s.log ++ [(i, .next, .next (.error .user))]⟩
  | (.error (.own p), _, _) => .error p

/-- After a call of `next` of the `k`-th right-hand iterator of the `i`-th left join; a panic of user code is caught. Client code. -/
def afterRight (s : LeftRun BL BR KL KR VL VR QL QR) (i k : Nat) (x : RawLeft BL BR KL KR VL VR QL QR) :
    Except Stop (Option (KR × VR)) × Heap (TreeEntry BR KR VR) × Nat → Res (LeftRun BL BR KL KR VL VR QL QR)
  | (.error (.own p), _, _) => .error p
  | (r, h, n) => .ok ⟨{ s.mem with boxes := ⟨s.mem.boxes.heads, h⟩ }, s.joins.set i { x with clock := n }, s.log ++ [(i, .right k, .right r)]⟩

/-- The end of something that cannot panic. Client code. -/
def after {S : Type} (f : S → LeftRun BL BR KL KR VL VR QL QR) : Except Stop Unit × S × Nat → Res (LeftRun BL BR KL KR VL VR QL QR)
  | (.ok _, s, _) => .ok (f s)
  | (.error .user, _, _) => .error .ub
  | (.error (.own p), _, _) => .error p

/-- One command; using something that is gone does nothing (Rust does not let it compile). Client code of lib.rs 278-292 (`left_join`), left_join.rs 160-251,
    iter.rs 144-173 (`new_from_stack`, `FilterIter::next`). -/
def step (J : JoinEnv) (room : Nat → Nat) (borrowL : KL → QL) (borrowR : KR → QR) (s : LeftRun BL BR KL KR VL VR QL QR) :
    RawLeftCmd BL BR KL KR VL VR QL QR → Res (LeftRun BL BR KL KR VL VR QL QR)
  | .start tl tr code =>
    match RawLeftJoin.new J room tl.root tl.level tr.root tr.level ⟨s.mem, 0⟩ 0 with
    | (.ok j, st, n) => .ok ⟨st.mem, s.joins ++ [⟨some (j, st.alloc), tr.level + 2, code, n, []⟩], s.log⟩
    | (.error .user, _, _) => .error .ub
    | (.error (.own p), _, _) => .error p
  | .next i =>
    match s.joins[i]? with
    | some x =>
      match x.join with
      | some (j, b) => s.afterNext i x j (RawLeftJoin.next J x.code borrowL j ⟨s.mem, b⟩ x.clock)
      | none => .ok s
    | none => .ok s
  | .right i k =>
    match s.joins[i]? with
    | some x =>
      match x.rights[k]? with
      | some ⟨e, bounds, some b⟩ => s.afterRight i k x
          (TreeIter.next J.value (joiningCode x.code bounds (borrowL e.1)) borrowR ⟨some ⟨b, 0⟩, x.room⟩ s.mem.boxes.values x.clock)
      | _ => .ok s
    | none => .ok s
  | .dropJoin i =>
    match s.joins[i]? with
    | some x =>
      match x.join with
      | some (j, b) => after (fun st => ⟨st.mem, s.joins.set i { x with join := none }, s.log⟩) (RawLeftJoin.drop J j ⟨s.mem, b⟩ 0)
      | none => .ok s
    | none => .ok s
  | .dropRight i k =>
    match s.joins[i]? with
    | some x =>
      match x.rights[k]? with
      | some ⟨e, bounds, some b⟩ =>
        after (fun m => ⟨{ s.mem with boxes := m }, s.joins.set i { x with rights := x.rights.set k ⟨e, bounds, none⟩ }, s.log⟩)
          (BoxMem.dropHandle J b x.room s.mem.boxes 0)
      | _ => .ok s
    | none => .ok s

/-- Some commands. Client code. -/
def run (J : JoinEnv) (room : Nat → Nat) (borrowL : KL → QL) (borrowR : KR → QR) (s : LeftRun BL BR KL KR VL VR QL QR) :
    List (RawLeftCmd BL BR KL KR VL VR QL QR) → Res (LeftRun BL BR KL KR VL VR QL QR)
  | [] => .ok s
  | c :: cs => do run J room borrowL borrowR (← s.step J room borrowL borrowR c) cs

/-- What the commands make left joins of, in order. Client code. -/
def started : List (RawLeftCmd BL BR KL KR VL VR QL QR) → List (Tree BL KL VL × Tree BR KR VR × (Nat → Option (JoinCode BL BR QL QR)))
  | [] => []
  | .start tl tr code :: cs => (tl, tr, code) :: started cs
  | _ :: cs => started cs

/-- The calls of the `i`-th left join and its right-hand iterators. Client code. -/
def callsOf (i : Nat) (log : List (Nat × LeftCmd × LeftOut KL KR VL VR)) : List LeftCmd := (log.filter fun x => x.1 == i).map fun x => x.2.1

/-- How they ended. Client code. -/
def outsOf (i : Nat) (log : List (Nat × LeftCmd × LeftOut KL KR VL VR)) : List (LeftOut KL KR VL VR) := (log.filter fun x => x.1 == i).map fun x => x.2.2

end LeftRun

end RTree.Raw
