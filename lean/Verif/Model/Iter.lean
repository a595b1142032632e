import Verif.Model.Tree
/-!
# Iterator stacks and unordered iteration (iter_stack.rs, iter.rs 19-305)

A `slice::Iter` is the list of the elements not yet yielded.  A stack is a list of untagged entries: entry 0
is read as a leaf iterator, the others as inner iterators; reading the wrong one is `Panic.ub`.
-/

namespace RTree

/-- iter_stack.rs 11-14 (`union Entry`). -/
inductive StackEntry (L I : Type) where
  | leaf (it : L)
  | inner (it : I)

/-- iter_stack.rs 59 (`IterStack`). -/
abbrev IterStack (L I : Type) := List (StackEntry L I)

namespace IterStack

variable {L I : Type}

/-- iter_stack.rs 16-43 (`VecIterStack`), 155-161 (`new_box`). -/
def newBox (leaf : L) (inner : List I) : IterStack L I := .leaf leaf :: inner.map .inner

/-- iter_stack.rs 150-153 (`empty_box`). -/
def emptyBox : IterStack L I := []

/-- iter_stack.rs 167-169 (`leaf`). -/
def getLeaf (s : IterStack L I) : Res L := do
  match ← index s 0 with
  | .leaf it => pure it
  | .inner _ => throw .ub

/-- iter_stack.rs 171-173 (`leaf_mut`), writing. -/
def setLeaf (s : IterStack L I) (it : L) : Res (IterStack L I) := do
  let _ ← index s 0
  pure (s.set 0 (.leaf it))

/-- iter_stack.rs 234-240 (`Index<NonZeroUsize>`); `i` is the index minus one. -/
def getInner (s : IterStack L I) (i : Nat) : Res I := do
  match ← index s (i + 1) with
  | .inner it => pure it
  | .leaf _ => throw .ub

/-- iter_stack.rs 242-246 (`IndexMut<NonZeroUsize>`), writing; `i` is the index minus one. -/
def setInner (s : IterStack L I) (i : Nat) (it : I) : Res (IterStack L I) := do
  let _ ← index s (i + 1)
  pure (s.set (i + 1) (.inner it))

end IterStack

/-- `Iterator::find` on a slice iterator: the element found and the remaining elements.
    iter.rs 78, 91-94, 225, 238-241. -/
def findNext {α : Type} (p : α → Bool) : List α → Option α × List α
  | [] => (none, [])
  | a :: as => if p a then (some a, as) else findNext p as

variable {B K V Q : Type}

/-- iter.rs 19-20 (`TreeIter`). -/
abbrev TreeIter (B K V : Type) := IterStack (List (K × V)) (List (Node B K V))

mutual
/-- Number of nodes and entries below and including a node; only used to bound loops.
    Modelling device: a bound that makes loops structurally recursive; stands for no code. -/
def Node.weight : Node B K V → Nat
  | .leaf _ es => 1 + es.length
  | .inner _ cs => 1 + weightList cs
/-- Number of nodes and entries below and including the nodes.
    Modelling device: a bound that makes loops structurally recursive; stands for no code. -/
def weightList : List (Node B K V) → Nat
  | [] => 0
  | c :: cs => c.weight + weightList cs
end

/-- Number of nodes and entries that an iterator can still visit; only used to bound loops.
    Modelling device: a bound that makes loops structurally recursive; stands for no code. -/
def TreeIter.weight (s : TreeIter B K V) : Nat :=
  (s.map fun | .leaf es => es.length | .inner cs => weightList cs).sum

namespace TreeIter

/-- iter.rs 37-41 (`Iter::new_empty`), 183-187. -/
def newEmpty : TreeIter B K V := IterStack.emptyBox

/-- iter.rs 43-61 (`Iter::new`), 189-208 (`IterMut::new`); node.rs 992-1006 (`children`). -/
def new (level : Nat) (root : Node B K V) : Res (TreeIter B K V) :=
  let stack : TreeIter B K V := IterStack.newBox [] (List.replicate level [])
  match level with
  | l + 1 => do
    let cs ← root.innerChildren
    stack.setInner l cs
  | 0 => do
    let es ← root.leafChildren
    stack.setLeaf es

/-- iter.rs 69-102 (`Iter::next`), 216-249 (`IterMut::next`): the loop at `level`, with fuel. -/
def nextLoop (borrow : K → Q) (f : SpatialFilter B Q) :
    Nat → Nat → TreeIter B K V → Res (Option (K × V) × TreeIter B K V)
  | fuel, level, s =>
    if level < s.length then
      match fuel with
      | 0 => .error .diverge
      | fuel + 1 =>
        match level with
        | l + 1 => do
          let it ← s.getInner l
          let (found, it) := findNext (fun n => f.testBounds n.bounds) it
          let s ← s.setInner l it
          match found with
          | some node =>
            match l with
            | l' + 1 => do
              let s ← s.setInner l' (← node.innerChildren)
              nextLoop borrow f fuel (l' + 1) s
            | 0 => do
              let s ← s.setLeaf (← node.leafChildren)
              nextLoop borrow f fuel 0 s
          | none => nextLoop borrow f fuel (l + 2) s
        | 0 => do
          let it ← s.getLeaf
          let (found, it) := findNext (fun e => f.testKey (borrow e.1)) it
          let s ← s.setLeaf it
          match found with
          | some e => pure (some e, s)
          | none => nextLoop borrow f fuel 1 s
    else .ok (none, s)

/-- iter.rs 69-102 (`Iter::next`): the fuel suffices for every stack. -/
def next (borrow : K → Q) (f : SpatialFilter B Q) (s : TreeIter B K V) :
    Res (Option (K × V) × TreeIter B K V) :=
  nextLoop borrow f ((s.weight + 1) * (s.length + 1)) 0 s

/-- Calling `next` until it returns `None` (at most `n` times).
    Client code: iter.rs 112-114, 170-172 (`Iterator::next`) called repeatedly. -/
def collectLoop (borrow : K → Q) (f : SpatialFilter B Q) : Nat → TreeIter B K V → Res (List (K × V))
  | 0, _ => .error .diverge
  | n + 1, s => do
    match ← next borrow f s with
    | (some e, s) => do pure (e :: (← collectLoop borrow f n s))
    | (none, _) => pure []

/-- `Iterator::collect`: everything the iterator yields. Client code. -/
def collect (borrow : K → Q) (f : SpatialFilter B Q) (s : TreeIter B K V) : Res (List (K × V)) :=
  collectLoop borrow f (s.weight + 1) s

/-- iter.rs 132-142 (`FilterIter::new`), 279-289 (`FilterIterMut::new`). -/
def newFilter (f : SpatialFilter B Q) (level : Nat) (root : Node B K V) : Res (TreeIter B K V) :=
  if f.testBounds root.bounds then new level root else .ok newEmpty

end TreeIter

namespace Tree

/-- lib.rs 93-96 (`RTree::iter`), iter.rs 105-115: everything yielded. -/
def iter (t : Tree B K V) : Res (List (K × V)) := do
  (← TreeIter.new t.level t.root).collect id (noFilter B K)

/-- lib.rs 114-126 (`RTree::filter_iter`), iter.rs 160-173: everything yielded. -/
def filterIter (borrow : K → Q) (f : SpatialFilter B Q) (t : Tree B K V) : Res (List (K × V)) := do
  (← TreeIter.newFilter f t.level t.root).collect borrow f

end Tree

end RTree
