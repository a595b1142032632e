import Verif.Model.FCVec
import Verif.Model.Callbacks
/-!
# Iterator stacks in raw memory (iter_stack.rs, iter.rs, join.rs)

The stack of an iterator is a boxed slice that was made by leaking a `Vec`.  Memory, pointers and undefined behaviour are
those of `Model/FCVec.lean`; the slots hold `union Entry`s, and reading the wrong field of one is undefined behaviour
as well.  The iterators are those of `Model/Callbacks.lean` (filters may panic or answer inconsistently), with the stack in memory
instead of in a value.

`room n` is the capacity that `Vec::with_capacity(n)` really allocates.  The documentation of the standard library promises
`n ≤ room n` only.
-/

namespace RTree.Raw

variable {L I : Type}

/-- A `Vec<T>` of the standard library; `none` is the dangling pointer of a vector without capacity. iter_stack.rs 16. -/
structure StdVec where
  buf : Option Ptr
  cap : Nat
  len : Nat

namespace StdVec

variable {α : Type}

/-- `Vec::with_capacity(n)`. iter_stack.rs 25, 181. -/
def withCapacity (E : Env) (room : Nat → Nat) (n : Nat) : M α StdVec := do
  if room n = 0 then pure ⟨none, 0, 0⟩ else pure ⟨some (← alloc E (room n)), room n, 0⟩

/-- `Vec::push`. iter_stack.rs 26-33.  Simplified: a vector that is full would grow; here that is a panic (and never happens). -/
def push (E : Env) (v : StdVec) (a : α) : M α StdVec := do
  panicIf (v.len = v.cap) .vectorFull
  match v.buf with
  | some p => do
    write E (← add E p v.len) a
    pure { v with len := v.len + 1 }
  | none => panic .ub

end StdVec

/-- A `Box<IterStack<Leaf, Inner>>`: a pointer to a slice; `none` is the dangling pointer of an empty slice. iter_stack.rs 58-59. -/
structure BoxStack where
  buf : Option Ptr
  len : Nat

namespace BoxStack

/-- iter_stack.rs 29-33: the loop of `VecIterStack::new`. -/
def pushInner (E : Env) (v : StdVec) : List I → M (StackEntry L I) StdVec
  | [] => pure v
  | i :: is => do pushInner E (← v.push E (.inner i)) is

/-- iter_stack.rs 19-35 (`VecIterStack::new`). -/
def newVec (E : Env) (room : Nat → Nat) (leaf : L) (inner : List I) : M (StackEntry L I) StdVec := do
  let stack ← StdVec.withCapacity E room (inner.length + 1)
  let stack ← stack.push E (.leaf leaf)
  pushInner E stack inner

/-- iter_stack.rs 37-42 (`into_box`), 155-161 (`new_box`): `Vec::leak` forgets the capacity. -/
def newBox (E : Env) (room : Nat → Nat) (leaf : L) (inner : List I) : M (StackEntry L I) BoxStack := do
  let stack ← newVec E room leaf inner
  pure ⟨stack.buf, stack.len⟩

/-- iter_stack.rs 150-153 (`empty_box`), util.rs 25-30 (`empty_slice`). -/
def emptyBox : BoxStack := ⟨none, 0⟩

/-- `self.0[i]`: the bounds check of the slice, then the place. iter_stack.rs 167-173, 234-246. -/
def place (E : Env) (b : BoxStack) (i : Nat) : M (StackEntry L I) Ptr := do
  panicIf (b.len ≤ i) .indexOutOfBounds
  match b.buf with
  | some p => add E p i
  | none => panic .ub

/-- iter_stack.rs 167-169 (`leaf`), 171-173 (`leaf_mut`), reading. -/
def getLeaf (E : Env) (b : BoxStack) : M (StackEntry L I) L := do
  match ← read E (← b.place E 0) with
  | .leaf it => pure it
  | .inner _ => panic .ub

/-- iter_stack.rs 171-173 (`leaf_mut`), assigning: the old value is dropped, so it has to be a leaf. -/
def setLeaf (E : Env) (b : BoxStack) (it : L) : M (StackEntry L I) Unit := do
  let _ ← b.getLeaf (I := I) E
  write E (← b.place E 0) (.leaf it)

/-- iter_stack.rs 234-246 (`Index<NonZeroUsize>`, `IndexMut<NonZeroUsize>`), reading; `i` is the index minus one. -/
def getInner (E : Env) (b : BoxStack) (i : Nat) : M (StackEntry L I) I := do
  match ← read E (← b.place E (i + 1)) with
  | .inner it => pure it
  | .leaf _ => panic .ub

/-- iter_stack.rs 242-246 (`IndexMut<NonZeroUsize>`), assigning: the old value is dropped, so it has to be an inner iterator; `i` is
    the index minus one. -/
def setInner (E : Env) (b : BoxStack) (i : Nat) (it : I) : M (StackEntry L I) Unit := do
  let _ ← b.getInner (L := L) E i
  write E (← b.place E (i + 1)) (.inner it)

/-- iter_stack.rs 301-305: the loop of `Drop for IterStack`, `n` entries from index `i + 1` on; the iterators dropped. -/
def dropInner (E : Env) (b : BoxStack) : Nat → Nat → M (StackEntry L I) (List I)
  | 0, _ => pure []
  | n + 1, i => do
    let it ← b.getInner (L := L) E i
    pure (it :: (← dropInner E b n (i + 1)))

/-- iter_stack.rs 296-307 (`Drop for IterStack`), then the box gives its memory back with the layout of the slice (`Layout::for_value`),
    unless that is empty. -/
def drop (E : Env) (b : BoxStack) : M (StackEntry L I) (List L × List I) := do
  let leaf ← (if b.len ≠ 0 then do pure [← b.getLeaf (I := I) E] else pure [] : M (StackEntry L I) (List L))
  let inner ← b.dropInner (L := L) (I := I) E (b.len - 1) 0
  if b.len * E.size = 0 then pure (leaf, inner)
  else
    match b.buf with
    | some p => do
      dealloc E p b.len
      pure (leaf, inner)
    | none => panic .ub

/-- The entries of a stack in memory; only used to bound loops. Modelling device: stands for no code of the crate. -/
def entries {α : Type} (h : Heap α) (b : BoxStack) : List α :=
  match b.buf with
  | some p =>
    match h[p.block]? with
    | some (some blk) => (blk.slots.take b.len).filterMap id
    | _ => []
  | none => []

end BoxStack

/-! ## Iterators -/

open Calls (own self put raise catching ask search searchBy Stop)

/-- A computation on memory, in code that can also be stopped by user code.
    Modelling device: stands for no code of the crate. -/
def onHeap {α β : Type} (m : M α β) : Calls.M (Heap α) β := fun h n =>
  match m h with
  | .ok (b, h) => (.ok b, h, n)
  | .error p => (.error (.own p), h, n)

variable {B K V Q : Type}

/-- What the slots of a tree iterator hold. iter.rs 19-20 (`TreeIter`). -/
abbrev TreeEntry (B K V : Type) := StackEntry (List (K × V)) (List (Node B K V))

namespace TreeIter

/-- iter.rs 43-61 (`Iter::new`), 189-208 (`IterMut::new`). -/
def new (E : Env) (room : Nat → Nat) (level : Nat) (root : Node B K V) : Calls.M (Heap (TreeEntry B K V)) BoxStack := do
  let stack ← onHeap (BoxStack.newBox E room ([] : List (K × V)) (List.replicate level ([] : List (Node B K V))))
  match level with
  | l + 1 => do
    onHeap (stack.setInner (L := List (K × V)) E l (← own root.innerChildren))
    pure stack
  | 0 => do
    onHeap (stack.setLeaf (I := List (Node B K V)) E (← own root.leafChildren))
    pure stack

/-- iter.rs 132-142 (`FilterIter::new`), 279-289 (`FilterIterMut::new`). -/
def newFilter (E : Env) (room : Nat → Nat) (code : Nat → Option (SpatialFilter B Q)) (level : Nat) (root : Node B K V) :
    Calls.M (Heap (TreeEntry B K V)) BoxStack := do
  let f ← ask code
  if f.testBounds root.bounds then new E room level root else pure BoxStack.emptyBox

/-- iter.rs 69-102 (`Iter::next`), 216-249 (`IterMut::next`): the loop at `level`, with fuel. -/
def nextLoop (E : Env) (code : Nat → Option (SpatialFilter B Q)) (borrow : K → Q) (b : BoxStack) :
    Nat → Nat → Calls.M (Heap (TreeEntry B K V)) (Option (K × V))
  | fuel, level =>
    if level < b.len then
      match fuel with
      | 0 => own (.error .diverge)
      | fuel + 1 =>
        match level with
        | l + 1 => do
          let (found, it) ← search code (fun f (n : Node B K V) => f.testBounds n.bounds)
            (← onHeap (b.getInner (L := List (K × V)) E l))
          onHeap (b.setInner (L := List (K × V)) E l it)
          match ← raise found with
          | some node =>
            match l with
            | l' + 1 => do
              onHeap (b.setInner (L := List (K × V)) E l' (← own node.innerChildren))
              nextLoop E code borrow b fuel (l' + 1)
            | 0 => do
              onHeap (b.setLeaf (I := List (Node B K V)) E (← own node.leafChildren))
              nextLoop E code borrow b fuel 0
          | none => nextLoop E code borrow b fuel (l + 2)
        | 0 => do
          let (found, it) ← search code (fun f (e : K × V) => f.testKey (borrow e.1)) (← onHeap (b.getLeaf (I := List (Node B K V)) E))
          onHeap (b.setLeaf (I := List (Node B K V)) E it)
          match ← raise found with
          | some e => pure (some e)
          | none => nextLoop E code borrow b fuel 1
    else pure none

/-- iter.rs 69-102 (`Iter::next`), 160-173, 294-305: the fuel suffices for every stack. -/
def next (E : Env) (code : Nat → Option (SpatialFilter B Q)) (borrow : K → Q) (b : BoxStack) :
    Calls.M (Heap (TreeEntry B K V)) (Option (K × V)) := do
  let h ← self
  nextLoop E code borrow b ((RTree.TreeIter.weight (BoxStack.entries h b) + 1) * (b.len + 1)) 0

end TreeIter

/-! ## Joins -/

variable {B0 B1 K0 K1 V0 V1 Q0 Q1 : Type}

/-- What the slots of a join hold. join.rs 63-66 (`JoinIterStack`). -/
abbrev JoinEntry (B0 B1 K0 K1 V0 V1 : Type) :=
  StackEntry (ProductIter (K0 × V0) (K1 × V1)) (ProductIter (Node B0 K0 V0) (Node B1 K1 V1))

/-- join.rs 73-83 (`JoinIter`, without the filter). -/
structure JoinIter where
  stack : BoxStack
  padding0 : Nat
  padding1 : Nat

namespace JoinIter

/-- join.rs 99-123 (`start_join`). -/
def startJoin (E : Env) (b : BoxStack) (node0 : Node B0 K0 V0) (level0 : Nat) (node1 : Node B1 K1 V1) (level1 : Nat) :
    Calls.M (Heap (JoinEntry B0 B1 K0 K1 V0 V1)) Unit :=
  match max level0 level1 with
  | 0 => do
    let vec0 ← own node0.leafChildren
    let vec1 ← own node1.leafChildren
    onHeap (b.setLeaf (I := ProductIter (Node B0 K0 V0) (Node B1 K1 V1)) E (.new vec0 vec1))
  | height + 1 => do
    let slice0 ← own (RTree.JoinIter.slice node0 level0)
    let slice1 ← own (RTree.JoinIter.slice node1 level1)
    onHeap (b.setInner (L := ProductIter (K0 × V0) (K1 × V1)) E height (.new slice0 slice1))

/-- join.rs 125-154 (`JoinIter::new`). -/
def new (E : Env) (room : Nat → Nat) (code : Nat → Option (JoinFilter B0 B1 Q0 Q1)) (root0 : Node B0 K0 V0) (level0 : Nat)
    (root1 : Node B1 K1 V1) (level1 : Nat) : Calls.M (Heap (JoinEntry B0 B1 K0 K1 V0 V1)) JoinIter := do
  let f ← ask code
  if !f.testBounds root0.bounds root1.bounds then pure ⟨BoxStack.emptyBox, 0, 0⟩
  else do
    let height := max level0 level1
    let stack ← onHeap (BoxStack.newBox E room (.new [] [] : ProductIter (K0 × V0) (K1 × V1))
      (List.replicate height (.new [] [] : ProductIter (Node B0 K0 V0) (Node B1 K1 V1))))
    startJoin E stack root0 level0 root1 level1
    pure ⟨stack, height - level0, height - level1⟩

/-- join.rs 168-207 (`next`): the loop at `level`, with fuel. -/
def nextLoop (E : Env) (code : Nat → Option (JoinFilter B0 B1 Q0 Q1)) (borrow0 : K0 → Q0) (borrow1 : K1 → Q1) (it : JoinIter) :
    Nat → Nat → Calls.M (Heap (JoinEntry B0 B1 K0 K1 V0 V1)) (Option ((K0 × V0) × (K1 × V1)))
  | fuel, level =>
    if level < it.stack.len then
      match fuel with
      | 0 => own (.error .diverge)
      | fuel + 1 =>
        match level with
        | l + 1 => do
          let p ← onHeap (it.stack.getInner (L := ProductIter (K0 × V0) (K1 × V1)) E l)
          let (found, p) ← searchBy code (fun f (x : Node B0 K0 V0 × Node B1 K1 V1) => f.testBounds x.1.bounds x.2.bounds)
            ProductIter.next (p.fst.slice.length * p.snd.length + 1) p
          onHeap (it.stack.setInner (L := ProductIter (K0 × V0) (K1 × V1)) E l p)
          match ← raise found with
          | some (node0, node1) => do
            startJoin E it.stack node0 (l - it.padding0) node1 (l - it.padding1)
            nextLoop E code borrow0 borrow1 it fuel l
          | none => nextLoop E code borrow0 borrow1 it fuel (l + 2)
        | 0 => do
          let p ← onHeap (it.stack.getLeaf (I := ProductIter (Node B0 K0 V0) (Node B1 K1 V1)) E)
          let (found, p) ← searchBy code (fun f (x : (K0 × V0) × (K1 × V1)) => f.testKey (borrow0 x.1.1) (borrow1 x.2.1))
            ProductIter.next (p.fst.slice.length * p.snd.length + 1) p
          onHeap (it.stack.setLeaf (I := ProductIter (Node B0 K0 V0) (Node B1 K1 V1)) E p)
          match ← raise found with
          | some e => pure (some e)
          | none => nextLoop E code borrow0 borrow1 it fuel 1
    else pure none

/-- join.rs 168-207 (`next`): the fuel suffices for every stack. -/
def next (E : Env) (code : Nat → Option (JoinFilter B0 B1 Q0 Q1)) (borrow0 : K0 → Q0) (borrow1 : K1 → Q1) (it : JoinIter) :
    Calls.M (Heap (JoinEntry B0 B1 K0 K1 V0 V1)) (Option ((K0 × V0) × (K1 × V1))) := do
  let h ← self
  nextLoop E code borrow0 borrow1 it ((Calls.JoinIter.weight (BoxStack.entries h it.stack) + 1) * (it.stack.len + 1)) 0

end JoinIter

/-! ## Clients that use many iterators -/

section Session

/-- A kind of iterators in memory: how they are made from a `Src`, advanced and dropped; `code` is the filter of the iterator.
    Modelling device: stands for no code of the crate. -/
structure Kind (α ι Src F X : Type) where
  start : (Nat → Option F) → Src → Calls.M (Heap α) ι
  next : (Nat → Option F) → ι → Calls.M (Heap α) (Option X)
  drop : ι → M α Unit

/-- Iterators of a tree. lib.rs 94-101, 116-141 (`iter`, `iter_mut`, `filter_iter`, `filter_iter_mut`). -/
def treeKind (E : Env) (room : Nat → Nat) (borrow : K → Q) : Kind (TreeEntry B K V) BoxStack (Tree B K V) (SpatialFilter B Q) (K × V) where
  start code t := TreeIter.newFilter E room code t.level t.root
  next code b := TreeIter.next E code borrow b
  drop b := do
    let _ ← b.drop (L := List (K × V)) (I := List (Node B K V)) E
    pure ()

/-- Joins of two trees. lib.rs 262-276 (`join`). -/
def joinKind (E : Env) (room : Nat → Nat) (borrow0 : K0 → Q0) (borrow1 : K1 → Q1) :
    Kind (JoinEntry B0 B1 K0 K1 V0 V1) JoinIter (Tree B0 K0 V0 × Tree B1 K1 V1) (JoinFilter B0 B1 Q0 Q1) ((K0 × V0) × (K1 × V1)) where
  start code t := JoinIter.new E room code t.1.root t.1.level t.2.root t.2.level
  next code it := JoinIter.next E code borrow0 borrow1 it
  drop it := do
    let _ ← it.stack.drop (L := ProductIter (K0 × V0) (K1 × V1)) (I := ProductIter (Node B0 K0 V0) (Node B1 K1 V1)) E
    pure ()

variable {α ι Src F X : Type}

/-- An iterator that is alive, its filter and the number of calls the filter has had. Client code. -/
structure Live (ι F : Type) where
  iter : ι
  code : Nat → Option F
  clock : Nat

/-- What a client does: make an iterator, call `next` of the `k`-th one, drop the `k`-th one. Client code. -/
inductive IterCmd (Src F : Type) where
  | start (src : Src) (code : Nat → Option F)
  | next (k : Nat)
  | drop (k : Nat)

/-- Memory, the iterators made so far (`none` if dropped, or if making it panicked), and how each call of `next` ended. Client code. -/
structure Session (α ι F X : Type) where
  heap : Heap α
  its : List (Option (Live ι F))
  log : List (Nat × Except Stop (Option X))

/-- After making an iterator; a panic of the filter is caught. Client code. -/
def Session.afterStart (s : Session α ι F X) (code : Nat → Option F) : Except Stop ι × Heap α × Nat → Res (Session α ι F X)
  | (.ok it, h, n) => .ok { s with heap := h, its := s.its ++ [some ⟨it, code, n⟩] }
  | (.error .user, h, _) => .ok { s with heap := h, its := s.its ++ [none] }
  | (.error (.own p), _, _) => .error p

/-- After `next` of the `k`-th iterator; a panic of the filter is caught. Client code. -/
def Session.afterNext (s : Session α ι F X) (k : Nat) (l : Live ι F) : Except Stop (Option X) × Heap α × Nat → Res (Session α ι F X)
  | (.error (.own p), _, _) => .error p
  | (r, h, n) => .ok ⟨h, s.its.set k (some { l with clock := n }), s.log ++ [(k, r)]⟩

/-- After dropping the `k`-th iterator. Client code. -/
def Session.afterDrop (s : Session α ι F X) (k : Nat) : Except Panic (Unit × Heap α) → Res (Session α ι F X)
  | .ok (_, h) => .ok { s with heap := h, its := s.its.set k none }
  | .error p => .error p

/-- Using an iterator that is gone does nothing (Rust does not let it compile). Client code. -/
def Session.withLive (s : Session α ι F X) (l : Option (Option (Live ι F))) (f : Live ι F → Res (Session α ι F X)) : Res (Session α ι F X) :=
  match l with
  | some (some l) => f l
  | _ => .ok s

/-- One command. Client code. -/
def Session.step (kind : Kind α ι Src F X) (s : Session α ι F X) : IterCmd Src F → Res (Session α ι F X)
  | .start src code => s.afterStart code (kind.start code src s.heap 0)
  | .next k => s.withLive s.its[k]? fun l => s.afterNext k l (kind.next l.code l.iter s.heap l.clock)
  | .drop k => s.withLive s.its[k]? fun l => s.afterDrop k (kind.drop l.iter s.heap)

/-- Some commands. Client code. -/
def Session.run (kind : Kind α ι Src F X) (s : Session α ι F X) : List (IterCmd Src F) → Res (Session α ι F X)
  | [] => .ok s
  | c :: cs => do Session.run kind (← s.step kind c) cs

/-- What the commands make iterators of, in order. Client code. -/
def started : List (IterCmd Src F) → List (Src × (Nat → Option F))
  | [] => []
  | .start src code :: cs => (src, code) :: started cs
  | _ :: cs => started cs

/-- How the calls of `next` of the `k`-th iterator ended. Client code. -/
def itemsOf (k : Nat) (log : List (Nat × Except Stop (Option X))) : List (Except Stop (Option X)) :=
  (log.filter fun x => x.1 == k).map Prod.snd

end Session

end RTree.Raw
