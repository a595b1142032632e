import Verif.Model.Sorted
import Verif.Model.Join
import Verif.Model.LeftJoin
/-!
# Iterators whose filters and rankings panic or answer inconsistently (iter.rs, join.rs, left_join.rs)

The iterators of `Model/Iter.lean`, `Model/Join.lean`, `Model/LeftJoin.lean` and `Model/Sorted.lean`, with user code that is asked afresh each time: `code n`
is what the `n`-th call of user code answers, whatever it is asked; `none` is a panic.  A panic unwinds to the caller of `next`, who may
catch it and call `next` again: a computation that fails therefore leaves a state behind.
-/

namespace RTree.Calls

/-- How a call ends that does not return: a panic of user code, or a panic or undefined behaviour of the crate.
    Modelling device: stands for no code of the crate. -/
inductive Stop where
  | user
  | own (p : Panic)

/-- Computations with a state (the iterator) that count the calls of user code; the state survives a failure.
    Modelling device: stands for no code of the crate. -/
def M (S α : Type) := S → Nat → Except Stop α × S × Nat

variable {S α β : Type}

/-- Sequencing. Modelling device: stands for no code of the crate. -/
instance : Monad (M S) where
  pure a := fun s n => (.ok a, s, n)
  bind x f := fun s n =>
    match x s n with
    | (.ok a, s, n) => f a s n
    | (.error e, s, n) => (.error e, s, n)

/-- Something the crate does itself. Modelling device: stands for no code of the crate. -/
def own (r : Res α) : M S α := fun s n =>
  match r with
  | .ok a => (.ok a, s, n)
  | .error p => (.error (.own p), s, n)

/-- The iterator. Modelling device: stands for no code of the crate. -/
def self : M S S := fun s n => (.ok s, s, n)

/-- Change the iterator. Modelling device: stands for no code of the crate. -/
def put (s : S) : M S Unit := fun _ n => (.ok (), s, n)

/-- End as given. Modelling device: stands for no code of the crate. -/
def raise (r : Except Stop α) : M S α := fun s n => (r, s, n)

/-- Catch a panic. Client code (`catch_unwind`). -/
def catching (x : M S α) : M S (Except Stop α) := fun s n =>
  let r := x s n
  (.ok r.1, r.2)

/-- One call of user code. Modelling device: stands for no code of the crate. -/
def ask {F : Type} (code : Nat → Option F) : M S F := fun s n =>
  match code n with
  | some f => (.ok f, s, n + 1)
  | none => (.error .user, s, n + 1)

/-- `Iterator::find` on a slice iterator: how it ends and the remaining elements.  An element is taken out of the iterator before it is tested.
    iter.rs 78, 91-94, 225, 238-241. -/
def search {F : Type} (code : Nat → Option F) (test : F → α → Bool) : List α → M S (Except Stop (Option α) × List α)
  | [] => pure (.ok none, [])
  | a :: as => do
    match ← catching (ask code) with
    | .error e => pure (.error e, as)
    | .ok f => if test f a then pure (.ok (some a), as) else search code test as

variable {B K V Q : Type}

namespace TreeIter

/-- iter.rs 69-102 (`Iter::next`), 216-249 (`IterMut::next`): the loop at `level`, with fuel. -/
def nextLoop (code : Nat → Option (SpatialFilter B Q)) (borrow : K → Q) : Nat → Nat → M (TreeIter B K V) (Option (K × V))
  | fuel, level => do
    let s ← self
    if level < s.length then
      match fuel with
      | 0 => own (.error .diverge)
      | fuel + 1 =>
        match level with
        | l + 1 => do
          let (found, it) ← search code (fun f (n : Node B K V) => f.testBounds n.bounds) (← own (s.getInner l))
          let s ← own (s.setInner l it)
          put s
          match ← raise found with
          | some node =>
            match l with
            | l' + 1 => do
              put (← own (s.setInner l' (← own node.innerChildren)))
              nextLoop code borrow fuel (l' + 1)
            | 0 => do
              put (← own (s.setLeaf (← own node.leafChildren)))
              nextLoop code borrow fuel 0
          | none => nextLoop code borrow fuel (l + 2)
        | 0 => do
          let (found, it) ← search code (fun f (e : K × V) => f.testKey (borrow e.1)) (← own s.getLeaf)
          put (← own (s.setLeaf it))
          match ← raise found with
          | some e => pure (some e)
          | none => nextLoop code borrow fuel 1
    else pure none

/-- iter.rs 69-102 (`Iter::next`), 160-173, 294-305: the fuel suffices for every stack. -/
def next (code : Nat → Option (SpatialFilter B Q)) (borrow : K → Q) : M (TreeIter B K V) (Option (K × V)) := do
  let s ← self
  nextLoop code borrow ((s.weight + 1) * (s.length + 1)) 0

/-- `k` calls of `next`, with panics caught. Client code of iter.rs 160-173, 294-305. -/
def nexts (code : Nat → Option (SpatialFilter B Q)) (borrow : K → Q) : Nat → M (TreeIter B K V) (List (Except Stop (Option (K × V))))
  | 0 => pure []
  | k + 1 => do
    let r ← catching (next code borrow)
    pure (r :: (← nexts code borrow k))

/-- iter.rs 132-142 (`FilterIter::new`), 279-289 (`FilterIterMut::new`): the state is the iterator being made. -/
def newFilter (code : Nat → Option (SpatialFilter B Q)) (level : Nat) (root : Node B K V) : M (TreeIter B K V) Unit := do
  let f ← ask code
  if f.testBounds root.bounds then put (← own (RTree.TreeIter.new level root)) else put RTree.TreeIter.newEmpty

end TreeIter

/-! ## Joins -/

/-- `Iterator::find` on an iterator given by its `next` (called at most `n` times): how it ends and the iterator.  join.rs 180-181, 196-199, iter_stack.rs 354. -/
def searchBy {F I : Type} (code : Nat → Option F) (test : F → α → Bool) (next : I → Option α × I) : Nat → I → M S (Except Stop (Option α) × I)
  | 0, _ => own (.error .diverge)
  | n + 1, it =>
    match next it with
    | (none, it) => pure (.ok none, it)
    | (some a, it) => do
      match ← catching (ask code) with
      | .error e => pure (.error e, it)
      | .ok f => if test f a then pure (.ok (some a), it) else searchBy code test next n it

variable {B0 B1 K0 K1 V0 V1 Q0 Q1 : Type}

namespace JoinIter

/-- Number of pairs that the iterators can still visit, roughly; only used to bound loops.
    Modelling device: a bound that makes loops structurally recursive; stands for no code. -/
def weight (s : JoinIterStack B0 B1 K0 K1 V0 V1) : Nat :=
  (s.zipIdx.map fun x =>
    match x.1 with
    | .leaf it => it.fst.slice.length * it.snd.length
    | .inner it => ((pairs it.fst.slice it.snd).map fun y => joinWeight (x.2 - 1) y.1 y.2).sum).sum

/-- join.rs 168-207 (`next`): the loop at `level`, with fuel. -/
def nextLoop (code : Nat → Option (JoinFilter B0 B1 Q0 Q1)) (borrow0 : K0 → Q0) (borrow1 : K1 → Q1) :
    Nat → Nat → M (JoinIter B0 B1 K0 K1 V0 V1) (Option ((K0 × V0) × (K1 × V1)))
  | fuel, level => do
    let s ← self
    if level < s.stack.length then
      match fuel with
      | 0 => own (.error .diverge)
      | fuel + 1 =>
        match level with
        | l + 1 => do
          let it ← own (s.stack.getInner l)
          let (found, it) ← searchBy code (fun f (x : Node B0 K0 V0 × Node B1 K1 V1) => f.testBounds x.1.bounds x.2.bounds) ProductIter.next
            (it.fst.slice.length * it.snd.length + 1) it
          let stack ← own (s.stack.setInner l it)
          put { s with stack }
          match ← raise found with
          | some (node0, node1) => do
            let stack ← own (RTree.JoinIter.startJoin stack node0 (l - s.padding0) node1 (l - s.padding1))
            put { s with stack }
            nextLoop code borrow0 borrow1 fuel l
          | none => nextLoop code borrow0 borrow1 fuel (l + 2)
        | 0 => do
          let it ← own s.stack.getLeaf
          let (found, it) ← searchBy code (fun f (x : (K0 × V0) × (K1 × V1)) => f.testKey (borrow0 x.1.1) (borrow1 x.2.1)) ProductIter.next
            (it.fst.slice.length * it.snd.length + 1) it
          let stack ← own (s.stack.setLeaf it)
          put { s with stack }
          match ← raise found with
          | some e => pure (some e)
          | none => nextLoop code borrow0 borrow1 fuel 1
    else pure none

/-- join.rs 168-207 (`next`): the fuel suffices for every stack. -/
def next (code : Nat → Option (JoinFilter B0 B1 Q0 Q1)) (borrow0 : K0 → Q0) (borrow1 : K1 → Q1) : M (JoinIter B0 B1 K0 K1 V0 V1) (Option ((K0 × V0) × (K1 × V1))) := do
  let s ← self
  nextLoop code borrow0 borrow1 ((weight s.stack + 1) * (s.stack.length + 1)) 0

/-- `k` calls of `next`, with panics caught. Client code of join.rs 168-207. -/
def nexts (code : Nat → Option (JoinFilter B0 B1 Q0 Q1)) (borrow0 : K0 → Q0) (borrow1 : K1 → Q1) :
    Nat → M (JoinIter B0 B1 K0 K1 V0 V1) (List (Except Stop (Option ((K0 × V0) × (K1 × V1)))))
  | 0 => pure []
  | k + 1 => do
    let r ← catching (next code borrow0 borrow1)
    pure (r :: (← nexts code borrow0 borrow1 k))

/-- join.rs 125-154 (`JoinIter::new`): the state is the iterator being made. -/
def new (code : Nat → Option (JoinFilter B0 B1 Q0 Q1)) (root0 : Node B0 K0 V0) (level0 : Nat) (root1 : Node B1 K1 V1) (level1 : Nat) : M (JoinIter B0 B1 K0 K1 V0 V1) Unit := do
  let f ← ask code
  if !f.testBounds root0.bounds root1.bounds then put ⟨IterStack.emptyBox, 0, 0⟩
  else do
    let height := max level0 level1
    let stack := IterStack.newBox (.new [] []) (List.replicate height (.new [] []))
    put ⟨stack, height - level0, height - level1⟩
    let stack ← own (RTree.JoinIter.startJoin stack root0 level0 root1 level1)
    put ⟨stack, height - level0, height - level1⟩

end JoinIter

end RTree.Calls
