import Verif.Programs
/-!
# Dropping trees when destructors panic (fc_vec.rs 332-338, node.rs 625-634, 936-942, 1295-1304)

The drop of `Model/RawTree.lean`, one destructor at a time: each destructor of a key or a value may panic.  The panic unwinds through the loops of
the crate; nothing of the crate catches it (`FCVecRefMut`, `NodeRefMut` and `InnerNodeChildrenRefMut` have no `Drop`).

Rust's own rules: the fields of a tuple are dropped in order, and the remaining fields are dropped also if the destructor of one
panics; a second panic while unwinding aborts the process.
-/

namespace RTree.Raw

variable {B K V β : Type}

/-- How something ends that does not return: a panic that unwinds, the end of the process, or undefined behaviour or a panic that does not come
    from a destructor. Modelling device: stands for no code of the crate. -/
inductive Halt where
  | panic
  | abort
  | fault (p : Panic)

/-- Memory, and the destructors that have been run, in order. Modelling device: stands for no code of the crate. -/
structure Dying (B K V : Type) where
  heap : Heap (Cell B K V)
  log : List (K ⊕ V)

/-- Computations; memory is there also after a panic. Modelling device: stands for no code of the crate. -/
def DM (B K V β : Type) := Dying B K V → Except Halt β × Dying B K V

/-- Sequencing: a panic ends the computation. Modelling device: stands for no code of the crate. -/
instance : Monad (DM B K V) where
  pure b := fun s => (.ok b, s)
  bind x f := fun s =>
    match x s with
    | (.ok b, s) => f b s
    | (.error e, s) => (.error e, s)

/-- Something that is done in memory. Modelling device: stands for no code of the crate. -/
def inMem (x : TM B K V β) : DM B K V β := fun s =>
  match x s.heap with
  | .ok (b, h) => (.ok b, ⟨h, s.log⟩)
  | .error e => (.error (.fault e), s)

/-- A loop over a list. Modelling device: stands for no code of the crate. -/
def forEach {α : Type} (f : α → DM B K V Unit) : List α → DM B K V Unit
  | [] => pure ()
  | a :: as => do
    f a
    forEach f as

/-- User code: the destructor of a key or of a value; the `n`-th one panics if `bomb n`. -/
def destroy (bomb : Nat → Bool) (x : K ⊕ V) : DM B K V Unit := fun s =>
  (if bomb s.log.length then .error .panic else .ok (), ⟨s.heap, s.log ++ [x]⟩)

/-- The drop of a pair (fc_vec.rs 334, the temporary `Option<(Key, Value)>`): the value is dropped also if the destructor of the key panics; if its destructor panics
    as well the process is aborted. -/
def destroyPair (bomb : Nat → Bool) (e : K × V) : DM B K V Unit := fun s =>
  match destroy bomb (.inl e.1) s with
  | (.ok _, s) => destroy bomb (.inr e.2) s
  | (.error r, s) =>
    match destroy bomb (.inr e.2) s with
    | (.ok _, s) => (.error r, s)
    | (.error _, s) => (.error .abort, s)

/-- fc_vec.rs 334 (`while self.pop().is_some() {}`); `d` drops an element. -/
def popAll (e : Env) (d : Cell B K V → DM B K V Unit) : Nat → FCVec → DM B K V Unit
  | 0, _ => inMem (panic .diverge)
  | n + 1, v => do
    match ← inMem (v.pop e) with
    | (v, some c) => do
      d c
      popAll e d n v
    | (_, none) => pure ()

/-- fc_vec.rs 332-338 (`drop`): the block is freed only if no destructor panics. -/
def dropVec (e : Env) (cap : Nat) (d : Cell B K V → DM B K V Unit) (v : FCVec) : DM B K V Unit := do
  popAll e d (v.len + 1) v
  inMem (dealloc e v.buf cap)

/-- The drop of an element of a leaf. fc_vec.rs 334. -/
def dropLeafCell (bomb : Nat → Bool) (c : Cell B K V) : DM B K V Unit := do
  destroyPair bomb (← inMem (lift c.asEntry))

/-- The drop of an element of an inner node: a `Node` has no destructor (node.rs 63-65), and its bounds are plain data. fc_vec.rs 334. -/
def dropInnerCell (c : Cell B K V) : DM B K V Unit := do
  let _ ← inMem (lift c.asNode)
  pure ()

/-- node.rs 625-634 (`NodeRefMut::drop`), 1295-1304 (`InnerNodeChildrenRefMut::drop`). -/
def destroyNode (E : TEnv) (bomb : Nat → Bool) (a : Alloc) : Nat → RNode B → DM B K V Unit
  | 0, node => dropVec E.entry a.maxChildren (dropLeafCell bomb) node.vec
  | l + 1, node => do
    let cs ← inMem (nodes E node.vec)
    forEach (destroyNode E bomb a l) cs
    dropVec E.node a.maxChildren dropInnerCell node.vec

/-- lib.rs 87-90, node.rs 936-942 (`Drop for NodeContainer`). -/
def RTree.destroy (E : TEnv) (bomb : Nat → Bool) (t : RTree B) : DM B K V Unit := destroyNode E bomb t.alloc t.level t.root

end RTree.Raw

namespace RTree

variable {B K V Q : Type}

/-- A command of `Verif/Programs.lean`, or a variable that goes out of scope when some destructors panic; the client catches panics (`catch_unwind`).
    Client code. -/
inductive DCmd (K V Q : Type) where
  | cmd (c : Cmd K V Q)
  | drop (i : Nat) (bomb : Nat → Bool)

/-- How dropping a tree ends: normally, with a panic that can be caught, or with the end of the process. Client code. -/
inductive Ending where
  | finished
  | panicked
  | aborted
  deriving DecidableEq

/-- What is seen of a command: as for ordinary commands, or the destructors run and how it ended. Client code. -/
inductive DEvent (K V : Type) where
  | event (e : Raw.Event K V)
  | dropped (log : List (K ⊕ V)) (e : Ending)

namespace Raw

variable [Bounds B] [Volume B] [Bounded K B] [BEq K] [Bounded Q B] [BEq Q]

/-- A session in memory.  A process that is aborted does nothing any more. Client code. -/
def session (E : TEnv) (borrow : K → Q) : List (Option (RTree B)) → List (DCmd K V Q) → Heap (Cell B K V) →
    Res (List (Option (RTree B)) × List (DEvent K V) × Heap (Cell B K V))
  | f, [], h => .ok (f, [], h)
  | f, .cmd c :: cs, h =>
    match Cmd.raw E borrow f c h with
    | .error e => .error e
    | .ok ((f, e), h) => do
      let (f, es, h) ← session E borrow f cs h
      pure (f, .event e :: es, h)
  | f, .drop i bomb :: cs, h =>
    match f[i]? with
    | some (some t) =>
      match t.destroy E bomb ⟨h, []⟩ with
      | (.ok _, s) => do
        let (f, es, h) ← session E borrow (f.set i none) cs s.heap
        pure (f, .dropped s.log .finished :: es, h)
      | (.error .panic, s) => do
        let (f, es, h) ← session E borrow (f.set i none) cs s.heap
        pure (f, .dropped s.log .panicked :: es, h)
      | (.error .abort, s) => .ok (f.set i none, [.dropped s.log .aborted], s.heap)
      | (.error (.fault p), _) => .error p
    | _ => do
      let (f, es, h) ← session E borrow f cs h
      pure (f, .dropped [] .finished :: es, h)

end Raw

end RTree
