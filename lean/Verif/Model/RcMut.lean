import Verif.Model.LeftJoin
/-!
# The shared allocation of left joins (rc_mut.rs)

One `RcMutAlloc` hands out `RcMut` handles.  A box is owned by the alloc, by one handle, or by both; a single flag in
the box (`shared`) says whether both own it.  Boxes are numbered; a freed box is `none`.

Using a freed box, or reading a value that was never written, is the error `Panic.ub`.  `drop` of a handle reports
the value it dropped, if it dropped one.
-/

namespace RTree.RcMut

/-- rc_mut.rs 9-13 (`RcMutBox`); `value` is `none` while the memory is uninitialised. -/
structure Cell (T : Type) where
  shared : Bool
  value : Option T

/-- All boxes ever allocated; `none` if freed. Modelling device: stands for no code of the crate. -/
abbrev Boxes (T : Type) := List (Option (Cell T))

/-- Computations on boxes. Modelling device: stands for no code of the crate. -/
def M (T β : Type) := Boxes T → Res (β × Boxes T)

variable {T β : Type}

/-- Sequencing. Modelling device: stands for no code of the crate. -/
instance : Monad (M T) where
  pure b := fun h => .ok (b, h)
  bind x f := fun h =>
    match x h with
    | .ok (b, h') => f b h'
    | .error e => .error e

/-- Reading the box behind a pointer: it must not have been freed.
    Modelling device: stands for no code of the crate. -/
def load (b : Nat) : M T (Cell T) := fun h =>
  match h[b]? with
  | some (some c) => .ok (c, h)
  | _ => .error .ub

/-- A change of memory that cannot fail. Modelling device: stands for no code of the crate. -/
def modify (f : Boxes T → Boxes T) : M T Unit := fun h => .ok ((), f h)

/-- Undefined behaviour. Modelling device: stands for no code of the crate. -/
def undefined : M T β := fun _ => .error .ub

/-- Writing the box behind a pointer: it must not have been freed. rc_mut.rs 92, 198 (`shared.set`, `replace`). -/
def store (b : Nat) (c : Cell T) : M T Unit := do
  let _ ← load b
  modify (·.set b (some c))

/-- `alloc::dealloc`: the box must not have been freed. rc_mut.rs 186, 202. -/
def free (b : Nat) : M T Unit := do
  let _ ← load b
  modify (·.set b none)

/-- rc_mut.rs 34-41 (`allocate_for_layout`), 69-73 (`new_for_layout`), 162-173 (`Clone for RcMutAlloc`): a fresh box, not
    shared, with an uninitialised value. -/
def allocate : M T Nat := fun h => .ok (h.length, h ++ [some ⟨false, none⟩])

/-- `shared.replace(false)`: the previous value of the flag. rc_mut.rs 179-182, 198. -/
def takeShared (b : Nat) : M T Bool := do
  let c ← load b
  store b { c with shared := false }
  pure c.shared

/-- rc_mut.rs 175-190 (`Drop for RcMutAlloc`). -/
def dropAlloc (b : Nat) : M T Unit := do
  if ← takeShared b then pure () else free b

/-- rc_mut.rs 82-97 (`make_mut_init_raw`): the box of the alloc afterwards (the handle points to the same one).
    `*self = self.clone()` drops the old `RcMutAlloc` after the assignment. -/
def makeMut (b : Nat) (v : T) : M T Nat := do
  let c ← load b
  let b' ← (if c.shared then do
      let b' ← allocate
      dropAlloc b
      pure b'
    else pure b)
  store b' { (← load b') with shared := true }
  store b' { (← load b') with value := some v }
  pure b'

/-- rc_mut.rs 195-206 (`Drop for RcMut`): the value dropped, if the handle was the only owner. -/
def dropHandle (b : Nat) : M T (Option T) := do
  if ← takeShared b then pure none
  else
    let c ← load b
    match c.value with
    | some v => do
      free b
      pure (some v)
    | none => undefined

/-- rc_mut.rs 208-214 (`Deref for RcMut`). -/
def deref (b : Nat) : M T T := do
  let c ← load b
  match c.value with
  | some v => pure v
  | none => undefined

/-- rc_mut.rs 216-220 (`DerefMut for RcMut`): replaces the value in place. -/
def derefMut (b : Nat) (v : T) : M T Unit := do
  let c ← load b
  match c.value with
  | some _ => store b { c with value := some v }
  | none => undefined

/-! ### One alloc and its handles under any interleaving -/

/-- The owners outside of memory: the box of the `RcMutAlloc` unless it has been dropped, and the box of each
    `RcMut` handed out so far, in order, unless it has been dropped. rc_mut.rs 23 (`RcMutAlloc`), 193 (`RcMut`). -/
structure Owners where
  alloc : Option Nat
  handles : List (Option Nat)

/-- What safe code can do: get a handle, use handle `k` (`f` returns an output and the new value), drop handle `k`, drop
    the alloc. Client code of rc_mut.rs 82-97, 175-220. -/
inductive Op (T O : Type) where
  | make (v : T)
  | use (k : Nat) (f : T → O × T)
  | dropHandle (k : Nat)
  | dropAlloc

variable {O : Type}

/-- One operation on memory.  `none`: the operation is not possible (the alloc or the handle is gone; the borrow checker
    rejects it). Client code of rc_mut.rs 82-97, 175-220. -/
def step (o : Owners) : Op T O → Option (M T (Owners × Option O))
  | .make v => do
    let b ← o.alloc
    some (do
      let b' ← makeMut b v
      pure (⟨some b', o.handles ++ [some b']⟩, none))
  | .use k f => do
    let b ← (← o.handles[k]?)
    some (do
      let v ← deref b
      let (out, v') := f v
      derefMut b v'
      pure (o, some out))
  | .dropHandle k => do
    let b ← (← o.handles[k]?)
    some (do
      let _ ← dropHandle b
      pure (⟨o.alloc, o.handles.set k none⟩, none))
  | .dropAlloc => do
    let b ← o.alloc
    some (do
      dropAlloc b
      pure (⟨none, o.handles⟩, none))

/-- A sequence of operations; `none` if some operation is not possible. Client code. -/
def run (o : Owners) : List (Op T O) → Boxes T → Option (Res ((Owners × List O) × Boxes T))
  | [], h => some (.ok ((o, []), h))
  | op :: ops, h => do
    let m ← step o op
    match m h with
    | .error e => some (.error e)
    | .ok ((o, out), h) =>
      match ← run o ops h with
      | .error e => some (.error e)
      | .ok ((o, outs), h) => some (.ok ((o, out.toList ++ outs), h))

end RTree.RcMut

namespace RTree

variable {BL BR KL KR VL VR QL QR : Type}

/-! ### A left join and its right-hand iterators in memory -/

/-- left_join.rs 53-63 (`LeftJoinIter`) with its allocation: the iterator unless it has been dropped, the box of
    `right_alloc` and the number of entries its boxes have room for, and the right-hand iterators yielded so far (left key,
    box) unless dropped. -/
structure JoinInMemory (BL BR KL KR VL VR : Type) where
  join : Option (LeftJoinIter BL BR KL KR VL VR × Nat)
  room : Nat
  rights : List (KL × Option Nat)

/-- What a user can do with a left join: take the next item, take the next item of the `k`-th right-hand iterator, drop
    that iterator, drop the join. Client code of left_join.rs 160-251, iter.rs 170-172. -/
inductive JoinOp where
  | next
  | nextRight (k : Nat)
  | dropRight (k : Nat)
  | dropJoin

/-- What the user sees. left_join.rs 151-158 (`Item`), iter.rs 168 (`Item`). -/
inductive JoinOut (KL VL KR VR : Type) where
  | left (e : Option (KL × VL))
  | right (e : Option (KR × VR))

namespace JoinInMemory

/-- left_join.rs 127-130 (`new`): `right_alloc` has room for `root_right.level() + 2` entries. -/
def new (rootL : Node BL KL VL) (levelL : Nat) (rootR : Node BR KR VR) (levelR : Nat) :
    RcMut.M (TreeIter BR KR VR) (JoinInMemory BL BR KL KR VL VR) := fun h => do
  let it ← LeftJoinIter.new rootL levelL rootR levelR
  let (b, h) ← RcMut.allocate h
  pure (⟨some (it, b), levelR + 2, []⟩, h)

/-- One step of a user.  `next`: left_join.rs 160-251, with the allocation at 209-219 and iter_stack.rs 204-208 (the
    assertion of `map_into`).  `nextRight`: iter.rs 170-172 (`FilterIter::next`) on the stack in the box.  `none`: not
    possible, the join or the iterator is gone. -/
def step [Bounded QL BL] (borrowL : KL → QL) (borrowR : KR → QR) (f : JoinFilter BL BR QL QR)
    (s : JoinInMemory BL BR KL KR VL VR) : JoinOp →
    Option (RcMut.M (TreeIter BR KR VR) (JoinInMemory BL BR KL KR VL VR × Option (JoinOut KL VL KR VR)))
  | .next => do
    let (it, b) ← s.join
    some fun h => do
      match ← it.next f with
      | (some (e, stack), it) => do
        if stack.length ≠ s.room then throw .indexOutOfBounds
        let (b, h) ← RcMut.makeMut b stack h
        pure ((⟨some (it, b), s.room, s.rights ++ [(e.1, some b)]⟩, some (.left (some e))), h)
      | (none, it) => pure ((⟨some (it, b), s.room, s.rights⟩, some (.left none)), h)
  | .nextRight k => do
    let (key, b) ← s.rights[k]?
    let b ← b
    some fun h => do
      let (stack, h) ← RcMut.deref b h
      let (e, stack) ← stack.next borrowR (joiningFilter (borrowL key) f)
      let (_, h) ← RcMut.derefMut b stack h
      pure ((s, some (.right e)), h)
  | .dropRight k => do
    let (key, b) ← s.rights[k]?
    let b ← b
    some fun h => do
      let (_, h) ← RcMut.dropHandle b h
      pure ((⟨s.join, s.room, s.rights.set k (key, none)⟩, none), h)
  | .dropJoin => do
    let (_, b) ← s.join
    some fun h => do
      let (_, h) ← RcMut.dropAlloc b h
      pure ((⟨none, s.room, s.rights⟩, none), h)

/-- A sequence of steps of a user. Client code. -/
def run [Bounded QL BL] (borrowL : KL → QL) (borrowR : KR → QR) (f : JoinFilter BL BR QL QR)
    (s : JoinInMemory BL BR KL KR VL VR) : List JoinOp → RcMut.Boxes (TreeIter BR KR VR) →
    Option (Res ((JoinInMemory BL BR KL KR VL VR × List (JoinOut KL VL KR VR)) × RcMut.Boxes (TreeIter BR KR VR)))
  | [], h => some (.ok ((s, []), h))
  | op :: ops, h => do
    let m ← s.step borrowL borrowR f op
    match m h with
    | .error e => some (.error e)
    | .ok ((s, out), h) =>
      match ← s.run borrowL borrowR f ops h with
      | .error e => some (.error e)
      | .ok ((s, outs), h) => some (.ok ((s, out.toList ++ outs), h))

end JoinInMemory

end RTree
