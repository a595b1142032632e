import Verif.Model.RawSorted
import Verif.Model.RawMut
import Verif.Model.RawJoin
import Verif.Programs
/-!
# The code as single accesses to memory

For threads.  `Verif/Model/FCVec.lean` and `Verif/Model/RawTree.lean` run a function in one go.  Here the same functions, line by line the same
text, are written in a language whose only instructions are single accesses to memory, so that a scheduler can stop between
any two of them.  `Verif/Proofs/Steps.lean` proves that to run such a program in one go is to run the function of `Verif/Model/RawTree.lean`.

An access is to a whole block (one `FCVec` buffer): to look at it, to change or free it, or to make a new one.
-/

namespace RTree.Raw

/-- A program as a scheduler sees it: finished, panicked, or about to make an access to memory.
    Modelling device: stands for no code of the crate. -/
inductive Prog (α β : Type) where
  | done (b : β)
  | fail (e : Panic)
  /-- looks at a block -/
  | look (i : Nat) (k : Block α → Prog α β)
  /-- changes a block, or frees it (`none`) -/
  | put (i : Nat) (x : Option (Block α)) (k : Prog α β)
  /-- makes a new block -/
  | make (b : Block α) (k : Ptr → Prog α β)

namespace Prog

variable {α β γ : Type}

/-- One program after the other. Modelling device: stands for no code of the crate. -/
def bind : Prog α β → (β → Prog α γ) → Prog α γ
  | .done b, f => f b
  | .fail e, _ => .fail e
  | .look i k, f => .look i fun b => (k b).bind f
  | .put i x k, f => .put i x (k.bind f)
  | .make b k, f => .make b fun p => (k p).bind f

/-- Sequencing. Modelling device: stands for no code of the crate. -/
instance : Monad (Prog α) where
  pure := .done
  bind := Prog.bind

/-- Runs a program in one go.  `gap` are the allocator's choices.  To change a block that is not there is undefined behaviour.
    Modelling device: stands for no code of the crate. -/
def run (gap : Nat → Nat) : Prog α β → M α β
  | .done b => pure b
  | .fail e => panic e
  | .look i k => fun h =>
    match h[i]? with
    | some (some b) => (k b).run gap h
    | _ => .error .ub
  | .put i x k => fun h =>
    match h[i]? with
    | some (some _) => k.run gap (h.set i x)
    | _ => .error .ub
  | .make b k => fun h => (k ⟨h.length + gap h.length, 0⟩).run gap (h ++ List.replicate (gap h.length) none ++ [some b])

end Prog

namespace Steps

variable {α : Type}

/-- A panic. fc_vec.rs 215-217, 269-271, 293-295, 310-312. -/
def panic {β : Type} (e : Panic) : Prog α β := .fail e

/-- `if c { panic!() }`. fc_vec.rs 215-217, 269-271, 293-295, 310-312. -/
def panicIf (c : Prop) [Decidable c] (e : Panic) : Prog α Unit := if c then panic e else pure ()

/-- A computation that does not use memory. Modelling device: stands for no code of the crate. -/
def lift {β : Type} (x : Res β) : Prog α β :=
  match x with
  | .ok b => .done b
  | .error e => .fail e

/-- `alloc::Layout::array::<T>(n).unwrap()`: the number of bytes. fc_vec.rs 129-139, 336-337, 545-548. -/
def layoutArray (E : Env) (n : Nat) : Prog α Nat :=
  if n * E.size ≤ E.maxBytes then pure (n * E.size) else panic .unwrapNone

/-- `alloc::alloc(Layout::array::<T>(n))`. fc_vec.rs 129-139. -/
def alloc (E : Env) (n : Nat) : Prog α Ptr := do
  let bytes ← layoutArray E n
  panicIf (bytes = 0 ∧ E.zeroOk = false) .ub
  .make ⟨bytes, List.replicate n none⟩ .done

/-- The block a pointer points into; freed blocks must not be used.
    Modelling device: stands for no code of the crate. -/
def block (p : Ptr) : Prog α (Block α) := .look p.block .done

/-- Replaces the slots of a block. Modelling device: stands for no code of the crate. -/
def setSlots (p : Ptr) (slots : List (Option α)) : Prog α Unit := do
  let b ← block p
  .put p.block (some ⟨b.bytes, slots⟩) (.done ())

/-- `alloc::dealloc(p, Layout::array::<T>(n))`. fc_vec.rs 336-337, 545-548. -/
def dealloc (E : Env) (p : Ptr) (n : Nat) : Prog α Unit := do
  let bytes ← layoutArray E n
  let b ← block p
  panicIf (p.off ≠ 0 ∨ b.bytes ≠ bytes ∨ (bytes = 0 ∧ E.zeroOk = false)) .ub
  .put p.block none (.done ())

/-- `p.add(n)`: the result must be within the allocation or one past its end.
    fc_vec.rs 219-220, 254-256, 273-281, 445. -/
def add (E : Env) (p : Ptr) (n : Nat) : Prog α Ptr := do
  let b ← block p
  if p.off + n * E.size ≤ b.bytes then pure ⟨p.block, p.off + n * E.size⟩ else panic .ub

/-- `ptr::read(p)`: copies the bits out. fc_vec.rs 274, 298, 326, 515, 535. -/
def read (E : Env) (p : Ptr) : Prog α α := do
  let b ← block p
  if p.off + E.size ≤ b.bytes then
    match b.slots[p.off / E.size]? with
    | some (some a) => pure a
    | _ => panic .ub
  else panic .ub

/-- `ptr::write(p, a)`: overwrites without dropping. fc_vec.rs 220, 231, 256. -/
def write (E : Env) (p : Ptr) (a : α) : Prog α Unit := do
  let b ← block p
  if p.off + E.size ≤ b.bytes then setSlots p (b.slots.set (p.off / E.size) (some a)) else panic .ub

/-- `ptr::copy(src, dst, n)` within one block: copies bits (`memmove`), initialised or not.
    fc_vec.rs 255, 276-281, 299. -/
def copy (E : Env) (src dst : Ptr) (n : Nat) : Prog α Unit := do
  let b ← block src
  panicIf (src.block ≠ dst.block ∨ src.off + n * E.size > b.bytes ∨ dst.off + n * E.size > b.bytes) .ub
  if E.size = 0 then pure ()
  else
    let moved := (b.slots.drop (src.off / E.size)).take n
    setSlots src (b.slots.take (dst.off / E.size) ++ moved ++ b.slots.drop (dst.off / E.size + n))

/-- `ptr::swap(p, q)`. fc_vec.rs 315. -/
def swapPtr (E : Env) (p q : Ptr) : Prog α Unit := do
  let a ← read E p
  let b ← read E q
  write E p b
  write E q a

namespace FCVec

/-- fc_vec.rs 127-139 (`Alloc::new_vec`). -/
def new (E : Env) (cap : Nat) : Prog α FCVec := do
  pure ⟨← alloc E cap, 0⟩

/-- fc_vec.rs 40-52 (`deref`, `deref_mut`): `slice::from_raw_parts(buf, len)`, all of it read by the caller; the slots from `i` on. -/
def sliceLoop (E : Env) (v : FCVec) : Nat → Nat → Prog α (List α)
  | 0, _ => pure []
  | n + 1, i => do
    let a ← read E (← add E v.buf i)
    pure (a :: (← sliceLoop E v n (i + 1)))

/-- fc_vec.rs 40-52 (`deref`, `deref_mut`), 28-34 (`iter`, `iter_mut`), 487-489 (`borrow`). -/
def slice (E : Env) (v : FCVec) : Prog α (List α) := sliceLoop E v v.len 0

/-- fc_vec.rs 72-81 (`Index`) with an index: bounds-checked by the slice. -/
def get (E : Env) (v : FCVec) (i : Nat) : Prog α α := do
  if i < v.len then read E (← add E v.buf i) else panic .indexOutOfBounds

/-- fc_vec.rs 83-90 (`IndexMut`): `v[i] = a`; the old value is returned (the caller drops it or has moved it out). -/
def set (E : Env) (v : FCVec) (i : Nat) (a : α) : Prog α α := do
  if i < v.len then
    let p ← add E v.buf i
    let old ← read E p
    write E p a
    pure old
  else panic .indexOutOfBounds

/-- fc_vec.rs 214-222 (`push`), 495-497. -/
def push (E : Env) (cap : Nat) (v : FCVec) (a : α) : Prog α FCVec := do
  panicIf (v.len = cap) .vectorFull
  let p ← add E v.buf v.len
  write E p a
  pure { v with len := v.len + 1 }

/-- fc_vec.rs 226-235 (`try_push`). -/
def tryPush (E : Env) (cap : Nat) (v : FCVec) (a : α) : Prog α (FCVec × Option α) := do
  if v.len = cap then pure (v, some a)
  else
    let p ← add E v.buf v.len
    write E p a
    pure ({ v with len := v.len + 1 }, none)

/-- fc_vec.rs 292-302 (`swap_remove`). -/
def swapRemove (E : Env) (v : FCVec) (i : Nat) : Prog α (FCVec × α) := do
  panicIf (i ≥ v.len) .indexOutOfBounds
  let child ← read E (← add E v.buf i)
  copy E (← add E v.buf (v.len - 1)) (← add E v.buf i) 1
  pure ({ v with len := v.len - 1 }, child)

/-- fc_vec.rs 309-316 (`swap`). -/
def swap (E : Env) (v : FCVec) (i j : Nat) : Prog α Unit := do
  panicIf (i ≥ v.len ∨ j ≥ v.len) .indexOutOfBounds
  swapPtr E (← add E v.buf i) (← add E v.buf j)

/-- fc_vec.rs 320-328 (`pop`). -/
def pop (E : Env) (v : FCVec) : Prog α (FCVec × Option α) := do
  if v.len = 0 then pure (v, none)
  else
    let a ← read E (← add E v.buf (v.len - 1))
    pure ({ v with len := v.len - 1 }, some a)

/-- fc_vec.rs 334 (`while self.pop().is_some() {}`): the popped elements, which are dropped, in order. -/
def popLoop (E : Env) : Nat → FCVec → Prog α (List α)
  | 0, _ => panic .diverge
  | n + 1, v => do
    match ← pop E v with
    | (v, some a) => do pure (a :: (← popLoop E n v))
    | (_, none) => pure []

/-- fc_vec.rs 332-338 (`drop`), 413-419 (`Drop for FCVecContainer`): the dropped elements, in order. -/
def drop (E : Env) (cap : Nat) (v : FCVec) : Prog α (List α) := do
  let dropped ← popLoop E (v.len + 1) v
  dealloc E v.buf cap
  pure dropped

/-- fc_vec.rs 176-178: `for value in vec { new.push(value.clone()) }`, given the clones. -/
def pushAll (E : Env) (cap : Nat) : FCVec → List α → Prog α FCVec
  | v, [] => pure v
  | v, a :: as => do pushAll E cap (← push E cap v a) as

/-- fc_vec.rs 168-180 (`Alloc::clone`); `cl` is `T::clone`. -/
def clone (E : Env) (cap : Nat) (cl : α → α) (v : FCVec) : Prog α FCVec := do
  panicIf (v.len > cap) .vectorTooLarge
  let new ← new E cap
  let values ← slice E v
  pushAll E cap new (values.map cl)

end FCVec

namespace IntoIter

/-- fc_vec.rs 439-452 (`IntoIterator for FCVecContainer`). -/
def new (E : Env) (cap : Nat) (v : FCVec) : Prog α IntoIter := do
  let lst ← add E v.buf v.len
  pure ⟨v.buf, cap, v.buf, lst⟩

/-- fc_vec.rs 510-520 (`next`). -/
def next (E : Env) (it : IntoIter) : Prog α (IntoIter × Option α) := do
  if it.fst = it.lst then pure (it, none)
  else
    let a ← read E it.fst
    pure ({ it with fst := ← add E it.fst 1 }, some a)

/-- fc_vec.rs 544 (`for _ in &mut *self {}`): the elements dropped, in order. -/
def drain (E : Env) : Nat → IntoIter → Prog α (List α)
  | 0, _ => panic .diverge
  | n + 1, it => do
    match ← next E it with
    | (it, some a) => do pure (a :: (← drain E n it))
    | (_, none) => pure []

/-- fc_vec.rs 542-550 (`Drop for IntoIter`). -/
def drop (E : Env) (it : IntoIter) : Prog α (List α) := do
  let dropped ← drain E (it.lst.off - it.fst.off + 1) it
  dealloc E it.buf it.cap
  pure dropped

end IntoIter

variable {B K V Q : Type}

/-- node.rs 109-127 (`inner_children`, `inner_children_mut`), 1161-1166 (`iter`), 1328-1341 (`iter`, `iter_mut`): all children of an inner node. -/
def nodes (E : TEnv) (v : FCVec) : Prog (Cell B K V) (List (RNode B)) := do
  let cells ← FCVec.slice E.node v
  lift (cells.mapM Cell.asNode)

/-- node.rs 136-153 (`leaf_children`): all entries of a leaf node. -/
def entries (E : TEnv) (v : FCVec) : Prog (Cell B K V) (List (K × V)) := do
  let cells ← FCVec.slice E.entry v
  lift (cells.mapM Cell.asEntry)

/-- node.rs 1310-1318 (`at_mut`): the child at an index. -/
def nodeAt (E : TEnv) (v : FCVec) (i : Nat) : Prog (Cell B K V) (RNode B) := do
  let cell ← FCVec.get E.node v i
  lift cell.asNode

/-- The child at an index after it has been changed through `&mut`. node.rs 1310-1318 (`at_mut`). -/
def putNode (E : TEnv) (v : FCVec) (i : Nat) (n : RNode B) : Prog (Cell B K V) Unit := do
  let _ ← FCVec.set E.node v i (.node n)
  pure ()

section Split

variable {α : Type} [Bounds B] [Volume B]

/-- split.rs 52-63 (`seed_split_groups`): the seed of group 2. -/
def seedSplitGroups (e : Env) (bf : α → B) (v : FCVec) (overflow : α) : Prog α α := do
  let values ← FCVec.slice e v
  let ij ← lift (worstCombination bf values overflow)
  FCVec.swap e v 0 ij.1
  if ij.2 < v.len then FCVec.set e v ij.2 overflow else pure overflow

/-- split.rs 120-139: one iteration of the loop. -/
def splitStep (e : Env) (bf : α → B) (minChildren cap : Nat) (s : RSplit B) : Prog α (RSplit B) := do
  let values ← FCVec.slice e s.values
  let remaining := values.drop s.group1Len
  let c ← lift (splitChoice bf minChildren s.group1Len s.group2.len s.bounds1 s.bounds2 remaining)
  let x ← lift (index remaining c.2)
  if c.1 then do
    FCVec.swap e s.values (s.group1Len + c.2) s.group1Len
    pure { s with bounds1 := Bounds.union s.bounds1 (bf x), group1Len := s.group1Len + 1 }
  else do
    let (values, y) ← FCVec.swapRemove e s.values (s.group1Len + c.2)
    let group2 ← FCVec.push e cap s.group2 y
    pure { s with bounds2 := Bounds.union s.bounds2 (bf x), values := values, group2 := group2 }

/-- split.rs 119-140: `while group_1_len < values.len()`, with fuel. -/
def splitLoop (e : Env) (bf : α → B) (minChildren cap : Nat) : Nat → RSplit B → Prog α (RSplit B)
  | fuel, s =>
    if s.group1Len < s.values.len then
      match fuel with
      | 0 => panic .diverge
      | fuel + 1 => do
        let s ← splitStep e bf minChildren cap s
        splitLoop e bf minChildren cap fuel s
    else pure s

/-- split.rs 97-143 (`QuadraticSplitter::split`). -/
def split (e : Env) (bf : α → B) (minChildren cap : Nat) (v : FCVec) (overflow : α) : Prog α (RSplit B) := do
  panicIf (v.len < 1) .tooFewToSplit
  let group2 ← FCVec.new e cap
  let seed ← seedSplitGroups e bf v overflow
  let group2 ← FCVec.push e cap group2 seed
  let v0 ← FCVec.get e v 0
  splitLoop e bf minChildren cap v.len
    { values := v, group1Len := 1, bounds1 := bf v0, bounds2 := bf seed, group2 := group2 }

end Split

section Insert

variable [Bounds B] [Volume B] [Bounded K B]

/-- node.rs 359-374, 1343-1393 (`try_push`, `split`): pushing a node into an inner node, with `try_push` and `split` of the inner children. -/
def pushNode (E : TEnv) (a : Alloc) (l : Nat) (node : RNode B) (bounds : B) (n : RNode B) :
    Prog (Cell B K V) (RNode B × Option (Nat × RNode B)) := do
  let (v, overflow) ← FCVec.tryPush E.node a.maxChildren node.vec (.node n)
  match overflow with
  | some o => do
    let _ ← lift o.asNode
    let r ← split E.node Cell.bounds a.minChildren a.maxChildren v o
    pure (⟨r.bounds1, r.values⟩, some (l + 1, ⟨r.bounds2, r.group2⟩))
  | none => pure (⟨Bounds.union node.bounds bounds, v⟩, none)

/-- node.rs 375-400: pushing an entry into a leaf node. -/
def pushEntry (E : TEnv) (a : Alloc) (node : RNode B) (bounds : B) (e : K × V) :
    Prog (Cell B K V) (RNode B × Option (Nat × RNode B)) := do
  let (v, overflow) ← FCVec.tryPush E.entry a.maxChildren node.vec (.entry e)
  match overflow with
  | some o => do
    let r ← split E.entry Cell.bounds a.minChildren a.maxChildren v o
    pure (⟨r.bounds1, r.values⟩, some (0, ⟨r.bounds2, r.group2⟩))
  | none => pure (⟨Bounds.union node.bounds bounds, v⟩, none)

/-- node.rs 351-408 (`self_insert`). -/
def selfInsert (E : TEnv) (a : Alloc) (level : Nat) (node : RNode B) (entry : REntry B K V) :
    Prog (Cell B K V) (RNode B × Option (Nat × RNode B)) :=
  match level, entry with
  | l + 1, .inner entryLevel n => do
    panicIf (l ≠ entryLevel) .levelMismatch
    pushNode E a l node n.bounds n
  | 0, .leaf key value => pushEntry E a node (Bounded.bounds key) (key, value)
  | _, _ => panic .levelMismatch

/-- node.rs 410-437 (`insert`). -/
def insertNode (E : TEnv) (a : Alloc) (entry : REntry B K V) : Nat → RNode B → Prog (Cell B K V) (RNode B × Option (Nat × RNode B))
  | level, node =>
    if entry.targetLevel ≠ level then
      match level with
      | 0 => panic .unreachable
      | l + 1 => do
        let children ← nodes E node.vec
        let i ← lift (do unwrap (← select (children.map RNode.bounds) entry.bounds))
        let child ← nodeAt E node.vec i
        let (child, sibling) ← insertNode E a entry l child
        putNode E node.vec i child
        match sibling with
        | some s => do
          let children ← nodes E node.vec
          selfInsert E a (l + 1) ⟨Bounds.unionAll (children.map RNode.bounds), node.vec⟩ (.inner s.1 s.2)
        | none => pure (⟨Bounds.union node.bounds entry.bounds, node.vec⟩, none)
    else
      selfInsert E a level node entry

end Insert

section Get

variable [Bounds B] [Bounded Q B] [BEq Q]

/-- node.rs 656-663, 680-687, 1036-1043: the loop over the children in `get`, `get_mut`, `into_get_mut`. -/
def findChildren (q : Q) (rec : RNode B → Prog (Cell B K V) (Option (FCVec × Nat))) :
    List (RNode B) → Prog (Cell B K V) (Option (FCVec × Nat))
  | [] => pure none
  | c :: cs =>
    if Bounds.contains c.bounds (Bounded.bounds q) then do
      match ← rec c with
      | some p => pure (some p)
      | none => findChildren q rec cs
    else findChildren q rec cs

/-- node.rs 648-670 (`into_get_mut`), 672-694 (`get_mut`), 1028-1050 (`NodeRef::get`): the place of the entry found. -/
def find (E : TEnv) (borrow : K → Q) (q : Q) : Nat → RNode B → Prog (Cell B K V) (Option (FCVec × Nat))
  | 0, node => do
    let es ← entries E node.vec
    pure ((es.findIdx? fun e => borrow e.1 == q).map fun i => (node.vec, i))
  | l + 1, node => do
    let cs ← nodes E node.vec
    findChildren q (find E borrow q l) cs

/-- Reading an entry through a reference. node.rs 109-153 (`leaf_children`). -/
def readEntry (E : TEnv) (p : FCVec × Nat) : Prog (Cell B K V) (K × V) := do
  let cell ← FCVec.get E.entry p.1 p.2
  lift cell.asEntry

/-- node.rs 489-490, 503-504: `std::mem::replace(value_ref, value)`, and any other write through a `&mut Value`. -/
def replaceValue (E : TEnv) (p : FCVec × Nat) (value : V) : Prog (Cell B K V) V := do
  let e ← readEntry E p
  let _ ← FCVec.set E.entry p.1 p.2 (.entry (e.1, value))
  pure e.2

end Get

section InsertUnique

variable [Bounds B] [Volume B] [Bounded K B] [BEq K]

/-- node.rs 439-513 (`insert_unique`).  When a value is replaced the key passed in is dropped; this is the case exactly when
    the previous value is returned. -/
def insertUniqueNode (E : TEnv) (a : Alloc) (key : K) (value : V) : Nat → RNode B → Prog (Cell B K V) (UniqueResult B V)
  | 0, node => do
    let es ← entries E node.vec
    match es.findIdx? (fun e => e.1 == key) with
    | some i => do
      let old ← replaceValue E (node.vec, i) value
      pure (node, some old, none)
    | none => do
      let r ← insertNode E a (.leaf key value) 0 node
      pure (r.1, none, r.2)
  | l + 1, node => do
    let children ← nodes E node.vec
    match getOnly ((children.zipIdx.filter fun c => Bounds.contains c.1.bounds (Bounded.bounds key)).map (·.2)) with
    | .none => do
      let r ← insertNode E a (.leaf key value) (l + 1) node
      pure (r.1, none, r.2)
    | .only i => do
      let child ← nodeAt E node.vec i
      let (child, old, sibling) ← insertUniqueNode E a key value l child
      putNode E node.vec i child
      match sibling with
      | some s => do
        let children ← nodes E node.vec
        let r ← selfInsert E a (l + 1) ⟨Bounds.unionAll (children.map RNode.bounds), node.vec⟩ (.inner s.1 s.2)
        pure (r.1, old, r.2)
      | none => pure (⟨Bounds.union node.bounds (Bounded.bounds key), node.vec⟩, old, none)
    | .multiple => do
      match ← find E id key (l + 1) node with
      | some p => do
        let old ← replaceValue E p value
        pure (node, some old, none)
      | none => do
        let r ← insertNode E a (.leaf key value) (l + 1) node
        pure (r.1, none, r.2)

end InsertUnique

section Remove

variable [Bounds B] [Bounded K B] [Bounded Q B] [BEq Q]

/-- node.rs 527-546: the loop over the children in `remove`, `i` counting down.  The result is the vector of the remaining
    children, the entry removed and the slots. -/
def removeLoop (E : TEnv) (a : Alloc) (l : Nat) (q : Q)
    (rec : RNode B → RSlots → Prog (Cell B K V) (RNode B × Option (K × V) × RSlots)) :
    Nat → FCVec → RSlots → Prog (Cell B K V) (FCVec × Option (K × V) × RSlots)
  | 0, v, r => pure (v, none, r)
  | i + 1, v, r => do
    let child ← nodeAt E v i
    if Bounds.intersects child.bounds (Bounded.bounds q) then do
      let (child, found, r) ← rec child r
      putNode E v i child
      match found with
      | some e =>
        if child.vec.len < a.minChildren then do
          let (v, cell) ← FCVec.swapRemove E.node v i
          let child ← lift cell.asNode
          let r ← lift (onUnderfull l child.vec r)
          pure (v, some e, r)
        else pure (v, some e, r)
      | none => removeLoop E a l q rec i v r
    else removeLoop E a l q rec i v r

/-- node.rs 515-559 (`remove`): the node, the entry moved out of the tree, and the slots. -/
def removeNode (E : TEnv) (a : Alloc) (borrow : K → Q) (q : Q) :
    Nat → RNode B → RSlots → Prog (Cell B K V) (RNode B × Option (K × V) × RSlots)
  | 0, node, r => do
    let es ← entries E node.vec
    match es.findIdx? (fun e => borrow e.1 == q) with
    | some i => do
      let (v, cell) ← FCVec.swapRemove E.entry node.vec i
      let e ← lift cell.asEntry
      let es ← entries E v
      pure (⟨Bounds.unionAll (es.map entryBounds), v⟩, some e, r)
    | none => pure (node, none, r)
  | l + 1, node, r => do
    let (v, found, r) ← removeLoop E a l q (removeNode E a borrow q l) node.vec.len node.vec r
    match found with
    | some e => do
      let cs ← nodes E v
      pure (⟨Bounds.unionAll (cs.map RNode.bounds), v⟩, some e, r)
    | none => pure (⟨node.bounds, v⟩, none, r)

end Remove

/-- node.rs 625-634 (`NodeRefMut::drop`), 1295-1304 (`InnerNodeChildrenRefMut::drop`): the entries dropped, in order.  Popping the
    children of an inner node drops their bounds only. -/
def dropNode (E : TEnv) (a : Alloc) : Nat → RNode B → Prog (Cell B K V) (List (K × V))
  | 0, node => do
    let cells ← FCVec.drop E.entry a.maxChildren node.vec
    lift (cells.mapM Cell.asEntry)
  | l + 1, node => do
    let cs ← nodes E node.vec
    let dropped ← cs.foldlM (fun acc c => do pure (acc ++ (← dropNode E a l c))) []
    let _ ← FCVec.drop E.node a.maxChildren node.vec
    pure dropped

/-- node.rs 292-337 (`clone_node`, `clone_children`).  Simplification: `clone` of keys and values is the identity. -/
def cloneNode (E : TEnv) (a : Alloc) : Nat → RNode B → Prog (Cell B K V) (RNode B)
  | 0, node => do
    let v ← FCVec.clone E.entry a.maxChildren id node.vec
    pure ⟨node.bounds, v⟩
  | l + 1, node => do
    let v ← FCVec.new E.node a.maxChildren
    let cs ← nodes E node.vec
    let v ← cs.foldlM (fun v c => do
      let c ← cloneNode E a l c
      FCVec.push E.node a.maxChildren v (.node c)) v
    pure ⟨node.bounds, v⟩

/-- node.rs 1008-1019 (`NodeRef::len`). -/
def lenNode (E : TEnv) : Nat → RNode B → Prog (Cell B K V) Nat
  | 0, node => pure node.vec.len
  | l + 1, node => do
    let cs ← nodes E node.vec
    cs.foldlM (fun size c => do pure (size + (← lenNode E l c))) 0

namespace RTree

/-- lib.rs 103-112 (`RTree::new`), node.rs 181-205 (`new_alloc`, `new_leaf`). -/
def new [Bounds B] (E : TEnv) (c : Config) : Prog (Cell B K V) (RTree B) := do
  let v ← FCVec.new E.entry c.maxChildren
  pure { alloc := { minChildren := c.minChildren, maxChildren := c.maxChildren }, level := 0, root := ⟨Bounds.empty, v⟩ }

/-- lib.rs 87-90, node.rs 936-942 (`Drop for NodeContainer`): the entries dropped. -/
def drop (E : TEnv) (t : RTree B) : Prog (Cell B K V) (List (K × V)) := dropNode E t.alloc t.level t.root

section

variable [Bounds B]

/-- node.rs 806-842 (`branch`). -/
def branch (E : TEnv) (t : RTree B) (sibling : Nat × RNode B) : Prog (Cell B K V) (RTree B) := do
  panicIf (sibling.1 ≠ t.level) .levelMismatch
  let v ← FCVec.new E.node t.alloc.maxChildren
  let v ← FCVec.push E.node t.alloc.maxChildren v (.node t.root)
  let v ← FCVec.push E.node t.alloc.maxChildren v (.node sibling.2)
  pure { t with level := t.level + 1, root := ⟨Bounds.union t.root.bounds sibling.2.bounds, v⟩ }

/-- node.rs 844-861 (`try_unbranch`): `*self = new_root` drops the old root, which has no children left; the entries that drops are
    returned. -/
def tryUnbranch (E : TEnv) (t : RTree B) : Prog (Cell B K V) (RTree B × List (K × V)) :=
  match t.level with
  | 0 => pure (t, [])
  | l + 1 =>
    if t.root.vec.len = 1 then do
      let (v, cell) ← FCVec.swapRemove E.node t.root.vec 0
      let root ← lift cell.asNode
      let dropped ← drop E { t with root := ⟨t.root.bounds, v⟩ }
      pure ({ t with level := l, root := root }, dropped)
    else pure (t, [])

end

section

variable [Bounds B] [Volume B] [Bounded K B]

/-- node.rs 717-726 (`NodeContainer::insert_entry`). -/
def insertEntry (E : TEnv) (t : RTree B) (entry : REntry B K V) : Prog (Cell B K V) (RTree B) := do
  let (root, sibling) ← insertNode E t.alloc entry t.level t.root
  match sibling with
  | some s => branch E { t with root := root } s
  | none => pure { t with root := root }

/-- lib.rs 366-375 (`RTree::insert`). -/
def insert (E : TEnv) (t : RTree B) (key : K) (value : V) : Prog (Cell B K V) (RTree B) := insertEntry E t (.leaf key value)

/-- lib.rs 377-388 (`RTree::insert_unique`): the tree and the value returned.  The key passed in is dropped if a value is
    returned. -/
def insertUnique [BEq K] (E : TEnv) (t : RTree B) (key : K) (value : V) : Prog (Cell B K V) (RTree B × Option V) := do
  let (root, old, sibling) ← insertUniqueNode E t.alloc key value t.level t.root
  match sibling with
  | some s => do
    let t ← branch E { t with root := root } s
    pure (t, old)
  | none => pure ({ t with root := root }, old)

/-- node.rs 783-794, 1450-1467, 1512-1533, fc_vec.rs 510-520, 542-550: `for entry in children { self.insert_entry(entry) }`, then the
    drop of the by-value iterator.  `e` is the environment of the element type.  The elements the iterator drops are
    returned. -/
def reinsertLoop (E : TEnv) (e : Env) (level : Nat) : Nat → IntoIter → RTree B → Prog (Cell B K V) (RTree B × List (Cell B K V))
  | 0, _, _ => panic .diverge
  | n + 1, it, t => do
    let (it, next) ← IntoIter.next e it
    match next with
    | some c => do
      let entry ← lift (Raw.RTree.slotEntry level c)
      let t ← insertEntry E t entry
      reinsertLoop E e level n it t
    | none => do
      let dropped ← IntoIter.drop e it
      pure (t, dropped)

/-- node.rs 775-796: `for (level, entries) in reinsert_entries.iter_mut().enumerate()`. -/
def reinsert (E : TEnv) : List (Option FCVec × Nat) → RTree B → Prog (Cell B K V) (RTree B × List (Cell B K V))
  | [], t => pure (t, [])
  | (none, _) :: rest, t => reinsert E rest t
  | (some v, level) :: rest, t => do
    let it ← IntoIter.new (Raw.RTree.slotEnv E level) t.alloc.maxChildren v
    let (t, d) ← reinsertLoop E (Raw.RTree.slotEnv E level) level (v.len + 1) it t
    let (t, d') ← reinsert E rest t
    pure (t, d ++ d')

/-- lib.rs 390-407 (`RTree::remove`), node.rs 757-802 (`NodeContainer::remove`): the tree, the entry moved out of it (its key is dropped by
    node.rs 551, its value returned), and whatever else is dropped on the way. -/
def remove [Bounded Q B] [BEq Q] (E : TEnv) (borrow : K → Q) (t : RTree B) (q : Q) :
    Prog (Cell B K V) (RTree B × Option (K × V) × List (Cell B K V)) := do
  let (root, found, slots) ← removeNode E t.alloc borrow q t.level t.root (List.replicate t.level none)
  match found with
  | some e => do
    let (t, d) ← tryUnbranch E { t with root := root }
    let (t, d') ← reinsert E slots.zipIdx t
    pure (t, some e, d.map .entry ++ d')
  | none => pure ({ t with root := root }, none, [])

end

/-- lib.rs 87 (`#[derive(Clone)]`), node.rs 944-953 (`Clone for NodeContainer`). -/
def clone (E : TEnv) (t : RTree B) : Prog (Cell B K V) (RTree B) := do
  let root ← cloneNode E t.alloc t.level t.root
  pure { t with root := root }

section

variable [Bounds B] [Bounded Q B] [BEq Q]

/-- lib.rs 294-308 (`RTree::get`): a copy of the value referred to. -/
def get (E : TEnv) (borrow : K → Q) (t : RTree B) (q : Q) : Prog (Cell B K V) (Option V) := do
  match ← find E borrow q t.level t.root with
  | some p => do
    let e ← readEntry E p
    pure (some e.2)
  | none => pure none

/-- lib.rs 310-324 (`RTree::get_mut`) followed by `mem::replace` through the reference: the previous value. -/
def setValue (E : TEnv) (borrow : K → Q) (t : RTree B) (q : Q) (value : V) : Prog (Cell B K V) (Option V) := do
  match ← find E borrow q t.level t.root with
  | some p => do
    let old ← replaceValue E p value
    pure (some old)
  | none => pure none

end

/-- lib.rs 326-329 (`RTree::len`). -/
def len (E : TEnv) (t : RTree B) : Prog (Cell B K V) Nat := lenNode E t.level t.root

end RTree

/-- iter.rs 89-97: the rest of a leaf, `n` slots from slot `i` on. -/
def queryLeaf (E : TEnv) (borrow : K → Q) (f : SpatialFilter B Q) (v : FCVec) : Nat → Nat → Prog (Cell B K V) (List (K × V))
  | 0, _ => pure []
  | n + 1, i => do
    let cell ← FCVec.get E.entry v i
    let e ← lift cell.asEntry
    let rest ← queryLeaf E borrow f v n (i + 1)
    pure (if f.testKey (borrow e.1) then e :: rest else rest)

/-- iter.rs 75-88: the rest of an inner node, `n` slots from slot `i` on. -/
def queryInner (E : TEnv) (f : SpatialFilter B Q) (rec : RNode B → Prog (Cell B K V) (List (K × V))) (v : FCVec) :
    Nat → Nat → Prog (Cell B K V) (List (K × V))
  | 0, _ => pure []
  | n + 1, i => do
    let c ← nodeAt E v i
    let es ← (if f.testBounds c.bounds then rec c else pure [] : Prog (Cell B K V) (List (K × V)))
    let rest ← queryInner E f rec v n (i + 1)
    pure (es ++ rest)

/-- iter.rs 69-102 (`Iter::next`) until the end, below a node. -/
def queryNode (E : TEnv) (borrow : K → Q) (f : SpatialFilter B Q) : Nat → RNode B → Prog (Cell B K V) (List (K × V))
  | 0, node => queryLeaf E borrow f node.vec node.vec.len 0
  | l + 1, node => queryInner E f (queryNode E borrow f l) node.vec node.vec.len 0

namespace RTree

/-- lib.rs 114-126 (`RTree::filter_iter`), iter.rs 132-142, 160-173: everything yielded. -/
def filterIter (E : TEnv) (borrow : K → Q) (f : SpatialFilter B Q) (t : RTree B) : Prog (Cell B K V) (List (K × V)) :=
  if f.testBounds t.root.bounds then queryNode E borrow f t.level t.root else pure []

/-- lib.rs 93-96 (`RTree::iter`), iter.rs 43-61, 112-114: everything yielded. -/
def iter (E : TEnv) (t : RTree B) : Prog (Cell B K V) (List (K × V)) := queryNode E id (noFilter B K) t.level t.root

end RTree

/-! ### Sorted iteration and joins -/

section

variable {S : Type} [LE S]

namespace Sorted

/-- iter.rs 541-548 (`for entry in node.leaf_children()`), 395-400: `n` slots from slot `i` on. -/
def pushEntries (E : TEnv) (hp : RawHeap B K V S) (r : Ranking B K (Option S)) (v : FCVec) : Nat → Nat → hp.H → Prog (Cell B K V) hp.H
  | 0, _, q => pure q
  | n + 1, i, q => do
    let cell ← FCVec.get E.entry v i
    let e ← lift cell.asEntry
    let m ← lift (r.rankKey e.1)
    pushEntries E hp r v n (i + 1) (match m with | some m => hp.push (⟨m, 0⟩, .entry e) q | none => q)

/-- iter.rs 550-557 (`for child in node.inner_children()`), 402-407; `l` is `level - 1`: `n` slots from slot `i` on. -/
def pushNodes (E : TEnv) (hp : RawHeap B K V S) (r : Ranking B K (Option S)) (l : Nat) (v : FCVec) : Nat → Nat → hp.H → Prog (Cell B K V) hp.H
  | 0, _, q => pure q
  | n + 1, i, q => do
    let c ← nodeAt E v i
    let m ← lift (r.boundsMin c.bounds)
    pushNodes E hp r l v n (i + 1) (match m with | some m => hp.push (⟨m, l⟩, .node c) q | none => q)

/-- iter.rs 529-562 (`FilterSortedIter::next`), 383-412 (`SortedIter::next`): the loop, with fuel. -/
def nextLoop (E : TEnv) (hp : RawHeap B K V S) (r : Ranking B K (Option S)) : Nat → hp.H → Prog (Cell B K V) (Option (K × V) × hp.H)
  | 0, _ => lift (.error .diverge)
  | fuel + 1, q =>
    match hp.pop q with
    | none => pure (none, q)
    | some ((score, value), q) =>
      match score.level with
      | 0 => do
        let e ← lift value.getEntry
        pure (some e, q)
      | 1 => do
        let node ← lift value.getNode
        let q ← pushEntries E hp r node.vec node.vec.len 0 q
        nextLoop E hp r fuel q
      | l + 2 => do
        let node ← lift value.getNode
        let q ← pushNodes E hp r (l + 1) node.vec node.vec.len 0 q
        nextLoop E hp r fuel q

/-- Calling `next` at most `k` times. Client code: iter.rs 383, 529 (`Iterator::next`) called repeatedly. -/
def takeLoop (E : TEnv) (hp : RawHeap B K V S) (r : Ranking B K (Option S)) (fuel : Nat) : Nat → hp.H → Prog (Cell B K V) (List (K × V))
  | 0, _ => pure []
  | k + 1, q => do
    let (o, q) ← nextLoop E hp r fuel q
    match o with
    | some e => do
      let rest ← takeLoop E hp r fuel k q
      pure (e :: rest)
    | none => pure []

end Sorted

namespace RTree

/-- lib.rs 230-239 (`RTree::filter_iter_asc_by`), 202-207 (`iter_asc_by`): the first `k` entries; with `k = 1` lib.rs 173-179 (`filter_min_by`), 146-151 (`min_by`). -/
def filterFirstAscBy (E : TEnv) (hp : RawHeap B K V S) (r : Ranking B K (Option S)) (k : Nat) (t : RTree B) : Prog (Cell B K V) (List (K × V)) := do
  let q ← lift (Raw.Sorted.new hp r t.level t.root)
  Sorted.takeLoop E hp r t.sortedFuel k q

end RTree

end

/-- join.rs 20-36, 50-60 (`RewindableIter`, `ProductIter::next`): the rest of a round of the first iterator, `n` slots from slot `i` on, the second being at slot `j`. -/
def productRound (visit : Nat → Nat → Prog (Cell B K V) (EntryPairs K V)) (j : Nat) : Nat → Nat → Prog (Cell B K V) (EntryPairs K V)
  | 0, _ => pure []
  | n + 1, i => do
    let es ← visit i j
    let rest ← productRound visit j n (i + 1)
    pure (es ++ rest)

/-- join.rs 50-60 (`ProductIter::next`): the rest of the product, `m` slots of the second slice from slot `j` on; `n` is the length of the first slice. -/
def productLoop (visit : Nat → Nat → Prog (Cell B K V) (EntryPairs K V)) (n : Nat) : Nat → Nat → Prog (Cell B K V) (EntryPairs K V)
  | 0, _ => pure []
  | m + 1, j => do
    let es ← productRound visit j n 0
    let rest ← productLoop visit n m (j + 1)
    pure (es ++ rest)

/-- join.rs 194-203: a pair of entries. -/
def visitEntries (E : TEnv) (borrow : K → Q) (f : JoinFilter B B Q Q) (v0 v1 : FCVec) (i j : Nat) : Prog (Cell B K V) (EntryPairs K V) := do
  let cell0 ← FCVec.get E.entry v0 i
  let e0 ← lift cell0.asEntry
  let cell1 ← FCVec.get E.entry v1 j
  let e1 ← lift cell1.asEntry
  pure (if f.testKey (borrow e0.1) (borrow e1.1) then [(e0, e1)] else [])

/-- join.rs 112-119: an element of the slice a node of the given level contributes. -/
def sliceAt (E : TEnv) (level : Nat) (n : RNode B) (i : Nat) : Prog (Cell B K V) (RNode B) :=
  match level with
  | 0 => pure n
  | _ + 1 => nodeAt E n.vec i

/-- join.rs 178-192: a pair of nodes. -/
def visitNodes (E : TEnv) (f : JoinFilter B B Q Q) (rec : RNode B → RNode B → Prog (Cell B K V) (EntryPairs K V)) (l0 l1 : Nat) (n0 n1 : RNode B) (i j : Nat) :
    Prog (Cell B K V) (EntryPairs K V) := do
  let c0 ← sliceAt E l0 n0 i
  let c1 ← sliceAt E l1 n1 j
  (if f.testBounds c0.bounds c1.bounds then rec c0 c1 else pure [] : Prog (Cell B K V) (EntryPairs K V))

/-- join.rs 168-207 (`next`) until the end, below a pair of nodes; 99-123 (`start_join`). -/
def joinNode (E : TEnv) (borrow : K → Q) (f : JoinFilter B B Q Q) (p0 p1 : Nat) : Nat → RNode B → RNode B → Prog (Cell B K V) (EntryPairs K V)
  | 0, n0, n1 => productLoop (visitEntries E borrow f n0.vec n1.vec) n0.vec.len n1.vec.len 0
  | l + 1, n0, n1 =>
    productLoop (visitNodes E f (joinNode E borrow f p0 p1 l) (l + 1 - p0) (l + 1 - p1) n0 n1) (sliceLen (l + 1 - p0) n0) (sliceLen (l + 1 - p1) n1) 0

namespace RTree

/-- lib.rs 262-276 (`RTree::join`), join.rs 125-154 (`JoinIter::new`): everything yielded. -/
def join (E : TEnv) (borrow : K → Q) (f : JoinFilter B B Q Q) (t0 t1 : RTree B) : Prog (Cell B K V) (EntryPairs K V) :=
  let height := max t0.level t1.level
  if f.testBounds t0.root.bounds t1.root.bounds then joinNode E borrow f (height - t0.level) (height - t1.level) height t0.root t1.root else pure []

end RTree

/-! ### Mutable iteration -/

section

variable {σ : Type} (E : TEnv) (borrow : K → Q) (f : SpatialFilter B Q) (step : σ → K × Place → Prog (Cell B K V) σ)

/-- iter.rs 236-245 (the arm for leaves of `IterMut::next`): the rest of a leaf, `n` slots from slot `i` on. -/
def mutLeaf (v : FCVec) : Nat → Nat → σ → Prog (Cell B K V) σ
  | 0, _, s => pure s
  | n + 1, i, s => do
    let cell ← FCVec.get E.entry v i
    let e ← lift cell.asEntry
    let s ← (if f.testKey (borrow e.1) then step s (e.1, (v, i)) else pure s : Prog (Cell B K V) σ)
    mutLeaf v n (i + 1) s

/-- iter.rs 222-235 (the arm for inner nodes): the rest of an inner node, `n` slots from slot `i` on. -/
def mutInner (rec : RNode B → σ → Prog (Cell B K V) σ) (v : FCVec) : Nat → Nat → σ → Prog (Cell B K V) σ
  | 0, _, s => pure s
  | n + 1, i, s => do
    let c ← nodeAt E v i
    let s ← (if f.testBounds c.bounds then rec c s else pure s : Prog (Cell B K V) σ)
    mutInner rec v n (i + 1) s

/-- iter.rs 216-249 (`IterMut::next`) until the end, below a node. -/
def mutNode : Nat → RNode B → σ → Prog (Cell B K V) σ
  | 0, node, s => mutLeaf E borrow f step node.vec node.vec.len 0 s
  | l + 1, node, s => mutInner E f (mutNode l) node.vec node.vec.len 0 s

namespace RTree

/-- lib.rs 128-140 (`RTree::filter_iter_mut`), iter.rs 264-305; lib.rs 98-101 (`RTree::iter_mut`), iter.rs 182-210, 252-262, is the case of a filter that accepts everything. -/
def filterIterMut (t : RTree B) (s : σ) : Prog (Cell B K V) σ :=
  if f.testBounds t.root.bounds then mutNode E borrow f step t.level t.root s else pure s

end RTree

end

section

variable {S σ : Type} [LE S]

namespace SortedMut

variable (E : TEnv) (hp : RawHeapMut B S) (r : Ranking B K (Option S))

/-- iter.rs 619-626 (`for entry in node.leaf_children_mut()`), 469-474: `n` slots from slot `i` on. -/
def pushEntries (v : FCVec) : Nat → Nat → hp.H → Prog (Cell B K V) hp.H
  | 0, _, q => pure q
  | n + 1, i, q => do
    let cell ← FCVec.get E.entry v i
    let e ← lift cell.asEntry
    let m ← lift (r.rankKey e.1)
    pushEntries v n (i + 1) (match m with | some m => hp.push (⟨m, 0⟩, .entry (v, i)) q | none => q)

/-- iter.rs 628-635 (`for child in node.inner_children_mut()`), 476-481; `l` is `level - 1`: `n` slots from slot `i` on. -/
def pushNodes (l : Nat) (v : FCVec) : Nat → Nat → hp.H → Prog (Cell B K V) hp.H
  | 0, _, q => pure q
  | n + 1, i, q => do
    let c ← nodeAt E v i
    let m ← lift (r.boundsMin c.bounds)
    pushNodes l v n (i + 1) (match m with | some m => hp.push (⟨m, l⟩, .node c) q | none => q)

/-- iter.rs 607-640 (`FilterSortedIterMut::next`), 457-486 (`SortedIterMut::next`): the loop, with fuel. -/
def nextLoop : Nat → hp.H → Prog (Cell B K V) (Option (K × Place) × hp.H)
  | 0, _ => lift (.error .diverge)
  | fuel + 1, q =>
    match hp.pop q with
    | none => pure (none, q)
    | some ((score, value), q) =>
      match score.level with
      | 0 => do
        let p ← lift value.getEntry
        let e ← readEntry E p
        pure (some (e.1, p), q)
      | 1 => do
        let node ← lift value.getNode
        let q ← pushEntries E hp r node.vec node.vec.len 0 q
        nextLoop fuel q
      | l + 2 => do
        let node ← lift value.getNode
        let q ← pushNodes E hp r (l + 1) node.vec node.vec.len 0 q
        nextLoop fuel q

/-- Calling `next` at most `k` times. Client code: iter.rs 457, 607 (`Iterator::next`) called repeatedly. -/
def takeLoop (step : σ → K × Place → Prog (Cell B K V) σ) (fuel : Nat) : Nat → hp.H → σ → Prog (Cell B K V) σ
  | 0, _, s => pure s
  | k + 1, q, s => do
    let (o, q) ← nextLoop E hp r fuel q
    match o with
    | some e => do
      let s ← step s e
      takeLoop step fuel k q s
    | none => pure s

end SortedMut

namespace RTree

/-- lib.rs 251-260 (`RTree::filter_iter_asc_by_mut`), 213-218 (`iter_asc_by_mut`): the first `k` references; with `k = 1` lib.rs 190-196 (`filter_min_by_mut`), 157-162 (`min_by_mut`). -/
def filterFirstAscByMut (E : TEnv) (hp : RawHeapMut B S) (r : Ranking B K (Option S)) (step : σ → K × Place → Prog (Cell B K V) σ) (k : Nat) (t : RTree B) (s : σ) : Prog (Cell B K V) σ := do
  let q ← lift (Raw.SortedMut.new hp r t.level t.root)
  SortedMut.takeLoop E hp r step t.sortedFuel k q s

end RTree

end

end Steps

end RTree.Raw
