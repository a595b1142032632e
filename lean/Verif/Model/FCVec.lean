import Verif.Basic
/-!
# Fixed-capacity vectors in raw memory (fc_vec.rs)

Memory is a list of allocations ("blocks").  A block is an array of slots; a slot holds the bits of one element or is
uninitialised.  `ptr::read` copies the bits out and leaves the slot as it is, so the model by itself does not stop an element
from being read twice: that ownership stays unique is a theorem.

Everything the Rust reference calls undefined behaviour and that this code could do is the error `Panic.ub`: a
pointer moved or dereferenced outside its allocation, a freed block used or freed again, an uninitialised slot read as a
value, a wrong layout given to `dealloc`, a zero-sized layout given to `alloc` or `dealloc`.

Not modelled: alignment, pointer provenance between adjacent blocks, a failing allocator (`handle_alloc_error` aborts),
the state of memory after a panic.
-/

namespace RTree.Raw

variable {α : Type}

/-- Facts about the element type and the allocator: `size_of::<T>()`, the largest layout (`isize::MAX`), whether the
    allocator happens to accept layouts of zero bytes (the contract of `std::alloc::alloc` calls that undefined
    behaviour, so `false` is the faithful setting), and how many block numbers the allocator passes over before it places a new
    block (any function: the place of a block is the allocator's choice).
    The crate mentions them at fc_vec.rs 129-139, 336-337, 545-548. -/
structure Env where
  size : Nat
  maxBytes : Nat
  zeroOk : Bool
  gap : Nat → Nat := fun _ => 0

/-- A `*mut T`: an allocation and an offset in bytes. fc_vec.rs 15, 501-504 (`NonNull<T>`, `*const T`). -/
structure Ptr where
  block : Nat
  off : Nat
  deriving DecidableEq

/-- An allocation: its size in bytes and its slots. What `alloc::alloc` returns at fc_vec.rs 129-139. -/
structure Block (α : Type) where
  bytes : Nat
  slots : List (Option α)

/-- Memory: the block with number `i` is at index `i`; `none` if it has been freed.
    Modelling device: stands for no code of the crate. -/
abbrev Heap (α : Type) := List (Option (Block α))

/-- Computations that read and write memory. Modelling device: stands for no code of the crate. -/
def M (α β : Type) := Heap α → Res (β × Heap α)

/-- Sequencing: a panic or undefined behaviour ends the computation.
    Modelling device: stands for no code of the crate. -/
instance : Monad (M α) where
  pure b := fun h => .ok (b, h)
  bind x f := fun h =>
    match x h with
    | .ok (b, h') => f b h'
    | .error e => .error e

/-- A panic. fc_vec.rs 215-217, 246-251, 269-271, 293-295, 310-312. -/
def panic {β : Type} (e : Panic) : M α β := fun _ => .error e

/-- `if c { panic!() }`. fc_vec.rs 215-217, 246-251, 269-271, 293-295, 310-312. -/
def panicIf (c : Prop) [Decidable c] (e : Panic) : M α Unit := if c then panic e else pure ()

/-- Memory changes. Modelling device: stands for no code of the crate. -/
def modify (f : Heap α → Heap α) : M α Unit := fun h => .ok ((), f h)

/-- `alloc::Layout::array::<T>(n).unwrap()`: the number of bytes. fc_vec.rs 129-139, 336-337, 545-548. -/
def layoutArray (E : Env) (n : Nat) : M α Nat :=
  if n * E.size ≤ E.maxBytes then pure (n * E.size) else panic .unwrapNone

/-- A fresh block. What `alloc::alloc` does at fc_vec.rs 129-139. -/
def newBlock (b : Block α) : M α Ptr := fun h => .ok (⟨h.length, 0⟩, h ++ [some b])

/-- Memory after the allocator has passed over some block numbers. Modelling device: stands for no code of the crate. -/
def gapped (E : Env) (h : Heap α) : Heap α := h ++ List.replicate (E.gap h.length) none

/-- A fresh block, where the allocator likes: any number that was never used. What `alloc::alloc` does at fc_vec.rs 129-139. -/
def place (E : Env) (b : Block α) : M α Ptr := fun h => newBlock b (gapped E h)

/-- `alloc::alloc(Layout::array::<T>(n))`. fc_vec.rs 129-139. -/
def alloc (E : Env) (n : Nat) : M α Ptr := do
  let bytes ← layoutArray E n
  panicIf (bytes = 0 ∧ E.zeroOk = false) .ub
  place E ⟨bytes, List.replicate n none⟩

/-- The block a pointer points into; freed blocks must not be used.
    Modelling device: stands for no code of the crate. -/
def block (p : Ptr) : M α (Block α) := fun h =>
  match h[p.block]? with
  | some (some b) => .ok (b, h)
  | _ => .error .ub

/-- Replaces the slots of a block. Modelling device: stands for no code of the crate. -/
def setSlots (p : Ptr) (slots : List (Option α)) : M α Unit := do
  let b ← block p
  modify fun h => h.set p.block (some ⟨b.bytes, slots⟩)

/-- `alloc::dealloc(p, Layout::array::<T>(n))`. fc_vec.rs 336-337, 545-548. -/
def dealloc (E : Env) (p : Ptr) (n : Nat) : M α Unit := do
  let bytes ← layoutArray E n
  let b ← block p
  panicIf (p.off ≠ 0 ∨ b.bytes ≠ bytes ∨ (bytes = 0 ∧ E.zeroOk = false)) .ub
  modify fun h => h.set p.block none

/-- `p.add(n)`: the result must be within the allocation or one past its end.
    fc_vec.rs 219-220, 254-256, 273-281, 445. -/
def add (E : Env) (p : Ptr) (n : Nat) : M α Ptr := do
  let b ← block p
  if p.off + n * E.size ≤ b.bytes then pure ⟨p.block, p.off + n * E.size⟩ else panic .ub

/-- `p.sub(n)`. fc_vec.rs 534. -/
def sub (E : Env) (p : Ptr) (n : Nat) : M α Ptr := do
  let _ ← block p
  if n * E.size ≤ p.off then pure ⟨p.block, p.off - n * E.size⟩ else panic .ub

/-- `ptr::read(p)`: copies the bits out. fc_vec.rs 274, 298, 326, 515, 535. -/
def read (E : Env) (p : Ptr) : M α α := do
  let b ← block p
  if p.off + E.size ≤ b.bytes then
    match b.slots[p.off / E.size]? with
    | some (some a) => pure a
    | _ => panic .ub
  else panic .ub

/-- `ptr::write(p, a)`: overwrites without dropping. fc_vec.rs 220, 231, 256. -/
def write (E : Env) (p : Ptr) (a : α) : M α Unit := do
  let b ← block p
  if p.off + E.size ≤ b.bytes then setSlots p (b.slots.set (p.off / E.size) (some a)) else panic .ub

/-- `ptr::copy(src, dst, n)` within one block: copies bits (`memmove`), initialised or not.
    fc_vec.rs 255, 276-281, 299. -/
def copy (E : Env) (src dst : Ptr) (n : Nat) : M α Unit := do
  let b ← block src
  panicIf (src.block ≠ dst.block ∨ src.off + n * E.size > b.bytes ∨ dst.off + n * E.size > b.bytes) .ub
  if E.size = 0 then pure ()
  else
    let moved := (b.slots.drop (src.off / E.size)).take n
    setSlots src (b.slots.take (dst.off / E.size) ++ moved ++ b.slots.drop (dst.off / E.size + n))

/-- `ptr::swap(p, q)`. fc_vec.rs 315. -/
def swapPtr (E : Env) (p q : Ptr) : M α Unit := do
  let a ← read E p
  let b ← read E q
  write E p b
  write E q a

/-- fc_vec.rs 14-17 (`FCVec`). -/
structure FCVec where
  buf : Ptr
  len : Nat

namespace FCVec

/-- fc_vec.rs 127-139 (`Alloc::new_vec`). -/
def new (E : Env) (cap : Nat) : M α FCVec := do
  pure ⟨← alloc E cap, 0⟩

/-- fc_vec.rs 40-52 (`deref`, `deref_mut`): `slice::from_raw_parts(buf, len)`, all of it read by the caller; the slots from `i` on. -/
def sliceLoop (E : Env) (v : FCVec) : Nat → Nat → M α (List α)
  | 0, _ => pure []
  | n + 1, i => do
    let a ← read E (← add E v.buf i)
    pure (a :: (← sliceLoop E v n (i + 1)))

/-- fc_vec.rs 40-52 (`deref`, `deref_mut`), 28-34 (`iter`, `iter_mut`), 487-489 (`borrow`). -/
def slice (E : Env) (v : FCVec) : M α (List α) := sliceLoop E v v.len 0

/-- fc_vec.rs 72-81 (`Index`) with an index: bounds-checked by the slice. -/
def get (E : Env) (v : FCVec) (i : Nat) : M α α := do
  if i < v.len then read E (← add E v.buf i) else panic .indexOutOfBounds

/-- fc_vec.rs 83-90 (`IndexMut`): `v[i] = a`; the old value is returned (the caller drops it or has moved it out). -/
def set (E : Env) (v : FCVec) (i : Nat) (a : α) : M α α := do
  if i < v.len then
    let p ← add E v.buf i
    let old ← read E p
    write E p a
    pure old
  else panic .indexOutOfBounds

/-- fc_vec.rs 214-222 (`push`), 495-497. -/
def push (E : Env) (cap : Nat) (v : FCVec) (a : α) : M α FCVec := do
  panicIf (v.len = cap) .vectorFull
  let p ← add E v.buf v.len
  write E p a
  pure { v with len := v.len + 1 }

/-- fc_vec.rs 226-235 (`try_push`). -/
def tryPush (E : Env) (cap : Nat) (v : FCVec) (a : α) : M α (FCVec × Option α) := do
  if v.len = cap then pure (v, some a)
  else
    let p ← add E v.buf v.len
    write E p a
    pure ({ v with len := v.len + 1 }, none)

/-- fc_vec.rs 245-259 (`insert`). -/
def insert (E : Env) (cap : Nat) (v : FCVec) (i : Nat) (a : α) : M α FCVec := do
  panicIf (i > v.len) .indexOutOfBounds
  panicIf (v.len = cap) .vectorFull
  copy E (← add E v.buf i) (← add E v.buf (i + 1)) (v.len - i)
  write E (← add E v.buf i) a
  pure { v with len := v.len + 1 }

/-- fc_vec.rs 268-284 (`remove`). -/
def remove (E : Env) (v : FCVec) (i : Nat) : M α (FCVec × α) := do
  panicIf (i ≥ v.len) .indexOutOfBounds
  let removed ← read E (← add E v.buf i)
  copy E (← add E v.buf (i + 1)) (← add E v.buf i) (v.len - i - 1)
  pure ({ v with len := v.len - 1 }, removed)

/-- fc_vec.rs 292-302 (`swap_remove`). -/
def swapRemove (E : Env) (v : FCVec) (i : Nat) : M α (FCVec × α) := do
  panicIf (i ≥ v.len) .indexOutOfBounds
  let child ← read E (← add E v.buf i)
  copy E (← add E v.buf (v.len - 1)) (← add E v.buf i) 1
  pure ({ v with len := v.len - 1 }, child)

/-- fc_vec.rs 309-316 (`swap`). -/
def swap (E : Env) (v : FCVec) (i j : Nat) : M α Unit := do
  panicIf (i ≥ v.len ∨ j ≥ v.len) .indexOutOfBounds
  swapPtr E (← add E v.buf i) (← add E v.buf j)

/-- fc_vec.rs 320-328 (`pop`). -/
def pop (E : Env) (v : FCVec) : M α (FCVec × Option α) := do
  if v.len = 0 then pure (v, none)
  else
    let a ← read E (← add E v.buf (v.len - 1))
    pure ({ v with len := v.len - 1 }, some a)

/-- fc_vec.rs 334 (`while self.pop().is_some() {}`): the popped elements, which are dropped, in order. -/
def popLoop (E : Env) : Nat → FCVec → M α (List α)
  | 0, _ => panic .diverge
  | n + 1, v => do
    match ← pop E v with
    | (v, some a) => do pure (a :: (← popLoop E n v))
    | (_, none) => pure []

/-- fc_vec.rs 332-338 (`drop`), 413-419 (`Drop for FCVecContainer`): the dropped elements, in order. -/
def drop (E : Env) (cap : Nat) (v : FCVec) : M α (List α) := do
  let dropped ← popLoop E (v.len + 1) v
  dealloc E v.buf cap
  pure dropped

/-- fc_vec.rs 176-178: `for value in vec { new.push(value.clone()) }`, given the clones. -/
def pushAll (E : Env) (cap : Nat) : FCVec → List α → M α FCVec
  | v, [] => pure v
  | v, a :: as => do pushAll E cap (← push E cap v a) as

/-- fc_vec.rs 168-180 (`Alloc::clone`); `cl` is `T::clone`. -/
def clone (E : Env) (cap : Nat) (cl : α → α) (v : FCVec) : M α FCVec := do
  panicIf (v.len > cap) .vectorTooLarge
  let new ← new E cap
  let values ← slice E v
  pushAll E cap new (values.map cl)

end FCVec

/-- fc_vec.rs 500-505 (`IntoIter`): `start` and `end`, named `fst` and `lst`. -/
structure IntoIter where
  buf : Ptr
  cap : Nat
  fst : Ptr
  lst : Ptr

namespace IntoIter

/-- fc_vec.rs 439-452 (`IntoIterator for FCVecContainer`). -/
def new (E : Env) (cap : Nat) (v : FCVec) : M α IntoIter := do
  let lst ← add E v.buf v.len
  pure ⟨v.buf, cap, v.buf, lst⟩

/-- fc_vec.rs 510-520 (`next`). -/
def next (E : Env) (it : IntoIter) : M α (IntoIter × Option α) := do
  if it.fst = it.lst then pure (it, none)
  else
    let a ← read E it.fst
    pure ({ it with fst := ← add E it.fst 1 }, some a)

/-- fc_vec.rs 522-525 (`size_hint`): the subtraction and the division can panic. -/
def sizeHint (E : Env) (it : IntoIter) : M α Nat :=
  if it.lst.off < it.fst.off ∨ E.size = 0 then panic .arithmetic
  else pure ((it.lst.off - it.fst.off) / E.size)

/-- fc_vec.rs 529-539 (`next_back`). -/
def nextBack (E : Env) (it : IntoIter) : M α (IntoIter × Option α) := do
  if it.fst = it.lst then pure (it, none)
  else
    let lst ← sub E it.lst 1
    let a ← read E lst
    pure ({ it with lst := lst }, some a)

/-- fc_vec.rs 544 (`for _ in &mut *self {}`): the elements dropped, in order. -/
def drain (E : Env) : Nat → IntoIter → M α (List α)
  | 0, _ => panic .diverge
  | n + 1, it => do
    match ← next E it with
    | (it, some a) => do pure (a :: (← drain E n it))
    | (_, none) => pure []

/-- fc_vec.rs 542-550 (`Drop for IntoIter`). -/
def drop (E : Env) (it : IntoIter) : M α (List α) := do
  let dropped ← drain E (it.lst.off - it.fst.off + 1) it
  dealloc E it.buf it.cap
  pure dropped

end IntoIter

end RTree.Raw
