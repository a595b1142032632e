import Verif.Basic
/-!
# Layouts of the boxes of rc_mut.rs

`std::alloc::Layout` is a size and an alignment.  `RcMutAlloc` computes the layout of a box by hand (`box_layout`), `RcMut` asks the compiler for it
(`Layout::for_value`), and the compiler follows the rules for `#[repr(C)]`.
-/

namespace RTree

/-- `std::alloc::Layout`. rc_mut.rs 18, 26-32. -/
structure Layout where
  size : Nat
  align : Nat
  deriving DecidableEq

namespace Layout

/-- The least multiple of `a` that is not below `n`. What the methods of `Layout` do at rc_mut.rs 28-31. -/
def roundUp (n a : Nat) : Nat := (n + a - 1) / a * a

/-- `Layout::array::<T>(n)`, with `elem` the layout of `T`; `maxBytes` is `isize::MAX`. iter_stack.rs 74, rc_mut.rs 105. -/
def array (maxBytes : Nat) (elem : Layout) (n : Nat) : Option Layout :=
  if n * elem.size + (elem.align - 1) ≤ maxBytes then some ⟨n * elem.size, elem.align⟩ else none

/-- `Layout::extend`: both, one after the other, and the offset of the second. rc_mut.rs 28. -/
def extend (maxBytes : Nat) (l next : Layout) : Option (Layout × Nat) :=
  if roundUp l.size next.align + next.size + (max l.align next.align - 1) ≤ maxBytes then
    some (⟨roundUp l.size next.align + next.size, max l.align next.align⟩, roundUp l.size next.align)
  else none

/-- `Layout::pad_to_align`. rc_mut.rs 31. -/
def padToAlign (l : Layout) : Layout := ⟨roundUp l.size l.align, l.align⟩

/-- The rules for `#[repr(C)]` structs (https://doc.rust-lang.org/reference/type-layout.html#the-c-representation), one field after the other: what has been
    laid out so far, with the offsets. rc_mut.rs 9 (`#[repr(C)]`). -/
def addField (l : Layout × List Nat) (field : Layout) : Layout × List Nat :=
  (⟨roundUp l.1.size field.align + field.size, max l.1.align field.align⟩, l.2 ++ [roundUp l.1.size field.align])

/-- The layout of a `#[repr(C)]` struct with these fields and the offsets of the fields. rc_mut.rs 9-13 (`RcMutBox`). -/
def reprC (fields : List Layout) : Layout × List Nat :=
  let l := fields.foldl addField (⟨0, 1⟩, [])
  (⟨roundUp l.1.size l.1.align, l.1.align⟩, l.2)

/-- The layout of `Cell<bool>`. rc_mut.rs 11. -/
def bool : Layout := ⟨1, 1⟩

/-- `Layout::for_value` of a `RcMutBox` whose value has the layout `value`. rc_mut.rs 9-13, 201. -/
def forBox (value : Layout) : Layout := (reprC [bool, value]).1

/-- The offset of `value` in a `RcMutBox`. rc_mut.rs 9-13, 93 (`addr_of_mut!((*self.0.as_ptr()).value)`). -/
def valueOffset (value : Layout) : Nat := (reprC [bool, value]).2[1]?.getD 0

/-- rc_mut.rs 26-32 (`box_layout`): `unwrap` panics if the box would be too large. -/
def boxLayout (maxBytes : Nat) (value : Layout) : Option Layout :=
  match extend maxBytes (reprC [bool, ⟨0, 1⟩]).1 value with
  | some (l, _) => some l.padToAlign
  | none => none

end Layout

end RTree
