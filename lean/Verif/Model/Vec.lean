import Verif.Basic
/-!
# Fixed-capacity vectors, as lists

`FCVec<T>` as a list with an explicit capacity (fc_vec.rs).  The raw-memory version, and the proof that
it refines these functions, is in `Verif/Model/FCVec.lean` and `Verif/Proofs/FCVec.lean`.
-/

namespace RTree.Vec

variable {α : Type}

/-- fc_vec.rs 214-222 (`push`): panics when full. -/
def push (cap : Nat) (l : List α) (a : α) : Res (List α) :=
  if l.length = cap then .error .vectorFull else .ok (l ++ [a])

/-- fc_vec.rs 226-235 (`try_push`): hands the value back when full. `(new vector, returned value)`. -/
def tryPush (cap : Nat) (l : List α) (a : α) : List α × Option α :=
  if l.length = cap then (l, some a) else (l ++ [a], none)

/-- fc_vec.rs 292-302 (`swap_remove`): the last element takes the place of the removed one. -/
def swapRemove (l : List α) (i : Nat) : Res (α × List α) :=
  match l[i]?, l.getLast? with
  | some a, some z => .ok (a, (l.set i z).dropLast)
  | _, _ => .error .indexOutOfBounds

/-- fc_vec.rs 309-316 (`swap`), also `<[T]>::swap`. -/
def swap (l : List α) (i j : Nat) : Res (List α) :=
  match l[i]?, l[j]? with
  | some a, some b => .ok ((l.set i b).set j a)
  | _, _ => .error .indexOutOfBounds

/-- fc_vec.rs 320-328 (`pop`). -/
def pop (l : List α) : Option (α × List α) :=
  match l.getLast? with
  | some a => some (a, l.dropLast)
  | none => none

/-- fc_vec.rs 245-259 (`insert`). -/
def insert (cap : Nat) (l : List α) (i : Nat) (a : α) : Res (List α) :=
  if i > l.length then .error .indexOutOfBounds
  else if l.length = cap then .error .vectorFull
  else .ok (l.take i ++ a :: l.drop i)

/-- fc_vec.rs 268-284 (`remove`). -/
def remove (l : List α) (i : Nat) : Res (α × List α) :=
  match l[i]? with
  | some a => .ok (a, l.take i ++ l.drop (i + 1))
  | none => .error .indexOutOfBounds

/-- fc_vec.rs 168-180 (`Alloc::clone`): pushes a clone of each value into a new vector.
    Simplification: `T::clone` is the identity on values. -/
def clone (cap : Nat) (l : List α) : Res (List α) :=
  if l.length > cap then .error .vectorTooLarge
  else l.foldlM (fun acc a => push cap acc a) []

end RTree.Vec
