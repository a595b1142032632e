import Verif.Updates
/-!
# The references of one mutable iteration, used by several threads (C85)

A client collects the references that a mutable iterator yields and hands them out to threads (`&mut V` is `Send` if `V` is).  Each thread has its own references and
reads and writes through them; what it does next may depend on all it has seen so far.  A scheduler, about which nothing is assumed, lets one thread at a time make one access: a read of
a value or a write of a value.  `mem::replace` makes two accesses.
-/

namespace RTree

variable {B K V : Type}

/-- The code of a thread: what it does next, if anything, after it has got these answers. Client code. -/
abbrev RefCode (V : Type) := List (Reply V) → Option (RefUse V)

/-- The state of a thread: the answers so far, the `mem::replace` it is in the middle of (the number of the reference, the old value, which has been read, and the new one,
    which has not been written yet), and the values it has given away. Client code. -/
structure RefThread (V : Type) where
  replies : List (Reply V)
  pending : Option (Nat × V × V)
  given : List V

namespace RefThread

/-- A thread that has not done anything yet. Client code. -/
def start : RefThread V := ⟨[], none, []⟩

/-- One access of a thread that has the values `cells` for itself; it may use those for which `mine` holds.  A thread that has nothing to do, or that wants to use what it does not
    have (such a program cannot be written), does nothing. Client code. -/
def alone (mine : Nat → Bool) (code : RefCode V) (s : RefThread V × List V) : RefThread V × List V :=
  match s.1.pending with
  | some (j, old, new) => (⟨s.1.replies ++ [.moved (some old)], none, s.1.given ++ [new]⟩, s.2.set j new)
  | none =>
    match code s.1.replies with
    | none => s
    | some (.read j) =>
      match mine j, s.2[j]? with
      | true, some v => ({ s.1 with replies := s.1.replies ++ [.seen (some v)] }, s.2)
      | _, _ => s
    | some (.replace j new) =>
      match mine j, s.2[j]? with
      | true, some old => ({ s.1 with pending := some (j, old, new) }, s.2)
      | _, _ => s

/-- A number of accesses of a thread that is alone. Client code. -/
def runAlone (mine : Nat → Bool) (code : RefCode V) (cells : List V) : Nat → RefThread V × List V
  | 0 => (start, cells)
  | n + 1 => alone mine code (runAlone mine code cells n)

end RefThread

namespace Raw

/-- One access of a thread to memory, through the references it holds. Client code. -/
def refAccess (E : TEnv) (held : Nat → Option Place) (code : RefCode V) (s : RefThread V) : TM B K V (RefThread V) :=
  match s.pending with
  | some (j, old, new) =>
    match held j with
    | some p => do
      let _ ← replaceValue E p new
      pure ⟨s.replies ++ [.moved (some old)], none, s.given ++ [new]⟩
    | none => pure s
  | none =>
    match code s.replies with
    | none => pure s
    | some (.read j) =>
      match held j with
      | some p => do
        let e ← readEntry E p
        pure { s with replies := s.replies ++ [.seen (some e.2)] }
      | none => pure s
    | some (.replace j new) =>
      match held j with
      | some p => do
        let e ← readEntry E p
        pure { s with pending := some (j, e.2, new) }
      | none => pure s

/-- The references that thread `i` holds. Client code. -/
def heldBy (owner : Nat → Nat) (refs : List (K × Place)) (i : Nat) (j : Nat) : Option Place := if owner j = i then refs[j]?.map (·.2) else none

/-- The scheduler lets thread `i` make one access. Client code. -/
def refStep (E : TEnv) (owner : Nat → Nat) (refs : List (K × Place)) (code : Nat → RefCode V) (ts : Nat → RefThread V) (i : Nat) : TM B K V (Nat → RefThread V) := do
  let s ← refAccess E (heldBy owner refs i) (code i) (ts i)
  pure fun j => if j = i then s else ts j

/-- A schedule: which thread makes the next access. Client code. -/
def refRun (E : TEnv) (owner : Nat → Nat) (refs : List (K × Place)) (code : Nat → RefCode V) (schedule : List Nat) (ts : Nat → RefThread V) : TM B K V (Nat → RefThread V) :=
  schedule.foldlM (refStep E owner refs code) ts

end Raw

end RTree
