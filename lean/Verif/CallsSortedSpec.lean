import Verif.Model.CallsSorted
import Verif.CallsSpec
/-!
# What sorted iterators may do when rankings and the order of the metric panic or answer inconsistently

`code n` is what the `n`-th call of user code answers; the answer `none` is a panic.  What can still come is a list in no particular order.
-/

namespace RTree.Calls

variable {B K V A Mt F E : Type}

/-- Some call of user code panics. -/
def RankCode.Panics (f : RankCode B K A Mt) : Prop := (∃ b, f.boundsMin b = none) ∨ (∃ k, f.rankKey k = none) ∨ ∃ x y, f.cmp x y = none

/-- Sorted iteration over a tree with these nodes: nothing is turned down; what can be lost to a panic is one entry, or the last entries below one node, which are those
    below some of its children. -/
def sortedQuery (nodes : List (Node B K V)) : Query (RankCode B K Mt Mt) (K × V) where
  accepts f e := ∃ m, f.rankKey e.1 = some m
  rejects _ _ := False
  lump es := (∃ e, es = [e]) ∨ ∃ node ∈ nodes, es <:+ node.entries

/-- The same for the iterators that filter: an entry is turned down if its rank, or `bounds_min` of the bounds of a node above it, is `None`. -/
def filterSortedQuery (nodes : List (Node B K V)) : Query (RankCode B K (Option Mt) Mt) (K × V) where
  accepts f e := ∃ m, f.rankKey e.1 = some (some m)
  rejects f e := f.rankKey e.1 = some none ∨ ∃ node ∈ nodes, e ∈ node.entries ∧ f.boundsMin node.bounds = some none
  lump es := (∃ e, es = [e]) ∨ ∃ node ∈ nodes, es <:+ node.entries

/-- Between call `n` and call `n'` of user code, the ranking turned down `e` or the bounds of something it is part of. -/
def Dropped (q : Query F E) (code : Nat → F) (n n' : Nat) (e : E) : Prop := ∃ m, n ≤ m ∧ m < n' ∧ q.rejects (code m) e

/-- One call of `next`, which ends as `out`; `todo` is what can still come before the call, `todo'` after it. -/
def SortedStep (q : Query F E) (panics : F → Prop) (code : Nat → F) (n : Nat) (todo : List E) (out : Except Stop (Option E)) (n' : Nat) (todo' : List E) : Prop :=
  match out with
  /- the end: all the others have been turned down -/
  | .ok none => n ≤ n' ∧ (∀ e ∈ todo, Dropped q code n n' e) ∧ todo' = []
  /- something: it has been accepted at some time; some others may have been turned down -/
  | .ok (some e) => n ≤ n' ∧ (∃ m < n', q.accepts (code m) e) ∧ ∃ skipped, todo.Perm (skipped ++ e :: todo') ∧ ∀ x ∈ skipped, Dropped q code n n' x
  /- the last call panicked -/
  | .error .user => n < n' ∧ panics (code (n' - 1)) ∧ ∃ skipped lost, todo.Perm (skipped ++ (lost ++ todo')) ∧ (∀ x ∈ skipped, Dropped q code n n' x) ∧ q.lump lost
  /- the crate itself never panics, and there is no undefined behaviour -/
  | .error (.own _) => False

/-- Some calls of `next` one after the other, with panics caught. -/
def SortedStory (q : Query F E) (panics : F → Prop) (code : Nat → F) : Nat → List E → List (Except Stop (Option E)) → Prop
  | _, _, [] => True
  | n, todo, out :: outs => ∃ n' todo', SortedStep q panics code n todo out n' todo' ∧ SortedStory q panics code n' todo' outs

/-- Whenever it answers, this user code answers as the given ranking and as the order of the metric do; comparisons do not panic. -/
def Faithful [LE Mt] (r : Ranking B K A) (code : Nat → RankCode B K A Mt) : Prop :=
  ∀ n, (∀ b a, (code n).boundsMin b = some a → r.boundsMin b = .ok a) ∧ (∀ k a, (code n).rankKey k = some a → r.rankKey k = .ok a) ∧
    ∀ x y, ∃ o, (code n).cmp x y = some (some o) ∧ (o.isLE ↔ x ≤ y) ∧ (o.isGE ↔ y ≤ x)

/-- Where the given ranking answers, this user code gives the same answer; comparisons are those of the order. -/
def Answers [LE Mt] (r : Ranking B K A) (code : Nat → RankCode B K A Mt) : Prop :=
  ∀ n, (∀ b a, r.boundsMin b = .ok a → (code n).boundsMin b = some a) ∧ (∀ k a, r.rankKey k = .ok a → (code n).rankKey k = some a) ∧
    ∀ x y, ∃ o, (code n).cmp x y = some (some o) ∧ (o.isLE ↔ x ≤ y) ∧ (o.isGE ↔ y ≤ x)

end RTree.Calls
