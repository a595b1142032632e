import Verif.Model.CallsLeft
import Verif.CallsSpec
/-!
# What a left join may do when user code panics or answers inconsistently

`code n` is what the `n`-th call of user code answers, `none` if it panics.
-/

namespace RTree.Calls

/-- `ys` is `xs` without some elements, all of which satisfy `P`; the order is kept. -/
inductive Skips {α : Type} (P : α → Prop) : List α → List α → Prop
  | nil : Skips P [] []
  | keep {x xs ys} : Skips P xs ys → Skips P (x :: xs) (x :: ys)
  | skip {x xs ys} : P x → Skips P xs ys → Skips P (x :: xs) ys

variable {BL BR KL KR VL VR QL QR : Type}

/-- Before call `n` of user code, the join filter turned down the bounds of a pair of nodes, of which one contains the left entry, the other the right entry. -/
def PairTurnedDown (code : Nat → Option (JoinCode BL BR QL QR)) (nodesL : List (Node BL KL VL)) (nodesR : List (Node BR KR VR)) (n : Nat) (e : KL × VL) (r : KR × VR) : Prop :=
  ∃ m f, m < n ∧ code m = some f ∧ ∃ nl ∈ nodesL, ∃ nr ∈ nodesR, e ∈ nl.entries ∧ r ∈ nr.entries ∧ f.testBounds nl.bounds nr.bounds = false

/-- A right-hand iterator as a client sees it: the left entry it came with, the bounds its filter uses, and what can still come. -/
structure RightTodo (BL KL KR VL VR : Type) where
  entry : KL × VL
  bounds : BL
  todo : List (KR × VR)

/-- One call of `next` of the left join, which ends as `out`; `todo` are the left entries to come before the call, `todo'` those after it; `rights` and `rights'`
    are the right-hand iterators yielded so far. -/
def LeftStep (code : Nat → Option (JoinCode BL BR QL QR)) (borrowL : KL → QL) (nodesL : List (Node BL KL VL)) (nodesR : List (Node BR KR VR)) (all : List (KR × VR)) (n : Nat)
    (todo : List (KL × VL)) (rights : List (RightTodo BL KL KR VL VR)) (out : Except Stop (Option (KL × VL))) (n' : Nat)
    (todo' : List (KL × VL)) (rights' : List (RightTodo BL KL KR VL VR)) : Prop :=
  match out with
  /- the end: no left entry remains -/
  | .ok none => n ≤ n' ∧ todo = [] ∧ todo' = [] ∧ rights' = rights
  /- the next left entry, no matter what the filter says, with an iterator of the right entries that have not been turned down; the last call of user code was the
     one that gave the bounds of the left key -/
  | .ok (some e) => n < n' ∧ todo = e :: todo' ∧ ∃ f ys, code (n' - 1) = some f ∧ rights' = rights ++ [⟨e, f.bounds (borrowL e.1), ys⟩] ∧
      Skips (PairTurnedDown code nodesL nodesR n' e) all ys
  /- the last call panicked: a left entry is lost, or the left entries below one node -/
  | .error .user => n < n' ∧ code (n' - 1) = none ∧ rights' = rights ∧ ∃ lost, todo = lost ++ todo' ∧ ((∃ e, lost = [e]) ∨ ∃ node ∈ nodesL, lost = node.entries)
  /- the crate itself never panics, and there is no undefined behaviour -/
  | .error (.own _) => False

/-- Some calls, of the left join and of the right-hand iterators it has yielded, one after the other. -/
def LeftStory (code : Nat → Option (JoinCode BL BR QL QR)) (borrowL : KL → QL) (borrowR : KR → QR) (nodesL : List (Node BL KL VL)) (nodesR : List (Node BR KR VR))
    (all : List (KR × VR)) : Nat → List (KL × VL) → List (RightTodo BL KL KR VL VR) → List LeftCmd → List (LeftOut KL KR VL VR) → Prop
  | _, _, _, [], [] => True
  | n, todo, rights, .next :: cmds, .next out :: outs => ∃ n' todo' rights', LeftStep code borrowL nodesL nodesR all n todo rights out n' todo' rights' ∧
      LeftStory code borrowL borrowR nodesL nodesR all n' todo' rights' cmds outs
  | n, todo, rights, .right i :: cmds, .right out :: outs => ∃ it n' ys, rights[i]? = some it ∧
      Step (iterQuery borrowR nodesR) (joiningCode code it.bounds (borrowL it.entry.1)) n it.todo out n' ys ∧
      LeftStory code borrowL borrowR nodesL nodesR all n' todo (rights.set i { it with todo := ys }) cmds outs
  | n, todo, rights, .right i :: cmds, .nothing :: outs => rights.length ≤ i ∧ LeftStory code borrowL borrowR nodesL nodesR all n todo rights cmds outs
  | _, _, _, _, _ => False

/-- The left entries that came. -/
def leftYields (outs : List (LeftOut KL KR VL VR)) : List (KL × VL) := outs.filterMap fun o =>
  match o with
  | .next (.ok (some e)) => some e
  | _ => none

/-- The right entries that came from the right-hand iterator with number `i`. -/
def rightYields (i : Nat) (cmds : List LeftCmd) (outs : List (LeftOut KL KR VL VR)) : List (KR × VR) := (cmds.zip outs).filterMap fun x =>
  match x with
  | (.right j, .right (.ok (some r))) => if j = i then some r else none
  | _ => none

/-- Go through a left join of which this is expected: call `next`, then `next` of the new right-hand iterator until it ends, and so on. -/
def drainCmds : Nat → List ((KL × VL) × List (KR × VR)) → List LeftCmd
  | _, [] => [.next]
  | i, x :: xs => .next :: (List.replicate (x.2.length + 1) (.right i) ++ drainCmds (i + 1) xs)

/-- What is expected to come. -/
def drainOuts : List ((KL × VL) × List (KR × VR)) → List (LeftOut KL KR VL VR)
  | [] => [.next (.ok none)]
  | x :: xs => .next (.ok (some x.1)) :: ((x.2.map fun r => .right (.ok (some r))) ++ .right (.ok none) :: drainOuts xs)

end RTree.Calls
