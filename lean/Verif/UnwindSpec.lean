import Verif.Programs
/-!
# What a call does to the contents of the trees, whatever user code answers

`X` lists the contents of the variables before the call: nothing, or the pairs in the tree, in any order.
-/

namespace RTree.Unwind

variable {K V Q : Type}

/-- The contents of each variable: `none`, or the pairs in the tree. -/
abbrev Contents (K V : Type) := List (Option (List (K × V)))

/-- A call that returned `r` on a tree with the pairs `es` left the pairs `es'` in it. -/
def Changed (es es' : List (K × V)) : Cmd K V Q → Reply V → Prop
  /- the new pair was added -/
  | .insert _ k v, .none => es'.Perm ((k, v) :: es)
  /- the new pair was added -/
  | .insertUnique _ k v, .moved none => es'.Perm ((k, v) :: es)
  /- the value of one pair was replaced, and is returned -/
  | .insertUnique _ _ v, .moved (some old) => ∃ k rest, es.Perm ((k, old) :: rest) ∧ es'.Perm ((k, v) :: rest)
  | .remove _ _, .moved none => es'.Perm es
  /- one pair was removed, and its value is returned -/
  | .remove _ _, .moved (some v) => ∃ k, es.Perm ((k, v) :: es')
  | .get _ _, .seen none => es' = es
  /- a value of the tree is returned -/
  | .get _ _, .seen (some v) => es' = es ∧ ∃ k, (k, v) ∈ es
  | .replace _ _ _, .moved none => es' = es
  /- the value of one pair was replaced, and is returned -/
  | .replace _ _ v, .moved (some old) => ∃ k rest, es.Perm ((k, old) :: rest) ∧ es'.Perm ((k, v) :: rest)
  | .len _, .count n => es' = es ∧ n = es.length
  | .isEmpty _, .flag b => es' = es ∧ (b = true → es = [])
  | _, _ => False

/-- The call `c` returned `r` and changed the contents from `X` to `X'`. -/
def Effect (X : Contents K V) (c : Cmd K V Q) (r : Reply V) (X' : Contents K V) : Prop :=
  match c with
  | .new _ => X' = X ++ [some []]
  | .drop i => X' = X.set i none
  | .clone i => match X[i]? with
    | some (some es) => ∃ es', X' = X ++ [some es'] ∧ es'.length = es.length
    | _ => X' = X
  | .insert i _ _ | .insertUnique i _ _ | .remove i _ | .get i _ | .replace i _ _ | .len i | .isEmpty i => match X[i]? with
    | some (some es) => ∃ es', X' = X.set i (some es') ∧ Changed es es' c r
    | _ => X' = X

/-- A call that panicked on a tree with the pairs `es` left the pairs `es'` in it: no pair is invented or duplicated, but pairs can be lost. -/
def Damaged (es es' : List (K × V)) : Cmd K V Q → Prop
  | .insert _ k v => ∃ lost, (es' ++ lost).Perm ((k, v) :: es)
  /- the value may have been stored with the key that was there before -/
  | .insertUnique _ k v => ∃ k' lost, (k' = k ∨ ∃ old, (k', old) ∈ es) ∧ (es' ++ lost).Perm ((k', v) :: es)
  | .remove _ _ => ∃ lost, (es' ++ lost).Perm es
  | _ => False

/-- The call `c` panicked; the contents were `X` and are `X'`. -/
def Survived (X : Contents K V) (c : Cmd K V Q) (X' : Contents K V) : Prop :=
  match c with
  | .insert i _ _ | .insertUnique i _ _ | .remove i _ => match X[i]? with
    | some (some es) => ∃ es', X' = X.set i (some es') ∧ Damaged es es' c
    | _ => X' = X
  | _ => X' = X

/-- The variable whose tree a call may change. -/
def target : Cmd K V Q → Option Nat
  | .insert i _ _ | .insertUnique i _ _ | .remove i _ | .replace i _ _ | .drop i => some i
  | .new _ | .get _ _ | .len _ | .isEmpty _ | .clone _ => none

end RTree.Unwind
