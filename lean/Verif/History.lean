import Verif.Model.Mut
import Verif.Spec
/-!
# Histories

The trees a client can obtain: by any sequence of calls from an empty tree.
-/

namespace RTree

variable {B K V : Type} [Bounds B] [Volume B] [Bounded K B] [BEq K]

/-- The trees reachable from a new tree with configuration `c` by calls that return, where every inserted key
    satisfies `P`.  A call that panics ends the history.  Writing through any mutable reference handed out by
    `get_mut` is `getMut`; writing through one handed out by a mutable iterator is `modifyAt`. -/
inductive Reachable (c : Config) (P : K → Prop) : Tree B K V → Prop where
  | new : Reachable c P (Tree.new c)
  | insert {t t' k v} : Reachable c P t → P k → t.insert k v = .ok t' → Reachable c P t'
  | insertUnique {t t' k v r} : Reachable c P t → P k → t.insertUnique k v = .ok (t', r) → Reachable c P t'
  | remove {t t'} {Q : Type} [Bounded Q B] [BEq Q] (borrow : K → Q) {q r} :
      Reachable c P t → t.remove borrow q = .ok (t', r) → Reachable c P t'
  | getMut {t} {Q : Type} [Bounded Q B] [BEq Q] (borrow : K → Q) {q v back} (v' : V) :
      Reachable c P t → t.getMut borrow q = .ok (some (v, back)) → Reachable c P (back v')
  | modifyAt {t} (a : Nat) (g : V → V) : Reachable c P t → Reachable c P (t.modifyAt a g)
  | clone {t t'} : Reachable c P t → t.clone = .ok t' → Reachable c P t'

/-- The calls of the API, for executable histories. -/
inductive Op (B K V : Type) where
  | insert (k : K) (v : V)
  | insertUnique (k : K) (v : V)
  | remove (k : K)
  | get (k : K)
  /-- `if let Some(x) = tree.get_mut(k) { *x = v }` -/
  | set (k : K) (v : V)
  | len
  | isEmpty
  | clone
  | iter
  | filterIter (f : SpatialFilter B K)
  /-- `for (k, x) in tree.filter_iter_mut(f) { *x = u(k, *x) }` -/
  | filterIterMut (f : SpatialFilter B K) (u : K → V → V)

/-- The key a call inserts. -/
def Op.inserts : Op B K V → Option K
  | .insert k _ => some k
  | .insertUnique k _ => some k
  | _ => none

/-- The tree after a call. -/
def Op.step (t : Tree B K V) : Op B K V → Res (Tree B K V)
  | .insert k v => t.insert k v
  | .insertUnique k v => do pure (← t.insertUnique k v).1
  | .remove k => do pure (← t.remove id k).1
  | .get k => do let _ ← t.get id k; pure t
  | .set k v => do
    match ← t.getMut id k with
    | some (_, back) => pure (back v)
    | none => pure t
  | .len => do let _ ← t.len; pure t
  | .isEmpty => do let _ ← t.isEmpty; pure t
  | .clone => t.clone
  | .iter => do let _ ← t.iter; pure t
  | .filterIter f => do let _ ← t.filterIter id f; pure t
  | .filterIterMut f u => do pure (t.writeAll u (← t.filterIterMut id f))

/-- The tree after a sequence of calls. -/
def run (t : Tree B K V) (ops : List (Op B K V)) : Res (Tree B K V) := ops.foldlM Op.step t

end RTree
