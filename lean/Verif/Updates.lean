import Verif.Model.RawMut
import Verif.Programs
import Verif.Spec
/-!
# Programs that also change values in place (C84)

The mutable iterators hand out references to values.  A client may keep all of them and read and write through any of them at any time while the iterator is in use and
afterwards, until the borrow ends.  What it does is given by a list of uses for every number of references received so far.
-/

namespace RTree

/-- A ranking for sorted iteration, with its type of metrics and a priority queue.  The ranking may panic, in the documented ways.
    Client code of ranking.rs 14-39, lib.rs 146-260. -/
structure SortedQuery (B K : Type) : Type 1 where
  S : Type
  [le : LE S]
  heap : UniformHeap (Score S)
  ranking : Ranking B K (Option S)
  calmBounds : ∀ b e, ranking.boundsMin b = .error e → UserPanic e
  calmKey : ∀ k e, ranking.rankKey k = .error e → UserPanic e

attribute [instance] SortedQuery.le

/-- A use of one of the references received, numbered in the order in which they came.  A number that is too large does nothing (such a program cannot be written).
    Client code. -/
inductive RefUse (V : Type) where
  | read (j : Nat)
  /-- `mem::replace(refs[j], v)` -/
  | replace (j : Nat) (v : V)

/-- What a client does when it has received `n` references, the last of them just now. Client code. -/
abbrev Client (V : Type) := (n : Nat) → List (RefUse V)

variable {B K V Q : Type}

/-- The state of such a client on values: the tree, the references, the answers so far and the values it has given away. Client code. -/
structure Holding (B K V : Type) where
  tree : Tree B K V
  refs : List (K × Nat)
  replies : List (Reply V)
  given : List V

namespace Holding

/-- The value that the reference with address `a` refers to. Modelling device: stands for no code of the crate. -/
def value (s : Holding B K V) (a : Nat) : Option V := s.tree.entries[a]?.map (·.2)

/-- One use of a reference. Client code. -/
def use (s : Holding B K V) : RefUse V → Holding B K V
  | .read j =>
    match s.refs[j]? with
    | some r => { s with replies := s.replies ++ [.seen (s.value r.2)] }
    | none => s
  | .replace j v =>
    match s.refs[j]? with
    | some r => { s with tree := s.tree.modifyAt r.2 fun _ => v, replies := s.replies ++ [.moved (s.value r.2)], given := s.given ++ [v] }
    | none => s

/-- The iterator yields a reference, and the client does what it wants to do then. Client code. -/
def yield (client : Client V) (s : Holding B K V) (r : K × Nat) : Holding B K V :=
  (client (s.refs.length + 1)).foldl use { s with refs := s.refs ++ [r] }

end Holding

/-- A command, or a mutable iteration over the tree in a variable. Client code of lib.rs 92-408. -/
inductive Act (B K V Q : Type) : Type 1 where
  | cmd (c : Cmd K V Q)
  /-- `iter_mut`, `filter_iter_mut` -/
  | update (i : Nat) (f : SpatialFilter B Q) (client : Client V)
  /-- `iter_asc_by_mut`, `filter_iter_asc_by_mut`, `min_by_mut`, `filter_min_by_mut`, stopped after `k` references -/
  | updateAsc (i : Nat) (q : SortedQuery B K) (k : Nat) (client : Client V)

section

variable [Bounds B] [Volume B] [Bounded K B] [BEq K] [Bounded Q B] [BEq Q]

/-- An action on values: the variables, the replies, and the keys and values handed over by the caller. Client code of lib.rs 92-408. -/
def Act.spec (borrow : K → Q) (f : List (Option (Tree B K V))) : Act B K V Q → Res (List (Option (Tree B K V)) × List (Reply V) × List K × List V)
  | .cmd c => do
    let r ← c.spec borrow f
    pure (r.1, [r.2.1], r.2.2)
  | .update i flt client => withTree f i ([], [], []) fun t => do
    let refs ← t.filterIterMut borrow flt
    let s := refs.foldl (Holding.yield client) ⟨t, [], [], []⟩
    pure (f.set i (some s.tree), s.replies, [], s.given)
  | .updateAsc i q k client => withTree f i ([], [], []) fun t => do
    let refs ← t.filterFirstAscByMut (q.heap.heap _) q.ranking k
    let s := refs.foldl (Holding.yield client) ⟨t, [], [], []⟩
    pure (f.set i (some s.tree), s.replies, [], s.given)

/-- Actions on values, one after the other. Client code. -/
def specActs (borrow : K → Q) : List (Option (Tree B K V)) → List (Act B K V Q) → Res (List (Option (Tree B K V)) × List (List (Reply V) × List K × List V))
  | f, [] => .ok (f, [])
  | f, a :: as => do
    let (f, r) ← a.spec borrow f
    let (f, rs) ← specActs borrow f as
    pure (f, r :: rs)

end

namespace Raw

/-- The state of a client in memory: the references and the answers so far. Client code. -/
structure Holding (K V : Type) where
  refs : List (K × Place)
  replies : List (Reply V)

namespace Holding

/-- One use of a reference. Client code. -/
def use (E : TEnv) (s : Holding K V) : RefUse V → TM B K V (Holding K V)
  | .read j =>
    match s.refs[j]? with
    | some r => do
      let e ← readEntry E r.2
      pure { s with replies := s.replies ++ [.seen (some e.2)] }
    | none => pure s
  | .replace j v =>
    match s.refs[j]? with
    | some r => do
      let old ← replaceValue E r.2 v
      pure { s with replies := s.replies ++ [.moved (some old)] }
    | none => pure s

/-- The iterator yields a reference, and the client does what it wants to do then. Client code. -/
def yield (E : TEnv) (client : Client V) (s : Holding K V) (r : K × Place) : TM B K V (Holding K V) :=
  (client (s.refs.length + 1)).foldlM (use E) { s with refs := s.refs ++ [r] }

end Holding

variable [Bounds B] [Volume B] [Bounded K B] [BEq K] [Bounded Q B] [BEq Q]

/-- An action in memory: the variables, the replies, and the keys and values dropped by the crate. Client code of lib.rs 92-408. -/
def Act.raw (E : TEnv) (borrow : K → Q) (f : List (Option (RTree B))) : Act B K V Q → TM B K V (List (Option (RTree B)) × List (Reply V) × List K × List V)
  | .cmd c => do
    let r ← Cmd.raw E borrow f c
    pure (r.1, [r.2.reply], r.2.keys, r.2.values)
  | .update i flt client => withTree f i ([], [], []) fun t => do
    let s ← t.filterIterMut E borrow flt (Holding.yield E client) ⟨[], []⟩
    pure (f, s.replies, [], [])
  | .updateAsc i q k client => withTree f i ([], [], []) fun t => do
    let s ← t.filterFirstAscByMut E (q.heap.heap _) q.ranking (Holding.yield E client) k ⟨[], []⟩
    pure (f, s.replies, [], [])

/-- Actions in memory, one after the other. Client code. -/
def acts (E : TEnv) (borrow : K → Q) : List (Option (RTree B)) → List (Act B K V Q) → TM B K V (List (Option (RTree B)) × List (List (Reply V) × List K × List V))
  | f, [] => pure (f, [])
  | f, a :: as => do
    let (f, r) ← Act.raw E borrow f a
    let (f, rs) ← acts E borrow f as
    pure (f, r :: rs)

end Raw

end RTree
