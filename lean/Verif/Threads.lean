import Verif.Model.StepsLeft
import Verif.Model.Steps
import Verif.Updates
/-!
# Threads

The trees of a program are in variables.  When threads are started each variable is moved to one thread or stays where it is and
is shared by all of them through `&`.  A thread runs a list of commands: anything on its own variables, mutable iteration over the trees in them included, what `&self` allows on shared ones, and joins and left joins of any two.
A scheduler, about which nothing is assumed, lets one thread at a time make one access to memory; when that is an allocation the
allocator picks a place.
-/

namespace RTree

/-- What a thread can do with a tree it has a shared reference to. Client code of lib.rs 87-126, 294-308, 326-334. -/
inductive SharedCmd (B Q : Type) where
  | get (q : Q)
  | len
  | isEmpty
  /-- the clone goes into the next unused variable of the thread -/
  | clone
  | iter
  | filterIter (f : SpatialFilter B Q)

/-- A tree a thread has a reference to: in one of its own variables, or in a shared one. Client code. -/
inductive TreeRef where
  | own (i : Nat)
  | shared (i : Nat)

/-- A command of a thread: on its own variables, `&self` on one of its own variables or on a shared variable, and what takes a ranking or two trees.
    Client code. -/
inductive ThreadCmd (B K V Q : Type) : Type 1 where
  | mine (c : Cmd K V Q)
  | look (i : Nat) (c : SharedCmd B Q)
  | shared (i : Nat) (c : SharedCmd B Q)
  /-- the first `k` entries of a sorted iterator -/
  | sorted (a : TreeRef) (q : SortedQuery B K) (k : Nat)
  | join (a b : TreeRef) (f : JoinFilter B B Q Q)
  /-- a left join, with every right-hand iterator run to its end -/
  | leftJoin (a b : TreeRef) (f : JoinFilter B B Q Q)
  /-- `iter_mut`, `filter_iter_mut` on one of its own variables -/
  | update (i : Nat) (f : SpatialFilter B Q) (client : Client V)
  /-- `iter_asc_by_mut`, `filter_iter_asc_by_mut`, `min_by_mut`, `filter_min_by_mut` on one of its own variables, stopped after `k` references -/
  | updateAsc (i : Nat) (q : SortedQuery B K) (k : Nat) (client : Client V)

/-- What a thread gets from a command: a reply, all entries an iterator has yielded, all pairs a join has yielded, all entries a left join has yielded with their matches, or the answers to all uses of the references a mutable
    iterator has yielded. Client code. -/
inductive Answer (K V : Type) where
  | reply (r : Reply V)
  | listed (es : List (K × V))
  | paired (ps : List ((K × V) × (K × V)))
  | matched (ms : List ((K × V) × List (K × V)))
  | used (rs : List (Reply V))

/-- The values an answer moves to the caller. Modelling device: stands for no code of the crate. -/
def Answer.returned {K V : Type} : Answer K V → List V
  | .reply r => r.returned
  | .listed _ => []
  | .paired _ => []
  | .matched _ => []
  | .used rs => rs.flatMap Reply.returned

/-- The tree a reference is to, if there is one: `sh` are the shared variables, `f` the thread's own. Client code. -/
def TreeRef.find {T : Type} (sh f : List (Option T)) : TreeRef → Option T
  | .own i => (f[i]?).join
  | .shared i => (sh[i]?).join

/-- The variables that are moved to `who`; the others are empty. Client code: `move` closures, allowed by fc_vec.rs 37-38. -/
def handedTo {T : Type} (owner : Nat → Option Nat) (who : Option Nat) (f : List (Option T)) : List (Option T) :=
  f.mapIdx fun i o => if owner i = who then o else none

section

variable {B K V Q : Type} [Bounds B] [Volume B] [Bounded K B] [BEq K] [Bounded Q B] [BEq Q]

/-- A `&self` call on values: the variables (a clone goes into a new one), the answer, and the keys and values handed over. Client code. -/
def SharedCmd.spec (borrow : K → Q) (f : List (Option (Tree B K V))) (t : Tree B K V) : SharedCmd B Q →
    Res (List (Option (Tree B K V)) × Answer K V × List K × List V)
  | .get q => do
    let r ← t.get borrow q
    pure (f, .reply (.seen r), [], [])
  | .len => do
    let n ← t.len
    pure (f, .reply (.count n), [], [])
  | .isEmpty => do
    let b ← t.isEmpty
    pure (f, .reply (.flag b), [], [])
  | .clone => do
    let t' ← t.clone
    pure (f ++ [some t'], .reply .none, t.entries.map (·.1), t.entries.map (·.2))
  | .iter => do
    let es ← t.iter
    pure (f, .listed es, [], [])
  | .filterIter flt => do
    let es ← t.filterIter borrow flt
    pure (f, .listed es, [], [])

/-- A command of a thread on values: its variables, the answer, and the keys and values handed over. Client code. -/
def ThreadCmd.spec (borrow : K → Q) (sh f : List (Option (Tree B K V))) : ThreadCmd B K V Q → Res (List (Option (Tree B K V)) × Answer K V × List K × List V)
  | .mine c => do
    let (f, r, ks, vs) ← c.spec borrow f
    pure (f, .reply r, ks, vs)
  | .look i c =>
    match f[i]? with
    | some (some t) => c.spec borrow f t
    | _ => pure (f, .reply .none, [], [])
  | .shared i c =>
    match sh[i]? with
    | some (some t) => c.spec borrow f t
    | _ => pure (f, .reply .none, [], [])
  | .sorted a q k =>
    match a.find sh f with
    | some t => do
      let es ← t.filterFirstAscBy (q.heap.heap _) q.ranking k
      pure (f, .listed es, [], [])
    | none => pure (f, .reply .none, [], [])
  | .join a b flt =>
    match a.find sh f, b.find sh f with
    | some t, some u => do
      let ps ← t.join borrow borrow flt u
      pure (f, .paired ps, [], [])
    | _, _ => pure (f, .reply .none, [], [])
  | .leftJoin a b flt =>
    match a.find sh f, b.find sh f with
    | some t, some u => do
      let ms ← t.leftJoin borrow borrow flt u
      pure (f, .matched ms, [], [])
    | _, _ => pure (f, .reply .none, [], [])
  | .update i flt client => do
    let (f, rs, ks, vs) ← (Act.update i flt client).spec borrow f
    pure (f, .used rs, ks, vs)
  | .updateAsc i q k client => do
    let (f, rs, ks, vs) ← (Act.updateAsc i q k client : Act B K V Q).spec borrow f
    pure (f, .used rs, ks, vs)

/-- A thread on values, alone. Client code. -/
def specThread (borrow : K → Q) (sh : List (Option (Tree B K V))) : List (Option (Tree B K V)) → List (ThreadCmd B K V Q) →
    Res (List (Option (Tree B K V)) × List (Answer K V × List K × List V))
  | f, [] => .ok (f, [])
  | f, c :: cs => do
    let (f, r) ← c.spec borrow sh f
    let (f, rs) ← specThread borrow sh f cs
    pure (f, r :: rs)

end

namespace Raw

/-- What happens at a command of a thread in memory: the answer, and the keys and values dropped by the crate.
    Modelling device: stands for no code of the crate. -/
structure ThreadEvent (K V : Type) where
  answer : Answer K V
  keys : List K
  values : List V

/-- One access of a program to memory; `gap` is the allocator's choice if it is an allocation.  A finished program does nothing.
    Modelling device: stands for no code of the crate. -/
def Prog.step {α β : Type} (gap : Nat) (h : Heap α) : Prog α β → Prog α β × Heap α
  | .done b => (.done b, h)
  | .fail e => (.fail e, h)
  | .look i k =>
    match h[i]? with
    | some (some b) => (k b, h)
    | _ => (.fail .ub, h)
  | .put i x k =>
    match h[i]? with
    | some (some _) => (k, h.set i x)
    | _ => (.fail .ub, h)
  | .make b k => (k ⟨h.length + gap, 0⟩, h ++ List.replicate gap none ++ [some b])

/-- The block a program is about to use, if any. Modelling device: stands for no code of the crate. -/
def Prog.uses {α β : Type} : Prog α β → Option Nat
  | .look i _ => some i
  | .put i _ _ => some i
  | _ => none

/-- The block a program is about to change or free, if any. Modelling device: stands for no code of the crate. -/
def Prog.changes {α β : Type} : Prog α β → Option Nat
  | .put i _ _ => some i
  | _ => none

/-- Whether a program has nothing left to do. Modelling device: stands for no code of the crate. -/
def Prog.finished {α β : Type} : Prog α β → Bool
  | .done _ => true
  | .fail _ => true
  | _ => false

/-- Threads and the memory they share. Modelling device: stands for no code of the crate. -/
structure Pool (α β : Type) where
  heap : Heap α
  threads : List (Prog α β)

namespace Pool

variable {α β : Type}

/-- The scheduler lets thread `m.1` make one access; `m.2` is the allocator's choice.
    Modelling device: stands for no code of the crate. -/
def step (s : Pool α β) (m : Nat × Nat) : Pool α β :=
  match s.threads[m.1]? with
  | some p => ⟨(p.step m.2 s.heap).2, s.threads.set m.1 (p.step m.2 s.heap).1⟩
  | none => s

/-- A schedule. Modelling device: stands for no code of the crate. -/
def run (s : Pool α β) (schedule : List (Nat × Nat)) : Pool α β := schedule.foldl step s

/-- A data race: two threads are about to use the same block, and one of them is about to change or free it.
    Modelling device: stands for no code of the crate. -/
def Race (s : Pool α β) : Prop :=
  ∃ (i j : Nat) (p q : Prog α β) (b : Nat), i ≠ j ∧ s.threads[i]? = some p ∧ s.threads[j]? = some q ∧ p.changes = some b ∧ q.uses = some b

end Pool

namespace Steps

variable {B K V Q : Type} [Bounds B] [Volume B] [Bounded K B] [BEq K] [Bounded Q B] [BEq Q]

/-- `Cmd.raw` of `Verif/Programs.lean`, as single accesses.  lib.rs 377-388: the key given to `insert_unique` is dropped when a value is
    replaced.  node.rs 551: `remove` drops the key it takes out. -/
def cmd (E : TEnv) (borrow : K → Q) (f : List (Option (RTree B))) : Cmd K V Q → Prog (Cell B K V) (List (Option (RTree B)) × Event K V)
  | .new c => do
    let t ← RTree.new E c
    pure (f ++ [some t], ⟨.none, [], []⟩)
  | .insert i k v => withTree f i ⟨.none, [], []⟩ fun t => do
    let t ← RTree.insert E t k v
    pure (f.set i (some t), ⟨.none, [], []⟩)
  | .insertUnique i k v => withTree f i ⟨.none, [], []⟩ fun t => do
    let r ← RTree.insertUnique E t k v
    pure (f.set i (some r.1), ⟨.moved r.2, if r.2.isSome then [k] else [], []⟩)
  | .remove i q => withTree f i ⟨.none, [], []⟩ fun t => do
    let r ← RTree.remove E borrow t q
    pure (f.set i (some r.1), ⟨.moved (r.2.1.map (·.2)), r.2.1.toList.map (·.1) ++ (droppedEntries r.2.2).map (·.1),
      (droppedEntries r.2.2).map (·.2)⟩)
  | .get i q => withTree f i ⟨.none, [], []⟩ fun t => do
    let r ← RTree.get E borrow t q
    pure (f, ⟨.seen r, [], []⟩)
  | .replace i q v => withTree f i ⟨.none, [], []⟩ fun t => do
    let r ← RTree.setValue E borrow t q v
    pure (f, ⟨.moved r, [], []⟩)
  | .len i => withTree f i ⟨.none, [], []⟩ fun t => do
    let n ← RTree.len E t
    pure (f, ⟨.count n, [], []⟩)
  | .isEmpty i => withTree f i ⟨.none, [], []⟩ fun t => pure (f, ⟨.flag t.isEmpty, [], []⟩)
  | .clone i => withTree f i ⟨.none, [], []⟩ fun t => do
    let t' ← RTree.clone E t
    pure (f ++ [some t'], ⟨.none, [], []⟩)
  | .drop i => withTree f i ⟨.none, [], []⟩ fun t => do
    let es ← RTree.drop E t
    pure (f.set i none, ⟨.none, es.map (·.1), es.map (·.2)⟩)

namespace Holding

/-- One use of a reference, as single accesses. Client code. -/
def use (E : TEnv) (s : Holding K V) : RefUse V → Prog (Cell B K V) (Holding K V)
  | .read j =>
    match s.refs[j]? with
    | some r => do
      let e ← readEntry E r.2
      pure { s with replies := s.replies ++ [.seen (some e.2)] }
    | none => pure s
  | .replace j v =>
    match s.refs[j]? with
    | some r => do
      let old ← replaceValue E r.2 v
      pure { s with replies := s.replies ++ [.moved (some old)] }
    | none => pure s

/-- Several uses of references. Client code. -/
def uses (E : TEnv) : List (RefUse V) → Holding K V → Prog (Cell B K V) (Holding K V)
  | [], s => pure s
  | u :: us, s => do
    let s ← use E s u
    uses E us s

/-- The iterator yields a reference, and the client does what it wants to do then. Client code. -/
def yield (E : TEnv) (client : Client V) (s : Holding K V) (r : K × Place) : Prog (Cell B K V) (Holding K V) :=
  uses E (client (s.refs.length + 1)) { s with refs := s.refs ++ [r] }

end Holding

/-- `Act.raw` of `Verif/Updates.lean`, as single accesses. Client code of lib.rs 92-408. -/
def act (E : TEnv) (borrow : K → Q) (f : List (Option (RTree B))) : Act B K V Q → Prog (Cell B K V) (List (Option (RTree B)) × List (Reply V) × List K × List V)
  | .cmd c => do
    let r ← cmd E borrow f c
    pure (r.1, [r.2.reply], r.2.keys, r.2.values)
  | .update i flt client => withTree f i ([], [], []) fun t => do
    let s ← RTree.filterIterMut E borrow flt (Holding.yield E client) t ⟨[], []⟩
    pure (f, s.replies, [], [])
  | .updateAsc i q k client => withTree f i ([], [], []) fun t => do
    let s ← RTree.filterFirstAscByMut E (q.heap.heap _) q.ranking (Holding.yield E client) k t ⟨[], []⟩
    pure (f, s.replies, [], [])

/-- A `&self` call, as single accesses. Client code of lib.rs 87-126, 294-308, 326-334. -/
def sharedCmd (E : TEnv) (borrow : K → Q) (f : List (Option (RTree B))) (t : RTree B) : SharedCmd B Q → Prog (Cell B K V) (List (Option (RTree B)) × ThreadEvent K V)
  | .get q => do
    let r ← RTree.get E borrow t q
    pure (f, ⟨.reply (.seen r), [], []⟩)
  | .len => do
    let n ← RTree.len E t
    pure (f, ⟨.reply (.count n), [], []⟩)
  | .isEmpty => pure (f, ⟨.reply (.flag t.isEmpty), [], []⟩)
  | .clone => do
    let t' ← RTree.clone E t
    pure (f ++ [some t'], ⟨.reply .none, [], []⟩)
  | .iter => do
    let es ← RTree.iter E t
    pure (f, ⟨.listed es, [], []⟩)
  | .filterIter flt => do
    let es ← RTree.filterIter E borrow flt t
    pure (f, ⟨.listed es, [], []⟩)

/-- A command of a thread, as single accesses. Client code. -/
def threadCmd (E : TEnv) (borrow : K → Q) (sh f : List (Option (RTree B))) : ThreadCmd B K V Q → Prog (Cell B K V) (List (Option (RTree B)) × ThreadEvent K V)
  | .mine c => do
    let (f, e) ← cmd E borrow f c
    pure (f, ⟨.reply e.reply, e.keys, e.values⟩)
  | .look i c =>
    match f[i]? with
    | some (some t) => sharedCmd E borrow f t c
    | _ => pure (f, ⟨.reply .none, [], []⟩)
  | .shared i c =>
    match sh[i]? with
    | some (some t) => sharedCmd E borrow f t c
    | _ => pure (f, ⟨.reply .none, [], []⟩)
  | .sorted a q k =>
    match a.find sh f with
    | some t => do
      let es ← RTree.filterFirstAscBy E (q.heap.heap _) q.ranking k t
      pure (f, ⟨.listed es, [], []⟩)
    | none => pure (f, ⟨.reply .none, [], []⟩)
  | .join a b flt =>
    match a.find sh f, b.find sh f with
    | some t, some u => do
      let ps ← RTree.join E borrow flt t u
      pure (f, ⟨.paired ps, [], []⟩)
    | _, _ => pure (f, ⟨.reply .none, [], []⟩)
  | .leftJoin a b flt =>
    match a.find sh f, b.find sh f with
    | some t, some u => do
      let ms ← RTree.leftJoin E borrow flt t u
      pure (f, ⟨.matched ms, [], []⟩)
    | _, _ => pure (f, ⟨.reply .none, [], []⟩)
  | .update i flt client => do
    let (f, rs, ks, vs) ← act E borrow f (.update i flt client)
    pure (f, ⟨.used rs, ks, vs⟩)
  | .updateAsc i q k client => do
    let (f, rs, ks, vs) ← act (Q := Q) E borrow f (.updateAsc i q k client)
    pure (f, ⟨.used rs, ks, vs⟩)

/-- A thread, as single accesses. Client code. -/
def thread (E : TEnv) (borrow : K → Q) (sh : List (Option (RTree B))) : List (Option (RTree B)) → List (ThreadCmd B K V Q) →
    Prog (Cell B K V) (List (Option (RTree B)) × List (ThreadEvent K V))
  | f, [] => pure (f, [])
  | f, c :: cs => do
    let (f, e) ← threadCmd E borrow sh f c
    let (f, es) ← thread E borrow sh f cs
    pure (f, e :: es)

/-- The threads of a program: the variables `f` are handed out as `owner` says. Client code: `thread::scope` and `move` closures. -/
def start (E : TEnv) (borrow : K → Q) (owner : Nat → Option Nat) (f : List (Option (RTree B))) (code : List (List (ThreadCmd B K V Q))) :
    List (Prog (Cell B K V) (List (Option (RTree B)) × List (ThreadEvent K V))) :=
  code.mapIdx fun j cs => thread E borrow (handedTo owner none f) (handedTo owner (some j) f) cs

end Steps

end Raw

end RTree
