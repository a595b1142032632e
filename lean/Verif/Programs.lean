import Verif.Model.RawTree
import Verif.History
/-!
# Programs that use several trees

A program is a list of commands on numbered variables, each holding a tree or nothing (a tree that was dropped).  It is run twice:
in raw memory (`Cmd.raw`), where the commands report what they drop, and on values (`Cmd.spec`), where the commands report which
entries the caller hands over.  Both report what the caller gets back.
-/

namespace RTree

/-- A command.  `new` and `clone` put the tree they make into the next unused variable.  A command on a variable that holds no tree
    does nothing (a Rust compiler rejects such a program). Client code of lib.rs 92-408. -/
inductive Cmd (K V Q : Type) where
  | new (c : Config)
  | insert (i : Nat) (k : K) (v : V)
  | insertUnique (i : Nat) (k : K) (v : V)
  | remove (i : Nat) (q : Q)
  | get (i : Nat) (q : Q)
  /-- `tree.get_mut(q).map(|x| mem::replace(x, v))` -/
  | replace (i : Nat) (q : Q) (v : V)
  | len (i : Nat)
  | isEmpty (i : Nat)
  | clone (i : Nat)
  /-- the variable goes out of scope -/
  | drop (i : Nat)

/-- What the caller gets from a command. Client code. -/
inductive Reply (V : Type) where
  | none
  /-- a value the caller now owns, if any -/
  | moved (o : Option V)
  /-- a value the caller has a shared reference to, if any -/
  | seen (o : Option V)
  | count (n : Nat)
  | flag (b : Bool)

/-- The values a reply moves to the caller. Modelling device: stands for no code of the crate. -/
def Reply.returned {V : Type} : Reply V → List V
  | .moved o => o.toList
  | _ => []

variable {B K V Q : Type}

/-- Applies `g` to the tree in variable `i`; if there is none the reply is `d`.
    Modelling device: stands for no code of the crate. -/
def withTree {m : Type → Type} [Monad m] {T R : Type} (f : List (Option T)) (i : Nat) (d : R)
    (g : T → m (List (Option T) × R)) : m (List (Option T) × R) :=
  match f[i]? with
  | some (some t) => g t
  | _ => pure (f, d)

section

variable [Bounds B] [Volume B] [Bounded K B] [BEq K] [Bounded Q B] [BEq Q]

/-- A command on values: the variables, the reply, and the keys and values handed over by the caller (`clone` hands over
    clones of everything). Client code of lib.rs 92-408. -/
def Cmd.spec (borrow : K → Q) (f : List (Option (Tree B K V))) : Cmd K V Q → Res (List (Option (Tree B K V)) × Reply V × List K × List V)
  | .new c => .ok (f ++ [some (Tree.new c)], .none, [], [])
  | .insert i k v => withTree f i (.none, [], []) fun t => do
    let t ← t.insert k v
    pure (f.set i (some t), .none, [k], [v])
  | .insertUnique i k v => withTree f i (.none, [], []) fun t => do
    let r ← t.insertUnique k v
    pure (f.set i (some r.1), .moved r.2, [k], [v])
  | .remove i q => withTree f i (.none, [], []) fun t => do
    let r ← t.remove borrow q
    pure (f.set i (some r.1), .moved r.2, [], [])
  | .get i q => withTree f i (.none, [], []) fun t => do
    let r ← t.get borrow q
    pure (f, .seen r, [], [])
  | .replace i q v => withTree f i (.none, [], []) fun t => do
    match ← t.getMut borrow q with
    | some (old, back) => pure (f.set i (some (back v)), .moved (some old), [], [v])
    | none => pure (f, .moved none, [], [])
  | .len i => withTree f i (.none, [], []) fun t => do
    let n ← t.len
    pure (f, .count n, [], [])
  | .isEmpty i => withTree f i (.none, [], []) fun t => do
    let b ← t.isEmpty
    pure (f, .flag b, [], [])
  | .clone i => withTree f i (.none, [], []) fun t => do
    let t' ← t.clone
    pure (f ++ [some t'], .none, t.entries.map (·.1), t.entries.map (·.2))
  | .drop i => withTree f i (.none, [], []) fun _ => pure (f.set i none, .none, [], [])

/-- A program on values. Client code. -/
def specProgram (borrow : K → Q) : List (Option (Tree B K V)) → List (Cmd K V Q) →
    Res (List (Option (Tree B K V)) × List (Reply V × List K × List V))
  | f, [] => .ok (f, [])
  | f, c :: cs => do
    let (f, r) ← c.spec borrow f
    let (f, rs) ← specProgram borrow f cs
    pure (f, r :: rs)

/-- What is left in the variables. Modelling device: stands for no code of the crate. -/
def remaining (f : List (Option (Tree B K V))) : List (K × V) := f.flatMap fun o => o.elim [] Tree.entries

/-- The nodes of the trees in the variables. Modelling device: stands for no code of the crate. -/
def remainingNodes (f : List (Option (Tree B K V))) : List (Node B K V) := f.flatMap fun o => o.elim [] Tree.nodes

end

namespace Raw

/-- What happens at a command in memory: the reply, and the keys and values dropped by the crate.
    Modelling device: stands for no code of the crate. -/
structure Event (K V : Type) where
  reply : Reply V
  keys : List K
  values : List V

/-- The entries among dropped elements; the elements of inner nodes own nothing by themselves.
    Modelling device: stands for no code of the crate. -/
def droppedEntries (cs : List (Cell B K V)) : List (K × V) :=
  cs.filterMap fun c => match c with
    | .entry e => some e
    | .node _ => none

variable [Bounds B] [Volume B] [Bounded K B] [BEq K] [Bounded Q B] [BEq Q]

/-- A command in memory.  lib.rs 377-388: the key given to `insert_unique` is dropped when a value is replaced (it is not stored:
    node.rs 439-513 takes it by value).  node.rs 551: `remove` drops the key it takes out. -/
def Cmd.raw (E : TEnv) (borrow : K → Q) (f : List (Option (RTree B))) : Cmd K V Q → TM B K V (List (Option (RTree B)) × Event K V)
  | .new c => do
    let t ← RTree.new E c
    pure (f ++ [some t], ⟨.none, [], []⟩)
  | .insert i k v => withTree f i ⟨.none, [], []⟩ fun t => do
    let t ← t.insert E k v
    pure (f.set i (some t), ⟨.none, [], []⟩)
  | .insertUnique i k v => withTree f i ⟨.none, [], []⟩ fun t => do
    let r ← t.insertUnique E k v
    pure (f.set i (some r.1), ⟨.moved r.2, if r.2.isSome then [k] else [], []⟩)
  | .remove i q => withTree f i ⟨.none, [], []⟩ fun t => do
    let r ← t.remove E borrow q
    pure (f.set i (some r.1), ⟨.moved (r.2.1.map (·.2)), r.2.1.toList.map (·.1) ++ (droppedEntries r.2.2).map (·.1),
      (droppedEntries r.2.2).map (·.2)⟩)
  | .get i q => withTree f i ⟨.none, [], []⟩ fun t => do
    let r ← t.get E borrow q
    pure (f, ⟨.seen r, [], []⟩)
  | .replace i q v => withTree f i ⟨.none, [], []⟩ fun t => do
    let r ← t.setValue E borrow q v
    pure (f, ⟨.moved r, [], []⟩)
  | .len i => withTree f i ⟨.none, [], []⟩ fun t => do
    let n ← t.len E
    pure (f, ⟨.count n, [], []⟩)
  | .isEmpty i => withTree f i ⟨.none, [], []⟩ fun t => pure (f, ⟨.flag t.isEmpty, [], []⟩)
  | .clone i => withTree f i ⟨.none, [], []⟩ fun t => do
    let t' ← t.clone E
    pure (f ++ [some t'], ⟨.none, [], []⟩)
  | .drop i => withTree f i ⟨.none, [], []⟩ fun t => do
    let es ← t.drop E
    pure (f.set i none, ⟨.none, es.map (·.1), es.map (·.2)⟩)

/-- A program in memory. Client code. -/
def program (E : TEnv) (borrow : K → Q) : List (Option (RTree B)) → List (Cmd K V Q) →
    TM B K V (List (Option (RTree B)) × List (Event K V))
  | f, [] => pure (f, [])
  | f, c :: cs => do
    let (f, e) ← Cmd.raw E borrow f c
    let (f, es) ← program E borrow f cs
    pure (f, e :: es)

/-- The number of blocks not freed yet. Modelling device: stands for no code of the crate. -/
def liveBlocks {α : Type} (h : Heap α) : Nat := (h.filter Option.isSome).length

end Raw

end RTree
