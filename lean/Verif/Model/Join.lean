import Verif.Model.Iter
/-!
# Joins (join.rs)
-/

namespace RTree

/-- join.rs 10-13 (`RewindableIter`). -/
structure CyclicIter (α : Type) where
  slice : List α
  i : Nat

namespace CyclicIter

variable {α : Type}

/-- join.rs 16-18 (`new`). -/
def new (slice : List α) : CyclicIter α := ⟨slice, 0⟩

/-- join.rs 20-26 (`get`). -/
def get (it : CyclicIter α) : Option α :=
  if h : it.i < it.slice.length then some it.slice[it.i] else none

/-- join.rs 28-36 (`advance`). -/
def advance (it : CyclicIter α) : CyclicIter α × Bool :=
  if it.i + 1 ≥ it.slice.length then (⟨it.slice, 0⟩, true) else (⟨it.slice, it.i + 1⟩, false)

end CyclicIter

/-- join.rs 39 (`ProductIter`). -/
structure ProductIter (α β : Type) where
  fst : CyclicIter α
  snd : List β

namespace ProductIter

variable {α β : Type}

/-- join.rs 42-44 (`new`). -/
def new (slice0 : List α) (slice1 : List β) : ProductIter α β := ⟨.new slice0, slice1⟩

/-- join.rs 50-60 (`next`). -/
def next (it : ProductIter α β) : Option (α × β) × ProductIter α β :=
  match it.fst.get with
  | some item0 =>
    match it.snd with
    | item1 :: rest =>
      let (fst, wrapped) := it.fst.advance
      (some (item0, item1), ⟨fst, if wrapped then rest else item1 :: rest⟩)
    | [] => (none, it)
  | none => (none, it)

/-- `Iterator::find`: calls `next` until the predicate holds (at most `n` times). join.rs 180-181, 196-199. -/
def findLoop (p : α × β → Bool) : Nat → ProductIter α β → Res (Option (α × β) × ProductIter α β)
  | 0, _ => .error .diverge
  | n + 1, it =>
    match it.next with
    | (some x, it) => if p x then .ok (some x, it) else findLoop p n it
    | (none, it) => .ok (none, it)

/-- `Iterator::find`. join.rs 180-181, 196-199. -/
def find (p : α × β → Bool) (it : ProductIter α β) : Res (Option (α × β) × ProductIter α β) :=
  findLoop p (it.fst.slice.length * it.snd.length + 1) it

end ProductIter

variable {B0 B1 K0 K1 V0 V1 Q0 Q1 : Type}

/-- join.rs 63-66 (`JoinIterStack`). -/
abbrev JoinIterStack (B0 B1 K0 K1 V0 V1 : Type) :=
  IterStack (ProductIter (K0 × V0) (K1 × V1)) (ProductIter (Node B0 K0 V0) (Node B1 K1 V1))

/-- join.rs 73-83 (`JoinIter`, without the filter). -/
structure JoinIter (B0 B1 K0 K1 V0 V1 : Type) where
  stack : JoinIterStack B0 B1 K0 K1 V0 V1
  padding0 : Nat
  padding1 : Nat

namespace JoinIter

/-- join.rs 112-119: the slice of nodes a node contributes to a product; node.rs 992-1006 (`children`). -/
def slice {B K V : Type} (node : Node B K V) (level : Nat) : Res (List (Node B K V)) :=
  match level with
  | _ + 1 => node.innerChildren
  | 0 => do
    let _ ← node.leafChildren
    pure [node]

/-- join.rs 99-123 (`start_join`). -/
def startJoin (s : JoinIterStack B0 B1 K0 K1 V0 V1) (node0 : Node B0 K0 V0) (level0 : Nat) (node1 : Node B1 K1 V1)
    (level1 : Nat) : Res (JoinIterStack B0 B1 K0 K1 V0 V1) :=
  match max level0 level1 with
  | 0 => do
    let vec0 ← node0.leafChildren
    let vec1 ← node1.leafChildren
    s.setLeaf (.new vec0 vec1)
  | height + 1 => do
    let slice0 ← slice node0 level0
    let slice1 ← slice node1 level1
    s.setInner height (.new slice0 slice1)

/-- join.rs 125-154 (`JoinIter::new`). -/
def new (f : JoinFilter B0 B1 Q0 Q1) (root0 : Node B0 K0 V0) (level0 : Nat) (root1 : Node B1 K1 V1) (level1 : Nat) :
    Res (JoinIter B0 B1 K0 K1 V0 V1) :=
  if !f.testBounds root0.bounds root1.bounds then .ok ⟨IterStack.emptyBox, 0, 0⟩
  else do
    let height := max level0 level1
    let stack := IterStack.newBox (.new [] []) (List.replicate height (.new [] []))
    let stack ← startJoin stack root0 level0 root1 level1
    pure ⟨stack, height - level0, height - level1⟩

/-- join.rs 168-207 (`next`): the loop at `level`, with fuel; `p0`, `p1` are the paddings. -/
def nextLoop (borrow0 : K0 → Q0) (borrow1 : K1 → Q1) (f : JoinFilter B0 B1 Q0 Q1) (p0 p1 : Nat) :
    Nat → Nat → JoinIterStack B0 B1 K0 K1 V0 V1 →
      Res (Option ((K0 × V0) × (K1 × V1)) × JoinIterStack B0 B1 K0 K1 V0 V1)
  | fuel, level, s =>
    if level < s.length then
      match fuel with
      | 0 => .error .diverge
      | fuel + 1 =>
        match level with
        | l + 1 => do
          let it ← s.getInner l
          let (found, it) ← it.find fun x => f.testBounds x.1.bounds x.2.bounds
          let s ← s.setInner l it
          match found with
          | some (node0, node1) => do
            let s ← startJoin s node0 (l - p0) node1 (l - p1)
            nextLoop borrow0 borrow1 f p0 p1 fuel l s
          | none => nextLoop borrow0 borrow1 f p0 p1 fuel (l + 2) s
        | 0 => do
          let it ← s.getLeaf
          let (found, it) ← it.find fun x => f.testKey (borrow0 x.1.1) (borrow1 x.2.1)
          let s ← s.setLeaf it
          match found with
          | some e => pure (some e, s)
          | none => nextLoop borrow0 borrow1 f p0 p1 fuel 1 s
    else .ok (none, s)

/-- Calling `next` until it returns `None` (at most `n` times).
    Client code: join.rs 168-207 (`Iterator::next`) called repeatedly. -/
def collectLoop (borrow0 : K0 → Q0) (borrow1 : K1 → Q1) (f : JoinFilter B0 B1 Q0 Q1) (p0 p1 fuel : Nat) :
    Nat → JoinIterStack B0 B1 K0 K1 V0 V1 → Res (List ((K0 × V0) × (K1 × V1)))
  | 0, _ => .error .diverge
  | n + 1, s => do
    match ← nextLoop borrow0 borrow1 f p0 p1 fuel 0 s with
    | (some e, s) => do pure (e :: (← collectLoop borrow0 borrow1 f p0 p1 fuel n s))
    | (none, _) => pure []

end JoinIter

/-- The children of a node as seen by a join: a leaf node stands for itself.
    join.rs 112-119; used to state the invariants. -/
def Node.kids {B K V : Type} : Node B K V → List (Node B K V)
  | .inner _ cs => cs
  | .leaf b es => [.leaf b es]

/-- All pairs, in the order of `ProductIter`: the first component varies fastest.
    Modelling device: stands for no code of the crate. -/
def pairs {α β : Type} (as : List α) (bs : List β) : List (α × β) := bs.flatMap fun b => as.map fun a => (a, b)

/-- Number of pairs a join can visit below a pair of nodes; only used to bound loops.
    Modelling device: a bound that makes loops structurally recursive; stands for no code. -/
def joinWeight : Nat → Node B0 K0 V0 → Node B1 K1 V1 → Nat
  | 0, .leaf _ es, .leaf _ fs => 1 + es.length * fs.length
  | 0, _, _ => 1
  | l + 1, n0, n1 => 1 + ((pairs n0.kids n1.kids).map fun x => joinWeight l x.1 x.2).sum

/-- lib.rs 262-276 (`RTree::join`): everything yielded. -/
def Tree.join (borrow0 : K0 → Q0) (borrow1 : K1 → Q1) (f : JoinFilter B0 B1 Q0 Q1) (t0 : Tree B0 K0 V0)
    (t1 : Tree B1 K1 V1) : Res (List ((K0 × V0) × (K1 × V1))) := do
  let it ← JoinIter.new f t0.root t0.level t1.root t1.level
  let height := max t0.level t1.level
  let weight := joinWeight height t0.root t1.root
  JoinIter.collectLoop borrow0 borrow1 f it.padding0 it.padding1 ((weight + 1) * (height + 2)) (weight + 1) it.stack

end RTree
