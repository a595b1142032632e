import Verif.CallsSpec
import Verif.Model.Join
/-!
# Which questions iterators ask their filters, in which order

A query has a plan: a forest of questions. A question about an entry yields the entry if the filter accepts it; the questions below a question about a
node are asked if the filter accepts the node.
-/

namespace RTree.Calls

/-- A question to the filter, and what follows if it is accepted. -/
inductive Plan (F E : Type) where
  | entry (test : F → Bool) (e : E)
  | node (test : F → Bool) (below : List (Plan F E))

variable {F E : Type}

mutual
/-- Ask a question and what follows from it, if the next call of user code has number `n`: what happens, each with the number of the call by which it
    happens (an entry is yielded, or the filter panics), and the number of the next call afterwards. -/
def Plan.account (code : Nat → Option F) : Plan F E → Nat → List (Nat × Except Stop E) × Nat
  | .entry test e, n =>
    match code n with
    | none => ([(n, .error .user)], n + 1)
    | some f => if test f then ([(n, .ok e)], n + 1) else ([], n + 1)
  | .node test below, n =>
    match code n with
    | none => ([(n, .error .user)], n + 1)
    | some f => if test f then account code below (n + 1) else ([], n + 1)
/-- Ask some questions one after the other. -/
def account (code : Nat → Option F) : List (Plan F E) → Nat → List (Nat × Except Stop E) × Nat
  | [], n => ([], n)
  | p :: ps, n => ((p.account code n).1 ++ (account code ps (p.account code n).2).1, (account code ps (p.account code n).2).2)
end

mutual
/-- The questions of a plan that are asked, if the filter always answers the same. -/
def Plan.tests (f : F) : Plan F E → Nat
  | .entry _ _ => 1
  | .node test below => 1 + if test f then tests f below else 0
/-- The questions of some plans that are asked, if the filter always answers the same. -/
def tests (f : F) : List (Plan F E) → Nat
  | [] => 0
  | p :: ps => p.tests f + tests f ps
end

variable {B K V Q : Type}

mutual
/-- The plan of an unordered iteration over a node: the children from left to right. -/
def _root_.RTree.Node.plan (borrow : K → Q) : Node B K V → List (Plan (SpatialFilter B Q) (K × V))
  | .leaf _ es => es.map fun e => .entry (fun f => f.testKey (borrow e.1)) e
  | .inner _ cs => planList borrow cs
/-- The plan of an unordered iteration over some nodes. -/
def planList (borrow : K → Q) : List (Node B K V) → List (Plan (SpatialFilter B Q) (K × V))
  | [] => []
  | c :: cs => .node (fun f => f.testBounds c.bounds) (c.plan borrow) :: planList borrow cs
end

/-- What a join descends to from a node: the children of an inner node; a leaf node (of the lower tree) itself. -/
def descend : Node B K V → List (Node B K V)
  | .leaf b es => [.leaf b es]
  | .inner _ cs => cs

variable {B0 B1 K0 K1 V0 V1 Q0 Q1 : Type}

/-- The plan of a join of two nodes: the pairs of children, for each child of the second one all children of the first one; while one of the trees is higher, its
    nodes are paired with the leaves of the other one. -/
def joinPlan (borrow0 : K0 → Q0) (borrow1 : K1 → Q1) : Nat → Node B0 K0 V0 → Node B1 K1 V1 →
    List (Plan (JoinFilter B0 B1 Q0 Q1) ((K0 × V0) × (K1 × V1)))
  | 0, n0, n1 => n1.entries.flatMap fun e1 => n0.entries.map fun e0 =>
      .entry (fun f => f.testKey (borrow0 e0.1) (borrow1 e1.1)) (e0, e1)
  | l + 1, n0, n1 => (descend n1).flatMap fun c1 => (descend n0).map fun c0 =>
      .node (fun f => f.testBounds c0.bounds c1.bounds) (joinPlan borrow0 borrow1 l c0 c1)

/-- The result of a call of `next` from what happens. -/
def outcome : Except Stop E → Except Stop (Option E)
  | .ok e => .ok (some e)
  | .error s => .error s

/-- What `k` calls of `next` return if this happens, and the number of the next call of user code after them, if it was `n` before: a call of `next` asks
    no further than to the next thing that happens. -/
def played : Nat → Nat → List (Nat × Except Stop E) × Nat → List (Except Stop (Option E)) × Nat
  | 0, n, _ => ([], n)
  | k + 1, _, ([], m) => let r := played k m ([], m); (.ok none :: r.1, r.2)
  | k + 1, _, ((m, o) :: rest, last) => let r := played k (m + 1) (rest, last); (outcome o :: r.1, r.2)

end RTree.Calls
