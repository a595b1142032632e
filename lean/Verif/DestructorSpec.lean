import Verif.Model.Destructors
import Verif.Spec
/-!
# What dropping does when destructors panic

Specification of sessions with panicking destructors on values.
-/

namespace RTree

variable {B K V Q : Type}

/-- The destructors of these pairs, in order: of the key, then of the value. -/
def destructors (es : List (K × V)) : List (K ⊕ V) := es.flatMap fun e => [.inl e.1, .inr e.2]

/-- Dropping pairs in order until a destructor panics, the destructors being numbered from `n` on: the pairs dropped, how it ends, and the pairs
    that are not dropped.  If the destructor of a key panics the value is dropped as well, and a second panic aborts. -/
def dropPairs (bomb : Nat → Bool) : Nat → List (K × V) → List (K × V) × Ending × List (K × V)
  | _, [] => ([], .finished, [])
  | n, e :: es =>
    if bomb n && bomb (n + 1) then ([e], .aborted, es)
    else if bomb n || bomb (n + 1) then ([e], .panicked, es)
    else
      let r := dropPairs bomb (n + 2) es
      (e :: r.1, r.2)

/-- The order in which entries are dropped: leaf by leaf, in each leaf from the last to the first. -/
def Node.dropOrder (n : Node B K V) : List (K × V) := n.leaves.flatMap List.reverse

mutual
/-- When the nodes below a node, and the node itself, are freed: the number of entries dropped before, counted from `o` on. A node is freed when
    everything below it has been dropped. -/
def Node.closings (o : Nat) : Node B K V → List Nat
  | .leaf _ es => [o + es.length]
  | .inner _ cs => closingsList o cs ++ [o + (leavesList cs).flatten.length]
/-- `Node.closings` for nodes that are dropped one after the other. -/
def closingsList (o : Nat) : List (Node B K V) → List Nat
  | [] => []
  | c :: cs => c.closings o ++ closingsList (o + c.leaves.flatten.length) cs
end

/-- The number of nodes that are not freed if dropping ends with `k` entries having been dropped without a panic. -/
def Node.kept (n : Node B K V) (k : Nat) : Nat := ((n.closings 0).filter (k < ·)).length

/-- What is seen of a command: the reply and what was handed over, or the pairs dropped, how it ended, the pairs lost, and the number of nodes
    that are not freed. -/
inductive DOut (K V : Type) where
  | out (r : Reply V × List K × List V)
  | dropped (es : List (K × V)) (e : Ending) (lost : List (K × V)) (kept : Nat)

section

variable [Bounds B] [Volume B] [Bounded K B] [BEq K] [Bounded Q B] [BEq Q]

/-- A session on values. -/
def specSession (borrow : K → Q) : List (Option (Tree B K V)) → List (DCmd K V Q) → Res (List (Option (Tree B K V)) × List (DOut K V))
  | f, [] => .ok (f, [])
  | f, .cmd c :: cs => do
    let (f, r) ← c.spec borrow f
    let (f, rs) ← specSession borrow f cs
    pure (f, .out r :: rs)
  | f, .drop i bomb :: cs =>
    match f[i]? with
    | some (some t) =>
      match dropPairs bomb 0 t.root.dropOrder with
      | (es, .finished, lost) => do
        let (f, rs) ← specSession borrow (f.set i none) cs
        pure (f, .dropped es .finished lost (t.root.kept es.length) :: rs)
      | (es, .panicked, lost) => do
        let (f, rs) ← specSession borrow (f.set i none) cs
        pure (f, .dropped es .panicked lost (t.root.kept (es.length - 1)) :: rs)
      | (es, .aborted, lost) => .ok (f.set i none, [.dropped es .aborted lost (t.root.kept (es.length - 1))])
    | _ => do
      let (f, rs) ← specSession borrow f cs
      pure (f, .dropped [] .finished [] 0 :: rs)

end

/-- The reply, or the destructors run and how dropping ended. -/
def DEvent.shown : DEvent K V → Reply V ⊕ (List (K ⊕ V) × Ending)
  | .event e => .inl e.reply
  | .dropped log e => .inr (log, e)

/-- The reply, or the destructors run and how dropping ended. -/
def DOut.shown : DOut K V → Reply V ⊕ (List (K ⊕ V) × Ending)
  | .out r => .inl r.1
  | .dropped es e _ _ => .inr (destructors es, e)

/-- The keys handed over. -/
def DOut.keys : DOut K V → List K
  | .out r => r.2.1
  | .dropped _ _ _ _ => []

/-- The values handed over. -/
def DOut.values : DOut K V → List V
  | .out r => r.2.2
  | .dropped _ _ _ _ => []

/-- The pairs that are never dropped because of a panic. -/
def DOut.lost : DOut K V → List (K × V)
  | .out _ => []
  | .dropped _ _ lost _ => lost

/-- The number of blocks that are never freed because of a panic. -/
def DOut.kept : DOut K V → Nat
  | .out _ => 0
  | .dropped _ _ _ n => n

/-- The keys dropped. -/
def DEvent.keys : DEvent K V → List K
  | .event e => e.keys
  | .dropped log _ => log.filterMap Sum.getLeft?

/-- The values dropped or returned. -/
def DEvent.values : DEvent K V → List V
  | .event e => e.reply.returned ++ e.values
  | .dropped log _ => log.filterMap Sum.getRight?

end RTree
