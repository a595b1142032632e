import Verif.Model.Tree
/-!
# Specification vocabulary

What a tree contains, and the contracts the documentation attaches to the user-implementable traits.
Nothing here refers to how the operations work.
-/

namespace RTree

variable {B K V Q : Type}

mutual
/-- The entries below a node, in left-to-right order. -/
def Node.entries : Node B K V → List (K × V)
  | .leaf _ es => es
  | .inner _ cs => entriesList cs
/-- The entries below a list of nodes, in left-to-right order. -/
def entriesList : List (Node B K V) → List (K × V)
  | [] => []
  | c :: cs => c.entries ++ entriesList cs
end

/-- The entries of a tree, in left-to-right order. -/
def Tree.entries (t : Tree B K V) : List (K × V) := t.root.entries

mutual
/-- The entry lists of the leaf nodes below a node, from left to right. -/
def Node.leaves : Node B K V → List (List (K × V))
  | .leaf _ es => [es]
  | .inner _ cs => leavesList cs
/-- The entry lists of the leaf nodes below a list of nodes, from left to right. -/
def leavesList : List (Node B K V) → List (List (K × V))
  | [] => []
  | c :: cs => c.leaves ++ leavesList cs
end

/-- The number of children of a node (child nodes or entries). -/
def Node.fanout : Node B K V → Nat
  | .leaf _ es => es.length
  | .inner _ cs => cs.length

/-- The bounds of the children of a node. -/
def Node.childBounds [Bounded K B] : Node B K V → List B
  | .leaf _ es => es.map fun e => Bounded.bounds e.1
  | .inner _ cs => cs.map Node.bounds

mutual
/-- All nodes strictly below a node. -/
def Node.descendants : Node B K V → List (Node B K V)
  | .leaf _ _ => []
  | .inner _ cs => descendantsList cs
/-- All nodes below and including the given ones. -/
def descendantsList : List (Node B K V) → List (Node B K V)
  | [] => []
  | c :: cs => c :: (c.descendants ++ descendantsList cs)
end

mutual
/-- Nodes of the same form with the same entries in each leaf, whatever their bounds. -/
def Node.SameForm : Node B K V → Node B K V → Prop
  | .leaf _ es, .leaf _ es' => es = es'
  | .inner _ cs, .inner _ cs' => sameFormList cs cs'
  | _, _ => False
/-- Pairwise `Node.SameForm`. -/
def sameFormList : List (Node B K V) → List (Node B K V) → Prop
  | [], [] => True
  | c :: cs, c' :: cs' => c.SameForm c' ∧ sameFormList cs cs'
  | _, _ => False
end

/-- All nodes of a tree. -/
def Tree.nodes (t : Tree B K V) : List (Node B K V) := t.root :: t.root.descendants

/-- Every path from the node down ends in a leaf node after exactly the given number of steps. -/
def Shape : Nat → Node B K V → Prop
  | 0, .leaf _ _ => True
  | l + 1, .inner _ cs => ∀ c ∈ cs, Shape l c
  | _, _ => False

/-- The contract of `Bounds` (bounds.rs 13-33): `le c b` reads "`b` contains `c`" in the user's sense;
    unions contain their parts. -/
class Enclosure (B : Type) [Bounds B] where
  le : B → B → Prop
  le_refl : ∀ b, le b b
  le_trans : ∀ {a b c}, le a b → le b c → le a c
  le_union_left : ∀ a b, le a (Bounds.union a b)
  le_union_right : ∀ a b, le b (Bounds.union a b)
  le_unionAll : ∀ {b} {bs : List B}, b ∈ bs → le b (Bounds.unionAll bs)

/-- The contract of `Contains`/`Intersects` between bounds (contains.rs, intersects.rs): bounds containing a
    `valid` (for boxes: non-inverted) bounds answer true. -/
class LawfulBounds (B : Type) [Bounds B] extends Enclosure B where
  valid : B → Prop
  contains_of_le : ∀ {b c}, valid c → le c b → Bounds.contains b c = true
  intersects_of_le : ∀ {b c}, valid c → le c b → Bounds.intersects b c = true

/-- Bounds whose union is exact: an associative, commutative and idempotent operation, with `union_all` its iteration
    from `empty`. (`empty` need not be an identity: for boxes of floats it is not, for keys at infinity.) -/
class ExactBounds (B : Type) [Bounds B] : Prop where
  union_assoc : ∀ a b c : B, Bounds.union (Bounds.union a b) c = Bounds.union a (Bounds.union b c)
  union_comm : ∀ a b : B, Bounds.union a b = Bounds.union b a
  union_self : ∀ a : B, Bounds.union a a = a
  unionAll_eq : ∀ bs : List B, Bounds.unionAll bs = bs.foldl Bounds.union Bounds.empty

/-- Bounds for which `empty` is an identity of the union. -/
def Normal [Bounds B] (b : B) : Prop := Bounds.union Bounds.empty b = b

/-- Iterated union of a non-empty list of bounds, from the left. -/
def unionFold [Bounds B] : List B → B
  | [] => Bounds.empty
  | b :: bs => bs.foldl Bounds.union b

/-- By how much the volume of `b` grows if it is enlarged to contain `x`; `none` is an arithmetic panic. -/
def enlargement [Bounds B] [Volume B] (b x : B) : Option (Volume.Vol B) := do
  let u ← Volume.volume (Bounds.union b x)
  let v ← Volume.volume b
  Volume.sub u v

/-- Bounds for which the volume arithmetic never panics: a property `volOk`, closed under union, on which
    volumes and their differences are defined. -/
class VolumeLaws (B : Type) [Bounds B] [Volume B] where
  volOk : B → Prop
  union : ∀ {a b}, volOk a → volOk b → volOk (Bounds.union a b)
  unionAll : ∀ {bs : List B}, bs ≠ [] → (∀ b ∈ bs, volOk b) → volOk (Bounds.unionAll bs)
  volume : ∀ {b}, volOk b → ∃ v, Volume.volume b = some v
  sub : ∀ {a b u v}, volOk a → volOk b → Volume.volume a = some u → Volume.volume b = some v →
    ∃ d, Volume.sub (B := B) u v = some d

/-- The contract of `Eq` and `Bounded` for lookup keys: `==` is an equivalence and equal keys have equal
    bounds. -/
class LawfulKey (Q : Type) (B : outParam Type) [Bounded Q B] [BEq Q] : Prop extends EquivBEq Q where
  bounds_eq : ∀ {a b : Q}, (a == b) = true → Bounded.bounds a = Bounded.bounds b

/-- The contract of `Borrow` documented at lib.rs 294-296: `Bounded` is equivalent for owned and borrowed
    keys. -/
def LawfulBorrow [Bounded K B] [Bounded Q B] (borrow : K → Q) : Prop :=
  ∀ k, Bounded.bounds (borrow k) = Bounded.bounds k

/-- The contract of `SpatialFilter` (filter.rs 6-27): a bounds test must accept every bounds enclosing a key that
    passes the key test. -/
def SpatialFilter.Honours [Bounds B] [Enclosure B] [Bounded K B] (borrow : K → Q) (f : SpatialFilter B Q) : Prop :=
  ∀ (k : K) (b : B), f.testKey (borrow k) = true → Enclosure.le (Bounded.bounds k) b → f.testBounds b = true

/-- The contract of `JoinFilter` (filter.rs 176-198), for left keys satisfying `P0` and right keys satisfying `P1`: a bounds
    test must accept every pair of bounds enclosing a pair of keys that passes the key test. -/
def JoinFilter.Honours {B0 B1 K0 K1 Q0 Q1 : Type} [Bounds B0] [Enclosure B0] [Bounded K0 B0] [Bounds B1] [Enclosure B1]
    [Bounded K1 B1] (P0 : K0 → Prop) (P1 : K1 → Prop) (borrow0 : K0 → Q0) (borrow1 : K1 → Q1)
    (f : JoinFilter B0 B1 Q0 Q1) : Prop :=
  ∀ (k0 : K0) (k1 : K1) (b0 : B0) (b1 : B1), P0 k0 → P1 k1 → f.testKey (borrow0 k0) (borrow1 k1) = true →
    Enclosure.le (Bounded.bounds k0) b0 → Enclosure.le (Bounded.bounds k1) b1 → f.testBounds b0 b1 = true

/-- `r` consists of the elements of `es` satisfying `p`, in the same order and each as often. -/
def Selects {α : Type} (p : α → Prop) (es r : List α) : Prop :=
  ∃ f : α → Bool, (∀ e ∈ es, f e = true ↔ p e) ∧ r = es.filter f

/-- The configurations for which the crate's operations are safe from panics. -/
def Config.Safe (c : Config) : Prop := 2 ≤ c.minChildren ∧ 2 ≤ c.maxChildren

/-- The configurations for which nodes cannot become too small:
    `2 ≤ min_children` and `2 * min_children ≤ max_children`, or `3 ≤ min_children` and
    `2 * min_children ≤ max_children + 1`. -/
def Config.Sound (c : Config) : Prop :=
  (2 ≤ c.minChildren ∧ 2 * c.minChildren ≤ c.maxChildren) ∨
    (3 ≤ c.minChildren ∧ 2 * c.minChildren ≤ c.maxChildren + 1)

/-- The number of children every node below the root keeps: `min_children` if `2 * min_children ≤ max_children`, one
    less in the tight case `2 * min_children = max_children + 1`, and one if `max_children + 1` children cannot be split into
    two times `min_children`. -/
def Alloc.floor (a : Alloc) : Nat :=
  if 2 * a.minChildren ≤ a.maxChildren then a.minChildren
  else if 2 * a.minChildren ≤ a.maxChildren + 1 then a.minChildren - 1 else 1

/-- The panics a user can provoke with an unsound configuration or with bounds whose volume overflows. -/
def UserPanic (e : Panic) : Prop :=
  e = .unwrapNone ∨ e = .vectorFull ∨ e = .tooFewToSplit ∨ e = .arithmetic

/-- The contract of `Ranking` (ranking.rs 21-35), for keys satisfying `P`: `bounds_min(b)` is a lower bound for the rank of
    every key contained by `b` (as far as both return). -/
def Ranking.Honours {M : Type} [LE M] [Bounds B] [Enclosure B] [Bounded K B] (P : K → Prop) (r : Ranking B K M) : Prop :=
  ∀ (k : K) (b : B) (m n : M), P k → Enclosure.le (Bounded.bounds k) b → r.boundsMin b = .ok m → r.rankKey k = .ok n →
    m ≤ n

/-- The contract of a `Ranking` with optional metric (lib.rs 166-172, 222-226), for keys satisfying `P`: a key of rank
    `Some(n)` is only contained by bounds with `bounds_min` `Some(m)`, `m <= n`. -/
def Ranking.FilterHonours {S : Type} [LE S] [Bounds B] [Enclosure B] [Bounded K B] (P : K → Prop)
    (r : Ranking B K (Option S)) : Prop :=
  ∀ (k : K) (b : B) (o : Option S) (n : S), P k → Enclosure.le (Bounded.bounds k) b → r.boundsMin b = .ok o →
    r.rankKey k = .ok (some n) → ∃ m, o = some m ∧ m ≤ n

/-- The ranking does not panic on the bounds and keys of a tree. -/
def Ranking.DefinedOn {M : Type} (r : Ranking B K M) (t : Tree B K V) : Prop :=
  (∀ n ∈ t.nodes, ∃ m, r.boundsMin n.bounds = .ok m) ∧ ∀ e ∈ t.entries, ∃ m, r.rankKey e.1 = .ok m

/-- The key has a rank, and it is not `None`. -/
def Ranking.ranked {S : Type} (r : Ranking B K (Option S)) (k : K) : Bool :=
  match r.rankKey k with
  | .ok (some _) => true
  | _ => false

/-- Two rankings answer the same about the bounds of the root, and about the children of every node whose lower bound (by the first one) satisfies `lim`. -/
structure Ranking.SameWhere {M : Type} (lim : M → Prop) (r r' : Ranking B K M) (t : Tree B K V) : Prop where
  root : r'.boundsMin t.root.bounds = r.boundsMin t.root.bounds
  nodes : ∀ b cs m, Node.inner b cs ∈ t.nodes → r.boundsMin b = .ok m → lim m → ∀ c ∈ cs, r'.boundsMin c.bounds = r.boundsMin c.bounds
  entries : ∀ b es m, Node.leaf b es ∈ t.nodes → r.boundsMin b = .ok m → lim m → ∀ e ∈ es, r'.rankKey e.1 = r.rankKey e.1

mutual
/-- The node without its values: its structure, keys and bounds. -/
def Node.erase : Node B K V → Node B K Unit
  | .leaf b es => .leaf b (es.map fun e => (e.1, ()))
  | .inner b cs => .inner b (eraseList cs)
/-- See `Node.erase`. -/
def eraseList : List (Node B K V) → List (Node B K Unit)
  | [] => []
  | c :: cs => c.erase :: eraseList cs
end

/-- The tree without its values: its structure, keys and bounds. -/
def Tree.erase (t : Tree B K V) : Tree B K Unit := { alloc := t.alloc, level := t.level, root := t.root.erase }

end RTree
