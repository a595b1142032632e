import Verif.History
import Verif.Model.Sorted
/-!
# Translations of keys, bounds and values

A translation replaces bounds, volumes and keys by others on which all trait functions agree, and values by any others. It is
what two programs have to do with each other that use the crate with different types, or with the same types compiled
differently.
-/

namespace RTree

variable {B B' K K' V V' : Type}

/-- Bounds and their volumes translated: every function of `Bounds`, `Volume` and the arithmetic of volumes gives the translated
    answer; where a volume is not defined (the code panics), nothing is said, unless `E` holds: then the translated one is
    not defined either. -/
structure TranslatesBounds [Bounds B] [Volume B] [Bounds B'] [Volume B'] (E : Prop) (fB : B → B')
    (fVol : Volume.Vol B → Volume.Vol B') : Prop where
  empty : Bounds.empty = fB Bounds.empty
  union : ∀ a b, Bounds.union (fB a) (fB b) = fB (Bounds.union a b)
  unionAll : ∀ l, Bounds.unionAll (l.map fB) = fB (Bounds.unionAll l)
  contains : ∀ a b, Bounds.contains (fB a) (fB b) = Bounds.contains a b
  intersects : ∀ a b, Bounds.intersects (fB a) (fB b) = Bounds.intersects a b
  volume : ∀ b v, Volume.volume b = some v → Volume.volume (fB b) = some (fVol v)
  sub : ∀ u v w, Volume.sub (B := B) u v = some w → Volume.sub (B := B') (fVol u) (fVol v) = some (fVol w)
  volume_none : E → ∀ b : B, Volume.volume b = none → Volume.volume (fB b) = none
  sub_none : E → ∀ u v, Volume.sub (B := B) u v = none → Volume.sub (B := B') (fVol u) (fVol v) = none
  lt : ∀ u v, Volume.lt (B := B') (fVol u) (fVol v) = Volume.lt (B := B) u v
  cmp : ∀ u v, Volume.cmp (B := B') (fVol u) (fVol v) = Volume.cmp (B := B) u v
  negInf : Volume.negInf (B := B') = fVol (Volume.negInf (B := B))

/-- Keys translated: they have the translated bounds and are equal to each other if they were. -/
structure TranslatesKeys [Bounded K B] [Bounded K' B'] [BEq K] [BEq K'] (fB : B → B') (fK : K → K') : Prop where
  bounds : ∀ k, Bounded.bounds (fK k) = fB (Bounded.bounds k)
  beq : ∀ k q, (fK k == fK q) = (k == q)

mutual
/-- The node with all bounds, keys and values translated. -/
def Node.translate (fB : B → B') (fK : K → K') (fV : V → V') : Node B K V → Node B' K' V'
  | .leaf b es => .leaf (fB b) (es.map (Prod.map fK fV))
  | .inner b cs => .inner (fB b) (translateList fB fK fV cs)
/-- See `Node.translate`. -/
def translateList (fB : B → B') (fK : K → K') (fV : V → V') : List (Node B K V) → List (Node B' K' V')
  | [] => []
  | c :: cs => c.translate fB fK fV :: translateList fB fK fV cs
end

/-- The tree with all bounds, keys and values translated: the same nodes at the same places. -/
def Tree.translate (fB : B → B') (fK : K → K') (fV : V → V') (t : Tree B K V) : Tree B' K' V' :=
  { alloc := t.alloc, level := t.level, root := t.root.translate fB fK fV }

/-- Filters that agree on translated bounds and keys. -/
def SpatialFilter.Alike (fB : B → B') (fK : K → K') (f : SpatialFilter B K) (f' : SpatialFilter B' K') : Prop :=
  (∀ b, f'.testBounds (fB b) = f.testBounds b) ∧ ∀ k, f'.testKey (fK k) = f.testKey k

/-- A call and the translated call. -/
inductive Op.Alike (fB : B → B') (fK : K → K') (fV : V → V') : Op B K V → Op B' K' V' → Prop
  | insert k v : Op.Alike fB fK fV (.insert k v) (.insert (fK k) (fV v))
  | insertUnique k v : Op.Alike fB fK fV (.insertUnique k v) (.insertUnique (fK k) (fV v))
  | remove k : Op.Alike fB fK fV (.remove k) (.remove (fK k))
  | get k : Op.Alike fB fK fV (.get k) (.get (fK k))
  | set k v : Op.Alike fB fK fV (.set k v) (.set (fK k) (fV v))
  | len : Op.Alike fB fK fV .len .len
  | isEmpty : Op.Alike fB fK fV .isEmpty .isEmpty
  | clone : Op.Alike fB fK fV .clone .clone
  | iter : Op.Alike fB fK fV .iter .iter
  | filterIter {f f'} : f.Alike fB fK f' → Op.Alike fB fK fV (.filterIter f) (.filterIter f')
  | filterIterMut {f f' u u'} : f.Alike fB fK f' → (∀ k v, u' (fK k) (fV v) = fV (u k v)) →
      Op.Alike fB fK fV (.filterIterMut f u) (.filterIterMut f' u')

/-- Two histories, call by call. -/
inductive OpsAlike (fB : B → B') (fK : K → K') (fV : V → V') : List (Op B K V) → List (Op B' K' V') → Prop
  | nil : OpsAlike fB fK fV [] []
  | cons {op op' ops ops'} : Op.Alike fB fK fV op op' → OpsAlike fB fK fV ops ops' →
      OpsAlike fB fK fV (op :: ops) (op' :: ops')

/-- Rankings that give translated ranks to translated bounds and keys; if `E` holds, they also panic alike. -/
structure Ranking.Alike {M M' : Type} (E : Prop) (fB : B → B') (fK : K → K') (fM : M → M') (r : Ranking B K M)
    (r' : Ranking B' K' M') : Prop where
  boundsMin : ∀ b m, r.boundsMin b = .ok m → r'.boundsMin (fB b) = .ok (fM m)
  rankKey : ∀ k m, r.rankKey k = .ok m → r'.rankKey (fK k) = .ok (fM m)
  boundsMin_panic : E → ∀ b e, r.boundsMin b = .error e → r'.boundsMin (fB b) = .error e
  rankKey_panic : E → ∀ k e, r.rankKey k = .error e → r'.rankKey (fK k) = .error e

/-- An item of the heap of a sorted iterator, translated. -/
def SortedItem.translate (fB : B → B') (fK : K → K') (fV : V → V') : SortedItem B K V → SortedItem B' K' V'
  | .node n => .node (n.translate fB fK fV)
  | .entry e => .entry (Prod.map fK fV e)

/-- A score with its rank translated. -/
def Score.translate {M M' : Type} (fM : M → M') (s : Score M) : Score M' := ⟨fM s.metric, s.level⟩

/-- Two heaps that do the same with translated scores and items. -/
structure HeapsAlike {M M' : Type} [LE M] [LE M'] (fB : B → B') (fK : K → K') (fV : V → V') (fM : M → M')
    (hp : IterHeap B K V M) (hp' : IterHeap B' K' V' M') where
  map : hp.H → hp'.H
  map_empty : map hp.empty = hp'.empty
  map_push : ∀ x h, map (hp.push x h) = hp'.push (x.1.translate fM, x.2.translate fB fK fV) (map h)
  map_pop : ∀ h, hp'.pop (map h) = (hp.pop h).map fun r => ((r.1.1.translate fM, r.1.2.translate fB fK fV), map r.2)

/-- Filters of joins that agree on translated bounds and keys. -/
def JoinFilter.Alike {C C' L L' : Type} (fB : B → B') (fC : C → C') (fK : K → K') (fL : L → L') (f : JoinFilter B C K L)
    (f' : JoinFilter B' C' K' L') : Prop :=
  (∀ b c, f'.testBounds (fB b) (fC c) = f.testBounds b c) ∧ ∀ k l, f'.testKey (fK k) (fL l) = f.testKey k l

end RTree
