import Verif.Model.Tree
/-!
# How often user code is called

The functions of `Verif/Model/Select.lean`, `Split.lean`, `Node.lean` and `Tree.lean` once more, line by line, now counting the calls of user code: `Bounded::bounds`,
`Bounds::union`, `Bounds::union_all`, `Volume::volume`, `Contains::contains`, `Intersects::intersects`, `Eq::eq`, `Borrow::borrow`, and `Clone::clone` of bounds
(`Bounded for Node`, node.rs 165-172).  A call of `union_all` with `n` bounds counts as `n + 1`.  `Verif/Proofs/Work.lean` proves that these functions compute
what the others compute.
-/

namespace RTree.Work

/-- A computation and the number of calls of user code. Modelling device: stands for no code of the crate. -/
def W (α : Type) := Nat → Res (α × Nat)

/-- Sequencing. Modelling device: stands for no code of the crate. -/
instance : Monad W where
  pure a := fun n => .ok (a, n)
  bind x f := fun n =>
    match x n with
    | .ok (a, n') => f a n'
    | .error e => .error e

/-- `k` calls of user code. Modelling device: stands for no code of the crate. -/
def calls (k : Nat) : W Unit := fun n => .ok ((), n + k)

/-- A computation without user code. Modelling device: stands for no code of the crate. -/
def lift {α : Type} (x : Res α) : W α := fun n =>
  match x with
  | .ok a => .ok (a, n)
  | .error e => .error e

variable {B K V Q α : Type}

/-- A call of `Bounded::bounds`. bounds.rs 35-37. -/
def boundsOf (bf : α → B) (a : α) : W B := do
  calls 1
  pure (bf a)

section

variable [Bounds B]

/-- A call of `Bounds::union`. bounds.rs 24-26. -/
def union (lhs rhs : B) : W B := do
  calls 1
  pure (Bounds.union lhs rhs)

/-- A call of `Bounds::union_all`. bounds.rs 28-32. -/
def unionAll (bs : List B) : W B := do
  calls (bs.length + 1)
  pure (Bounds.unionAll bs)

/-- A call of `Contains::contains`. contains.rs 1-3. -/
def contains (lhs rhs : B) : W Bool := do
  calls 1
  pure (Bounds.contains lhs rhs)

/-- A call of `Intersects::intersects`. intersects.rs 5-7. -/
def intersects (lhs rhs : B) : W Bool := do
  calls 1
  pure (Bounds.intersects lhs rhs)

/-- A call of `Volume::volume`. bounds.rs 39-41. -/
def volume [Volume B] (b : B) : W (Volume.Vol B) := do
  calls 1
  lift (arith (Volume.volume b))

/-- `map(|x| x.bounds())` on a list. node.rs 428, 482, 540, 552. -/
def allBounds (bf : α → B) : List α → W (List B)
  | [] => pure []
  | a :: as => do
    let b ← boundsOf bf a
    let bs ← allBounds bf as
    pure (b :: bs)

end

/-- `k.borrow() == key`. node.rs 549, 667, 691, 1047. -/
def sameKey [BEq Q] (borrow : K → Q) (k : K) (q : Q) : W Bool := do
  calls 2
  pure (borrow k == q)

section Select

variable [Bounds B] [Volume B]

/-- `Iterator::min_by` of `std`. select.rs 38. -/
def minBy (cmp : α → α → W Ordering) : List α → W (Option α)
  | [] => pure none
  | x :: xs => do
    let r ← xs.foldlM (fun acc y => do
      match ← cmp acc y with
      | .gt => pure y
      | _ => pure acc) x
    pure (some r)

/-- select.rs 17-22 (`volume_increase_of_min_bounds`). -/
def volumeIncrease (lhs rhs : B) : W (Volume.Vol B) := do
  let u ← union lhs rhs
  let u ← volume u
  let v ← volume lhs
  lift (arith (Volume.sub u v))

/-- select.rs 38-50: the comparison closure of `MinimalVolumeIncreaseSelector::select`. -/
def selectCmp (bounds : B) (lhs rhs : B) : W Ordering := do
  let lb ← boundsOf id lhs
  let a ← volumeIncrease lb bounds
  let rb ← boundsOf id rhs
  let b ← volumeIncrease rb bounds
  let cmp := Volume.cmp (B := B) a b
  if cmp = .eq then do
    let lb ← boundsOf id lhs
    let va ← volume lb
    let rb ← boundsOf id rhs
    let vb ← volume rb
    pure (Volume.cmp (B := B) va vb)
  else
    pure cmp

/-- select.rs 26-52 (`MinimalVolumeIncreaseSelector::select`), applied to the bounds of the children (`child.bounds()` is called by the
    closure); the position of the selected child. -/
def select (children : List B) (bounds : B) : W (Option Nat) := do
  let r ← minBy (fun x y => selectCmp bounds x.1 y.1) children.zipIdx
  pure (r.map (·.2))

end Select

section Split

variable [Bounds B] [Volume B]

/-- split.rs 23-29: first loop of `worst_combination`. -/
def worstWithOverflow (bf : α → B) (overflow : α) (acc : Worst B) (iv : α × Nat) : W (Worst B) := do
  let b ← boundsOf bf iv.1
  let o ← boundsOf bf overflow
  let u ← union b o
  let vol ← volume u
  if Volume.lt (B := B) acc.1 vol then pure (vol, iv.2, acc.2.2) else pure acc

/-- split.rs 32-43: body of the nested loop of `worst_combination` at indices `(i, j)`. -/
def worstPair (bf : α → B) (values : List α) (overflow : α) (acc : Worst B) (ij : Nat × Nat) : W (Worst B) := do
  let vi ← lift (index values ij.1)
  let bi ← boundsOf bf vi
  let vj ← lift (index values ij.2)
  let bj ← boundsOf bf vj
  let o ← boundsOf bf overflow
  let u ← union bj o
  let u ← union bi u
  let vol ← volume u
  if Volume.lt (B := B) acc.1 vol then pure (vol, ij.1, ij.2) else pure acc

/-- split.rs 12-47 (`worst_combination`). -/
def worstCombination (bf : α → B) (values : List α) (overflow : α) : W (Nat × Nat) := do
  lift (if values.isEmpty then .error .tooFewToSplit else .ok ())
  let acc : Worst B := (Volume.negInf (B := B), 0, values.length)
  let acc ← values.zipIdx.foldlM (worstWithOverflow bf overflow) acc
  let acc ← (pairIndices values.length).foldlM (worstPair bf values overflow) acc
  pure (acc.2.1, acc.2.2)

/-- split.rs 52-63 (`seed_split_groups`): returns `(values, seed of group 2)`. -/
def seedSplitGroups (bf : α → B) (values : List α) (overflow : α) : W (List α × α) := do
  let ij ← worstCombination bf values overflow
  let values ← lift (Vec.swap values 0 ij.1)
  if ij.2 < values.length then do
    let v ← lift (index values ij.2)
    pure (values.set ij.2 overflow, v)
  else
    pure (values, overflow)

/-- split.rs 70-74: the volume increase of each child. -/
def increases (bf : α → B) (bounds : B) (boundsVolume : Volume.Vol B) : List α → W (List (Volume.Vol B))
  | [] => pure []
  | value :: values => do
    let b ← boundsOf bf value
    let u ← union b bounds
    let u ← volume u
    let x ← lift (arith (Volume.sub u boundsVolume))
    let xs ← increases bf bounds boundsVolume values
    pure (x :: xs)

/-- split.rs 65-76 (`best_candidate_for_group`). -/
def bestCandidate (bf : α → B) (children : List α) (bounds : B) : W (Option (Nat × Volume.Vol B)) := do
  let boundsVolume ← volume bounds
  let vols ← increases bf bounds boundsVolume children
  let r ← lift (RTree.minBy (fun x y => pure (Volume.cmp (B := B) x.1 y.1)) vols.zipIdx)
  pure (r.map fun x => (x.2, x.1))

/-- split.rs 120-139: one iteration of the loop. -/
def splitStep (bf : α → B) (minChildren cap : Nat) (s : SplitState B α) : W (SplitState B α) := do
  let remaining := s.values.drop s.group1Len
  let c1 ← bestCandidate bf remaining s.bounds1
  let c1 ← lift (unwrap c1)
  let c2 ← bestCandidate bf remaining s.bounds2
  let c2 ← lift (unwrap c2)
  let addToGroup1 :=
    if Volume.lt (B := B) c1.2 c2.2 then
      decide (s.group2.length + remaining.length > minChildren)
    else
      decide (s.group1Len + remaining.length - 1 = minChildren)
  if addToGroup1 then do
    let v ← lift (index remaining c1.1)
    let b ← boundsOf bf v
    let b ← union s.bounds1 b
    let values ← lift (Vec.swap s.values (s.group1Len + c1.1) s.group1Len)
    pure { s with bounds1 := b, values := values, group1Len := s.group1Len + 1 }
  else do
    let v ← lift (index remaining c2.1)
    let b ← boundsOf bf v
    let b ← union s.bounds2 b
    let r ← lift (Vec.swapRemove s.values (s.group1Len + c2.1))
    let group2 ← lift (Vec.push cap s.group2 r.1)
    pure { s with bounds2 := b, values := r.2, group2 := group2 }

/-- split.rs 119-140: `while group_1_len < values.len()`, with fuel. -/
def splitLoop (bf : α → B) (minChildren cap : Nat) : Nat → SplitState B α → W (SplitState B α)
  | fuel, s =>
    if s.group1Len < s.values.length then
      match fuel with
      | 0 => lift (.error .diverge)
      | fuel + 1 => do
        let s ← splitStep bf minChildren cap s
        splitLoop bf minChildren cap fuel s
    else pure s

/-- split.rs 97-143 (`QuadraticSplitter::split`).  `cap` is the capacity of the vectors. -/
def split (bf : α → B) (minChildren cap : Nat) (values : List α) (overflow : α) : W (SplitResult B α) := do
  lift (if values.length < 1 then .error .tooFewToSplit else .ok ())
  let r ← seedSplitGroups bf values overflow
  let group2 ← lift (Vec.push cap [] r.2)
  let v0 ← lift (index r.1 0)
  let b1 ← boundsOf bf v0
  let b2 ← boundsOf bf r.2
  let s ← splitLoop bf minChildren cap r.1.length
    { values := r.1, group1Len := 1, bounds1 := b1, bounds2 := b2, group2 := group2 }
  pure { bounds1 := s.bounds1, group1 := s.values, bounds2 := s.bounds2, group2 := s.group2 }

end Split

section Insert

variable [Bounds B] [Volume B] [Bounded K B]

/-- node.rs 351-408 (`self_insert`), with 1341-1356 (`try_push`) and 1358-1390 (`split`) of the inner children inlined. -/
def selfInsert (a : Alloc) (level : Nat) (node : Node B K V) (entry : NodeEntry B K V) : W (Node B K V × Option (Nat × Node B K V)) := do
  let eb ← boundsOf NodeEntry.bounds entry
  match level with
  | l + 1 => do
    let children ← lift node.innerChildren
    match entry with
    | .inner entryLevel entryNode => do
      lift (if l ≠ entryLevel then .error .levelMismatch else .ok ())
      match Vec.tryPush a.maxChildren children entryNode with
      | (children, some overflow) => do
        let r ← split Node.bounds a.minChildren a.maxChildren children overflow
        pure (.inner r.bounds1 r.group1, some (l + 1, .inner r.bounds2 r.group2))
      | (children, none) => do
        let b ← union node.bounds eb
        pure (.inner b children, none)
    | .leaf _ _ => lift (.error .levelMismatch)
  | 0 => do
    let children ← lift node.leafChildren
    match entry with
    | .leaf key value =>
      match Vec.tryPush a.maxChildren children (key, value) with
      | (children, some overflow) => do
        let r ← split entryBounds a.minChildren a.maxChildren children overflow
        pure (.leaf r.bounds1 r.group1, some (0, .leaf r.bounds2 r.group2))
      | (children, none) => do
        let b ← union node.bounds eb
        pure (.leaf b children, none)
    | .inner _ _ => lift (.error .levelMismatch)

/-- node.rs 424-433, 478-487: what follows the insertion into a child. -/
def afterChild (a : Alloc) (l : Nat) (bounds eb : B) (children : List (Node B K V)) (sibling : Option (Nat × Node B K V)) :
    W (Node B K V × Option (Nat × Node B K V)) :=
  match sibling with
  | some s => do
    let bs ← allBounds Node.bounds children
    let b ← unionAll bs
    selfInsert a (l + 1) (.inner b children) (.inner s.1 s.2)
  | none => do
    let b ← union bounds eb
    pure (.inner b children, none)

/-- node.rs 410-437 (`insert`). -/
def insertNode (a : Alloc) (level : Nat) (node : Node B K V) (entry : NodeEntry B K V) : W (Node B K V × Option (Nat × Node B K V)) := do
  let eb ← boundsOf NodeEntry.bounds entry
  if entry.targetLevel ≠ level then
    match level with
    | 0 => do
      let _ ← lift node.leafChildren
      lift (.error .unreachable)
    | l + 1 => do
      let children ← lift node.innerChildren
      let i ← select (children.map Node.bounds) eb
      let i ← lift (unwrap i)
      let child ← lift (index children i)
      let r ← insertNode a l child entry
      afterChild a l node.bounds eb (children.set i r.1) r.2
  else
    selfInsert a level node entry

end Insert

section Get

variable [Bounds B] [Bounded Q B] [BEq Q]

/-- node.rs 1036-1043: the loop over the children in `get`. -/
def getChildren (q : Q) (rec : Node B K V → W (Option V)) : List (Node B K V) → W (Option V)
  | [] => pure none
  | c :: cs => do
    let qb ← boundsOf (Bounded.bounds (B := B)) q
    if ← contains c.bounds qb then
      match ← rec c with
      | some v => pure (some v)
      | none => getChildren q rec cs
    else getChildren q rec cs

/-- node.rs 667, 691, 1047 (`find`): the first entry with the key. -/
def findEntry (borrow : K → Q) (q : Q) : List (K × V) → W (Option V)
  | [] => pure none
  | e :: es => do
    if ← sameKey borrow e.1 q then pure (some e.2) else findEntry borrow q es

/-- node.rs 1028-1050 (`NodeRef::get`). -/
def getNode (borrow : K → Q) (q : Q) : Nat → Node B K V → W (Option V)
  | 0, node => do
    let es ← lift node.leafChildren
    findEntry borrow q es
  | l + 1, node => do
    let cs ← lift node.innerChildren
    getChildren q (getNode borrow q l) cs

/-- node.rs 503, 665-668, 689-692: a mutable reference to the value of the first entry with the key; `same` compares with the key. -/
def findEntryMut (same : K → W Bool) : List (K × V) → W (Option (V × (V → List (K × V))))
  | [] => pure none
  | e :: es => do
    if ← same e.1 then pure (some (e.2, fun v => (e.1, v) :: es))
    else do
      match ← findEntryMut same es with
      | some (v, back) => pure (some (v, fun v' => e :: back v'))
      | none => pure none

/-- node.rs 656-663, 680-687: the loop over the children in `into_get_mut`/`get_mut`. -/
def getMutChildren (q : Q) (rec : Node B K V → W (Option (V × (V → Node B K V)))) : List (Node B K V) → W (Option (V × (V → List (Node B K V))))
  | [] => pure none
  | c :: cs => do
    let qb ← boundsOf (Bounded.bounds (B := B)) q
    let yes ← contains c.bounds qb
    let found ← (if yes then rec c else pure none : W (Option (V × (V → Node B K V))))
    match found with
    | some (v, back) => pure (some (v, fun v' => back v' :: cs))
    | none => do
      match ← getMutChildren q rec cs with
      | some (v, back) => pure (some (v, fun v' => c :: back v'))
      | none => pure none

/-- node.rs 648-670 (`into_get_mut`), 672-694 (`get_mut`). -/
def getMutNode (borrow : K → Q) (q : Q) : Nat → Node B K V → W (Option (V × (V → Node B K V)))
  | 0, node => do
    let es ← lift node.leafChildren
    match ← findEntryMut (fun k => sameKey borrow k q) es with
    | some (v, back) => pure (some (v, fun v' => .leaf node.bounds (back v')))
    | none => pure none
  | l + 1, node => do
    let cs ← lift node.innerChildren
    match ← getMutChildren q (getMutNode borrow q l) cs with
    | some (v, back) => pure (some (v, fun v' => .inner node.bounds (back v')))
    | none => pure none

end Get

section InsertUnique

variable [Bounds B] [Volume B] [Bounded K B] [BEq K]

/-- node.rs 452-456, util.rs 13-23 (`get_only`): the children whose bounds contain those of the key; the search ends at the second one.  `i` is the position of the
    first of `cs`, `found` the position of the one found before. -/
def onlyLoop (key : K) : List (Node B K V) → Nat → Option Nat → W (GetOnly Nat)
  | [], _, none => pure .none
  | [], _, some j => pure (.only j)
  | c :: cs, i, found => do
    let cb ← boundsOf Node.bounds c
    let kb ← boundsOf (Bounded.bounds (B := B)) key
    if ← contains cb kb then
      match found with
      | none => onlyLoop key cs (i + 1) (some i)
      | some _ => pure .multiple
    else onlyLoop key cs (i + 1) found

/-- node.rs 439-513 (`insert_unique`): the updated node, the previous value and the optional sibling. -/
def insertUniqueNode (a : Alloc) (key : K) (value : V) : Nat → Node B K V → W (Node B K V × Option V × Option (Nat × Node B K V))
  | 0, node => do
    let _ ← boundsOf (Bounded.bounds (B := B)) key
    let es ← lift node.leafChildren
    match ← findEntryMut (fun k => do calls 1; pure (k == key)) es with
    | some (old, back) => pure (.leaf node.bounds (back value), some old, none)
    | none => do
      let r ← insertNode a 0 node (.leaf key value)
      pure (r.1, none, r.2)
  | l + 1, node => do
    let eb ← boundsOf (Bounded.bounds (B := B)) key
    let children ← lift node.innerChildren
    match ← onlyLoop key children 0 none with
    | .none => do
      let r ← insertNode a (l + 1) node (.leaf key value)
      pure (r.1, none, r.2)
    | .only i => do
      let child ← lift (index children i)
      let r ← insertUniqueNode a key value l child
      let s ← afterChild a l node.bounds eb (children.set i r.1) r.2.2
      pure (s.1, r.2.1, s.2)
    | .multiple => do
      match ← getMutNode id key (l + 1) node with
      | some (old, back) => pure (back value, some old, none)
      | none => do
        let r ← insertNode a (l + 1) node (.leaf key value)
        pure (r.1, none, r.2)

end InsertUnique

section Remove

variable [Bounds B] [Bounded K B] [Bounded Q B] [BEq Q]

/-- node.rs 549 (`position`): the first entry with the key, from index `i` on. -/
def position (borrow : K → Q) (q : Q) : List (K × V) → Nat → W (Option Nat)
  | [], _ => pure none
  | e :: es, i => do
    if ← sameKey borrow e.1 q then pure (some i) else position borrow q es (i + 1)

/-- node.rs 527-546: the loop over the children in `remove`, `i` counting down. -/
def removeLoop (a : Alloc) (l : Nat) (q : Q) (rec : Node B K V → Reinsert B K V → W (Node B K V × Option V × Reinsert B K V)) :
    Nat → List (Node B K V) → Reinsert B K V → W (List (Node B K V) × Option V × Reinsert B K V)
  | 0, cs, r => pure (cs, none, r)
  | i + 1, cs, r => do
    let child ← lift (index cs i)
    let cb ← boundsOf Node.bounds child
    let qb ← boundsOf (Bounded.bounds (B := B)) q
    if ← intersects cb qb then do
      let x ← rec child r
      match x.2.1 with
      | some v => do
        let n ← lift (shallowLen l x.1)
        if n < a.minChildren then do
          let y ← lift (Vec.swapRemove (cs.set i x.1) i)
          let children ← lift (nodeChildren l y.1)
          let r ← lift (onUnderfull l children x.2.2)
          pure (y.2, some v, r)
        else pure (cs.set i x.1, some v, x.2.2)
      | none => removeLoop a l q rec i (cs.set i x.1) x.2.2
    else removeLoop a l q rec i cs r

/-- node.rs 515-559 (`remove`). -/
def removeNode (a : Alloc) (borrow : K → Q) (q : Q) : Nat → Node B K V → Reinsert B K V → W (Node B K V × Option V × Reinsert B K V)
  | 0, node, r => do
    let es ← lift node.leafChildren
    match ← position borrow q es 0 with
    | some i => do
      let x ← lift (Vec.swapRemove es i)
      let bs ← allBounds entryBounds x.2
      let b ← unionAll bs
      pure (.leaf b x.2, some x.1.2, r)
    | none => pure (node, none, r)
  | l + 1, node, r => do
    let cs ← lift node.innerChildren
    let x ← removeLoop a l q (removeNode a borrow q l) cs.length cs r
    match x.2.1 with
    | some v => do
      let bs ← allBounds Node.bounds x.1
      let b ← unionAll bs
      pure (.inner b x.1, some v, x.2.2)
    | none => pure (.inner node.bounds x.1, none, x.2.2)

end Remove

namespace Tree

section

variable [Bounds B] [Volume B] [Bounded K B]

/-- node.rs 806-842 (`branch`). -/
def branch (t : Tree B K V) (sibling : Nat × Node B K V) : W (Tree B K V) := do
  lift (if sibling.1 ≠ t.level then .error .levelMismatch else .ok ())
  let bounds ← union t.root.bounds sibling.2.bounds
  let next ← lift (Vec.push t.alloc.maxChildren [] t.root)
  let next ← lift (Vec.push t.alloc.maxChildren next sibling.2)
  pure { t with level := t.level + 1, root := .inner bounds next }

/-- node.rs 717-726 (`NodeContainer::insert_entry`). -/
def insertEntry (t : Tree B K V) (entry : NodeEntry B K V) : W (Tree B K V) := do
  let r ← insertNode t.alloc t.level t.root entry
  match r.2 with
  | some s => branch { t with root := r.1 } s
  | none => pure { t with root := r.1 }

/-- lib.rs 366-375 (`RTree::insert`), node.rs 728-736. -/
def insert (t : Tree B K V) (key : K) (value : V) : W (Tree B K V) := insertEntry t (.leaf key value)

/-- lib.rs 377-388 (`RTree::insert_unique`), node.rs 738-755. -/
def insertUnique [BEq K] (t : Tree B K V) (key : K) (value : V) : W (Tree B K V × Option V) := do
  let r ← insertUniqueNode t.alloc key value t.level t.root
  match r.2.2 with
  | some s => do
    let t' ← branch { t with root := r.1 } s
    pure (t', r.2.1)
  | none => pure ({ t with root := r.1 }, r.2.1)

/-- node.rs 775-796: `for (level, entries) in reinsert_entries.iter_mut().enumerate()`. -/
def reinsert (t : Tree B K V) : List (Option (NodeChildren B K V) × Nat) → W (Tree B K V)
  | [] => pure t
  | (none, _) :: rest => reinsert t rest
  | (some children, level) :: rest => do
    let entries ← lift (RTree.Tree.slotEntries level children)
    let t ← entries.foldlM insertEntry t
    reinsert t rest

/-- lib.rs 390-407 (`RTree::remove`), node.rs 757-802 (`NodeContainer::remove`). -/
def remove [Bounded Q B] [BEq Q] (borrow : K → Q) (t : Tree B K V) (q : Q) : W (Tree B K V × Option V) := do
  let r ← removeNode t.alloc borrow q t.level t.root (List.replicate t.level none)
  match r.2.1 with
  | some v => do
    let t' ← lift (RTree.Tree.tryUnbranch { t with root := r.1 })
    let t' ← reinsert t' r.2.2.zipIdx
    pure (t', some v)
  | none => pure ({ t with root := r.1 }, none)

end

section

variable [Bounds B] [Bounded Q B] [BEq Q]

/-- lib.rs 294-308 (`RTree::get`). -/
def get (borrow : K → Q) (t : Tree B K V) (q : Q) : W (Option V) := getNode borrow q t.level t.root

/-- lib.rs 310-324 (`RTree::get_mut`): the value and the function writing a new one back. -/
def getMut (borrow : K → Q) (t : Tree B K V) (q : Q) : W (Option (V × (V → Tree B K V))) := do
  match ← getMutNode borrow q t.level t.root with
  | some (v, back) => pure (some (v, fun v' => { t with root := back v' }))
  | none => pure none

end

end Tree

end RTree.Work
