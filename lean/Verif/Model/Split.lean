import Verif.Model.Select
import Verif.Model.Vec
/-!
# Quadratic split (split.rs)

`Value: Bounded<B>` is modelled by a function `bf : α → B` (nodes and entries both get split).
-/

namespace RTree

variable {B : Type} [Bounds B] [Volume B] {α : Type}

/-- State of the scan in `worst_combination`: greatest volume so far, `idx_1`, `idx_2`.
    split.rs 20-22 (the local variables). -/
abbrev Worst (B : Type) [Volume B] := Volume.Vol B × Nat × Nat

/-- split.rs 23-29: first loop of `worst_combination`. -/
def worstWithOverflow (bf : α → B) (overflow : α) (acc : Worst B) (iv : α × Nat) : Res (Worst B) := do
  let vol ← arith (Volume.volume (Bounds.union (bf iv.1) (bf overflow)))
  if Volume.lt (B := B) acc.1 vol then pure (vol, iv.2, acc.2.2) else pure acc

/-- split.rs 32-43: body of the nested loop of `worst_combination` at indices `(i, j)`. -/
def worstPair (bf : α → B) (values : List α) (overflow : α) (acc : Worst B) (ij : Nat × Nat) :
    Res (Worst B) := do
  let vi ← index values ij.1
  let vj ← index values ij.2
  let vol ← arith (Volume.volume (Bounds.union (bf vi) (Bounds.union (bf vj) (bf overflow))))
  if Volume.lt (B := B) acc.1 vol then pure (vol, ij.1, ij.2) else pure acc

/-- split.rs 31-32: the index pairs visited by `for i in 0..len-1 { for j in i+1..len { .. } }`. -/
def pairIndices (len : Nat) : List (Nat × Nat) :=
  (List.range (len - 1)).flatMap fun i => (List.range' (i + 1) (len - (i + 1))).map fun j => (i, j)

/-- split.rs 12-47 (`worst_combination`). -/
def worstCombination (bf : α → B) (values : List α) (overflow : α) : Res (Nat × Nat) := do
  if values.isEmpty then throw .tooFewToSplit
  let acc : Worst B := (Volume.negInf (B := B), 0, values.length)
  let acc ← values.zipIdx.foldlM (worstWithOverflow bf overflow) acc
  let acc ← (pairIndices values.length).foldlM (worstPair bf values overflow) acc
  pure (acc.2.1, acc.2.2)

/-- split.rs 52-63 (`seed_split_groups`): returns `(values, seed of group 2)`. -/
def seedSplitGroups (bf : α → B) (values : List α) (overflow : α) : Res (List α × α) := do
  let (i1, i2) ← worstCombination bf values overflow
  let values ← Vec.swap values 0 i1
  if i2 < values.length then
    let v ← index values i2
    pure (values.set i2 overflow, v)
  else
    pure (values, overflow)

/-- split.rs 65-76 (`best_candidate_for_group`); `min_by_key` keeps the earliest least element. -/
def bestCandidate (bf : α → B) (children : List α) (bounds : B) : Res (Option (Nat × Volume.Vol B)) := do
  let boundsVolume ← arith (Volume.volume bounds)
  let vols ← children.mapM fun value => do
    let u ← arith (Volume.volume (Bounds.union (bf value) bounds))
    arith (Volume.sub u boundsVolume)
  let r ← minBy (fun x y => pure (Volume.cmp (B := B) x.1 y.1)) vols.zipIdx
  pure (r.map fun x => (x.2, x.1))

/-- Loop state of `QuadraticSplitter::split` (split.rs 110-114). -/
structure SplitState (B α : Type) where
  values : List α
  group1Len : Nat
  bounds1 : B
  bounds2 : B
  group2 : List α

/-- split.rs 120-139: one iteration of the loop. -/
def splitStep (bf : α → B) (minChildren cap : Nat) (s : SplitState B α) : Res (SplitState B α) := do
  let remaining := s.values.drop s.group1Len
  let c1 ← unwrap (← bestCandidate bf remaining s.bounds1)
  let c2 ← unwrap (← bestCandidate bf remaining s.bounds2)
  let addToGroup1 :=
    if Volume.lt (B := B) c1.2 c2.2 then
      decide (s.group2.length + remaining.length > minChildren)
    else
      decide (s.group1Len + remaining.length - 1 = minChildren)
  if addToGroup1 then
    let v ← index remaining c1.1
    let values ← Vec.swap s.values (s.group1Len + c1.1) s.group1Len
    pure { s with
      bounds1 := Bounds.union s.bounds1 (bf v), values := values, group1Len := s.group1Len + 1 }
  else
    let v ← index remaining c2.1
    let (x, values) ← Vec.swapRemove s.values (s.group1Len + c2.1)
    let group2 ← Vec.push cap s.group2 x
    pure { s with bounds2 := Bounds.union s.bounds2 (bf v), values := values, group2 := group2 }

/-- split.rs 119-140: `while group_1_len < values.len()`, with fuel. -/
def splitLoop (bf : α → B) (minChildren cap : Nat) : Nat → SplitState B α → Res (SplitState B α)
  | fuel, s =>
    if s.group1Len < s.values.length then
      match fuel with
      | 0 => .error .diverge
      | fuel + 1 => do
        let s ← splitStep bf minChildren cap s
        splitLoop bf minChildren cap fuel s
    else .ok s

/-- The result of a split: the first group stays in `values`, the second is returned
    (split.rs 81-88, 142). -/
structure SplitResult (B α : Type) where
  bounds1 : B
  group1 : List α
  bounds2 : B
  group2 : List α

/-- split.rs 97-143 (`QuadraticSplitter::split`).  `cap` is the capacity of the vectors. -/
def split (bf : α → B) (minChildren cap : Nat) (values : List α) (overflow : α) :
    Res (SplitResult B α) := do
  if values.length < 1 then throw .tooFewToSplit
  let (values, seed2) ← seedSplitGroups bf values overflow
  let group2 ← Vec.push cap [] seed2
  let v0 ← index values 0
  let s ← splitLoop bf minChildren cap values.length
    { values := values, group1Len := 1, bounds1 := bf v0, bounds2 := bf seed2, group2 := group2 }
  pure { bounds1 := s.bounds1, group1 := s.values, bounds2 := s.bounds2, group2 := s.group2 }

end RTree
