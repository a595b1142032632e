import Verif.Model.Unwind
/-!
# User code that behaves

The user code of the model of `Verif/Model/Unwind.lean` when it neither panics nor lies: every call answers what the type class instance answers,
the loops that compare volumes come to the result computed in `Verif/Model/Select.lean` and `Verif/Model/Split.lean`, clones are equal to the original, destructors return.
And what the trees in memory look like.
-/

namespace RTree.Unwind

open Raw

variable {B K V Q : Type} [Bounds B] [Volume B] [Bounded K B] [BEq K] [Bounded Q B] [BEq Q]

/-- The bounds of an element of a vector. Client code of node.rs 156-172. -/
def cellB : UCell B K V → B
  | .node n => n.bounds.val
  | .entry e => Bounded.bounds e.1

/-- User code that behaves. Client code. -/
def honest (borrow : K → Q) : Code B K V Q where
  empty := Bounds.empty
  union := Bounds.union
  unionAll := Bounds.unionAll
  contains := Bounds.contains
  intersects := Bounds.intersects
  bounds := Bounded.bounds
  boundsQ := Bounded.bounds
  eq := (· == ·)
  eqQ := (· == ·)
  borrow := borrow
  cloneKey := id
  cloneValue := id
  select children bounds := (RTree.select children bounds).toOption.join
  worst values overflow := (worstCombination cellB values overflow).toOption
  choice minChildren group1 group2 bounds1 bounds2 remaining := (splitChoice cellB minChildren group1 group2 bounds1 bounds2 remaining).toOption
  dropKey _ := some true
  dropBounds _ := some true

/-- Read a list of nodes, one after the other. Modelling device: stands for no code of the crate. -/
def readAll {C M : Type} (f : C → Raw.M M (Node B K V)) : List C → Raw.M M (List (Node B K V))
  | [] => pure []
  | c :: cs => do
    let n ← f c
    let ns ← readAll f cs
    pure (n :: ns)

/-- The node of level `level` that is in memory; `val` reads bounds. Modelling device: stands for no code of the crate. -/
def readNode {C : Type} (val : C → B) (E : TEnv) : Nat → RNode C → TM C K V (Node B K V)
  | 0, n => do
    let es ← entries E n.vec
    pure (.leaf (val n.bounds) es)
  | l + 1, n => do
    let cs ← nodes E n.vec
    let ns ← readAll (readNode val E l) cs
    pure (.inner (val n.bounds) ns)

/-- The trees in the variables, read from memory. Modelling device: stands for no code of the crate. -/
def readVars {C : Type} (val : C → B) (E : TEnv) : List (Option (Raw.RTree C)) → TM C K V (List (Option (Tree B K V)))
  | [] => pure []
  | none :: f => do
    let ts ← readVars val E f
    pure (none :: ts)
  | some t :: f => do
    let n ← readNode val E t.level t.root
    let ts ← readVars val E f
    pure (some ⟨t.alloc, t.level, n⟩ :: ts)

end RTree.Unwind
