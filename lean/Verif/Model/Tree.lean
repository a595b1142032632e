import Verif.Model.Node
/-!
# The tree (lib.rs, `NodeContainer` of node.rs)
-/

namespace RTree

/-- lib.rs 87-90 (`RTree`) and node.rs 706-710 (`NodeContainer`): allocation parameters, level and node
    of the root. -/
structure Tree (B K V : Type) where
  alloc : Alloc
  level : Nat
  root : Node B K V

/-- lib.rs 57-61 (`RTreeConfig`). -/
structure Config where
  maxChildren : Nat
  minChildren : Nat
  deriving DecidableEq, Repr

variable {B K V Q : Type}

namespace Tree

section

variable [Bounds B]

/-- lib.rs 103-112 (`RTree::new`), node.rs 181-205 (`new_alloc`, `new_leaf`). -/
def new (c : Config) : Tree B K V :=
  { alloc := { minChildren := c.minChildren, maxChildren := c.maxChildren }
    level := 0
    root := .leaf Bounds.empty [] }

/-- node.rs 806-842 (`branch`). -/
def branch (t : Tree B K V) (sibling : Nat × Node B K V) : Res (Tree B K V) := do
  if sibling.1 ≠ t.level then throw .levelMismatch
  let bounds := Bounds.union t.root.bounds sibling.2.bounds
  let next ← Vec.push t.alloc.maxChildren [] t.root
  let next ← Vec.push t.alloc.maxChildren next sibling.2
  pure { t with level := t.level + 1, root := .inner bounds next }

/-- node.rs 844-861 (`try_unbranch`). -/
def tryUnbranch (t : Tree B K V) : Res (Tree B K V) :=
  match t.level with
  | 0 => do
    let _ ← t.root.leafChildren
    pure t
  | l + 1 => do
    let cs ← t.root.innerChildren
    if cs.length = 1 then
      let (root, _) ← Vec.swapRemove cs 0
      pure { t with level := l, root := root }
    else pure t

end

section

variable [Bounds B] [Volume B] [Bounded K B]

/-- node.rs 717-726 (`NodeContainer::insert_entry`). -/
def insertEntry (t : Tree B K V) (entry : NodeEntry B K V) : Res (Tree B K V) := do
  let (root, sibling) ← insertNode t.alloc t.level t.root entry
  let t := { t with root := root }
  match sibling with
  | some s => t.branch s
  | none => pure t

/-- lib.rs 366-375 (`RTree::insert`), node.rs 728-736. -/
def insert (t : Tree B K V) (key : K) (value : V) : Res (Tree B K V) :=
  t.insertEntry (.leaf key value)

/-- lib.rs 377-388 (`RTree::insert_unique`), node.rs 738-755. -/
def insertUnique [BEq K] (t : Tree B K V) (key : K) (value : V) : Res (Tree B K V × Option V) := do
  let (root, old, sibling) ← insertUniqueNode t.alloc key value t.level t.root
  let t := { t with root := root }
  match sibling with
  | some s => do pure (← t.branch s, old)
  | none => pure (t, old)

/-- node.rs 783-794 with 268-290 (`wrap_children`): the reinsertion entries of one slot; the index of the slot
    decides which union member is read. -/
def slotEntries : Nat → NodeChildren B K V → Res (List (NodeEntry B K V))
  | 0, .leaf es => .ok (es.map fun e => .leaf e.1 e.2)
  | l + 1, .inner cs => .ok (cs.map fun c => .inner l c)
  | _, _ => .error .ub

/-- node.rs 775-796: `for (level, entries) in reinsert_entries.iter_mut().enumerate()`. -/
def reinsert (t : Tree B K V) : List (Option (NodeChildren B K V) × Nat) → Res (Tree B K V)
  | [] => .ok t
  | (none, _) :: rest => t.reinsert rest
  | (some children, level) :: rest => do
    let entries ← slotEntries level children
    let t ← entries.foldlM insertEntry t
    t.reinsert rest

/-- lib.rs 390-407 (`RTree::remove`), node.rs 757-802 (`NodeContainer::remove`). -/
def remove [Bounded Q B] [BEq Q] (borrow : K → Q) (t : Tree B K V) (q : Q) :
    Res (Tree B K V × Option V) := do
  let (root, value, slots) ←
    removeNode t.alloc borrow q t.level t.root (List.replicate t.level none)
  let t := { t with root := root }
  match value with
  | some v => do
    let t ← t.tryUnbranch
    let t ← t.reinsert slots.zipIdx
    pure (t, some v)
  | none => pure (t, none)

end

section

variable [Bounds B] [Bounded Q B] [BEq Q]

/-- lib.rs 294-308 (`RTree::get`). -/
def get (borrow : K → Q) (t : Tree B K V) (q : Q) : Res (Option V) :=
  getNode borrow q t.level t.root

/-- lib.rs 310-324 (`RTree::get_mut`): the value and the function writing a new one back. -/
def getMut (borrow : K → Q) (t : Tree B K V) (q : Q) : Res (Option (V × (V → Tree B K V))) := do
  match ← getMutNode borrow q t.level t.root with
  | some (v, back) => pure (some (v, fun v' => { t with root := back v' }))
  | none => pure none

end

/-- lib.rs 326-329 (`RTree::len`). -/
def len (t : Tree B K V) : Res Nat := lenNode t.level t.root

/-- lib.rs 331-334 (`RTree::is_empty`). -/
def isEmpty (t : Tree B K V) : Res Bool := isEmptyNode t.level t.root

/-- lib.rs 87 (`#[derive(Clone)]`), node.rs 944-953 (`Clone for NodeContainer`). -/
def clone (t : Tree B K V) : Res (Tree B K V) := do
  pure { t with root := ← cloneNode t.alloc t.level t.root }

end Tree

end RTree
