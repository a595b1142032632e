import Verif.Model.Split
/-!
# Nodes (node.rs)

A node of the crate does not know its level: its children are an untagged `union` that is read as inner or
as leaf children depending on a level stored elsewhere.  In the model a node carries its kind, every function
receives the level from its caller exactly as in the code and decides by the level which union member
to read; reading the wrong one is the error `Panic.ub`.

`&mut self` methods return the new node.  A method that returns a `&mut` reference returns the current value and the
function that writes a new value back.
-/

namespace RTree

/-- node.rs 80-83 (`Node`), 45-48 (`NodeChildren`). -/
inductive Node (B K V : Type) where
  | leaf (bounds : B) (entries : List (K × V))
  | inner (bounds : B) (children : List (Node B K V))

/-- node.rs 174-178 (`Alloc`): `max_children` is the capacity of the child vectors. -/
structure Alloc where
  minChildren : Nat
  maxChildren : Nat
  deriving DecidableEq, Repr

/-- node.rs 18-21 (`NodeEntry`); the container of an inner entry carries its level. -/
inductive NodeEntry (B K V : Type) where
  | inner (level : Nat) (node : Node B K V)
  | leaf (key : K) (value : V)

/-- node.rs 45-48 (`NodeChildren`) detached from a node. -/
inductive NodeChildren (B K V : Type) where
  | inner (children : List (Node B K V))
  | leaf (entries : List (K × V))

variable {B K V Q : Type}

namespace Node

/-- node.rs 165-172 (`Bounded for Node`). -/
def bounds : Node B K V → B
  | .leaf b _ => b
  | .inner b _ => b

/-- node.rs 109-113 (`inner_children`), 596-604. -/
def innerChildren : Node B K V → Res (List (Node B K V))
  | .inner _ cs => .ok cs
  | .leaf _ _ => .error .ub

/-- node.rs 136-140 (`leaf_children`), 605-615. -/
def leafChildren : Node B K V → Res (List (K × V))
  | .leaf _ es => .ok es
  | .inner _ _ => .error .ub

end Node

namespace NodeEntry

/-- node.rs 24-29 (`target_level`). -/
def targetLevel : NodeEntry B K V → Nat
  | .inner level _ => level + 1
  | .leaf _ _ => 0

/-- node.rs 32-43 (`Bounded for NodeEntry`). -/
def bounds [Bounded K B] : NodeEntry B K V → B
  | .inner _ node => node.bounds
  | .leaf key _ => Bounded.bounds key

end NodeEntry

/-- node.rs 156-163 (`Bounded for (Key, Value)`). -/
def entryBounds [Bounded K B] (e : K × V) : B := Bounded.bounds e.1

/-- util.rs 3-23 (`get_only`). -/
inductive GetOnly (α : Type) where
  | multiple
  | only (a : α)
  | none

/-- util.rs 13-23. -/
def getOnly {α : Type} : List α → GetOnly α
  | [] => .none
  | [a] => .only a
  | _ :: _ :: _ => .multiple

section Insert

variable [Bounds B] [Volume B] [Bounded K B]

/-- node.rs 351-408 (`self_insert`), with 1341-1356 (`try_push`) and 1358-1390 (`split`) of the inner
    children inlined.  The result is the updated node and the optional sibling container. -/
def selfInsert (a : Alloc) (level : Nat) (node : Node B K V) (entry : NodeEntry B K V) :
    Res (Node B K V × Option (Nat × Node B K V)) :=
  match level with
  | l + 1 => do
    let children ← node.innerChildren
    match entry with
    | .inner entryLevel entryNode =>
      if l ≠ entryLevel then throw .levelMismatch
      match Vec.tryPush a.maxChildren children entryNode with
      | (children, some overflow) => do
        let r ← split Node.bounds a.minChildren a.maxChildren children overflow
        pure (.inner r.bounds1 r.group1, some (l + 1, .inner r.bounds2 r.group2))
      | (children, none) =>
        pure (.inner (Bounds.union node.bounds entry.bounds) children, none)
    | .leaf _ _ => throw .levelMismatch
  | 0 => do
    let children ← node.leafChildren
    match entry with
    | .leaf key value =>
      match Vec.tryPush a.maxChildren children (key, value) with
      | (children, some overflow) => do
        let r ← split entryBounds a.minChildren a.maxChildren children overflow
        pure (.leaf r.bounds1 r.group1, some (0, .leaf r.bounds2 r.group2))
      | (children, none) =>
        pure (.leaf (Bounds.union node.bounds entry.bounds) children, none)
    | .inner _ _ => throw .levelMismatch

/-- node.rs 410-437 (`insert`). -/
def insertNode (a : Alloc) (level : Nat) (node : Node B K V) (entry : NodeEntry B K V) :
    Res (Node B K V × Option (Nat × Node B K V)) :=
  if entry.targetLevel ≠ level then
    match level with
    | 0 => do
      let _ ← node.leafChildren
      throw .unreachable
    | l + 1 => do
      let children ← node.innerChildren
      let i ← unwrap (← select (children.map Node.bounds) entry.bounds)
      let child ← index children i
      let (child, sibling) ← insertNode a l child entry
      let children := children.set i child
      match sibling with
      | some (newLevel, newChild) =>
        selfInsert a (l + 1) (.inner (Bounds.unionAll (children.map Node.bounds)) children)
          (.inner newLevel newChild)
      | none => pure (.inner (Bounds.union node.bounds entry.bounds) children, none)
  else
    selfInsert a level node entry

end Insert

section Get

variable [Bounds B] [Bounded Q B] [BEq Q]

/-- node.rs 1036-1043: the loop over the children in `get`; `rec` is the recursive call. -/
def getChildren (q : Q) (rec : Node B K V → Res (Option V)) : List (Node B K V) → Res (Option V)
  | [] => .ok none
  | c :: cs => do
    if Bounds.contains c.bounds (Bounded.bounds q) then
      match ← rec c with
      | some v => pure (some v)
      | none => getChildren q rec cs
    else getChildren q rec cs

/-- node.rs 1028-1050 (`NodeRef::get`). -/
def getNode (borrow : K → Q) (q : Q) : Nat → Node B K V → Res (Option V)
  | 0, node => do
    let es ← node.leafChildren
    pure ((es.find? fun e => borrow e.1 == q).map (·.2))
  | l + 1, node => do
    let cs ← node.innerChildren
    getChildren q (getNode borrow q l) cs

/-- node.rs 665-668, 689-692: `into_iter().find(..).map(|(_, v)| v)` over leaf entries, as a mutable
    reference: the current value and the function writing a new one back. -/
def findEntryMut (p : K → Bool) : List (K × V) → Option (V × (V → List (K × V)))
  | [] => none
  | e :: es =>
    if p e.1 then some (e.2, fun v => (e.1, v) :: es)
    else match findEntryMut p es with
      | some (v, back) => some (v, fun v' => e :: back v')
      | none => none

/-- node.rs 656-663, 680-687: the loop over the children in `into_get_mut`/`get_mut`. -/
def getMutChildren (q : Q) (rec : Node B K V → Res (Option (V × (V → Node B K V)))) :
    List (Node B K V) → Res (Option (V × (V → List (Node B K V))))
  | [] => .ok none
  | c :: cs => do
    let found ← (if Bounds.contains c.bounds (Bounded.bounds q) then rec c else .ok none)
    match found with
    | some (v, back) => pure (some (v, fun v' => back v' :: cs))
    | none =>
      match ← getMutChildren q rec cs with
      | some (v, back) => pure (some (v, fun v' => c :: back v'))
      | none => pure none

/-- node.rs 648-670 (`into_get_mut`), 672-694 (`get_mut`). -/
def getMutNode (borrow : K → Q) (q : Q) :
    Nat → Node B K V → Res (Option (V × (V → Node B K V)))
  | 0, node => do
    let es ← node.leafChildren
    match findEntryMut (fun k => borrow k == q) es with
    | some (v, back) => pure (some (v, fun v' => .leaf node.bounds (back v')))
    | none => pure none
  | l + 1, node => do
    let cs ← node.innerChildren
    match ← getMutChildren q (getMutNode borrow q l) cs with
    | some (v, back) => pure (some (v, fun v' => .inner node.bounds (back v')))
    | none => pure none

end Get

section InsertUnique

variable [Bounds B] [Volume B] [Bounded K B] [BEq K]

/-- node.rs 453-456: positions of the children whose bounds contain the key bounds. -/
def containing (cs : List (Node B K V)) (b : B) : List Nat :=
  (cs.zipIdx.filter fun c => Bounds.contains c.1.bounds b).map (·.2)

/-- node.rs 439-513 (`insert_unique`): the updated node, the previous value and the optional sibling. -/
def insertUniqueNode (a : Alloc) (key : K) (value : V) :
    Nat → Node B K V → Res (Node B K V × Option V × Option (Nat × Node B K V))
  | 0, node => do
    let es ← node.leafChildren
    match findEntryMut (fun k => k == key) es with
    | some (old, back) => pure (.leaf node.bounds (back value), some old, none)
    | none => do
      let (node, sibling) ← insertNode a 0 node (.leaf key value)
      pure (node, none, sibling)
  | l + 1, node => do
    let children ← node.innerChildren
    match getOnly (containing children (Bounded.bounds key)) with
    | .none => do
      let (node, sibling) ← insertNode a (l + 1) node (.leaf key value)
      pure (node, none, sibling)
    | .only i => do
      let child ← index children i
      let (child, old, sibling) ← insertUniqueNode a key value l child
      let children := children.set i child
      match sibling with
      | some (newLevel, newChild) => do
        let (node, sibling) ←
          selfInsert a (l + 1) (.inner (Bounds.unionAll (children.map Node.bounds)) children)
            (.inner newLevel newChild)
        pure (node, old, sibling)
      | none =>
        pure (.inner (Bounds.union node.bounds (Bounded.bounds key)) children, old, none)
    | .multiple => do
      match ← getMutNode id key (l + 1) node with
      | some (old, back) => pure (back value, some old, none)
      | none => do
        let (node, sibling) ← insertNode a (l + 1) node (.leaf key value)
        pure (node, none, sibling)

end InsertUnique

section Remove

variable [Bounds B] [Bounded K B] [Bounded Q B] [BEq Q]

/-- node.rs 636-646 (`shallow_len`). -/
def shallowLen : Nat → Node B K V → Res Nat
  | 0, node => do pure (← node.leafChildren).length
  | _ + 1, node => do pure (← node.innerChildren).length

/-- node.rs 878-906 (`NodeContainer::children`). -/
def nodeChildren : Nat → Node B K V → Res (NodeChildren B K V)
  | 0, node => do pure (.leaf (← node.leafChildren))
  | _ + 1, node => do pure (.inner (← node.innerChildren))

/-- The array `reinsert_entries` of node.rs 767-768. -/
abbrev Reinsert (B K V : Type) := List (Option (NodeChildren B K V))

/-- node.rs 769-772: the `on_underfull` callback; `level` is the level of the node the children
    belonged to. -/
def onUnderfull (level : Nat) (children : NodeChildren B K V) (r : Reinsert B K V) :
    Res (Reinsert B K V) :=
  if level < r.length then .ok (r.set level (some children)) else .error .indexOutOfBounds

/-- node.rs 527-546: the loop over the children in `remove`, `i` counting down; `l` is the level of the
    children and `rec` the recursive call.  `none` if no child contained the key; the children are unchanged
    then (see `removeNode`). -/
def removeLoop (a : Alloc) (l : Nat) (q : Q)
    (rec : Node B K V → Reinsert B K V → Res (Node B K V × Option V × Reinsert B K V)) :
    Nat → List (Node B K V) → Reinsert B K V →
      Res (List (Node B K V) × Option V × Reinsert B K V)
  | 0, cs, r => .ok (cs, none, r)
  | i + 1, cs, r => do
    let child ← index cs i
    if Bounds.intersects child.bounds (Bounded.bounds q) then
      let (child, value, r) ← rec child r
      let cs := cs.set i child
      match value with
      | some v => do
        if (← shallowLen l child) < a.minChildren then
          let (child, cs) ← Vec.swapRemove cs i
          let r ← onUnderfull l (← nodeChildren l child) r
          pure (cs, some v, r)
        else pure (cs, some v, r)
      | none => removeLoop a l q rec i cs r
    else removeLoop a l q rec i cs r

/-- node.rs 515-559 (`remove`). -/
def removeNode (a : Alloc) (borrow : K → Q) (q : Q) :
    Nat → Node B K V → Reinsert B K V → Res (Node B K V × Option V × Reinsert B K V)
  | 0, node, r => do
    let es ← node.leafChildren
    match es.findIdx? (fun e => borrow e.1 == q) with
    | some i => do
      let (e, es) ← Vec.swapRemove es i
      pure (.leaf (Bounds.unionAll (es.map entryBounds)) es, some e.2, r)
    | none => pure (node, none, r)
  | l + 1, node, r => do
    let cs ← node.innerChildren
    let (cs, value, r) ← removeLoop a l q (removeNode a borrow q l) cs.length cs r
    match value with
    | some v => pure (.inner (Bounds.unionAll (cs.map Node.bounds)) cs, some v, r)
    | none => pure (.inner node.bounds cs, none, r)

end Remove

section Read

/-- node.rs 1008-1019 (`NodeRef::len`). -/
def lenNode : Nat → Node B K V → Res Nat
  | 0, node => do pure (← node.leafChildren).length
  | l + 1, node => do
    let cs ← node.innerChildren
    cs.foldlM (fun size c => do pure (size + (← lenNode l c))) 0

/-- node.rs 1021-1026 (`NodeRef::is_empty`). -/
def isEmptyNode : Nat → Node B K V → Res Bool
  | 0, node => do pure (← node.leafChildren).isEmpty
  | _ + 1, node => do pure (← node.innerChildren).isEmpty

/-- node.rs 292-337 (`clone_node`, `clone_children`). -/
def cloneNode (a : Alloc) : Nat → Node B K V → Res (Node B K V)
  | 0, node => do
    let es ← node.leafChildren
    pure (.leaf node.bounds (← Vec.clone a.maxChildren es))
  | l + 1, node => do
    let cs ← node.innerChildren
    let cs ← cs.foldlM (fun acc c => do Vec.push a.maxChildren acc (← cloneNode a l c)) []
    pure (.inner node.bounds cs)

end Read

end RTree
