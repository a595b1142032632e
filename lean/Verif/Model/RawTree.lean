import Verif.Model.FCVec
import Verif.Model.Tree
/-!
# The whole tree in raw memory (node.rs, split.rs, fc_vec.rs)

`Verif/Model/Node.lean` and `Verif/Model/Tree.lean` treat a node as a value.  Here a node is what it is in the crate: its bounds and an
untagged pointer-and-length (`FCVec`) to a block of memory that holds either nodes or entries.  Which of the two
is decided, as in the code, by the level the caller passes; reading a node where an entry is stored, or the other way
round, is `Panic.ub`, and so is every misuse of memory listed in `Verif/Model/FCVec.lean`.

Each function says which keys and values it drops.  `&mut` access to a child is a read of the child, the changes, and a write back to
the same slot.

Not modelled: the drop of `bounds` (a plain copy of bounds is made and dropped at each step), the state of memory after a panic.
-/

namespace RTree.Raw

/-- node.rs 80-83 (`Node`); the union of node.rs 45-48 is one untagged vector. -/
structure RNode (B : Type) where
  bounds : B
  vec : FCVec

/-- What a slot of memory can hold: an element of `FCVec<Node>` or of `FCVec<(Key, Value)>`.
    node.rs 45-48 (`union NodeChildren`). -/
inductive Cell (B K V : Type) where
  | node (n : RNode B)
  | entry (e : K × V)

/-- Sizes of the two element types. Modelling device: stands for no code of the crate. -/
structure TEnv where
  node : Env
  entry : Env

variable {B K V Q : Type}

/-- Computations on the memory of trees. Modelling device: stands for no code of the crate. -/
abbrev TM (B K V : Type) := M (Cell B K V)

/-- A computation that does not use memory. Modelling device: stands for no code of the crate. -/
def lift {α β : Type} (x : Res β) : M α β := fun h =>
  match x with
  | .ok b => .ok (b, h)
  | .error e => .error e

namespace Cell

/-- Using a slot as a node.
    Reading memory at the wrong type is undefined behaviour; node.rs 109-153 (`inner_children`, `leaf_children`). -/
def asNode : Cell B K V → Res (RNode B)
  | .node n => .ok n
  | .entry _ => .error .ub

/-- Using a slot as an entry.
    Reading memory at the wrong type is undefined behaviour; node.rs 109-153 (`inner_children`, `leaf_children`). -/
def asEntry : Cell B K V → Res (K × V)
  | .entry e => .ok e
  | .node _ => .error .ub

end Cell

/-- node.rs 18-21 (`NodeEntry`). -/
inductive REntry (B K V : Type) where
  | inner (level : Nat) (node : RNode B)
  | leaf (key : K) (value : V)

namespace REntry

/-- node.rs 24-29 (`target_level`). -/
def targetLevel : REntry B K V → Nat
  | .inner level _ => level + 1
  | .leaf _ _ => 0

/-- node.rs 32-43 (`Bounded for NodeEntry`). -/
def bounds [Bounded K B] : REntry B K V → B
  | .inner _ node => node.bounds
  | .leaf key _ => Bounded.bounds key

end REntry

/-- node.rs 109-127 (`inner_children`, `inner_children_mut`), 1161-1166 (`iter`), 1328-1341 (`iter`, `iter_mut`): all children of an inner node. -/
def nodes (E : TEnv) (v : FCVec) : TM B K V (List (RNode B)) := do
  let cells ← v.slice E.node
  lift (cells.mapM Cell.asNode)

/-- node.rs 136-153 (`leaf_children`): all entries of a leaf node. -/
def entries (E : TEnv) (v : FCVec) : TM B K V (List (K × V)) := do
  let cells ← v.slice E.entry
  lift (cells.mapM Cell.asEntry)

/-- node.rs 1310-1318 (`at_mut`): the child at an index. -/
def nodeAt (E : TEnv) (v : FCVec) (i : Nat) : TM B K V (RNode B) := do
  let cell ← v.get E.node i
  lift cell.asNode

/-- The child at an index after it has been changed through `&mut`. node.rs 1310-1318 (`at_mut`). -/
def putNode (E : TEnv) (v : FCVec) (i : Nat) (n : RNode B) : TM B K V Unit := do
  let _ ← v.set E.node i (.node n)
  pure ()

section Split

variable {α : Type} [Bounds B] [Volume B]

/-- split.rs 52-63 (`seed_split_groups`): the seed of group 2. -/
def seedSplitGroups (e : Env) (bf : α → B) (v : FCVec) (overflow : α) : M α α := do
  let values ← v.slice e
  let ij ← lift (worstCombination bf values overflow)
  v.swap e 0 ij.1
  if ij.2 < v.len then v.set e ij.2 overflow else pure overflow

/-- Loop state of `QuadraticSplitter::split` (split.rs 109-114). -/
structure RSplit (B : Type) where
  values : FCVec
  group1Len : Nat
  bounds1 : B
  bounds2 : B
  group2 : FCVec

/-- split.rs 121-132: the two candidates and the choice of the group; `true` is group 1. -/
def splitChoice (bf : α → B) (minChildren group1Len group2Len : Nat) (bounds1 bounds2 : B) (remaining : List α) :
    Res (Bool × Nat) := do
  let c1 ← unwrap (← bestCandidate bf remaining bounds1)
  let c2 ← unwrap (← bestCandidate bf remaining bounds2)
  let addToGroup1 :=
    if Volume.lt (B := B) c1.2 c2.2 then
      decide (group2Len + remaining.length > minChildren)
    else
      decide (group1Len + remaining.length - 1 = minChildren)
  pure (addToGroup1, if addToGroup1 then c1.1 else c2.1)

/-- split.rs 120-139: one iteration of the loop. -/
def splitStep (e : Env) (bf : α → B) (minChildren cap : Nat) (s : RSplit B) : M α (RSplit B) := do
  let values ← s.values.slice e
  let remaining := values.drop s.group1Len
  let c ← lift (splitChoice bf minChildren s.group1Len s.group2.len s.bounds1 s.bounds2 remaining)
  let x ← lift (index remaining c.2)
  if c.1 then do
    s.values.swap e (s.group1Len + c.2) s.group1Len
    pure { s with bounds1 := Bounds.union s.bounds1 (bf x), group1Len := s.group1Len + 1 }
  else do
    let (values, y) ← s.values.swapRemove e (s.group1Len + c.2)
    let group2 ← s.group2.push e cap y
    pure { s with bounds2 := Bounds.union s.bounds2 (bf x), values := values, group2 := group2 }

/-- split.rs 119-140: `while group_1_len < values.len()`, with fuel. -/
def splitLoop (e : Env) (bf : α → B) (minChildren cap : Nat) : Nat → RSplit B → M α (RSplit B)
  | fuel, s =>
    if s.group1Len < s.values.len then
      match fuel with
      | 0 => panic .diverge
      | fuel + 1 => do
        let s ← splitStep e bf minChildren cap s
        splitLoop e bf minChildren cap fuel s
    else pure s

/-- split.rs 97-143 (`QuadraticSplitter::split`). -/
def split (e : Env) (bf : α → B) (minChildren cap : Nat) (v : FCVec) (overflow : α) : M α (RSplit B) := do
  panicIf (v.len < 1) .tooFewToSplit
  let group2 ← FCVec.new e cap
  let seed ← seedSplitGroups e bf v overflow
  let group2 ← group2.push e cap seed
  let v0 ← v.get e 0
  splitLoop e bf minChildren cap v.len
    { values := v, group1Len := 1, bounds1 := bf v0, bounds2 := bf seed, group2 := group2 }

end Split

/-- node.rs 156-172 (`Bounded for (Key, Value)`, `Bounded for Node`), as the splitter sees them. -/
def Cell.bounds [Bounded K B] : Cell B K V → B
  | .node n => n.bounds
  | .entry e => Bounded.bounds e.1

section Insert

variable [Bounds B] [Volume B] [Bounded K B]

/-- node.rs 359-374, 1343-1393 (`try_push`, `split`): pushing a node into an inner node, with `try_push` and `split` of the inner children. -/
def pushNode (E : TEnv) (a : Alloc) (l : Nat) (node : RNode B) (bounds : B) (n : RNode B) :
    TM B K V (RNode B × Option (Nat × RNode B)) := do
  let (v, overflow) ← node.vec.tryPush E.node a.maxChildren (.node n)
  match overflow with
  | some o => do
    let _ ← lift o.asNode
    let r ← split E.node Cell.bounds a.minChildren a.maxChildren v o
    pure (⟨r.bounds1, r.values⟩, some (l + 1, ⟨r.bounds2, r.group2⟩))
  | none => pure (⟨Bounds.union node.bounds bounds, v⟩, none)

/-- node.rs 375-400: pushing an entry into a leaf node. -/
def pushEntry (E : TEnv) (a : Alloc) (node : RNode B) (bounds : B) (e : K × V) :
    TM B K V (RNode B × Option (Nat × RNode B)) := do
  let (v, overflow) ← node.vec.tryPush E.entry a.maxChildren (.entry e)
  match overflow with
  | some o => do
    let r ← split E.entry Cell.bounds a.minChildren a.maxChildren v o
    pure (⟨r.bounds1, r.values⟩, some (0, ⟨r.bounds2, r.group2⟩))
  | none => pure (⟨Bounds.union node.bounds bounds, v⟩, none)

/-- node.rs 351-408 (`self_insert`). -/
def selfInsert (E : TEnv) (a : Alloc) (level : Nat) (node : RNode B) (entry : REntry B K V) :
    TM B K V (RNode B × Option (Nat × RNode B)) :=
  match level, entry with
  | l + 1, .inner entryLevel n => do
    panicIf (l ≠ entryLevel) .levelMismatch
    pushNode E a l node n.bounds n
  | 0, .leaf key value => pushEntry E a node (Bounded.bounds key) (key, value)
  | _, _ => panic .levelMismatch

/-- node.rs 410-437 (`insert`). -/
def insertNode (E : TEnv) (a : Alloc) (entry : REntry B K V) : Nat → RNode B → TM B K V (RNode B × Option (Nat × RNode B))
  | level, node =>
    if entry.targetLevel ≠ level then
      match level with
      | 0 => panic .unreachable
      | l + 1 => do
        let children ← nodes E node.vec
        let i ← lift (do unwrap (← select (children.map RNode.bounds) entry.bounds))
        let child ← nodeAt E node.vec i
        let (child, sibling) ← insertNode E a entry l child
        putNode E node.vec i child
        match sibling with
        | some s => do
          let children ← nodes E node.vec
          selfInsert E a (l + 1) ⟨Bounds.unionAll (children.map RNode.bounds), node.vec⟩ (.inner s.1 s.2)
        | none => pure (⟨Bounds.union node.bounds entry.bounds, node.vec⟩, none)
    else
      selfInsert E a level node entry

end Insert

section Get

variable [Bounds B] [Bounded Q B] [BEq Q]

/-- node.rs 656-663, 680-687, 1036-1043: the loop over the children in `get`, `get_mut`, `into_get_mut`. -/
def findChildren (q : Q) (rec : RNode B → TM B K V (Option (FCVec × Nat))) :
    List (RNode B) → TM B K V (Option (FCVec × Nat))
  | [] => pure none
  | c :: cs =>
    if Bounds.contains c.bounds (Bounded.bounds q) then do
      match ← rec c with
      | some p => pure (some p)
      | none => findChildren q rec cs
    else findChildren q rec cs

/-- node.rs 648-670 (`into_get_mut`), 672-694 (`get_mut`), 1028-1050 (`NodeRef::get`): the place of the entry found. -/
def find (E : TEnv) (borrow : K → Q) (q : Q) : Nat → RNode B → TM B K V (Option (FCVec × Nat))
  | 0, node => do
    let es ← entries E node.vec
    pure ((es.findIdx? fun e => borrow e.1 == q).map fun i => (node.vec, i))
  | l + 1, node => do
    let cs ← nodes E node.vec
    findChildren q (find E borrow q l) cs

/-- Reading an entry through a reference. node.rs 109-153 (`leaf_children`). -/
def readEntry (E : TEnv) (p : FCVec × Nat) : TM B K V (K × V) := do
  let cell ← p.1.get E.entry p.2
  lift cell.asEntry

/-- node.rs 489-490, 503-504: `std::mem::replace(value_ref, value)`, and any other write through a `&mut Value`. -/
def replaceValue (E : TEnv) (p : FCVec × Nat) (value : V) : TM B K V V := do
  let e ← readEntry E p
  let _ ← p.1.set E.entry p.2 (.entry (e.1, value))
  pure e.2

end Get

section InsertUnique

variable [Bounds B] [Volume B] [Bounded K B] [BEq K]

/-- What `insert_unique` of a node returns: the node, the previous value and the optional sibling.
    Modelling device: stands for no code of the crate. -/
abbrev UniqueResult (B V : Type) := RNode B × Option V × Option (Nat × RNode B)

/-- node.rs 439-513 (`insert_unique`).  When a value is replaced the key passed in is dropped; this is the case exactly when
    the previous value is returned. -/
def insertUniqueNode (E : TEnv) (a : Alloc) (key : K) (value : V) : Nat → RNode B → TM B K V (UniqueResult B V)
  | 0, node => do
    let es ← entries E node.vec
    match es.findIdx? (fun e => e.1 == key) with
    | some i => do
      let old ← replaceValue E (node.vec, i) value
      pure (node, some old, none)
    | none => do
      let r ← insertNode E a (.leaf key value) 0 node
      pure (r.1, none, r.2)
  | l + 1, node => do
    let children ← nodes E node.vec
    match getOnly ((children.zipIdx.filter fun c => Bounds.contains c.1.bounds (Bounded.bounds key)).map (·.2)) with
    | .none => do
      let r ← insertNode E a (.leaf key value) (l + 1) node
      pure (r.1, none, r.2)
    | .only i => do
      let child ← nodeAt E node.vec i
      let (child, old, sibling) ← insertUniqueNode E a key value l child
      putNode E node.vec i child
      match sibling with
      | some s => do
        let children ← nodes E node.vec
        let r ← selfInsert E a (l + 1) ⟨Bounds.unionAll (children.map RNode.bounds), node.vec⟩ (.inner s.1 s.2)
        pure (r.1, old, r.2)
      | none => pure (⟨Bounds.union node.bounds (Bounded.bounds key), node.vec⟩, old, none)
    | .multiple => do
      match ← find E id key (l + 1) node with
      | some p => do
        let old ← replaceValue E p value
        pure (node, some old, none)
      | none => do
        let r ← insertNode E a (.leaf key value) (l + 1) node
        pure (r.1, none, r.2)

end InsertUnique

section Remove

variable [Bounds B] [Bounded K B] [Bounded Q B] [BEq Q]

/-- The array `reinsert_entries` of node.rs 767-768: slot `l` holds the children of a node of level `l`, untagged. -/
abbrev RSlots := List (Option FCVec)

/-- node.rs 769-772: the `on_underfull` callback. -/
def onUnderfull (level : Nat) (v : FCVec) (r : RSlots) : Res RSlots :=
  if level < r.length then .ok (r.set level (some v)) else .error .indexOutOfBounds

/-- node.rs 527-546: the loop over the children in `remove`, `i` counting down.  The result is the vector of the remaining
    children, the entry removed and the slots. -/
def removeLoop (E : TEnv) (a : Alloc) (l : Nat) (q : Q)
    (rec : RNode B → RSlots → TM B K V (RNode B × Option (K × V) × RSlots)) :
    Nat → FCVec → RSlots → TM B K V (FCVec × Option (K × V) × RSlots)
  | 0, v, r => pure (v, none, r)
  | i + 1, v, r => do
    let child ← nodeAt E v i
    if Bounds.intersects child.bounds (Bounded.bounds q) then do
      let (child, found, r) ← rec child r
      putNode E v i child
      match found with
      | some e =>
        if child.vec.len < a.minChildren then do
          let (v, cell) ← v.swapRemove E.node i
          let child ← lift cell.asNode
          let r ← lift (onUnderfull l child.vec r)
          pure (v, some e, r)
        else pure (v, some e, r)
      | none => removeLoop E a l q rec i v r
    else removeLoop E a l q rec i v r

/-- node.rs 515-559 (`remove`): the node, the entry moved out of the tree, and the slots. -/
def removeNode (E : TEnv) (a : Alloc) (borrow : K → Q) (q : Q) :
    Nat → RNode B → RSlots → TM B K V (RNode B × Option (K × V) × RSlots)
  | 0, node, r => do
    let es ← entries E node.vec
    match es.findIdx? (fun e => borrow e.1 == q) with
    | some i => do
      let (v, cell) ← node.vec.swapRemove E.entry i
      let e ← lift cell.asEntry
      let es ← entries E v
      pure (⟨Bounds.unionAll (es.map entryBounds), v⟩, some e, r)
    | none => pure (node, none, r)
  | l + 1, node, r => do
    let (v, found, r) ← removeLoop E a l q (removeNode E a borrow q l) node.vec.len node.vec r
    match found with
    | some e => do
      let cs ← nodes E v
      pure (⟨Bounds.unionAll (cs.map RNode.bounds), v⟩, some e, r)
    | none => pure (⟨node.bounds, v⟩, none, r)

end Remove

/-- node.rs 625-634 (`NodeRefMut::drop`), 1295-1304 (`InnerNodeChildrenRefMut::drop`): the entries dropped, in order.  Popping the
    children of an inner node drops their bounds only. -/
def dropNode (E : TEnv) (a : Alloc) : Nat → RNode B → TM B K V (List (K × V))
  | 0, node => do
    let cells ← node.vec.drop E.entry a.maxChildren
    lift (cells.mapM Cell.asEntry)
  | l + 1, node => do
    let cs ← nodes E node.vec
    let dropped ← cs.foldlM (fun acc c => do pure (acc ++ (← dropNode E a l c))) []
    let _ ← node.vec.drop E.node a.maxChildren
    pure dropped

/-- node.rs 292-337 (`clone_node`, `clone_children`).  Simplification: `clone` of keys and values is the identity. -/
def cloneNode (E : TEnv) (a : Alloc) : Nat → RNode B → TM B K V (RNode B)
  | 0, node => do
    let v ← node.vec.clone E.entry a.maxChildren id
    pure ⟨node.bounds, v⟩
  | l + 1, node => do
    let v ← FCVec.new E.node a.maxChildren
    let cs ← nodes E node.vec
    let v ← cs.foldlM (fun v c => do
      let c ← cloneNode E a l c
      v.push E.node a.maxChildren (.node c)) v
    pure ⟨node.bounds, v⟩

/-- node.rs 1008-1019 (`NodeRef::len`). -/
def lenNode (E : TEnv) : Nat → RNode B → TM B K V Nat
  | 0, node => pure node.vec.len
  | l + 1, node => do
    let cs ← nodes E node.vec
    cs.foldlM (fun size c => do pure (size + (← lenNode E l c))) 0

/-- lib.rs 87-90 (`RTree`), node.rs 706-710 (`NodeContainer`). -/
structure RTree (B : Type) where
  alloc : Alloc
  level : Nat
  root : RNode B

namespace RTree

/-- lib.rs 103-112 (`RTree::new`), node.rs 181-205 (`new_alloc`, `new_leaf`). -/
def new [Bounds B] (E : TEnv) (c : Config) : TM B K V (RTree B) := do
  let v ← FCVec.new E.entry c.maxChildren
  pure { alloc := { minChildren := c.minChildren, maxChildren := c.maxChildren }, level := 0, root := ⟨Bounds.empty, v⟩ }

/-- lib.rs 87-90, node.rs 936-942 (`Drop for NodeContainer`): the entries dropped. -/
def drop (E : TEnv) (t : RTree B) : TM B K V (List (K × V)) := dropNode E t.alloc t.level t.root

section

variable [Bounds B]

/-- node.rs 806-842 (`branch`). -/
def branch (E : TEnv) (t : RTree B) (sibling : Nat × RNode B) : TM B K V (RTree B) := do
  panicIf (sibling.1 ≠ t.level) .levelMismatch
  let v ← FCVec.new E.node t.alloc.maxChildren
  let v ← v.push E.node t.alloc.maxChildren (.node t.root)
  let v ← v.push E.node t.alloc.maxChildren (.node sibling.2)
  pure { t with level := t.level + 1, root := ⟨Bounds.union t.root.bounds sibling.2.bounds, v⟩ }

/-- node.rs 844-861 (`try_unbranch`): `*self = new_root` drops the old root, which has no children left; the entries that drops are
    returned. -/
def tryUnbranch (E : TEnv) (t : RTree B) : TM B K V (RTree B × List (K × V)) :=
  match t.level with
  | 0 => pure (t, [])
  | l + 1 =>
    if t.root.vec.len = 1 then do
      let (v, cell) ← t.root.vec.swapRemove E.node 0
      let root ← lift cell.asNode
      let dropped ← drop E { t with root := ⟨t.root.bounds, v⟩ }
      pure ({ t with level := l, root := root }, dropped)
    else pure (t, [])

end

section

variable [Bounds B] [Volume B] [Bounded K B]

/-- node.rs 717-726 (`NodeContainer::insert_entry`). -/
def insertEntry (E : TEnv) (t : RTree B) (entry : REntry B K V) : TM B K V (RTree B) := do
  let (root, sibling) ← insertNode E t.alloc entry t.level t.root
  match sibling with
  | some s => branch E { t with root := root } s
  | none => pure { t with root := root }

/-- lib.rs 366-375 (`RTree::insert`). -/
def insert (E : TEnv) (t : RTree B) (key : K) (value : V) : TM B K V (RTree B) := insertEntry E t (.leaf key value)

/-- lib.rs 377-388 (`RTree::insert_unique`): the tree and the value returned.  The key passed in is dropped if a value is
    returned. -/
def insertUnique [BEq K] (E : TEnv) (t : RTree B) (key : K) (value : V) : TM B K V (RTree B × Option V) := do
  let (root, old, sibling) ← insertUniqueNode E t.alloc key value t.level t.root
  match sibling with
  | some s => do
    let t ← branch E { t with root := root } s
    pure (t, old)
  | none => pure ({ t with root := root }, old)

/-- node.rs 783-794: the entry made of an element of slot `level`. -/
def slotEntry : Nat → Cell B K V → Res (REntry B K V)
  | 0, c => do
    let e ← c.asEntry
    pure (.leaf e.1 e.2)
  | l + 1, c => do
    let n ← c.asNode
    pure (.inner l n)

/-- node.rs 783-794, 1450-1467, 1512-1533, fc_vec.rs 510-520, 542-550: `for entry in children { self.insert_entry(entry) }`, then the
    drop of the by-value iterator.  `e` is the environment of the element type.  The elements the iterator drops are
    returned. -/
def reinsertLoop (E : TEnv) (e : Env) (level : Nat) : Nat → IntoIter → RTree B → TM B K V (RTree B × List (Cell B K V))
  | 0, _, _ => panic .diverge
  | n + 1, it, t => do
    let (it, next) ← it.next e
    match next with
    | some c => do
      let entry ← lift (slotEntry level c)
      let t ← insertEntry E t entry
      reinsertLoop E e level n it t
    | none => do
      let dropped ← it.drop e
      pure (t, dropped)

/-- node.rs 276-290 (`wrap_children`): the index of the slot decides the element type. -/
def slotEnv (E : TEnv) : Nat → Env
  | 0 => E.entry
  | _ + 1 => E.node

/-- node.rs 775-796: `for (level, entries) in reinsert_entries.iter_mut().enumerate()`. -/
def reinsert (E : TEnv) : List (Option FCVec × Nat) → RTree B → TM B K V (RTree B × List (Cell B K V))
  | [], t => pure (t, [])
  | (none, _) :: rest, t => reinsert E rest t
  | (some v, level) :: rest, t => do
    let it ← IntoIter.new (slotEnv E level) t.alloc.maxChildren v
    let (t, d) ← reinsertLoop E (slotEnv E level) level (v.len + 1) it t
    let (t, d') ← reinsert E rest t
    pure (t, d ++ d')

/-- lib.rs 390-407 (`RTree::remove`), node.rs 757-802 (`NodeContainer::remove`): the tree, the entry moved out of it (its key is dropped by
    node.rs 551, its value returned), and whatever else is dropped on the way. -/
def remove [Bounded Q B] [BEq Q] (E : TEnv) (borrow : K → Q) (t : RTree B) (q : Q) :
    TM B K V (RTree B × Option (K × V) × List (Cell B K V)) := do
  let (root, found, slots) ← removeNode E t.alloc borrow q t.level t.root (List.replicate t.level none)
  match found with
  | some e => do
    let (t, d) ← tryUnbranch E { t with root := root }
    let (t, d') ← reinsert E slots.zipIdx t
    pure (t, some e, d.map .entry ++ d')
  | none => pure ({ t with root := root }, none, [])

end

/-- lib.rs 87 (`#[derive(Clone)]`), node.rs 944-953 (`Clone for NodeContainer`). -/
def clone (E : TEnv) (t : RTree B) : TM B K V (RTree B) := do
  let root ← cloneNode E t.alloc t.level t.root
  pure { t with root := root }

section

variable [Bounds B] [Bounded Q B] [BEq Q]

/-- lib.rs 294-308 (`RTree::get`): a copy of the value referred to. -/
def get (E : TEnv) (borrow : K → Q) (t : RTree B) (q : Q) : TM B K V (Option V) := do
  match ← find E borrow q t.level t.root with
  | some p => do
    let e ← readEntry E p
    pure (some e.2)
  | none => pure none

/-- lib.rs 310-324 (`RTree::get_mut`) followed by `mem::replace` through the reference: the previous value. -/
def setValue (E : TEnv) (borrow : K → Q) (t : RTree B) (q : Q) (value : V) : TM B K V (Option V) := do
  match ← find E borrow q t.level t.root with
  | some p => do
    let old ← replaceValue E p value
    pure (some old)
  | none => pure none

end

/-- lib.rs 326-329 (`RTree::len`). -/
def len (E : TEnv) (t : RTree B) : TM B K V Nat := lenNode E t.level t.root

/-- lib.rs 331-334 (`RTree::is_empty`). -/
def isEmpty (t : RTree B) : Bool := t.root.vec.len == 0

end RTree

end RTree.Raw
