import Verif.Model.RawTree
import Verif.Programs
/-!
# Panics, unwinding and misbehaving user code (node.rs, split.rs, fc_vec.rs, lib.rs)

The raw-memory model of `Verif/Model/RawTree.lean` once more, now with what happens when user code panics in the middle of an operation and
the caller catches the panic:

* Every call of user code (`Bounds`, `Bounded`, `Volume`, `Eq`, `Borrow`, `Clone`) can panic, and can answer differently each time it is called:
  the world holds a sequence of implementations (`Code`), `none` standing for a panic, and each call uses up one element of the sequence.
* The choice of a child (select.rs), of the seeds and of the next candidate of a split (split.rs) are loops of safe code that read bounds and compare volumes,
  and with such user code they can come to any result; here the choice is an arbitrary number, in range or not (`Code.select`, `Code.worst`, `Code.choice`).
* A function with a `&mut` argument is a computation on a *place* of type `σ`: what it wrote to the place is there also if it panicked.
* A panic runs the destructors of the local variables that own something (`guarded`, `withLocal`), innermost first.
* Bounds own memory too: the bounds stored in a node own a block which is allocated when they are stored and freed when they are dropped.  (Bounds that
  are only held in local variables are not tracked: no unsafe code touches them.)
* The world logs the keys and values dropped, and those made by `Clone`.
* The destructors of keys and of bounds can panic too (`destroyed`) when the crate runs them in the course of an insertion or removal; the destructors of
  values are run only while unwinding then.  What the function was about to return is dropped or leaked in that case, depending on the compiler.

Not modelled: destructors that panic while unwinding, which abort the program, and those that panic while a whole tree is dropped, for which see
`Verif/Model/Destructors.lean`.  The destructor of bounds that live no longer than one call of user code is part of that call.
-/

namespace RTree.Unwind

open Raw

/-- Bounds in a node, with the memory they own. node.rs 80-83 (`Node::bounds`). -/
structure Own (B : Type) where
  val : B
  mem : Nat

/-- A node in memory. node.rs 80-83. -/
abbrev UNode (B : Type) := RNode (Own B)

/-- An element of `FCVec<Node>` or `FCVec<(Key, Value)>`. node.rs 45-48. -/
abbrev UCell (B K V : Type) := Cell (Own B) K V

/-- A tree. lib.rs 87-90, node.rs 706-710. -/
abbrev UTree (B : Type) := Raw.RTree (Own B)

/-- What user code answers at one moment: the implementations of `Bounds`, `Contains`, `Intersects` (bounds.rs 19-41, contains.rs 1-3,
    intersects.rs 5-7), `Bounded`, `Eq`, `Borrow`, `Clone`; and the result of the loops of the crate that compare volumes (`none` if they panic). -/
structure Code (B K V Q : Type) where
  empty : B
  union : B → B → B
  unionAll : List B → B
  contains : B → B → Bool
  intersects : B → B → Bool
  bounds : K → B
  boundsQ : Q → B
  eq : K → K → Bool
  eqQ : Q → Q → Bool
  borrow : K → Q
  cloneKey : K → K
  cloneValue : V → V
  /-- select.rs 26-52 (`select`) -/
  select : List B → B → Option Nat
  /-- split.rs 12-47 (`worst_combination`) -/
  worst : List (UCell B K V) → UCell B K V → Option (Nat × Nat)
  /-- split.rs 121-132: given `min_children`, the sizes and bounds of the two groups and the remaining elements: whether to add to group 1, and which element -/
  choice : Nat → Nat → Nat → B → B → List (UCell B K V) → Option (Bool × Nat)
  /-- The destructor of a key: `some true` if it returns, `some false` if it panics, `none` if it panics and what the function was about to return is leaked -/
  dropKey : K → Option Bool
  /-- The destructor of bounds; see `dropKey` -/
  dropBounds : B → Option Bool

/-- Memory, the keys and values dropped so far, those made by `Clone` so far, and the user code that will be called next.
    Modelling device: stands for no code of the crate. -/
structure World (B K V Q : Type) where
  heap : Raw.Heap (UCell B K V)
  keys : List K
  values : List V
  madeKeys : List K
  madeValues : List V
  code : Nat → Option (Code B K V Q)

/-- How a computation can end without a result: a panic, which unwinds and can be caught; or undefined behaviour, non-termination, a panic while
    unwinding. Modelling device: stands for no code of the crate. -/
inductive Stop where
  | panic
  | fatal
  deriving DecidableEq

/-- How a panic of the raw-memory model counts. Modelling device: stands for no code of the crate. -/
def stopOf : Panic → Stop
  | .ub => .fatal
  | .diverge => .fatal
  | _ => .panic

/-- Computations on a place of type `σ`; the place and the world are there also after a panic.
    Modelling device: stands for no code of the crate. -/
def U (B K V Q σ β : Type) := σ → World B K V Q → Except Stop β × σ × World B K V Q

variable {B K V Q σ τ β : Type}

/-- Sequencing: a panic ends the computation. Modelling device: stands for no code of the crate. -/
instance : Monad (U B K V Q σ) where
  pure b := fun s w => (.ok b, s, w)
  bind x f := fun s w =>
    match x s w with
    | (.ok b, s', w') => f b s' w'
    | (.error e, s', w') => (.error e, s', w')

/-- The place. Modelling device: stands for no code of the crate. -/
def place : U B K V Q σ σ := fun s w => (.ok s, s, w)

/-- Overwrites the place, without dropping. Modelling device: stands for no code of the crate. -/
def put (s : σ) : U B K V Q σ Unit := fun _ w => (.ok (), s, w)

/-- A panic. Modelling device: stands for no code of the crate. -/
def panic : U B K V Q σ β := fun s w => (.error .panic, s, w)

/-- `if c { panic!() }`. Modelling device: stands for no code of the crate. -/
def panicIf (c : Prop) [Decidable c] : U B K V Q σ Unit := if c then panic else pure ()

/-- A call of user code. Modelling device: stands for no code of the crate. -/
def user (f : Code B K V Q → Option β) : U B K V Q σ β := fun s w =>
  match (w.code 0).bind f with
  | none => (.error .panic, s, { w with code := fun n => w.code (n + 1) })
  | some b => (.ok b, s, { w with code := fun n => w.code (n + 1) })

/-- An operation on memory that does not call user code. Modelling device: stands for no code of the crate. -/
def mem (x : Raw.M (UCell B K V) β) : U B K V Q σ β := fun s w =>
  match x w.heap with
  | .ok (b, h) => (.ok b, s, { w with heap := h })
  | .error e => (.error (stopOf e), s, w)

/-- A local variable that is dropped by `cleanup` if `x` panics and that `x` does not change.  A panic while unwinding aborts.
    Modelling device: stands for no code of the crate. -/
def guarded (cleanup : U B K V Q σ Unit) (x : U B K V Q σ β) : U B K V Q σ β := fun s w =>
  match x s w with
  | (.ok b, s', w') => (.ok b, s', w')
  | (.error .fatal, s', w') => (.error .fatal, s', w')
  | (.error .panic, s', w') =>
    match cleanup s' w' with
    | (.ok _, s'', w'') => (.error .panic, s'', w'')
    | (.error _, s'', w'') => (.error .fatal, s'', w'')

/-- A local variable, initially `a`, that `x` changes, and that is dropped by `cleanup` if `x` panics; its last value is part of
    the result. Modelling device: stands for no code of the crate. -/
def withLocal (a : τ) (cleanup : τ → U B K V Q σ Unit) (x : U B K V Q (σ × τ) β) : U B K V Q σ (β × τ) := fun s w =>
  match x (s, a) w with
  | (.ok b, s', w') => (.ok (b, s'.2), s'.1, w')
  | (.error .fatal, s', w') => (.error .fatal, s'.1, w')
  | (.error .panic, s', w') =>
    match cleanup s'.2 s'.1 w' with
    | (.ok _, s'', w'') => (.error .panic, s'', w'')
    | (.error _, s'', w'') => (.error .fatal, s'', w'')

/-- `std::panic::catch_unwind`: `none` if the computation panicked. Client code. -/
def catchPanic (x : U B K V Q σ β) : U B K V Q σ (Option β) := fun s w =>
  match x s w with
  | (.ok b, s', w') => (.ok (some b), s', w')
  | (.error .panic, s', w') => (.ok none, s', w')
  | (.error .fatal, s', w') => (.error .fatal, s', w')

/-- A loop over a list. Modelling device: stands for no code of the crate. -/
def each {α : Type} (f : α → U B K V Q σ Unit) : List α → U B K V Q σ Unit
  | [] => pure ()
  | a :: as => do
    f a
    each f as

/-! ### Destructors -/

/-- The destructor of a key. -/
def dropKey (k : K) : U B K V Q σ Unit := fun s w => (.ok (), s, { w with keys := k :: w.keys })

/-- The destructor of a value. -/
def dropValue (v : V) : U B K V Q σ Unit := fun s w => (.ok (), s, { w with values := v :: w.values })

/-- A key made by `Clone`. node.rs 292-337. -/
def makeKey (k : K) : U B K V Q σ Unit := fun s w => (.ok (), s, { w with madeKeys := k :: w.madeKeys })

/-- A value made by `Clone`. node.rs 292-337. -/
def makeValue (v : V) : U B K V Q σ Unit := fun s w => (.ok (), s, { w with madeValues := v :: w.madeValues })

/-- The memory owned by bounds. Modelling device: stands for no code of the crate. -/
def newBounds (b : B) : U B K V Q σ (Own B) := do
  let p ← mem (newBlock ⟨0, []⟩)
  pure ⟨b, p.block⟩

/-- Frees a block that must be live. Modelling device: stands for no code of the crate. -/
def freeBlock {α : Type} (b : Nat) : Raw.M α Unit := do
  let _ ← block ⟨b, 0⟩
  modify fun h => h.set b none

/-- The destructor of bounds: frees the memory they own; to free it twice is undefined behaviour. -/
def dropBounds (b : Own B) : U B K V Q σ Unit := mem (freeBlock b.mem)

/-- The destructor of an element of a vector: of a pair, or of a `Node`, which does not drop its children (node.rs 63-65). -/
def dropCell : UCell B K V → U B K V Q σ Unit
  | .entry e => do
    dropKey e.1
    dropValue e.2
  | .node n => dropBounds n.bounds

/-- fc_vec.rs 413-419 (`Drop for FCVecContainer`), 332-338. -/
def dropVec (e : Env) (cap : Nat) (v : FCVec) : U B K V Q σ Unit := do
  let cells ← mem (v.drop e cap)
  each dropCell cells

/-- node.rs 625-634 (`NodeRefMut::drop`), 1295-1304 (`InnerNodeChildrenRefMut::drop`). -/
def dropChildren (E : TEnv) (cap : Nat) : Nat → FCVec → U B K V Q σ Unit
  | 0, v => dropVec E.entry cap v
  | l + 1, v => do
    let cs ← mem (nodes E v)
    each (fun c => dropChildren E cap l c.vec) cs
    dropVec E.node cap v

/-- node.rs 936-942 (`Drop for NodeContainer`), and the drop of its fields. -/
def dropContainer (E : TEnv) (cap : Nat) (level : Nat) (n : UNode B) : U B K V Q σ Unit := do
  dropChildren E cap level n.vec
  dropBounds n.bounds

/-- The destructor of a `NodeEntry` (node.rs 18-21). -/
def dropEntry (E : TEnv) (cap : Nat) : REntry (Own B) K V → U B K V Q σ Unit
  | .inner level n => dropContainer E cap level n
  | .leaf k v => do
    dropKey k
    dropValue v

/-- The destructor of an optional value. -/
def dropOption : Option V → U B K V Q σ Unit
  | some v => dropValue v
  | none => pure ()

/-- A destructor has run: does it panic?  If so, the local variables are dropped (`locals`), and what the function was about to return is dropped (`result`) or
    leaked: rust-lang/rust#47949. Modelling device: stands for no code of the crate. -/
def destroyed (ask : Code B K V Q → Option Bool) (locals result : U B K V Q σ Unit) : U B K V Q σ Unit := do
  let returns ← guarded locals (user ask)
  if returns then pure () else guarded locals (guarded result panic)

/-- A function with bounds in a local variable, which is dropped when the function returns. node.rs 356 (`entry_bounds`), 416, 449. -/
def returning (bounds : B) (result : β → U B K V Q σ Unit) (x : U B K V Q σ β) : U B K V Q σ β := do
  let r ← x
  destroyed (fun c => c.dropBounds bounds) (pure ()) (result r)
  pure r

/-- The destructor of an optional node. -/
def dropSibling (E : TEnv) (cap : Nat) : Option (Nat × UNode B) → U B K V Q σ Unit
  | some s => dropContainer E cap s.1 s.2
  | none => pure ()

/-! ### Places -/

/-- `self.node.bounds = b`: drops the old bounds; the new ones are stored even if that panics; `locals` drops the local variables.
    node.rs 369, 372, 382, 398, 428, 431, 482, 485, 540, 552. -/
def setBounds (b : B) (locals : U B K V Q (UNode B) Unit) : U B K V Q (UNode B) Unit := do
  let n ← place
  dropBounds n.bounds
  let b ← newBounds b
  put { n with bounds := b }
  destroyed (fun c => c.dropBounds n.bounds.val) locals (pure ())

/-- An operation on the vector of a node. node.rs 597-615 (`children_mut`). -/
def onVec (f : FCVec → Raw.M (UCell B K V) (FCVec × β)) : U B K V Q (UNode B) β := do
  let n ← place
  let r ← mem (f n.vec)
  put { n with vec := r.1 }
  pure r.2

/-- Work on the child at an index, in its slot. node.rs 1310-1318 (`at_mut`). -/
def onChild (E : TEnv) (i : Nat) (x : U B K V Q (UNode B) β) : U B K V Q (UNode B) β := fun n w =>
  match nodeAt E n.vec i w.heap with
  | .error e => (.error (stopOf e), n, w)
  | .ok (c, h) =>
    let r := x c { w with heap := h }
    match putNode E n.vec i r.2.1 r.2.2.heap with
    | .ok (_, h') => (r.1, n, { r.2.2 with heap := h' })
    | .error _ => (.error .fatal, n, r.2.2)

/-- Work on the first of two places. Modelling device: stands for no code of the crate. -/
def onFst (x : U B K V Q σ β) : U B K V Q (σ × τ) β := fun s w =>
  let r := x s.1 w
  (r.1, (r.2.1, s.2), r.2.2)

/-- Work on the second of two places. Modelling device: stands for no code of the crate. -/
def onSnd (x : U B K V Q τ β) : U B K V Q (σ × τ) β := fun s w =>
  let r := x s.2 w
  (r.1, (s.1, r.2.1), r.2.2)

/-- Work on the root. node.rs 892-898 (`borrow_mut`). -/
def onRoot (x : U B K V Q (UNode B) β) : U B K V Q (UTree B) β := fun t w =>
  let r := x t.root w
  (r.1, { t with root := r.2.1 }, r.2.2)

/-! ### Splitting -/

/-- node.rs 156-172 (`Bounded for (Key, Value)`, `Bounded for Node`). -/
def Code.cellBounds (c : Code B K V Q) : UCell B K V → B
  | .node n => n.bounds.val
  | .entry e => c.bounds e.1

/-- split.rs 52-63 (`seed_split_groups`).  `overflow` is owned by the function until it has been swapped. -/
def seedSplitGroups (e : Env) (overflow : UCell B K V) : U B K V Q (UNode B) (UCell B K V) :=
  guarded (dropCell overflow) (do
    let n ← place
    let values ← mem (n.vec.slice e)
    let ij ← user fun c => c.worst values overflow
    mem (n.vec.swap e 0 ij.1)
    if ij.2 < n.vec.len then mem (n.vec.set e ij.2 overflow) else pure overflow)

/-- `vec.push(x)`: on a panic `x` is dropped. fc_vec.rs 214-222, 495-497. -/
def pushLocal (e : Env) (cap : Nat) (x : UCell B K V) : U B K V Q FCVec Unit :=
  guarded (dropCell x) (do
    let v ← place
    let v ← mem (v.push e cap x)
    put v)

/-- split.rs 120-139: one iteration of the loop. -/
def splitStep (e : Env) (a : Alloc) (s : Nat × B × B) : U B K V Q (UNode B × FCVec) (Nat × B × B) := do
  let n ← onFst place
  let g ← onSnd place
  let values ← mem (n.vec.slice e)
  let remaining := values.drop s.1
  let c ← user fun c => c.choice a.minChildren s.1 g.len s.2.1 s.2.2 remaining
  let x ← mem (lift (index remaining c.2))
  let b ← user fun co => some (co.union (if c.1 then s.2.1 else s.2.2) (co.cellBounds x))
  if c.1 then do
    mem (n.vec.swap e (s.1 + c.2) s.1)
    pure (s.1 + 1, b, s.2.2)
  else do
    let y ← onFst (onVec fun v => v.swapRemove e (s.1 + c.2))
    onSnd (pushLocal e a.maxChildren y)
    pure (s.1, s.2.1, b)

/-- split.rs 119-140: `while group_1_len < values.len()`, with fuel. -/
def splitLoop (e : Env) (a : Alloc) : Nat → Nat × B × B → U B K V Q (UNode B × FCVec) (B × B)
  | fuel, s => do
    let n ← onFst place
    if s.1 < n.vec.len then
      match fuel with
      | 0 => mem (Raw.panic .diverge)
      | fuel + 1 => do
        let s ← splitStep e a s
        splitLoop e a fuel s
    else pure s.2

/-- split.rs 97-143 (`QuadraticSplitter::split`): the bounds of the two groups and the second group. -/
def split (e : Env) (a : Alloc) (overflow : UCell B K V) : U B K V Q (UNode B) ((B × B) × FCVec) := do
  let n ← place
  guarded (dropCell overflow) (panicIf (n.vec.len < 1))
  let group2 ← guarded (dropCell overflow) (mem (FCVec.new e a.maxChildren))
  withLocal group2 (dropVec e a.maxChildren) (do
    let seed ← onFst (seedSplitGroups e overflow)
    onSnd (pushLocal e a.maxChildren seed)
    let v0 ← mem (n.vec.get e 0)
    let b1 ← user fun c => some (c.cellBounds v0)
    let b2 ← user fun c => some (c.cellBounds seed)
    splitLoop e a n.vec.len (1, b1, b2))

/-! ### Insertion -/

/-- node.rs 32-43 (`Bounded for NodeEntry`). -/
def Code.entryBounds (c : Code B K V Q) : REntry (Own B) K V → B
  | .inner _ n => n.bounds.val
  | .leaf k _ => c.bounds k

/-- node.rs 365-374, 381-400: what follows `try_push` in `self_insert`; `l` is the level of the node. -/
def afterPush (E : TEnv) (e : Env) (a : Alloc) (l : Nat) (bounds : B) : Option (UCell B K V) → U B K V Q (UNode B) (Option (Nat × UNode B))
  | some o => do
    let r ← split e a o
    let b2 ← newBounds r.1.2
    setBounds r.1.1 (dropContainer E a.maxChildren l ⟨b2, r.2⟩)
    pure (some (l, ⟨b2, r.2⟩))
  | none => do
    let n ← place
    let b ← user fun c => some (c.union n.bounds.val bounds)
    setBounds b (pure ())
    pure none

/-- node.rs 351-408 (`self_insert`), 1343-1393 (`try_push`, `split`). -/
def selfInsert (E : TEnv) (a : Alloc) (level : Nat) (entry : REntry (Own B) K V) : U B K V Q (UNode B) (Option (Nat × UNode B)) := do
  let bounds ← guarded (dropEntry E a.maxChildren entry) (user fun c => some (c.entryBounds entry))
  returning bounds (dropSibling E a.maxChildren) (match level, entry with
    | l + 1, .inner entryLevel n => do
      guarded (dropEntry E a.maxChildren entry) (panicIf (l ≠ entryLevel))
      let o ← onVec fun v => v.tryPush E.node a.maxChildren (.node n)
      afterPush E E.node a (l + 1) bounds o
    | 0, .leaf key value => do
      let o ← onVec fun v => v.tryPush E.entry a.maxChildren (.entry (key, value))
      afterPush E E.entry a 0 bounds o
    | _, _ => guarded (dropEntry E a.maxChildren entry) panic)

/-- node.rs 424-433, 478-487: what follows the insertion into a child: `sibling` is the node split off, `bounds` those of the entry inserted. -/
def afterChild (E : TEnv) (a : Alloc) (l : Nat) (bounds : B) : Option (Nat × UNode B) → U B K V Q (UNode B) (Option (Nat × UNode B))
  | some s => do
    let n ← place
    let children ← guarded (dropContainer E a.maxChildren s.1 s.2) (mem (nodes E n.vec))
    let b ← guarded (dropContainer E a.maxChildren s.1 s.2) (user fun c => some (c.unionAll (children.map fun n => n.bounds.val)))
    setBounds b (dropContainer E a.maxChildren s.1 s.2)
    selfInsert E a (l + 1) (.inner s.1 s.2)
  | none => do
    let n ← place
    let b ← user fun c => some (c.union n.bounds.val bounds)
    setBounds b (pure ())
    pure none

/-- node.rs 410-437 (`insert`). -/
def insertNode (E : TEnv) (a : Alloc) (entry : REntry (Own B) K V) : Nat → U B K V Q (UNode B) (Option (Nat × UNode B))
  | 0 => do
    let bounds ← guarded (dropEntry E a.maxChildren entry) (user fun c => some (c.entryBounds entry))
    returning bounds (dropSibling E a.maxChildren) (if entry.targetLevel ≠ 0 then guarded (dropEntry E a.maxChildren entry) panic
      else selfInsert E a 0 entry)
  | l + 1 => do
    let bounds ← guarded (dropEntry E a.maxChildren entry) (user fun c => some (c.entryBounds entry))
    returning bounds (dropSibling E a.maxChildren) (if entry.targetLevel ≠ l + 1 then do
      let i ← guarded (dropEntry E a.maxChildren entry) (do
        let n ← place
        let children ← mem (nodes E n.vec)
        let i ← user fun c => c.select (children.map fun n => n.bounds.val) bounds
        let _ ← mem (nodeAt E n.vec i)
        pure i)
      let sibling ← onChild E i (insertNode E a entry l)
      afterChild E a l bounds sibling
    else selfInsert E a (l + 1) entry)

/-! ### Unique insertion -/

/-- node.rs 503, 549, 667, 691, 1047 (`find`, `position` on the entries of a leaf): the first entry, from index `i` on, for which user code answers yes. -/
def position (p : Code B K V Q → K → Bool) : List (K × V) → Nat → U B K V Q σ (Option Nat)
  | [], _ => pure none
  | e :: es, i => do
    if ← user fun c => some (p c e.1) then pure (some i) else position p es (i + 1)

/-- node.rs 656-663, 680-687, 1036-1043: the loop over the children in `get`, `get_mut`, `into_get_mut`. -/
def findChildren (b : Code B K V Q → B) (rec : UNode B → U B K V Q σ (Option (FCVec × Nat))) :
    List (UNode B) → U B K V Q σ (Option (FCVec × Nat))
  | [] => pure none
  | n :: ns => do
    if ← user fun c => some (c.contains n.bounds.val (b c)) then
      match ← rec n with
      | some p => pure (some p)
      | none => findChildren b rec ns
    else findChildren b rec ns

/-- node.rs 648-670 (`into_get_mut`), 672-694 (`get_mut`), 1028-1050 (`NodeRef::get`): the place of the entry found; `b` and `p` are the bounds of the key
    looked up and the comparison with it. -/
def find (E : TEnv) (b : Code B K V Q → B) (p : Code B K V Q → K → Bool) : Nat → UNode B → U B K V Q σ (Option (FCVec × Nat))
  | 0, n => do
    let es ← mem (entries E n.vec)
    let i ← position p es 0
    pure (i.map fun i => (n.vec, i))
  | l + 1, n => do
    let cs ← mem (nodes E n.vec)
    findChildren b (find E b p l) cs

/-- node.rs 452-456, util.rs 13-23 (`get_only`): the children that contain the bounds of the key, up to the second one. -/
def onlyLoop (key : K) : List (UNode B) → Nat → Option Nat → U B K V Q σ (GetOnly Nat)
  | [], _, none => pure .none
  | [], _, some j => pure (.only j)
  | n :: ns, i, found => do
    if ← user fun c => some (c.contains n.bounds.val (c.bounds key)) then
      match found with
      | none => onlyLoop key ns (i + 1) (some i)
      | some _ => pure .multiple
    else onlyLoop key ns (i + 1) found

/-- The destructors of a key and a value. -/
def dropPair (k : K) (v : V) : U B K V Q σ Unit := do
  dropKey k
  dropValue v

/-- node.rs 492-493, 503-504: the value at the place found is replaced; the bounds in `entry_bounds` and the key are dropped on return. -/
def replaced (E : TEnv) (bounds : B) (key : K) (value : V) (p : FCVec × Nat) : U B K V Q (UNode B) (Option V × Option (Nat × UNode B)) := do
  let old ← mem (replaceValue E p value)
  destroyed (fun c => c.dropBounds bounds) (dropKey key) (dropValue old)
  dropKey key
  destroyed (fun c => c.dropKey key) (pure ()) (dropValue old)
  pure (some old, none)

/-- node.rs 459-466, 494-499, 505-510: the key is new. -/
def notReplaced (E : TEnv) (a : Alloc) (bounds : B) (key : K) (value : V) (l : Nat) : U B K V Q (UNode B) (Option V × Option (Nat × UNode B)) := do
  let s ← returning bounds (dropSibling E a.maxChildren) (insertNode E a (.leaf key value) l)
  pure (none, s)

/-- node.rs 439-513 (`insert_unique`): the previous value and the node split off. -/
def insertUniqueNode (E : TEnv) (a : Alloc) (key : K) (value : V) : Nat → U B K V Q (UNode B) (Option V × Option (Nat × UNode B))
  | 0 => do
    let bounds ← guarded (dropPair key value) (user fun c => some (c.bounds key))
    let i ← guarded (dropPair key value) (do
      let n ← place
      let es ← mem (entries E n.vec)
      position (fun c k => c.eq k key) es 0)
    match i with
    | some i => do
      let n ← place
      replaced E bounds key value (n.vec, i)
    | none => notReplaced E a bounds key value 0
  | l + 1 => do
    let bounds ← guarded (dropPair key value) (user fun c => some (c.bounds key))
    let only ← guarded (dropPair key value) (do
      let n ← place
      let children ← mem (nodes E n.vec)
      onlyLoop key children 0 none)
    match only with
    | .none => notReplaced E a bounds key value (l + 1)
    | .only i =>
      returning bounds (fun r => do
        dropOption r.1
        dropSibling E a.maxChildren r.2) (do
        let r ← onChild E i (insertUniqueNode E a key value l)
        let s ← guarded (dropOption r.1) (afterChild E a l bounds r.2)
        pure (r.1, s))
    | .multiple => do
      let p ← guarded (dropPair key value) (do
        let n ← place
        find E (fun c => c.bounds key) (fun c k => c.eq k key) (l + 1) n)
      match p with
      | some p => replaced E bounds key value p
      | none => notReplaced E a bounds key value (l + 1)

/-! ### Removal -/

/-- The place during a removal: the node, and the array `reinsert_entries` (node.rs 767-768). -/
abbrev Removing (B : Type) := UNode B × RSlots

/-- node.rs 769-772: the `on_underfull` callback; whatever was in the slot before is overwritten without being dropped. -/
def onUnderfull (level : Nat) (v : FCVec) : U B K V Q RSlots Unit := do
  let r ← place
  panicIf (¬ level < r.length)
  put (r.set level (some v))

/-- Work on the child at an index while removing. node.rs 1310-1318 (`at_mut`). -/
def onChildR (E : TEnv) (i : Nat) (x : U B K V Q (Removing B) β) : U B K V Q (Removing B) β := fun s w =>
  match nodeAt E s.1.vec i w.heap with
  | .error e => (.error (stopOf e), s, w)
  | .ok (c, h) =>
    let r := x (c, s.2) { w with heap := h }
    match putNode E s.1.vec i r.2.1.1 r.2.2.heap with
    | .ok (_, h') => (r.1, (s.1, r.2.1.2), { r.2.2 with heap := h' })
    | .error _ => (.error .fatal, (s.1, r.2.1.2), r.2.2)

/-- node.rs 534-543: what follows when the entry was found in the child at index `i`, a node of level `l`. -/
def afterRemove (E : TEnv) (a : Alloc) (l i : Nat) (value : V) : U B K V Q (Removing B) Unit :=
  guarded (dropValue value) (do
    let n ← onFst place
    let child ← mem (nodeAt E n.vec i)
    if child.vec.len < a.minChildren then do
      let cell ← onFst (onVec fun v => v.swapRemove E.node i)
      let child ← mem (lift cell.asNode)
      dropBounds child.bounds
      destroyed (fun c => c.dropBounds child.bounds.val) (pure ()) (dropChildren E a.maxChildren l child.vec)
      onSnd (onUnderfull l child.vec)
    else pure ()
    let n ← onFst place
    let cs ← mem (nodes E n.vec)
    let b ← user fun c => some (c.unionAll (cs.map fun n => n.bounds.val))
    onFst (setBounds b (pure ())))

/-- node.rs 527-546: the loop over the children in `remove`, `i` counting down. -/
def removeLoop (E : TEnv) (a : Alloc) (l : Nat) (q : Q) (rec : U B K V Q (Removing B) (Option V)) : Nat → U B K V Q (Removing B) (Option V)
  | 0 => pure none
  | i + 1 => do
    let n ← onFst place
    let child ← mem (nodeAt E n.vec i)
    if ← user fun c => some (c.intersects child.bounds.val (c.boundsQ q)) then do
      match ← onChildR E i rec with
      | some v => do
        afterRemove E a l i v
        pure (some v)
      | none => removeLoop E a l q rec i
    else removeLoop E a l q rec i

/-- node.rs 515-559 (`remove`). -/
def removeNode (E : TEnv) (a : Alloc) (q : Q) : Nat → U B K V Q (Removing B) (Option V)
  | 0 => do
    let n ← onFst place
    let es ← mem (entries E n.vec)
    match ← position (fun c k => c.eqQ (c.borrow k) q) es 0 with
    | some i => do
      let cell ← onFst (onVec fun v => v.swapRemove E.entry i)
      let e ← mem (lift cell.asEntry)
      dropKey e.1
      destroyed (fun c => c.dropKey e.1) (pure ()) (dropValue e.2)
      guarded (dropValue e.2) (do
        let n ← onFst place
        let es ← mem (entries E n.vec)
        let b ← user fun c => some (c.unionAll (es.map fun e => c.bounds e.1))
        onFst (setBounds b (pure ())))
      pure (some e.2)
    | none => pure none
  | l + 1 => do
    let n ← onFst place
    removeLoop E a l q (removeNode E a q l) n.vec.len

/-! ### Trees -/

/-- lib.rs 103-112 (`RTree::new`), node.rs 181-205 (`new_alloc`, `new_leaf`). -/
def newTree (E : TEnv) (c : Config) : U B K V Q σ (UTree B) := do
  let b ← user fun c => some c.empty
  let v ← mem (FCVec.new E.entry c.maxChildren)
  let b ← newBounds b
  pure { alloc := { minChildren := c.minChildren, maxChildren := c.maxChildren }, level := 0, root := ⟨b, v⟩ }

/-- node.rs 806-842 (`branch`).  The root is copied (`ptr::read`), so during the two `push` calls both `self` and the new vector hold it. -/
def branch (E : TEnv) (s : Nat × UNode B) : U B K V Q (UTree B) Unit := do
  let t ← place
  let b ← guarded (dropContainer E t.alloc.maxChildren s.1 s.2) (do
    panicIf (s.1 ≠ t.level)
    user fun c => some (c.union t.root.bounds.val s.2.bounds.val))
  let v ← guarded (dropContainer E t.alloc.maxChildren s.1 s.2) (mem (FCVec.new E.node t.alloc.maxChildren))
  let r ← withLocal v (dropVec E.node t.alloc.maxChildren) (do
    guarded (onFst (dropContainer E t.alloc.maxChildren s.1 s.2)) (onSnd (pushLocal E.node t.alloc.maxChildren (.node t.root)))
    onSnd (pushLocal E.node t.alloc.maxChildren (.node s.2)))
  let b ← newBounds b
  put { t with level := t.level + 1, root := ⟨b, r.2⟩ }

/-- node.rs 717-726 (`NodeContainer::insert_entry`). -/
def insertEntry (E : TEnv) (entry : REntry (Own B) K V) : U B K V Q (UTree B) Unit := do
  let t ← place
  match ← onRoot (insertNode E t.alloc entry t.level) with
  | some s => branch E s
  | none => pure ()

/-- lib.rs 377-388 (`RTree::insert_unique`), node.rs 738-755. -/
def insertUnique (E : TEnv) (key : K) (value : V) : U B K V Q (UTree B) (Option V) := do
  let t ← place
  let r ← onRoot (insertUniqueNode E t.alloc key value t.level)
  match r.2 with
  | some s => do
    guarded (dropOption r.1) (branch E s)
    pure r.1
  | none => pure r.1

/-- node.rs 844-861 (`try_unbranch`): `*self = new_root` drops the old root. -/
def tryUnbranch (E : TEnv) : U B K V Q (UTree B) Unit := do
  let t ← place
  match t.level with
  | 0 => pure ()
  | l + 1 =>
    if t.root.vec.len = 1 then do
      let cell ← onRoot (onVec fun v => v.swapRemove E.node 0)
      let root ← mem (lift cell.asNode)
      let t ← place
      dropContainer E t.alloc.maxChildren t.level t.root
      put { t with level := l, root := root }
      destroyed (fun c => c.dropBounds t.root.bounds.val) (pure ()) (pure ())
    else pure ()

/-- fc_vec.rs 542-550 (`Drop for IntoIter`), node.rs 1536-1540 (`Drop for InnerNodeChildrenIntoIter`): drops what was not yielded, frees the block. -/
def dropIter (E : TEnv) (cap : Nat) (level : Nat) (it : IntoIter) : U B K V Q σ Unit := do
  let cells ← mem (it.drop (Raw.RTree.slotEnv E level))
  each (fun c => do
    let e ← mem (lift (Raw.RTree.slotEntry level c))
    dropEntry E cap e) cells

/-- node.rs 783-794: `for entry in children { self.insert_entry(entry) }`. -/
def reinsertLoop (E : TEnv) (level : Nat) : Nat → U B K V Q (UTree B × IntoIter) Unit
  | 0 => mem (Raw.panic .diverge)
  | n + 1 => do
    let it ← onSnd place
    let r ← mem (it.next (Raw.RTree.slotEnv E level))
    onSnd (put r.1)
    match r.2 with
    | some c => do
      let entry ← mem (lift (Raw.RTree.slotEntry level c))
      onFst (insertEntry E entry)
      reinsertLoop E level n
    | none => pure ()

/-- node.rs 775-796: `for (level, entries) in reinsert_entries.iter_mut().enumerate()`.  The vectors not reached when an insertion panics are not
    dropped (`NodeChildren` is a union). -/
def reinsert (E : TEnv) : List (Option FCVec × Nat) → U B K V Q (UTree B) Unit
  | [] => pure ()
  | (none, _) :: rest => reinsert E rest
  | (some v, level) :: rest => do
    let t ← place
    let it ← mem (IntoIter.new (Raw.RTree.slotEnv E level) t.alloc.maxChildren v)
    let r ← withLocal it (dropIter E t.alloc.maxChildren level) (reinsertLoop E level (v.len + 1))
    dropIter E t.alloc.maxChildren level r.2
    reinsert E rest

/-- Work on the root with the array `reinsert_entries`, which is given back.  The array is not dropped on a panic: its elements are unions.
    node.rs 767-773. -/
def onRootR (slots : RSlots) (x : U B K V Q (Removing B) β) : U B K V Q (UTree B) (β × RSlots) := fun t w =>
  let r := x (t.root, slots) w
  (r.1.map fun b => (b, r.2.1.2), { t with root := r.2.1.1 }, r.2.2)

/-- lib.rs 390-407 (`RTree::remove`), node.rs 757-802 (`NodeContainer::remove`). -/
def remove (E : TEnv) (q : Q) : U B K V Q (UTree B) (Option V) := do
  let t ← place
  let r ← onRootR (List.replicate t.level none) (removeNode E t.alloc q t.level)
  match r.1 with
  | some v => do
    guarded (dropValue v) (do
      tryUnbranch E
      reinsert E r.2.zipIdx)
    pure (some v)
  | none => pure none

/-- fc_vec.rs 176-178: `for value in vec { new.push(value.clone()) }`; a pair is cloned field by field. -/
def cloneEntries (E : TEnv) (cap : Nat) : List (K × V) → U B K V Q (σ × FCVec) Unit
  | [] => pure ()
  | e :: es => do
    let k ← user fun c => some (c.cloneKey e.1)
    makeKey k
    let v ← guarded (dropKey k) (user fun c => some (c.cloneValue e.2))
    makeValue v
    onSnd (pushLocal E.entry cap (.entry (k, v)))
    cloneEntries E cap es

/-- node.rs 326-329: `for child in children { clone_children.push(self.clone_node(child).leak()) }`. -/
def cloneNodes (E : TEnv) (cap : Nat) (rec : UNode B → U B K V Q σ (UNode B)) : List (UNode B) → U B K V Q (σ × FCVec) Unit
  | [] => pure ()
  | c :: cs => do
    let n ← onFst (rec c)
    onSnd (pushLocal E.node cap (.node n))
    cloneNodes E cap rec cs

/-- node.rs 292-337 (`clone_node`, `clone_children`), fc_vec.rs 168-180.  If a clone panics the vector made so far is dropped; the nodes in it do not drop
    their children. -/
def cloneNode (E : TEnv) (cap : Nat) : Nat → UNode B → U B K V Q σ (UNode B)
  | 0, n => do
    let b ← user fun _ => some n.bounds.val
    panicIf (n.vec.len > cap)
    let v ← mem (FCVec.new E.entry cap)
    let r ← withLocal v (dropVec E.entry cap) (do
      let es ← mem (entries E n.vec)
      cloneEntries E cap es)
    let b ← newBounds b
    pure ⟨b, r.2⟩
  | l + 1, n => do
    let b ← user fun _ => some n.bounds.val
    let v ← mem (FCVec.new E.node cap)
    let r ← withLocal v (dropVec E.node cap) (do
      let cs ← mem (nodes E n.vec)
      cloneNodes E cap (cloneNode E cap l) cs)
    let b ← newBounds b
    pure ⟨b, r.2⟩

/-- lib.rs 294-308 (`RTree::get`): a copy of the value referred to. -/
def get (E : TEnv) (q : Q) : U B K V Q (UTree B) (Option V) := do
  let t ← place
  match ← find E (fun c => c.boundsQ q) (fun c k => c.eqQ (c.borrow k) q) t.level t.root with
  | some p => do
    let e ← mem (readEntry E p)
    pure (some e.2)
  | none => pure none

/-- lib.rs 310-324 (`RTree::get_mut`) followed by `mem::replace` through the reference: the previous value, or the value that was not
    stored. -/
def setValue (E : TEnv) (q : Q) (value : V) : U B K V Q (UTree B) (Option V) := do
  let t ← place
  match ← guarded (dropValue value) (find E (fun c => c.boundsQ q) (fun c k => c.eqQ (c.borrow k) q) t.level t.root) with
  | some p => do
    let old ← mem (replaceValue E p value)
    pure (some old)
  | none => do
    dropValue value
    pure none

/-- Read all the children, one after the other; `f` reads one of them. node.rs 1192-1205. -/
def walkAll (f : UNode B → Raw.M (UCell B K V) (List (K × V))) : List (UNode B) → Raw.M (UCell B K V) (List (K × V))
  | [] => pure []
  | c :: cs => do
    let es ← f c
    let fs ← walkAll f cs
    pure (es ++ fs)

/-- Everything a tree holds, read from memory: what iterating over it yields. lib.rs 114-118 (`iter`), node.rs 977-1006; simplified: not
    the iterator of iter.rs. -/
def walk (E : TEnv) : Nat → UNode B → Raw.M (UCell B K V) (List (K × V))
  | 0, n => entries E n.vec
  | l + 1, n => do
    let cs ← nodes E n.vec
    walkAll (walk E l) cs

/-! ### Programs -/

/-- The variables of a program, each holding a tree or nothing. Client code. -/
abbrev Vars (B : Type) := List (Option (UTree B))

/-- Work on the tree in variable `i`; `other` if there is none. Client code. -/
def onVar (i : Nat) (other : U B K V Q (Vars B) β) (x : U B K V Q (UTree B) β) : U B K V Q (Vars B) β := fun f w =>
  match f[i]? with
  | some (some t) =>
    let r := x t w
    (r.1, f.set i (some r.2.1), r.2.2)
  | _ => other f w

/-- A command; the commands are those of `Verif/Programs.lean`. `new` and `clone` put the tree into the next unused variable.
    A key or value that is not handed to a tree, because there is none, is dropped. Client code of lib.rs 92-408. -/
def Cmd.run (E : TEnv) : Cmd K V Q → U B K V Q (Vars B) (Reply V)
  | .new c => do
    let t ← newTree E c
    let f ← place
    put (f ++ [some t])
    pure .none
  | .insert i k v => onVar i (do
    dropPair k v
    pure .none) (do
    insertEntry E (.leaf k v)
    pure .none)
  | .insertUnique i k v => onVar i (do
    dropPair k v
    pure .none) (do
    let r ← insertUnique E k v
    pure (.moved r))
  | .remove i q => onVar i (pure .none) (do
    let r ← remove E q
    pure (.moved r))
  | .get i q => onVar i (pure .none) (do
    let r ← get E q
    pure (.seen r))
  | .replace i q v => onVar i (do
    dropValue v
    pure .none) (do
    let r ← setValue E q v
    pure (.moved r))
  | .len i => onVar i (pure .none) (do
    let t ← place
    let n ← mem (Raw.lenNode E t.level t.root)
    pure (.count n))
  | .isEmpty i => onVar i (pure .none) (do
    let t ← place
    pure (.flag t.isEmpty))
  | .clone i => do
    let r ← onVar i (pure none) (do
      let t ← place
      let n ← cloneNode E t.alloc.maxChildren t.level t.root
      pure (some { t with root := n }))
    let f ← place
    match r with
    | some t => put (f ++ [some t])
    | none => pure ()
    pure .none
  | .drop i => do
    let f ← place
    put (f.set i none)
    match f[i]? with
    | some (some t) => dropContainer E t.alloc.maxChildren t.level t.root
    | _ => pure ()
    pure .none

/-- A program in which every panic is caught; the reply to a command that panicked is missing. Client code. -/
def run (E : TEnv) : List (Cmd K V Q) → U B K V Q (Vars B) (List (Option (Reply V)))
  | [] => pure []
  | c :: cs => do
    let r ← catchPanic (Cmd.run E c)
    let rs ← run E cs
    pure (r :: rs)

end RTree.Unwind
