import Verif.Model.Tree
/-!
# The self-checks of the tree (`_debug_assert_*` of node.rs and lib.rs)

The crate's tests call these after every modification of a tree.
-/

namespace RTree

variable {B K V : Type}

/-- `assert!` and `assert_eq!` (node.rs 925-926, 1066, 1076, 1083, 1174-1175, 1254). -/
def assertThat (b : Bool) : Res Unit := if b then .ok () else .error .assertFailed

/-- node.rs 1052-1068 (`NodeRef::_debug_assert_bvh`): recomputes the bounds from the keys and compares them at every node.
    Simplification: `B::union_all` consumes the iterator over the children lazily, here the list of their bounds is
    computed first. -/
def assertBvhNode [Bounds B] [BEq B] [Bounded K B] : Nat → Node B K V → Res B
  | 0, node => do
    let es ← node.leafChildren
    let bounds := Bounds.unionAll (es.map fun e => Bounded.bounds e.1)
    assertThat (node.bounds == bounds)
    pure bounds
  | l + 1, node => do
    let cs ← node.innerChildren
    let bs ← cs.mapM (assertBvhNode l)
    let bounds := Bounds.unionAll bs
    assertThat (node.bounds == bounds)
    pure bounds

/-- node.rs 1080-1091 (`NodeRef::_debug_assert_min_children`), 1235-1241 (`len`). -/
def assertMinChildrenNode (minChildren : Nat) : Nat → Bool → Node B K V → Res Unit
  | 0, isRoot, node => do
    let es ← node.leafChildren
    if isRoot then pure () else assertThat (decide (minChildren ≤ es.length))
  | l + 1, isRoot, node => do
    let cs ← node.innerChildren
    if isRoot then pure () else assertThat (decide (minChildren ≤ cs.length))
    cs.forM fun c => assertMinChildrenNode minChildren l false c

/-- node.rs 1070-1078 (`NodeRef::_debug_assert_eq`), 1168-1179 (of the children of an inner node), 1243-1259 (of children).
    It compares levels, numbers of children and entries, but not the bounds. -/
def assertEqNode [BEq K] [BEq V] : Nat → Node B K V → Nat → Node B K V → Res Unit
  | 0, node, level', node' => do
    assertThat (0 == level')
    let es ← node.leafChildren
    let es' ← node'.leafChildren
    assertThat (es == es')
  | l + 1, node, level', node' => do
    assertThat (l + 1 == level')
    let cs ← node.innerChildren
    let cs' ← node'.innerChildren
    assertThat (cs.length == cs'.length)
    (cs.zip cs').forM fun p => assertEqNode l p.1 (level' - 1) p.2

namespace Tree

/-- lib.rs 336-342 (`RTree::_debug_assert_bvh`). -/
def assertBvh [Bounds B] [BEq B] [Bounded K B] (t : Tree B K V) : Res Unit := do
  let _ ← assertBvhNode t.level t.root
  pure ()

/-- lib.rs 353-358 (`RTree::_debug_assert_min_children`), node.rs 930-933. -/
def assertMinChildren (t : Tree B K V) : Res Unit :=
  assertMinChildrenNode t.alloc.minChildren t.level true t.root

/-- lib.rs 344-351 (`RTree::_debug_assert_eq`), node.rs 919-928. -/
def assertEq [BEq K] [BEq V] (t t' : Tree B K V) : Res Unit := do
  assertThat (t.alloc == t'.alloc)
  assertThat (t.level == t'.level)
  assertEqNode t.level t.root t'.level t'.root

end Tree

end RTree
