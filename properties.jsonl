{"id": "C01", "title": "insert adds exactly one entry", "statement": "After `insert(k, v)` on a tree, iterating the tree yields exactly the entries it yielded before plus one occurrence of `(k, v)`: nothing is lost, duplicated or altered, whatever splits and root growth the insert triggers.", "quantifier": "every tree reachable by any sequence of API calls, every key and value, every configuration (whenever the call returns)", "why_tests_cant": "Splits depend on the whole insertion history; tests only sample a few random histories.", "anchors": ["src/lib.rs: RTree::insert", "src/node.rs: NodeRefMut::insert, NodeRefMut::self_insert, NodeContainer::branch", "src/split.rs: QuadraticSplitter::split"]}
{"id": "C02", "title": "no panic in any history under a safe configuration", "statement": "With 2 <= min_children and 2 <= max_children, no sequence of insert / insert_unique / remove / get / get_mut / iteration calls ever panics (no unwrap on None, no full vector, no level mismatch, no arithmetic panic in volume as long as the key coordinates keep differences representable).", "quantifier": "every sequence of operations from a new tree, every key whose bounds have a defined volume together with the other keys, every configuration with min_children >= 2 and max_children >= 2", "why_tests_cant": "A panic needs a particular tree shape produced by a particular history; the space of histories is unbounded.", "anchors": ["src/lib.rs: RTree", "src/node.rs: NodeRefMut::insert, NodeContainer::remove, NodeContainer::branch", "src/split.rs: split"]}
{"id": "C03", "title": "get returns the first matching entry", "statement": "`get(q)` returns `None` iff no entry of the tree has a key equal to `q`; otherwise it returns the value of the first entry in iteration order whose key equals `q`.", "quantifier": "every reachable tree, every query key with non-inverted bounds (keys equal to each other have equal bounds)", "why_tests_cant": "Pruning by bounds makes a wrong answer depend on the shape of the tree; a test cannot visit all shapes.", "anchors": ["src/lib.rs: RTree::get", "src/node.rs: NodeRef::get"]}
{"id": "C04", "title": "remove takes out exactly one matching entry", "statement": "`remove(q)` returns `Some(v)` iff some entry has a key equal to `q`; then iterating afterwards yields exactly the previous entries minus one entry `(k, v)` with `k == q`. If it returns `None` the tree is unchanged.", "quantifier": "every reachable tree, every query key with non-inverted bounds, every configuration (whenever the call returns); entries of at least one byte (see C46)", "why_tests_cant": "Removal dissolves underfull nodes at several levels and re-inserts their contents; every combination of underflows cannot be tested.", "anchors": ["src/lib.rs: RTree::remove", "src/node.rs: NodeRefMut::remove, NodeContainer::remove, NodeContainer::try_unbranch"]}
{"id": "C05", "title": "remove takes the first of several equal entries", "statement": "The documentation of `remove`: if several entries with the same key exist, the first entry (in iteration order) is removed.", "quantifier": "every reachable tree holding several entries with the same key", "why_tests_cant": "Whether the removed entry is the first one depends on how equal keys are spread over nodes.", "anchors": ["src/lib.rs: RTree::remove (doc comment)", "src/node.rs: NodeRefMut::remove (children are scanned from the last to the first)"]}
{"id": "C06", "title": "insert_unique replaces or inserts", "statement": "`insert_unique(k, v)`: if an entry with a key equal to `k` exists, the value of the first such entry in iteration order is replaced by `v` in place (its stored key, and every other entry, and the iteration order are unchanged) and the old value is returned; otherwise the entry is added exactly once and `None` is returned.", "quantifier": "every reachable tree, every key with non-inverted bounds and value", "why_tests_cant": "Three code paths (none/one/several candidate children) chosen by tree shape.", "anchors": ["src/lib.rs: RTree::insert_unique", "src/node.rs: NodeRefMut::insert_unique, NodeRefMut::get_mut", "src/util.rs: get_only"]}
{"id": "C07", "title": "unique histories behave as a finite map", "statement": "If a tree is only modified by `insert_unique` and `remove`, keys stay pairwise distinct and every `insert_unique`, `remove` and `get` returns what a mathematical finite map keyed by key-equality would return.", "quantifier": "every sequence of insert_unique/remove/get calls from a new tree; entries of at least one byte (see C46)", "why_tests_cant": "Refinement of an abstract map over unbounded histories.", "anchors": ["src/lib.rs: insert_unique, remove, get"]}
{"id": "C08", "title": "len and is_empty agree with iteration", "statement": "`len()` is the number of entries `iter()` yields, and `is_empty()` is true iff `len()` is 0.", "quantifier": "every reachable tree, every configuration for len; min_children >= 1 for is_empty (see C51)", "why_tests_cant": "is_empty only looks at the root; its agreement with the contents is an invariant over all histories.", "anchors": ["src/lib.rs: RTree::len, RTree::is_empty", "src/node.rs: NodeRef::len, NodeRef::is_empty"]}
{"id": "C09", "title": "iter yields every entry exactly once", "statement": "`iter()` terminates, and the sequence it yields contains every entry of the tree exactly once, in left-to-right leaf order, without ever misreading a node as the wrong kind.", "quantifier": "every reachable tree, of any height", "why_tests_cant": "The iterator is an explicit stack machine; its correctness is an induction over tree height.", "anchors": ["src/lib.rs: RTree::iter", "src/iter.rs: Iter::new, Iter::next", "src/iter_stack.rs: IterStack"]}
{"id": "C10", "title": "filter_iter is exact", "statement": "For a filter that honours the SpatialFilter contract (whenever `test_key(k)` holds, `test_bounds(b)` holds for every `b` containing the bounds of `k`), `filter_iter(f)` yields exactly the entries whose key passes `test_key`, each exactly once, in the same relative order as `iter()`.", "quantifier": "every reachable tree, every contract-honouring filter", "why_tests_cant": "Universally quantified over filters and trees.", "anchors": ["src/lib.rs: RTree::filter_iter", "src/iter.rs: FilterIter", "src/filter.rs: SpatialFilter"]}
{"id": "C11", "title": "filter_iter is sound for any filter", "statement": "For any filter whatsoever, the sequence yielded by `filter_iter(f)` is a subsequence of `iter()` in which every key passes `test_key`.", "quantifier": "every reachable tree, every filter (even one breaking the contract)", "why_tests_cant": "Universally quantified over filters and trees.", "anchors": ["src/iter.rs: FilterIter::next"]}
{"id": "C12", "title": "iter_asc_by yields every entry in ascending rank", "statement": "For a ranking whose `bounds_min(b)` is a lower bound for the rank of every key contained by `b`, `iter_asc_by(r)` yields every entry exactly once and the ranks it yields never decrease.", "quantifier": "every reachable tree, every ranking honouring the contract, every binary heap that pops a least element", "why_tests_cant": "Best-first search order depends on the whole tree and on the ranking.", "anchors": ["src/lib.rs: RTree::iter_asc_by", "src/iter.rs: SortedIter", "src/ranking.rs: Ranking"]}
{"id": "C13", "title": "min_by returns a least entry", "statement": "`min_by(r)` returns `None` iff the tree is empty, and otherwise an entry of the tree whose rank is least among all entries.", "quantifier": "every reachable tree, every ranking honouring the contract", "why_tests_cant": "As for iter_asc_by.", "anchors": ["src/lib.rs: RTree::min_by", "src/iter.rs: SortedIter::next"]}
{"id": "C14", "title": "min_by returns the first of several least entries", "statement": "The documentation of `min_by`: if several entries have minimal rank, the first entry (in iteration order) is returned.", "quantifier": "every reachable tree with ties in rank", "why_tests_cant": "Depends on how tied entries are spread over nodes and on the heap.", "anchors": ["src/lib.rs: RTree::min_by (doc comment)", "src/iter.rs: SortedIter::next"]}
{"id": "C15", "title": "filter_iter_asc_by / filter_min_by", "statement": "For a ranking with optional metric such that whenever a key has rank `Some(t)` every bounds containing it has `bounds_min` = `Some(s)` with `s <= t`: `filter_iter_asc_by` yields exactly the entries with a `Some` rank, each once, in non-decreasing rank; `filter_min_by` returns one of least rank, or `None` iff there is none.", "quantifier": "every reachable tree, every such ranking", "why_tests_cant": "As for iter_asc_by, plus pruning.", "anchors": ["src/lib.rs: filter_iter_asc_by, filter_min_by", "src/iter.rs: FilterSortedIter"]}
{"id": "C16", "title": "join yields every matching pair exactly once", "statement": "For a JoinFilter honouring its contract, `a.join(&b, f)` terminates and yields every pair (entry of a, entry of b) whose keys pass `test_key`, each exactly once, and no other pair - also when the two trees have different heights.", "quantifier": "every two reachable trees (any heights), every contract-honouring join filter", "why_tests_cant": "Product of two unbounded trees with a padded two-tree stack machine.", "anchors": ["src/lib.rs: RTree::join", "src/join.rs: JoinIter, ProductIter, RewindableIter"]}
{"id": "C17", "title": "left_join yields each left entry once with its matches", "statement": "For a JoinFilter honouring its contract, `a.left_join(&b, f)` yields every entry of `a` exactly once in the order of `a.iter()`, and the iterator yielded with it produces exactly the entries of `b` matching it under `test_key`, each once, in the order of `b.iter()`.", "quantifier": "every two reachable trees (any heights), every contract-honouring join filter", "why_tests_cant": "The right-hand stack is shared, partially consumed and rewound across left entries; correctness is an invariant over the whole traversal.", "anchors": ["src/lib.rs: RTree::left_join", "src/left_join.rs: LeftJoinIter::next, rewind, RewindableIter"]}
{"id": "C18", "title": "join and left_join agree", "statement": "Flattening `left_join` gives, up to order, the same pairs as `join`.", "quantifier": "every two reachable trees, every contract-honouring join filter", "why_tests_cant": "Relates two different traversals over all trees.", "anchors": ["src/join.rs", "src/left_join.rs"]}
{"id": "C19", "title": "node bounds cover and (for boxes) equal the union of the contents", "statement": "In every reachable tree the bounds recorded for each node contain the bounds of all keys below it; for box bounds they are exactly the union of the bounds of the children and of the keys below (what the crate's own debug assertion checks): for integers always, for floats if no key lies wholly at infinity in some coordinate.", "quantifier": "every reachable tree, every configuration", "why_tests_cant": "An invariant over all histories; a test samples.", "anchors": ["src/node.rs: Node.bounds, NodeRef::_debug_assert_bvh, self_insert, insert, insert_unique, remove"]}
{"id": "C20", "title": "uniform height and correct implicit levels", "statement": "In every reachable tree all leaves are at the same depth and the level recorded at the root equals that depth, so the untagged children of a node are never read as the wrong kind (no undefined behaviour through a level mix-up) - for every configuration, for every call of the history up to a panic.", "quantifier": "every sequence of operations, every configuration", "why_tests_cant": "Memory safety of an untagged union over all histories.", "anchors": ["src/node.rs: NodeChildren, Alloc::wrap, wrap_ref_mut, NodeContainer::level, branch, try_unbranch, wrap_children"]}
{"id": "C21", "title": "node sizes respect the configuration", "statement": "In every reachable tree no node has more than max_children children; if 2 <= min_children and 2*min_children <= max_children every non-root node has at least min_children children and an inner root has at least two.", "quantifier": "every sequence of operations", "why_tests_cant": "Invariant over all histories.", "anchors": ["src/lib.rs: RTreeConfig", "src/split.rs: QuadraticSplitter::split", "src/node.rs: remove, NodeRef::_debug_assert_min_children"]}
{"id": "C22", "title": "min_children is respected whenever a legal split exists", "statement": "If min_children and max_children satisfy 2*min_children <= max_children + 1 (so that max_children + 1 children can be split into two legal nodes), a split never leaves a node with fewer than min_children children.", "quantifier": "every configuration with 2*min_children <= max_children + 1, every split", "why_tests_cant": "The boundary 2*min = max + 1 needs a particular geometric configuration.", "anchors": ["src/split.rs: QuadraticSplitter::split lines 126-130"]}
{"id": "C23", "title": "a tree with min_children = 1 can always be inserted into", "statement": "With min_children = 1 (used by the crate's own benchmark with max_children = 4) no sequence of insertions and removals makes a later `insert` panic.", "quantifier": "every sequence of operations with min_children = 1 and max_children >= 2", "why_tests_cant": "Needs a chain of single-child nodes to be emptied; random tests do not hit it.", "anchors": ["src/node.rs: NodeContainer::try_unbranch, NodeRefMut::insert line 424", "benches/rtree.rs: min_children = max_children / 4"]}
{"id": "C24", "title": "height is logarithmic", "statement": "With 2 <= min_children and 2*min_children <= max_children, a reachable tree of height (root level) h >= 1 holds at least 2*min_children^h entries.", "quantifier": "every sequence of operations", "why_tests_cant": "Invariant over all histories.", "anchors": ["src/lib.rs: RTreeConfig", "src/node.rs"]}
{"id": "C25", "title": "clone is an equal, independent tree", "statement": "`clone()` yields a tree with the same entries in the same order, the same structure and configuration; it never panics on a reachable tree.", "quantifier": "every reachable tree", "why_tests_cant": "Recursion over arbitrary trees.", "anchors": ["src/node.rs: Alloc::clone_node, Alloc::clone_children", "src/fc_vec.rs: Alloc::clone"]}
{"id": "C26", "title": "dropping a tree drops every entry exactly once", "statement": "Dropping a tree drops every key and every value it holds exactly once, and across any history each entry handed to the tree is either still in it, returned/removed, or dropped: never twice, never leaked.", "quantifier": "every reachable tree and history; entries of at least one byte (see C46)", "why_tests_cant": "Leaks and double drops depend on history.", "anchors": ["src/node.rs: NodeRefMut::drop, InnerNodeChildrenRefMut::drop, impl Drop for NodeContainer", "src/fc_vec.rs: FCVecRefMut::drop"]}
{"id": "C27", "title": "mutable access touches exactly the promised value", "statement": "`get_mut(q)` gives access to the value of exactly the entry `get(q)` reads; writing through it changes that value only - keys, order, bounds and all other entries stay.", "quantifier": "every reachable tree, every key, every written value", "why_tests_cant": "All trees, all keys.", "anchors": ["src/lib.rs: RTree::get_mut", "src/node.rs: NodeRefMut::into_get_mut"]}
{"id": "C28", "title": "iter_mut / filter_iter_mut never alias and update in place", "statement": "`iter_mut()` hands out a mutable reference to each value exactly once (never two references to the same value); after writing `f(k, v)` through each reference of `filter_iter_mut(filter)`, `iter()` yields the same keys in the same order with exactly the matching values replaced.", "quantifier": "every reachable tree, every filter, every update function", "why_tests_cant": "Aliasing freedom over all trees.", "anchors": ["src/lib.rs: iter_mut, filter_iter_mut", "src/iter.rs: IterMut, FilterIterMut"]}
{"id": "C29", "title": "sorted mutable iteration never aliases", "statement": "`iter_asc_by_mut` and `filter_iter_asc_by_mut` hand out each (matching) value exactly once in ascending rank, and `min_by_mut` / `filter_min_by_mut` the same entry as the shared versions.", "quantifier": "every reachable tree, every ranking honouring the contract", "why_tests_cant": "As above.", "anchors": ["src/iter.rs: SortedIterMut, FilterSortedIterMut"]}
{"id": "C30", "title": "the order of insertions does not matter to queries", "statement": "Two trees built from the same multiset of entries by any interleavings of insertions (and removals), possibly with different configurations, yield the same multiset for iter, filter_iter and join, the same `len`, and the same ranks in the same order for iter_asc_by.", "quantifier": "every pair of histories with the same net multiset", "why_tests_cant": "Relates unboundedly many histories.", "anchors": ["src/lib.rs"]}
{"id": "C31", "title": "removing everything empties the tree", "statement": "Removing, in any order, every key that was inserted leaves a tree with `len() == 0`, `is_empty()`, an empty `iter()`, and it can be used again.", "quantifier": "every multiset of keys and every removal order, every configuration with min_children >= 2 and max_children >= 2; entries of at least one byte (see C46)", "why_tests_cant": "All histories.", "anchors": ["src/node.rs: NodeContainer::remove"]}
{"id": "C32", "title": "box union contract", "statement": "For AABBs: the union of two boxes contains both; union is commutative, associative and idempotent; `empty()` is an identity for union; `union_all` is the least box containing all; contained boxes are absorbed.", "quantifier": "all boxes of any dimension over a totally ordered scalar with least and greatest value", "why_tests_cant": "Algebraic laws over all values.", "anchors": ["src/bounds.rs: impl Bounds for AABB", "src/vector.rs: componentwise_min/max"]}
{"id": "C33", "title": "box intersection is geometric intersection", "statement": "For non-inverted boxes `a.intersects(b)` holds iff some point lies in both; it is symmetric; `a.intersects(point)` holds iff the point lies in the box; and it is monotone: enlarging either box keeps it true.", "quantifier": "all boxes and points of any dimension", "why_tests_cant": "All values.", "anchors": ["src/bounds.rs: impl Intersects for AABB"]}
{"id": "C34", "title": "box contains a point", "statement": "`AABB::contains(&point)` is true iff the point lies in the box (min <= point <= max in every dimension).", "quantifier": "all boxes and points", "why_tests_cant": "All values; the repository has no test of it.", "anchors": ["src/bounds.rs: impl Contains<V> for AABB<V> (line 57)", "src/vector.rs: impl Intersects<SAABB> for SVec"]}
{"id": "C35", "title": "box contains a box", "statement": "`AABB::contains(&other)` is true iff `other` lies inside the box.", "quantifier": "all pairs of non-inverted boxes", "why_tests_cant": "All values; the repository has no test of it.", "anchors": ["src/bounds.rs: impl Contains<AABB<V>> for AABB<V> (line 66)"]}
{"id": "C36", "title": "intersection queries with boxes are exact", "statement": "`filter_iter(IntersectsFilter::new(box))` and `filter_iter(BoundedIntersectsFilter::new_bounded(box))` yield exactly the entries whose key (box or point) intersects the query box.", "quantifier": "every reachable tree with box or point keys, every query box", "why_tests_cant": "All trees and boxes.", "anchors": ["src/filter.rs: IntersectsFilter, BoundedIntersectsFilter", "src/bounds.rs"]}
{"id": "C37", "title": "containment queries with boxes are exact", "statement": "`filter_iter(ContainsFilter::new(box))` / `BoundedContainsFilter` yield exactly the entries whose key lies inside the query box.", "quantifier": "every reachable tree with box or point keys, every query box", "why_tests_cant": "All trees and boxes.", "anchors": ["src/filter.rs: ContainsFilter, BoundedContainsFilter", "src/bounds.rs: Contains impls"]}
{"id": "C38", "title": "nearest-neighbour search with euclidean distance", "statement": "EuclideanDistanceRanking honours the Ranking contract for boxes and for point keys and non-inverted box keys (integer or floating point coordinates, the distances as calculated), so `iter_asc_by` yields keys by non-decreasing distance and `min_by` returns a nearest key; for integers the calculated distance is the squared euclidean distance.", "quantifier": "every reachable tree of points or boxes, every query point, any dimension", "why_tests_cant": "All trees, all points.", "anchors": ["src/ranking.rs: EuclideanDistanceRanking, PointDistance for SVec and AABB"]}
{"id": "C39", "title": "nearest-neighbour search on an empty tree returns None", "statement": "`min_by(EuclideanDistanceRanking::new(p))` on an empty tree with fixed-width integer coordinates returns `None` (without an arithmetic panic).", "quantifier": "every query point, i32 coordinates", "why_tests_cant": "The bounds of an empty tree are inverted; only the empty case exposes it.", "anchors": ["src/ranking.rs: PointDistance for AABB", "src/bounds.rs: AABB::empty", "src/iter.rs: SortedIter::new"]}
{"id": "C40", "title": "box distance is a lower bound", "statement": "`a.sq_dist_to(b)` is symmetric, zero iff the boxes share a point, and equals the least squared distance between a point of `a` and a point of `b`, although calculated in f64; distance joins as in the crate's test yield exactly the pairs of entries whose key test succeeds.", "quantifier": "all non-inverted boxes in any dimension >= 1, all pairs of reachable trees of points, integer and floating point coordinates", "why_tests_cant": "All values.", "anchors": ["src/bounds.rs: SAABB::sq_dist_to", "src/lib.rs: tests::join DistanceFilter"]}
{"id": "C41", "title": "segment-box intersection is exact", "statement": "`Line::intersects(box)` is true iff some point of the closed segment lies in the closed box - including axis-parallel and degenerate segments and touching boundaries - although calculated in f64; segment queries yield exactly the entries that pass the test.", "quantifier": "all segments and non-inverted boxes of any dimension, all reachable trees", "why_tests_cant": "Division by zero, infinities and NaN make special cases that tests sample.", "anchors": ["src/intersects.rs: line_bounds_intersect, f64_min, f64_max", "src/geom/line.rs"]}
{"id": "C42", "title": "ray-box intersection", "statement": "`Ray::intersects(box)` is true iff the ray (the half-line from its origin in its direction) meets the box.", "quantifier": "all rays and non-inverted boxes", "why_tests_cant": "All values; the repository has no test of it.", "anchors": ["src/intersects.rs: ray_bounds_intersect", "src/geom/ray.rs"]}
{"id": "C43", "title": "sphere bounds and sphere queries", "statement": "For a non-negative radius `Sphere::intersects(point)` is true iff the point is within the radius, and every point the sphere intersects lies in the sphere's bounds, so `filter_iter(BoundedIntersectsFilter::new_bounded(sphere))` over point keys yields exactly the points within the radius.", "quantifier": "all spheres of non-negative radius, all reachable trees of points, integer and floating point coordinates", "why_tests_cant": "All values.", "anchors": ["src/geom/sphere.rs", "src/filter.rs: BoundedIntersectsFilter"]}
{"id": "C44", "title": "line bounds enclose the segment", "statement": "`Line::bounds()` contains every point of the segment, so BoundedIntersectsFilter with a line never prunes a box the line is said to intersect: it yields the same as IntersectsFilter.", "quantifier": "all segments, boxes and reachable trees, integer and floating point coordinates", "why_tests_cant": "All values.", "anchors": ["src/geom/line.rs: Bounded for Line"]}
{"id": "C45", "title": "fixed-capacity vector refines a list", "statement": "The raw-memory vector behaves like a list bounded by its capacity: push, try_push, insert, remove, swap_remove, swap, pop, clone and by-value iteration from both ends return what the list operation returns, never touch memory outside the allocation, never read an uninitialised slot, and keep ownership of each element unique.", "quantifier": "every sequence of operations, every capacity and element (non-zero-sized)", "why_tests_cant": "Raw pointer code; all index/length combinations.", "anchors": ["src/fc_vec.rs: FCVecRefMut, FCVecContainer, IntoIter"]}
{"id": "C46", "title": "by-value iteration of zero-sized elements", "statement": "By-value iteration of the fixed-capacity vector yields every element also when the element type has size zero, so that `remove` does not lose entries of a tree with zero-sized keys and values.", "quantifier": "every vector of zero-sized elements, every tree of zero-sized entries", "why_tests_cant": "Needs zero-sized key and value types, which no test uses.", "anchors": ["src/fc_vec.rs: IntoIter (start/end pointers)"]}
{"id": "C47", "title": "iterators handed out by left_join stay valid", "statement": "Each right-hand iterator yielded by left_join keeps its own state until dropped: advancing the join never overwrites a live one, no allocation is freed twice or used after being freed, and every allocation is freed once the join and its iterators are dropped - in any order of advancing and dropping.", "quantifier": "every interleaving of advancing the join, dropping yielded iterators and dropping the join", "why_tests_cant": "All interleavings of a hand-written two-owner reference count.", "anchors": ["src/rc_mut.rs: RcMutAlloc, RcMut", "src/left_join.rs: LeftJoinIter::next"]}
{"id": "C48", "title": "keys with inverted bounds can be found and removed", "statement": "A key that was inserted is found by `get` and removed by `remove` also if its box is inverted (min > max in some dimension).", "quantifier": "every reachable tree, every inserted key", "why_tests_cant": "Needs a tree deep enough to prune.", "anchors": ["src/bounds.rs: Contains/Intersects for AABB", "src/node.rs: get, remove"]}
{"id": "C49", "title": "insertion descends into the least enlarged child", "statement": "With a lawful order on volumes, the child an insertion descends into is one whose volume increase is least among all children, and among those one of least volume, the earliest in order.", "quantifier": "every list of children and every inserted bounds", "why_tests_cant": "All inputs.", "anchors": ["src/select.rs: MinimalVolumeIncreaseSelector::select"]}
{"id": "C50", "title": "a split partitions its input", "statement": "A split of max_children + 1 values puts each of them in exactly one of the two groups, both groups are non-empty and at most max_children long, and the two returned bounds are the unions of the bounds of their group.", "quantifier": "every list of values, every overflow value, every min_children, any volume heuristic", "why_tests_cant": "All inputs.", "anchors": ["src/split.rs: QuadraticSplitter::split, seed_split_groups, worst_combination"]}
{"id": "C51", "title": "is_empty with min_children = 0", "statement": "With min_children = 0, `is_empty()` is true iff the tree holds no entry.", "quantifier": "every reachable tree with min_children = 0", "why_tests_cant": "the failure needs a history that empties a leaf below an inner root; a test has to guess that history", "anchors": ["src/lib.rs RTree::is_empty", "src/node.rs Node::is_empty", "src/node.rs remove"]}
{"id": "C52", "title": "tests on the bounds of an empty tree do not panic", "statement": "A distance join with an empty tree and a segment query on an empty tree yield nothing; in particular the bounds tests they make on the bounds of an empty tree do not overflow.", "quantifier": "every empty tree, every box and segment with ordinary coordinates, integer scalars", "why_tests_cant": "The bounds of an empty tree are inverted (MAX..MIN); whether the arithmetic on them overflows depends on the query. Tests use non-empty trees.", "anchors": ["src/bounds.rs: Bounds::empty, SAABB::sq_dist_to", "src/intersects.rs: line_bounds_intersect", "src/lib.rs: RTree::new"]}
{"id": "C53", "title": "creating a tree respects the allocator's contract", "statement": "Creating a tree never asks the allocator for something its contract forbids (in particular, a block of zero bytes); it either makes an allocation of exactly the capacity or panics because the layout is too large.", "quantifier": "every configuration, every entry type (also zero-sized), every state of memory", "why_tests_cant": "A forbidden request is undefined behaviour that mainstream allocators answer without a visible effect; no test fails.", "anchors": ["src/fc_vec.rs: Alloc::new_vec, FCVec", "src/lib.rs: RTree::new, Config"]}
{"id": "C54", "title": "panics in user code, and user code that lies, never break memory safety", "statement": "Any program of calls (new, insert, insert_unique, remove, get, get_mut, len, is_empty, clone, drop), in which each call of user code (Eq, Clone, bounds, the split heuristics, and the destructors of keys and bounds that insertions and removals run) may panic or answer anything, in which panics are caught and the trees are used further, never has undefined behaviour; every key and value handed over or cloned is at the end in a tree, returned, dropped or leaked, exactly one of these; leaks happen only in calls that panicked, so without panics dropping all trees frees all memory.", "quantifier": "every finite program, every configuration, every behaviour of user code, every panic point", "why_tests_cant": "The state in the middle of an operation, with elements moved out of their place, is only visible when user code panics at exactly that call; there is one case per call of user code per history.", "anchors": ["src/node.rs: Node::insert, insert_unique, remove, try_reinsert", "src/split.rs: split", "src/fc_vec.rs: FCVec", "src/lib.rs: RTree"]}
{"id": "C55", "title": "a call that returns did its job, whatever user code answers", "statement": "With at least two children per node and pairs of non-zero size: after any program as in C54, with panics caught, a call that returns had its effect on the contents: insert added exactly the pair; insert_unique added the pair or replaced one value, which it returns; remove removed one pair, whose value it returns, or none; get returns a value in the tree; len is the number of pairs; is_empty answers true only on an empty tree; a clone has as many pairs; no other tree changed.", "quantifier": "every finite program with caught panics, every behaviour of user code, every further call that returns", "why_tests_cant": "User code that violates its contract (inconsistent Eq, lying bounds) and earlier panics leave trees in states that no well-behaved test reaches.", "anchors": ["src/node.rs: Node::insert, insert_unique, remove, get, len, clone", "src/lib.rs: RTree"]}
{"id": "C56", "title": "a call that panics loses nothing", "statement": "A call that panics leaves all trees with the contents they had before the call (apart from the pair handed over).", "quantifier": "every finite program with caught panics, every behaviour of user code, every further call that panics", "why_tests_cant": "Each call of user code in each operation on each reachable tree is a separate case.", "anchors": ["src/node.rs: Node::insert, remove, try_reinsert", "src/split.rs: split", "src/lib.rs: RTree"]}
{"id": "C57", "title": "filtered iteration with a filter that panics or answers inconsistently", "statement": "Whatever the filter given to filter_iter or filter_iter_mut answers, call by call, and whenever it panics: the crate itself never panics and has no undefined behaviour; calls of next, with panics of the filter caught and the iterator used further, yield entries in the order of iter, each at most once (so filter_iter_mut never hands out two references to one value); an entry is yielded only if its key was accepted by the last call of the filter; an entry that is not yielded was turned down, or the bounds of a node above it were, or it was lost to a panic, which costs one entry or the entries below one node. With a filter that does not panic and always answers the same this is exactly filter_iter.", "quantifier": "every reachable tree, every sequence of answers and panics of the filter, every number of calls of next", "why_tests_cant": "The filter is arbitrary user code: each call on each tree may answer differently or unwind, and the iterator may be used after each of these.", "anchors": ["src/iter.rs: Iter::next, IterMut::next, FilterIter, FilterIterMut"]}
{"id": "C58", "title": "join with a filter that panics or answers inconsistently", "statement": "Whatever the filter given to join answers, call by call, and whenever it panics: the crate itself never panics and has no undefined behaviour; calls of next, with panics of the filter caught and the iterator used further, yield pairs in the order in which the join that accepts everything yields them, each at most once; a pair is yielded only if its keys were accepted by the last call of the filter; a pair that is not yielded was turned down, or the bounds of two nodes above it were, or it was lost to a panic, which costs one pair or the pairs below two nodes. With a filter that does not panic and always answers the same this is exactly join.", "quantifier": "all pairs of reachable trees of any heights, every sequence of answers and panics of the filter, every number of calls of next", "why_tests_cant": "The filter is arbitrary user code: each call may answer differently or unwind, and the iterator may be used after each of these.", "anchors": ["src/join.rs: JoinIter::new, start_join, next, ProductIter, RewindableIter"]}
{"id": "C59", "title": "iterators are safe in memory and give it back", "statement": "A client may make any number of filtered iterators (iter, iter_mut, filter_iter, filter_iter_mut) or joins, call next of them by turns and drop them in any order, with filters that may panic (caught) or answer inconsistently. Then there is no undefined behaviour (no access out of bounds, to uninitialised or freed memory, no misread of the untagged stack entries, no deallocation with a wrong layout) and no panic but those of the filters; memory that existed before is untouched; when all iterators are dropped all memory they took is free again, and each iterator yields what C57/C58 say, independently of the others.", "quantifier": "all reachable trees, all finite sequences of make/next/drop over any number of iterators alive at once, all behaviours of the filters; Vec::with_capacity(n) allocating room for exactly n elements (see C60)", "why_tests_cant": "The stack of an iterator is a leaked Vec of untagged unions; memory safety depends on the interleaving of all uses, on every tree height and on every panic point.", "anchors": ["src/iter_stack.rs: VecIterStack, IterStack, Drop", "src/iter.rs: Iter::new, Iter::next, FilterIter::new", "src/join.rs: JoinIter::new, start_join, next"]}
{"id": "C60", "title": "iterators rely only on the documented behaviour of Vec", "statement": "C59 holds for every Vec::with_capacity that follows its documentation, i.e. allocates room for at least the requested number of elements.", "quantifier": "all capacity functions room with n <= room n, all reachable trees", "why_tests_cant": "Tests run with one allocator and one version of the standard library; the documentation allows others.", "anchors": ["src/iter_stack.rs: VecIterStack::into_box, IterStack::new_box"]}
{"id": "C61", "title": "nearest neighbours with floating point coordinates", "statement": "With N32 or N64 coordinates and a finite query point, `min_by` and `iter_asc_by` with EuclideanDistanceRanking never panic (also on empty trees and with infinite key coordinates), order entries by calculated distance, and return a nearest entry up to the rounding errors of the calculated distances.", "quantifier": "every reachable tree of points or non-inverted boxes with N32 or N64 coordinates, every finite query point, any dimension >= 1", "why_tests_cant": "Rounding, overflow and underflow depend on the values; all trees, all points.", "anchors": ["src/ranking.rs: EuclideanDistanceRanking, PointDistance for SVec and AABB", "src/vector.rs: sq_mag"]}
{"id": "C62", "title": "insertion of finite keys does not panic", "statement": "Inserting keys with finite coordinates does not panic, although volumes are calculated in f64.", "quantifier": "all histories, all dimensions, i32, N32 and N64 coordinates, every configuration with min_children >= 2 and max_children >= 2", "why_tests_cant": "All values: the volume of a box depends on all coordinates and only splits and choices of subtrees calculate it.", "anchors": ["src/bounds.rs: Volume for SAABB", "src/split.rs", "src/select.rs"]}
{"id": "C63", "title": "volumes of boxes", "statement": "The volume of a non-inverted box is never negative, and never greater than that of a box around it, also as calculated with rounding (so extending a box never has a negative cost). With integer coordinates it is the product of the sides if that is at most 2^53, the product up to rounding errors in general, and zero iff some side is zero.", "quantifier": "all non-inverted boxes of any dimension; i32, N32, N64 coordinates", "why_tests_cant": "Rounding of products of many factors depends on the values; all boxes and pairs of nested boxes.", "anchors": ["src/bounds.rs: Volume for SAABB", "src/select.rs: volume_increase_of_min_bounds"]}
{"id": "C64", "title": "lengths of segments", "statement": "Line::sq_len and Line::len do not depend on the direction of the segment; with integer coordinates sq_len is the squared distance of the end points, exactly up to 2^53 and up to rounding errors in general, len is its square root (exact for integer lengths with squares up to 2^53), and both are zero iff the end points are equal.", "quantifier": "all segments of any dimension", "why_tests_cant": "Rounding depends on the values; all pairs of points.", "anchors": ["src/geom/line.rs: sq_len, len", "src/vector.rs: sq_mag"]}
{"id": "C65", "title": "left joins with misbehaving or panicking user code", "statement": "Making a left join calls no user code. Whatever the join filter, its Clone and the bounds of left keys do (answer inconsistently, panic and be caught), any interleaving of calls of next of the left join and of the right-hand iterators it has yielded is safe and never panics by itself; left entries come in the order of iter, each at most once, and only a panic loses some (one entry, or those below one node); a right-hand iterator yields right entries in the order of iter, each at most once, and misses only those turned down by a pair of bounds or by its own tests or lost to a panic of its own; left join and right-hand iterators do not disturb each other.", "quantifier": "all reachable trees, all sequences of answers and panics of user code, all interleavings of calls", "why_tests_cant": "User code may answer differently at every call and panic at any call; interleavings are unbounded.", "anchors": ["src/left_join.rs: LeftJoinIter::new, next", "src/iter_stack.rs: InnerIterStack::find", "src/filter.rs: JoiningFilter", "src/iter.rs: FilterIter::next"]}
{"id": "C66", "title": "sorted iteration with misbehaving or panicking rankings", "statement": "Whatever the ranking and the order of its metric do (answer inconsistently, be partial, panic and be caught), making and advancing iter_asc_by, filter_iter_asc_by and their mutable versions is safe and never panics by itself: no entry is yielded more often than it is stored and no two mutable references to the same value are handed out, also after panics. An entry is missed only if the ranking turned it or bounds above it down, or if it was lost to a panic, which costs one entry or the last entries below one node. Without panics iter_asc_by yields every entry once, however inconsistent the ranks. If only the ranking panics, what comes before and after is in non-decreasing rank.", "quantifier": "all reachable trees, all sequences of answers and panics of the ranking and of comparisons, any number of calls of next", "why_tests_cant": "User code may answer differently at every call and panic at any call; the heap's behaviour depends on all of the answers.", "anchors": ["src/iter.rs: SortedIter, SortedIterMut, FilterSortedIter, FilterSortedIterMut, Ranked", "src/ranking.rs: Ranking"]}
{"id": "C67", "title": "seeds of a split are the two values that would be worst together", "statement": "When a full node is split, the two groups are started with two values whose common bounds have the greatest volume among all pairs of the values to be distributed (quadratic split). (Found false in two dimensions: the volume of a pair of stored values is taken together with the value that overflowed, so two neighbours may be chosen although that value is far away.)", "quantifier": "all full nodes and overflowing values", "why_tests_cant": "All configurations of boxes; a tree built with bad seeds still answers queries correctly.", "anchors": ["src/split.rs: worst_combination, seed_split_groups, QuadraticSplitter::split"]}
{"id": "C68", "title": "the tree's own self-checks pass after every call", "statement": "`_debug_assert_bvh`, `_debug_assert_min_children` (if 2 <= min_children and 2 * min_children <= max_children) and `_debug_assert_eq` between a tree and its clone never fail, after any call of any history; and that they pass means what they are for: node bounds are exactly the union of their children, every node below the root has at least min_children children, the two trees have the same arrangement and yield the same entries in the same order.", "quantifier": "all histories of calls, all keys with box bounds not at infinity, all configurations as above", "why_tests_cant": "The crate's tests run the checks on a few sample trees.", "anchors": ["src/lib.rs: RTree::_debug_assert_bvh, _debug_assert_eq, _debug_assert_min_children", "src/node.rs: NodeRef::_debug_assert_bvh, _debug_assert_eq, _debug_assert_min_children"]}
{"id": "C69", "title": "empty() is the identity of the union for boxes of floats", "statement": "For boxes with N32 or N64 coordinates `union(empty(), a) = a`, as the documentation of `Bounds::empty` demands. (False for boxes at infinity: `empty()` is made of the greatest and least finite numbers.)", "quantifier": "all boxes of any dimension over N32 and N64, including infinities", "why_tests_cant": "An algebraic law over all values; the failing ones are special values.", "anchors": ["src/bounds.rs: Bounds::empty, impl Bounds for AABB", "src/vector.rs: Vector::max_value, min_value"]}
{"id": "C70", "title": "queries ask their filters exactly what they must, lazily", "statement": "filter_iter, filter_iter_mut and join ask the filter about the bounds of the root(s) once when they are made; then about the children of a node (pairs of children) from left to right, about what is below a node only if the filter accepted the node, about nothing twice; a call of next asks no further than to the next entry the filter accepts (or to its next panic). So a whole query makes at most one test per node and entry, and at most 1 + max_children times the number of nodes whose bounds are accepted.", "quantifier": "all histories of calls, all keys, all configurations, all filters including ones that panic or answer inconsistently, any number of calls of next", "why_tests_cant": "Tests look at what is yielded, not at which questions were asked; the claim is about every interleaving of answers and panics.", "anchors": ["src/iter.rs: Iter::next, FilterIter::new", "src/join.rs: JoinIter::next, JoinIter::new", "src/iter_stack.rs"]}
{"id": "C71", "title": "sorted iteration is lazy: min_by and the first k of iter_asc_by look only where they must", "statement": "With a ranking that honours its contract, min_by and filter_min_by, and the first k calls of next of iter_asc_by, filter_iter_asc_by and filter_iter_asc_by_mut, ask the ranking only about the root and about the children of nodes whose bounds_min is at most the rank of the last entry yielded: a ranking that panics, or answers differently, anywhere else gives the same results. The first k entries are k entries of least rank (all, if there are at most k) in non-decreasing rank, and equal to the first k of the whole iteration.", "quantifier": "all histories of calls, all keys, all configurations, all rankings that honour their contract, every k, every heap that satisfies the contract of a priority queue", "why_tests_cant": "The claim is about questions that are not asked, for all rankings and all trees; a test sees results of one ranking on one tree.", "anchors": ["src/iter.rs: SortedIter::next, FilterSortedIter::next, FilterSortedIterMut::next", "src/lib.rs: min_by, filter_min_by, iter_asc_by, filter_iter_asc_by, filter_iter_asc_by_mut"]}
{"id": "C72", "title": "left joins and their right-hand iterators, interleaved and dropped in any order, use memory safely", "statement": "Whatever a client does with any number of left joins and the right-hand iterators they have yielded (next of either, drops in any order, a right-hand iterator outliving its left join), also if user code panics or answers inconsistently, there is no undefined behaviour: no access outside of a block, of freed or uninitialised memory or of the wrong field of a union, no deallocation with another layout than that of the allocation. Other memory is not touched, and when all are dropped all memory they took is free again. Each left join tells the same story as if it were alone. The layout computed for a shared stack is that of the compiler, with the value aligned and apart from the flag, for every size and alignment.", "quantifier": "all sessions of commands, all trees reachable by calls, all filters and oracles, all initial memories, all sizes and alignments of entries", "why_tests_cant": "Undefined behaviour need not be visible in a test, and the interleavings of drops and calls are unbounded.", "anchors": ["src/left_join.rs: LeftJoinIter, RightIter", "src/iter_stack.rs", "src/rc_mut.rs: RcMut, RcMutBox, box_layout, init_into, drop"]}
{"id": "C73", "title": "a destructor that panics while a tree is dropped does not keep the rest from being dropped", "statement": "If the destructor of a key or of a value panics while a tree is dropped, and the client catches the panic, there is no undefined behaviour, no destructor runs twice, the other trees are not affected, the destructors of the other keys and values of the tree run as well and the memory of the tree is freed (as the collections of the standard library do).", "quantifier": "all sessions over any number of trees with any configurations and trait implementations, all choices of destructors that panic", "why_tests_cant": "Any of the destructors of any tree may panic; double drops and leaks need not be visible in a test.", "anchors": ["src/fc_vec.rs: FCVecRefMut, drop", "src/node.rs: NodeRefMut::drop, InnerNodeChildrenRefMut::drop, Drop for NodeContainer", "src/lib.rs: RTree"]}
{"id": "C74", "title": "vector arithmetic is componentwise and exact", "statement": "For vectors of any dimension: `a + b` and `a - b` return exactly if no component overflows, with the sums (differences) of the components, and panic otherwise; subtraction undoes addition; `a += b` does the same as `a + b`, and if it panics the components before the first one that overflows have been changed and no others; `sq_mag` returns the sum of the squares exactly if it fits and the dimension is not 0; `all_le` is a partial order with `componentwise_min`, `componentwise_max`, `min_value`, `max_value` its meets, joins and extremes; the comparison operators are lexicographic; indexing reads and writes the component with that index or panics; `into_map` calls its closure once per component in order.", "quantifier": "all vectors of i32 (or any scalars) of any dimension, all closures with state that may panic, all indices", "why_tests_cant": "Laws over all values and dimensions, with overflow at any component.", "anchors": ["src/vector.rs: SVec, Vector, Add, AddAssign, Sub, Index, IndexMut, into_map, zip, sq_mag"]}
{"id": "C75", "title": "boxes over user-defined vectors", "statement": "For `AABB<V>` over any user-defined vector type whose `Vector` implementation is componentwise over linearly ordered components: `union` is the least box around both, commutative and associative, `empty()` is its identity, `union_all` is the least box around all; `intersects` for a point is membership, and for two boxes that are not inverted it says whether they have a point in common. What `contains` decides is characterised as well (it is not containment): a box that is not inverted \"contains\" a point exactly if it consists of that point only, and a box exactly if they have a point in common.", "quantifier": "all lawful implementations of `Vector` (any number and types of components), all boxes and points", "why_tests_cant": "Ranges over all user implementations of the trait and all values.", "anchors": ["src/bounds.rs: AABB, Bounds for AABB", "src/vector.rs: Vector"]}
{"id": "C76", "title": "Debug output shows the tree", "statement": "`{:?}` of a tree never panics and has no undefined behaviour of its own (only what `Debug` of bounds, keys or values does); it writes the nested list of nodes with bounds and entries, the entries in the order of `iter`; if the sink fails, what was written is a beginning of that text and an error is returned. Two trees (of any configurations) with the same output have the same entries in the same order, and with configurations of min_children >= 2 and max_children >= 2 they are the same node by node, provided the outputs of bounds, keys and values can be told apart (as those of i32 boxes can).", "quantifier": "all reachable trees, all Debug implementations of bounds, keys and values (also failing and panicking ones), all sinks that may stop at any character", "why_tests_cant": "Ranges over all trees, all user implementations of Debug, all points at which the sink fails; injectivity relates all pairs of trees.", "anchors": ["src/lib.rs: derive(Debug) for RTree", "src/node.rs: Debug for NodeContainer, NodeRef, InnerNodeChildrenRef, NodeChildrenRef", "src/bounds.rs: derive(Debug) for AABB", "src/vector.rs: Debug for SVec"]}
{"id": "C77", "title": "Memory is linear in the number of entries", "statement": "With a sound configuration a tree with n entries has at most 1 + n / (min_children - 1) nodes. At the end of any program over any number of trees the bytes allocated and not freed are exactly room for max_children entries per leaf node and max_children nodes per inner node of the trees that are left, hence at most max_children times the larger of the two sizes per tree and per entry that is left: the memory of removed entries is not kept.", "quantifier": "all programs of new, insert, insert_unique, remove, get, get_mut, len, is_empty, clone and drop over any number of trees, all sound configurations, all key and value types with sizes the allocator accepts", "why_tests_cant": "The bound ranges over all histories of insertions and removals; a test sees the memory of the histories it runs.", "anchors": ["src/node.rs: NodeContainer, Node, remove, split", "src/fc_vec.rs: FCVec::new, Drop", "src/lib.rs: RTreeConfig, RTree::insert, RTree::remove"]}
{"id": "C78", "title": "Which configurations are safe", "statement": "A configuration is safe exactly if min_children >= 2 and max_children >= 2: then no history of new, insert, insert_unique and remove panics (whatever max_children is compared to min_children), and for every other configuration some history of insertions and removals of harmless keys (all with the bounds of a unit square) panics.", "quantifier": "all pairs of max_children and min_children, all histories; arithmetic as with overflow checks", "why_tests_cant": "There are infinitely many configurations; safety is a claim about all histories, and the panicking history of an unsafe configuration depends on max_children.", "anchors": ["src/lib.rs: RTreeConfig, RTree::new", "src/node.rs: insert, remove, branch, unbranch", "src/split.rs: split", "src/select.rs"]}
{"id": "C79", "title": "The height is logarithmic for every safe configuration", "statement": "For every configuration with which no call panics (min_children >= 2, max_children >= 2) the height of a tree is logarithmic in the number of entries.", "quantifier": "all safe configurations, all histories", "why_tests_cant": "The height is bounded over all histories; a degenerate history has to be found, and that it degenerates for every length is a proof by induction.", "anchors": ["src/lib.rs: RTreeConfig", "src/split.rs: split", "src/node.rs: insert"]}
{"id": "C80", "title": "Trees work in every dimension", "statement": "Boxes and points of any dimension D, zero included, can be stored.", "quantifier": "all dimensions, configurations, scalar types and numbers of entries", "why_tests_cant": "Ranges over all dimensions (a const parameter) and configurations.", "anchors": ["src/bounds.rs: Volume for SAABB", "src/split.rs: split"]}
{"id": "C81", "title": "Trees can be moved to and shared between threads", "statement": "After any use of any number of trees, threads may be started, each of them owning some of the trees (moved to it) and all of them having shared references to the others. Whatever the scheduler and the allocator do: there is no data race; no thread runs into undefined behaviour; every call on an own tree or on a shared one (get, len, is_empty, clone, unordered iteration, filtered or not, to its end, sorted iteration stopped after any number of entries, joins and left joins of any two of the trees, and on own trees insertions, removals and mutable iteration, sorted or not, with any use of the references handed out) gives what it would give if the thread were alone; every key and value handed over is dropped, returned or still there exactly once; every thread that is scheduled again and again ends; and when all threads have ended the memory holds exactly the nodes of the remaining trees, which can be used on as if one thread had done everything.", "quantifier": "all histories before the threads start, all numbers of threads and distributions of trees to them, all thread programs, all schedules of single memory accesses, all placements of allocated blocks, all trait implementations", "why_tests_cant": "The schedules of two threads are exponentially many and a race need not show in any of those that are run; the claim is what `unsafe impl Send/Sync` asserts without proof.", "anchors": ["src/fc_vec.rs: unsafe impl Send for FCVec, unsafe impl Sync for FCVec", "src/lib.rs: RTree", "src/iter.rs: Iter, FilterIter"]}
{"id": "C82", "title": "How much user code insertion, lookup and removal call", "statement": "With M = max_children and m = min_children: an insertion calls user code (bounds, union, union_all, volume, eq, contains, intersects, borrow) at most 6M\u00b2+16M+4 times per level of the tree and once more, hence O(M\u00b2 log n) times for n entries if 2m \u2264 M; a lookup calls it at most 2M times in each node it enters, and enters the root and the nodes whose bounds (and those of the nodes above) contain the bounds of the key; insert_unique calls what the two together call, up to 3M+1 more per level; a removal calls it at most 5M+1 times in each node whose bounds intersect those of the key, and then reinserts less than m entries per level. The bound for lookups cannot be improved to the height of the tree: for every n and every safe configuration there is a tree of n different keys in which the search for an absent one calls user code at least 2n times.", "quantifier": "all configurations, all reachable trees, all keys and values, all trait implementations (the logarithmic bounds: 2m \u2264 M and volumes that can be computed)", "why_tests_cant": "A test measures the calls of one operation on one tree; the bound is on the worst case over all trees and all answers of user code, and the lower bound is for all sizes.", "anchors": ["src/node.rs: NodeRefMut::insert, insert_unique, remove, NodeRef::get, get_mut, self_insert, NodeContainer::remove", "src/split.rs: worst_combination, best_candidate_for_group, QuadraticSplitter::split", "src/select.rs: MinimalVolumeIncreaseSelector::select"]}
{"id": "C83", "title": "Queries read the memory of trees and change nothing", "statement": "After any program that creates, fills, changes, clones and drops any number of trees, every query that takes the tree by shared reference (iter, filter_iter, sorted iteration by any ranking stopped after any number of entries, min_by, filter_min_by, and join and left_join of two trees or of a tree with itself, with every right-hand iterator run to its end) reads only initialised slots of live blocks, yields what it yields on trees as values, panics only if the user's ranking panics, and leaves every byte of the memory as it was.", "quantifier": "all programs over any number of trees, all memory layouts the allocator may choose, all filters and rankings (even ones that break their contracts), all priority queues, all numbers of entries taken", "why_tests_cant": "The iterators follow raw pointers into node blocks through untagged unions; that no read is stale, uninitialised or of the wrong variant must hold for every history of the memory.", "anchors": ["src/iter.rs: Iter, FilterIter, SortedIter, FilterSortedIter", "src/join.rs: JoinIter", "src/left_join.rs: LeftJoinIter", "src/lib.rs: RTree::{iter,filter_iter,iter_asc_by,filter_iter_asc_by,min_by,filter_min_by,join,left_join}", "src/fc_vec.rs: Deref for FCVec"]}
{"id": "C84", "title": "References handed out by mutable iteration stay valid, distinct and independent", "statement": "The references handed out by iter_mut, filter_iter_mut, iter_asc_by_mut, filter_iter_asc_by_mut, min_by_mut and filter_min_by_mut point to different values in memory; a client may keep all of them and read and write through any of them, in any order, also between two calls of next, and every read gives the last value written through that reference (or the original one); keys, other values and the structure of the tree do not change; nothing is lost, dropped twice or leaked, and afterwards the tree can be used like any other.", "quantifier": "all programs over any number of trees that mix such iterations, stopped at any point, with all other calls; all uses of the references; all filters and rankings, even ones that break their contracts; all priority queues and memory layouts", "why_tests_cant": "The iterators walk the nodes with raw pointers while the client holds mutable references into the same leaves; that a later step never yields the same value again or sees a stale node must hold for every interleaving of the iterator with the client.", "anchors": ["src/iter.rs: IterMut, FilterIterMut, SortedIterMut, FilterSortedIterMut", "src/lib.rs: RTree::{iter_mut,filter_iter_mut,iter_asc_by_mut,filter_iter_asc_by_mut,min_by_mut,filter_min_by_mut}", "src/node.rs: Node::{leaf_children_mut,inner_children_mut}"]}
{"id": "C85", "title": "References of one mutable iteration may be used by several threads at once", "statement": "The references that one mutable iteration (iter_mut, filter_iter_mut, iter_asc_by_mut, filter_iter_asc_by_mut, min_by_mut, filter_min_by_mut) yields may be handed out to different threads. Each thread reads and writes through its own references, and what it does may depend on what it has seen. Under every interleaving of single accesses there is no undefined behaviour and no data race, every thread gets exactly the answers it would get if it ran alone, and when one looks at the tree afterwards each value handed out is what the owner of its reference has made of it, all other values, all keys and the structure being unchanged. No value is lost or duplicated.", "quantifier": "every history of trees, every filter, ranking, priority queue and number of references taken, every assignment of references to threads, all (adaptive) thread programs, every schedule", "why_tests_cant": "Data races show up only under particular schedules, and the disjointness of the references must hold for all of them and for every shape of the tree.", "anchors": ["src/iter.rs IterMut, FilterIterMut, SortedIterMut, FilterSortedIterMut", "src/lib.rs RTree::iter_mut, filter_iter_mut, iter_asc_by_mut, filter_iter_asc_by_mut", "src/fc_vec.rs unsafe impl Send, Sync"]}
{"id": "C86", "title": "Exhausted iterators stay exhausted", "statement": "Once next of any iterator of the crate (iter, iter_mut, filter_iter, filter_iter_mut, iter_asc_by, filter_iter_asc_by and their _mut versions, join, left_join and the right-hand iterators of left_join) has answered None, every later call of next answers None, calls no user code and yields nothing new, even if filters and rankings panicked or answered inconsistently before, and whatever they would answer now. For a left join this holds after any further mix of calls of the left join and of the right-hand iterators it has yielded.", "quantifier": "every tree and iterator state in which next answers None, every filter, ranking and order (also ones that panic or answer differently each time), any number and mix of later calls", "why_tests_cant": "Tests stop at the first None or call next once more on one tree; the claim is about every number of later calls, every filter that could be asked, every shape of the trees and every earlier panic.", "anchors": ["src/iter.rs Iter::next, IterMut::next, FilterIter::next, SortedIter::next, FilterSortedIter::next", "src/join.rs JoinIter::next", "src/left_join.rs LeftJoinIter::next"]}
{"id": "C87", "title": "Well-behaved user code: the machinery for panics changes nothing", "statement": "Any program that creates, fills, changes, reads, clones and drops any number of trees, with trait implementations that answer what their instance says and never panic, clones that equal the original, and a program that does not panic on values: with guards, destructors, boxed bounds and untagged memory in place, no call panics, every call gives the reply the program on values gives, and the trees that can be read from memory at the end are the same trees (levels, nodes, bounds, keys, values, all in order).", "quantifier": "every program (any commands, in any order, over any number of trees, any configuration with max_children >= 2 whose full vectors fit into memory), every lawful or unlawful but consistent instance of the traits", "why_tests_cant": "A test sees the trees of one program; the guards, copies and destructors must be without effect for every shape of the tree, every split, every re-insertion and every history of clones and drops.", "anchors": ["src/node.rs", "src/split.rs", "src/select.rs", "src/fc_vec.rs", "src/lib.rs RTree::insert, insert_unique, remove, get, get_mut, clone, drop"]}
{"id": "C88", "title": "After panics, what can be read is all that matters", "statement": "In a program whose user code (trait implementations, clones, comparisons, destructors) may panic at any call and answer anything at any call, with the panics caught and the trees used further: (1) each call, whether it returns or panics, leaves every tree other than the one it works on exactly as it was (same nodes, bounds, keys, values, order), clones included; (2) the trees that are left can be read, and if user code behaves from then on, every further program does with them exactly what it would do with trees of that content built any other way: there is no hidden damage beside the contents.", "quantifier": "every program over any number of trees with any max_children >= 2 whose full vectors fit into memory, every position of panics and every answer of user code, every further program", "why_tests_cant": "The damage a panic may leave depends on the call at which it happens, on the shape of the tree and on the whole history; that nothing else is hit, and that nothing else than the readable contents counts later on, is a claim about all of them.", "anchors": ["src/lib.rs RTree", "src/node.rs", "src/fc_vec.rs", "src/select.rs", "src/split.rs"]}
{"id": "C89", "title": "integer coordinates of every type, with overflow checks", "statement": "In a debug build (integer overflow panics), with coordinates of any of the types i8, i16, i32, u8, u16, u32: (1) in a tree with unsigned coordinates no sequence of operations panics if no inserted key is inverted, however far apart the keys are; with signed coordinates none panics if all keys lie in a window whose width the type can represent; (2) with signed coordinates, min_by and iter_asc_by with EuclideanDistanceRanking on a non-empty tree of points or boxes do not panic and are right if for every entry the square of its distance (of the distance to some point of the box) fits the coordinate type; nothing is assumed about the single differences or about inner nodes.", "quantifier": "every coordinate type of at most 32 bits, every dimension up to 31, every history, every query point, every safe configuration", "why_tests_cant": "Whether a difference, a square or a sum overflows depends on the coordinates of all keys, on the bounds of inner nodes that insertion happens to form, and on the query point.", "anchors": ["src/bounds.rs AABB, Bounds::volume", "src/vector.rs SVec, sq_mag", "src/ranking.rs PointDistance, EuclideanDistanceRanking", "src/iter.rs SortedIter", "src/lib.rs RTree::insert, RTree::min_by, RTree::iter_asc_by"]}
{"id": "C90", "title": "nearest neighbours with unsigned coordinates", "statement": "In a debug build, min_by and iter_asc_by with EuclideanDistanceRanking on a non-empty tree of points with unsigned integer coordinates do not panic and are right if all squared distances fit the coordinate type.", "quantifier": "every unsigned coordinate type, every dimension, every history, every query point", "why_tests_cant": "The difference of two unsigned coordinates underflows for query points on one side of a key or of the bounds of an inner node only.", "anchors": ["src/bounds.rs AABB, Bounds::volume", "src/vector.rs SVec, sq_mag", "src/ranking.rs PointDistance, EuclideanDistanceRanking", "src/iter.rs SortedIter", "src/lib.rs RTree::insert, RTree::min_by, RTree::iter_asc_by"]}
{"id": "C91", "title": "integer coordinates of every type, in release builds", "statement": "In a release build (integer overflow wraps around), with coordinates of any of the types i8, i16, i32, u8, u16, u32: (1) no sequence of operations on a tree panics, whatever the keys are (inverted ones and those with overflowing differences included); (2) min_by and iter_asc_by with EuclideanDistanceRanking on trees of points or boxes never panic, return None exactly on the empty tree, and are right if all squared distances of the entries fit the coordinate type, even if differences and squares wrap around on the way.", "quantifier": "every coordinate type of at most 32 bits, every dimension up to 31 for (1) and every one for (2), every history, every query point, every safe configuration", "why_tests_cant": "Tests run in debug builds, where overflow panics; wrong answers through wrap-around need particular distances between keys, inner nodes and query points.", "anchors": ["src/bounds.rs AABB, Bounds::volume", "src/vector.rs SVec, sq_mag", "src/ranking.rs PointDistance, EuclideanDistanceRanking", "src/iter.rs SortedIter", "src/lib.rs RTree::insert, RTree::min_by, RTree::iter_asc_by"]}
{"id": "C92", "title": "geometry with integers of every type", "statement": "For coordinates of any of the types i8, i16, i32, u8, u16, u32: (1) whenever a geometric operation (squared distances, volumes, intersections of boxes, segments, rays and spheres, lengths and bounds) does not panic in a debug build, it has the same result in a release build; (2) with signed coordinates in a window whose width the type can represent, and in both profiles, segment and ray queries on trees of boxes, sphere queries on trees of points, and distance joins and left joins of trees of points do not panic (on non-empty trees) and are right: segment queries up to 2^-50 of the extent of the segment, ray queries (about the whole line of the ray, as C42 shows) up to 2^-51 of the distances of the sides from the origin, the other two exactly (the squared distances must fit the type in joins, the square of the radius must be below 2^53 in sphere queries).", "quantifier": "every coordinate type of at most 32 bits, both build profiles, every dimension, every history, every segment, ray, sphere and distance", "why_tests_cant": "Tests run in one profile and mostly with one coordinate type; whether a difference overflows depends on the bounds of inner nodes that insertion happens to form.", "anchors": ["src/bounds.rs SAABB::sq_dist_to, SAABB, Intersects for SAABB", "src/intersects.rs line_bounds_intersect, ray_bounds_intersect", "src/geom/line.rs Line", "src/geom/ray.rs Ray", "src/geom/sphere.rs Sphere", "src/filter.rs BoundedIntersectsFilter","src/ranking.rs PointDistance", "src/vector.rs SVec"]}
{"id": "C93", "title": "shapes with unsigned coordinates", "statement": "With unsigned integer coordinates, sq_dist_to of two boxes, spheres, segments and rays work like with signed ones: in debug builds they do not panic, and in release builds they give the right answers.", "quantifier": "every unsigned coordinate type, both build profiles, every dimension, all boxes, segments, rays, spheres and points, every history", "why_tests_cant": "The differences underflow only for particular relative positions of shape, key and inner node; in release builds nothing is noticed.", "anchors": ["src/bounds.rs SAABB::sq_dist_to, SAABB, Intersects for SAABB", "src/intersects.rs line_bounds_intersect, ray_bounds_intersect", "src/geom/line.rs Line", "src/geom/ray.rs Ray", "src/geom/sphere.rs Sphere", "src/filter.rs BoundedIntersectsFilter","src/ranking.rs PointDistance", "src/vector.rs SVec"]}
{"id": "C94", "title": "Nothing but the answers of the trait functions matters", "statement": "What the tree does is determined by the answers of the functions of Bounds, Volume, Bounded and PartialEq and by the calls made, and never by the values stored: if keys, bounds and values are replaced by others (of any other types) for which all these functions give the corresponding answers, then every history ends with the same tree up to the replacement - the same nodes with the same children in the same places - or with the same panic, and get, iter, filter_iter, len, is_empty, insert, insert_unique, remove, clone, sorted iteration (with any ranking) and joins return the replaced results, in the same order. In particular values of any type may be replaced by others of any type, and in the plane the two axes are interchangeable, also for floating-point coordinates.", "quantifier": "all trees, histories, configurations, key, bounds and value types, all translations that the trait functions respect, all values", "why_tests_cant": "the statement compares every instantiation of the generic code with every other one; a test runs one instantiation", "anchors": ["src/lib.rs: RTree", "src/node.rs", "src/split.rs", "src/select.rs", "src/iter.rs"]}
{"id": "C95", "title": "Release builds do what debug builds do, as long as those do not panic", "statement": "With integer coordinates of every type (i8 ... u32), every history of a tree of points or boxes that does not panic in a debug build (overflow checks) gives exactly the same tree - same nodes, bounds and order - in a release build (wrapping arithmetic), and each call on any tree that returns in the debug build returns the same result in the release build, nearest-neighbour queries included (ties broken the same way).", "quantifier": "all integer types, dimensions, configurations, histories and trees of points or boxes, all filters that answer alike", "why_tests_cant": "the two builds are compared on every history; a test suite is run with few histories and usually in one profile", "anchors": ["src/bounds.rs: Volume for SAABB", "src/vector.rs: SVec", "src/lib.rs: RTree"]}
{"id": "C96", "title": "Calls of the global allocator", "statement": "The tree goes to the allocator for the buffers of its nodes only when it gains or loses nodes (not counted: the array of slots that remove allocates and frees again). new asks for one buffer. get, writing through get_mut, len and is_empty never ask for or give back a buffer, nor does an insert_unique that replaces a value or a remove that finds nothing. insert and insert_unique give no memory back and ask for at most as many buffers as the tree is high, or, if the tree grows, for exactly two more than it was high; with sound configurations that is at most log2 of the number of entries. A remove gives back at most one buffer per level and one more, and asks for at most level * (min_children - 1) times the height of the new tree plus one. clone asks for exactly one buffer per node and gives none back; drop gives back exactly one per node and asks for none. The buffers live after a call are those live before, with those asked for and without those given back.", "quantifier": "every program of creations, insertions, removals, lookups, clones and drops over any number of trees, any configurations and trait implementations for which it does not panic, every further call, every placement the allocator chooses", "why_tests_cant": "An allocator that counts calls shows the counts of the calls made; the bounds are about trees of any height, any sequence of splits, re-insertions and growth, and whatever the allocator answers.", "anchors": ["/repo/src/fc_vec.rs (FCVecContainer::new, drop, FCVecIntoIter::drop)", "/repo/src/node.rs (insert, insert_unique, remove, clone_node, drop)", "/repo/src/lib.rs (RTree::insert, insert_unique, remove, get, get_mut, len, clone, drop)"]}
