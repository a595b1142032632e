# Design: a Lean 4 model of rusty-rtree

(First version written before the proofs; kept up to date as the model grew.)

## Layers

The crate is a pure data structure on top of an unsafe memory layer. The model has these layers, each a set of total,
computable Lean functions; every definition cites the Rust lines it models, or says that it is a modelling device or client code.

| layer | Lean module | Rust |
|---|---|---|
| results and panics | `Verif/Basic.lean` | panics, `unwrap`, union misreads and all other undefined behaviour are explicit error values (`Res α = Except Panic α`) |
| trait contracts | `Verif/Model/Traits.lean` | traits of `bounds.rs`, `filter.rs`, `ranking.rs` |
| vectors as values | `Verif/Model/Vec.lean` | `fc_vec.rs` (list view) |
| select, split | `Verif/Model/Select.lean`, `Split.lean` | `select.rs`, `split.rs` |
| tree as a value | `Verif/Model/Node.lean`, `Tree.lean`, `Mut.lean` | `node.rs`, `lib.rs` |
| iterators | `Verif/Model/Iter.lean`, `Sorted.lean` | `iter.rs`, `iter_stack.rs` |
| joins | `Verif/Model/Join.lean`, `LeftJoin.lean` | `join.rs`, `left_join.rs` |
| geometry | `Verif/Model/Geom.lean`, `Lines.lean`, `Shapes.lean` | `bounds.rs`, `vector.rs`, `intersects.rs`, `contains.rs`, `ranking.rs`, `filter.rs`, `geom/*` |
| integer coordinates, debug and release | `Verif/Model/Integers.lean` | arithmetic of `i8`…`u32` as used by `bounds.rs`, `vector.rs`, `ranking.rs`, `intersects.rs`, `geom/*.rs` |
| vectors in raw memory | `Verif/Model/FCVec.lean` | `fc_vec.rs` (pointers, layouts, `ptr::read`/`write`/`copy`) |
| the whole tree in raw memory | `Verif/Model/RawTree.lean`, `RawQuery.lean`, `RawSorted.lean`, `RawJoin.lean`, `RawLeftTree.lean`, `RawMut.lean`, `Verif/Programs.lean`, `Verif/Updates.lean`, `Verif/RefThreads.lean` | `node.rs`, `split.rs`, `lib.rs`, iteration of `iter.rs`, `join.rs` and `left_join.rs` on `fc_vec.rs` |
| the same as single accesses to memory, for threads | `Verif/Model/Steps.lean`, `Verif/Model/StepsLeft.lean`, `Verif/Threads.lean` | `Send` and `Sync` of `fc_vec.rs`; every function of the line above, interruptible between any two accesses (proved to be the same functions) |
| the same with the calls of user code counted | `Verif/Model/Work.lean` | selection, split, `insert`, `insert_unique`, `get`, `get_mut`, `remove` (proved to compute what the functions above compute) |
| the same with panics that unwind and user code that lies | `Verif/Model/Unwind.lean`; user code that behaves: `Verif/HonestSpec.lean` | `node.rs`, `split.rs`, `lib.rs` on `fc_vec.rs`, with the destructors that run while unwinding, and destructors that panic (proved to do what the functions above do when user code behaves, C87) |
| iterators with filters and rankings that panic or lie | `Verif/Model/Callbacks.lean`, `CallsLeft.lean`, `CallsSorted.lean` | `iter.rs`, `join.rs`, `left_join.rs`, the state that is left behind by a panic |
| the heap of `std` | `Verif/Model/BinaryHeap.lean` | `BinaryHeap::{push, pop}` of the standard library, as used by `iter.rs` |
| iterator stacks in raw memory, many at once | `Verif/Model/RawStack.lean` | `iter_stack.rs` (leaked `Vec` of untagged unions), `iter.rs`, `join.rs` on it |
| shared allocation protocol | `Verif/Model/RcMut.lean` | `rc_mut.rs`, its use in `left_join.rs` |

`Verif/Spec.lean`, `Verif/SpecGeom.lean` and `Verif/History.lean` hold the small independent specification: the entries of a tree in
left-to-right order, shape, contracts of the user-implementable traits, geometric meaning of boxes and segments, histories of
operations. `Verif/Translate.lean` says what it means to replace types (C94, C95). Property theorems (`Cnn_*`) live in `Verif/Props/*.lean`; lemmas in `Verif/Proofs/*.lean`; concrete reachable trees used as
non-vacuity witnesses in `Verif/Samples.lean`. Theorems without an example beside them are applied, by name, to
concrete cases that meet all their hypotheses in `Verif/Cases/*.lean`.

## Key choices

* **Untagged nodes.** A node of the value layer is an inductive (`leaf`/`inner`), but every function takes the implicit *level* and
  branches on the level exactly as the code does; reading the wrong member is `Panic.ub`. So "no union misread" is a theorem (C20). In
  the raw layer a node is a header with a pointer to a block of untagged cells.
* **Loops** are recursion on a level or explicit fuel; running out of fuel is `Panic.diverge`, which the theorems exclude, so termination is
  proved.
* **Heuristics are arbitrary.** `N64` volumes are an arbitrary type with arbitrary `sub`, `<`, `cmp`; `volume` and `sub` may
  fail. The semantic theorems hold for any heuristic; panic-freedom (C02) assumes volumes of unions of keys are defined, which is proved for
  i32 boxes and points in a window.
* **Key equality** is an arbitrary equivalence (`BEq`), not Leibniz equality; equal keys have equal bounds; lookups use a borrowed key
  type `Q`.
* **Filters and rankings** are arbitrary functions. Rankings may panic (`Res`). Filters are total; a panicking filter test (overflow in
  `sq_dist_to`, `Line::intersects`) is stated separately: the test is a `Res Bool`, and the theorems show when it is defined on every bounds
  and key of a tree (C40, C41, C43, C44, C52).
* **`BinaryHeap`** is any structure obeying its documented contract (push adds an item, pop removes a least one); nothing is assumed about
  ties. The theorems hold for every such heap. The array of the standard library, with its sifting, is proved to be one
  (`Proofs/BinaryHeap.lean`), and C66, where comparisons panic or are inconsistent, is about that array.
* **Zero-sized pairs.** On values a node holds a list of entries; the list is what the vector in memory holds (C26, C45) if pairs of key and value have at
  least one byte. If both have size zero `remove` loses entries (C46, a theorem about the tree in raw memory); the other properties are about pairs that have a size.
* **Histories.** `Reachable t` is reachability by any finite sequence of insert/insert_unique/remove/get_mut writes from `new` of any
  configuration; raw programs (C26) additionally create, clone and drop any number of trees.
* **Memory.** A memory is a list of blocks; a freed block is never used again for a new allocation, and a new block gets any number not used before (`Env.gap`
  is an arbitrary function), so nothing depends on the order of addresses.
* **Threads** (C81) interleave at accesses to whole blocks. The theorem that there is no data race at this grain is what makes the interleaving
  semantics adequate for a weaker memory model.
* **Geometry.** Coordinates are an abstract scalar with checked arithmetic; instances: `i32` with overflow as a panic, `N32`, `N64`,
  and all integer types of at most 32 bits in both build profiles (`Verif/Model/Integers.lean`: overflow panics or wraps around; the NaN checks of
  `noisy_float`, which are debug assertions, are kept in both, since no NaN arises from these integers in at most 31 dimensions). `f64`
  arithmetic is modelled on NaN, the infinities and the rationals (`Verif/Model/Float.lean`): every operation computes the exact result
  and rounds it by IEEE 754 round-to-nearest-even with the exponent range of the format (overflow to infinity, gradual underflow). The two
  zeros are identified; where the sign of a zero matters (`1.0 / x`) the theorems hold for both signs. The rounding is a parameter of the
  operations, so that statements about the ideal (`.exact`, no rounding) can be compared with statements about the code (`.binary64`).
  The theorems use only that rounding is monotone, respects zero and sign, is exact on representable numbers and has relative error
  `2^-53`, all proved from the definition.

## Plan per property and method of proof

| property | model | proof |
|---|---|---|
| C01, C04, C06, C08, C31 | tree value layer | invariant on (level, node), Hoare-style predicate `Sat` over `Res`; entries as lists up to permutation; induction on the level |
| C02, C19, C20, C21, C24 | tree value layer | one invariant (shape, bounds, fan-out, volume clause) preserved by every operation, lifted to all histories by induction |
| C03, C27 | lookup | pruning lemma from the bounds clause; induction on the level |
| C05, C14, C22, C23, C34, C35, C37, C39, C40, C41, C42, C43, C44, C46, C48, C51, C52, C53, C54, C56, C60, C62, C67, C69, C73 | as documented, **false of the code** | `*_refuted`: kernel-checked concrete witness; `*_partial`: what does hold, for all inputs |
| C07, C30 | histories | refinement to an abstract finite map / multiset |
| C09-C11, C28 | stack-machine iterators | invariant "remaining sequence"; addresses instead of values for the mutable versions (no aliasing) |
| C12, C13, C15, C29 | heap iterators | invariant "heap items cover the remaining entries, lower bounds"; Props/StdHeap: the same with the array of std's `BinaryHeap` (Model/BinaryHeap) as the queue |
| C16, C18 | product stack machine | permutation of the filtered product |
| C17 | rewindable right stack | invariant on saved prefixes |
| C25 | clone | structural induction |
| C26 | raw tree + programs | simulation of raw memory by values with a ghost ownership tree; separation-logic style disjointness |
| C32, C33, C35, C36, C37, C40, C43, C44 | boxes; rounded arithmetic | lattice laws; least distance; monotonicity and error bounds of rounding; contract lemmas composed with C10/C12/C16 |
| C38 | Euclidean ranking | contract lemma composed with C12/C13 |
| C61, C62 | `N32`/`N64` coordinates, volumes and distances in IEEE arithmetic | monotonicity of rounding gives the Ranking contract; induction over dimensions for the error; windows closed under union |
| C63, C64 | volumes, square roots, lengths in IEEE arithmetic | monotonicity of rounded products; relative error by induction over dimensions |
| C41, C42 | slab test in rounded arithmetic, for integers, `N32` and `N64` | induction over dimensions; error bounds per dimension (relative errors of the rounded differences, reciprocal and product) |
| C54-C56 | raw memory, unwinding; spec in `Verif/UnwindSpec.lean` | separation-style Hoare triples with a ghost tree of owned things; both the normal and the panicking postcondition; induction on the level and on programs |
| C57, C58 | iterators with an oracle for user code; spec in `Verif/CallsSpec.lean` | invariant "remaining sequence" for the state after each call, also after a panic; induction on the calls |
| C65 | left joins and all their right-hand iterators with an oracle for user code; spec in `Verif/CallsLeftSpec.lean` | invariant "left entries to come, and for each the right entries not yet turned down"; induction on the calls. A panic of `Clone` while a right-hand iterator is made drops the handle to the stack: the same as `next` followed by a drop in C47 |
| C66 | the four sorted iterators on the array of `std`'s `BinaryHeap`, with an oracle for the ranking and `partial_cmp`; spec in `Verif/CallsSortedSpec.lean` | weakest-precondition lemmas for the sifting (the array stays a permutation, also after a panic); invariant "entries below the items of the heap"; ascending order from the heap invariant, which panics of the ranking do not break |
| C67 | `split` on boxes; `Proofs/Seeds.lean` | the scan finds a maximum (induction on the list of pairs); the seeds stay at the head of their groups. Found false in two dimensions: the volume of a pair is taken together with the value that overflowed (`C67_worst_pair_refuted`); proved in one dimension |
| C68 | `Model/Checks.lean`: the `_debug_assert_*` functions as functions that may panic | characterised by induction on the level (`Proofs/Checks.lean`), then from C19, C21, C25 |
| C69 | boxes over `N32`, `N64`; `Proofs/FiniteRange.lean`: finite numbers lie between `MIN` and `MAX` | direct; found false for boxes at infinity |
| C59, C60 | stacks in raw memory, sessions of many iterators | simulation of each iterator in memory by the value-level iterator of C57/C58; heap invariant (one live block per live iterator, pairwise disjoint); induction on the commands |
| C45, C46, C53 | raw vectors | refinement of raw memory to lists |
| C47 | RcMut boxes | protocol invariant for every interleaving of advance and drop |
| C49, C50 | select, split | directly, by induction on the loops |
| C70 | iterators with an oracle for user code (as C57); spec in `Verif/AccountSpec.lean`: a plan is a forest of questions, `account` asks them in order | exact simulation: the plan of the stack and the account of what is left determine each call of `next`; induction on the fuel, then on the calls; counting by mutual induction on nodes |
| C71 | sorted iterators of C12 and `Iterator::take` as client code; a second ranking that agrees with the first where the spec `Ranking.SameWhere` says | simulation of the two runs: whatever is popped before an entry of rank m has a score at most m (pop returns a least item, every pending entry is ranked at least as its item), so both rankings are asked the same; induction on the fuel, then on k |
| C72 | stacks and boxes of left joins in raw memory (`Model/Layout.lean`, `Model/RawLeft.lean`): unions, slots, the flag of the box, layouts; client sessions | simulation of each left join in memory by the value-level left join of C65; heap invariant (each live block has one owner; a box has one or two handles); induction on the commands |
| C73 | dropping one destructor at a time in raw memory, each of which may panic (`Model/Destructors.lean`), in sessions with caught panics; on values: order of drops, pairs lost, nodes not freed (`DestructorSpec.lean`) | the drop is simulated by `dropPairs` with exact accounts of entries and blocks (induction on height), then induction over the session; the property is refuted: after a panic the rest of the entries is never dropped, and memory is lost |
| C74 | `Model/Vectors.lean`: the rest of `vector.rs`; loops over indices in order, panics, closures with state | induction over the loops; linear arithmetic on components |
| C75 | boxes over an arbitrary implementation of `Vector` (`GBox`, `VectorOps` in `Model/Vectors.lean`) | componentwise order reasoning from the contract of the trait; instances: `SVec<i32, D>` and a mixed type |
| C76 | `Model/Debug.lean`: `{:?}` as writing to a sink that may stop; the builders of `std::fmt`, the `Debug` implementations of the crate, children read as the level says | `Writes` composes; the text is read back by induction on the level |
| C77 | `SpaceSpec.lean` (`Node.bytes`, `Tree.bytes`, `liveBytes`) over the raw-memory model | nodes: induction on the level, each node below the root has at least `floor` children; bytes: the blocks alive are those owned by the ghost trees (`Forest.own`), each of `max_children` slots |
| C78 | `Config.Safe` (`Spec.lean`), the tree model | safe: at every level between leaves and root some node has two children (`Wide`), kept by every operation; unsafe: if no history panicked, a tree could be grown and hollowed out by removals to one whose next insertion has no subtree to choose |
| C79 | the tree model, points on a line | refuted: with min_children = max_children = 2 the tree of the points 0..n-1 is a list (`list`, `comb`, `chain` in `Proofs/Linear.lean`, by induction on n); true: height < number of entries, counting the nodes with two children |
| C80 | `AABB.volume` with D = 0 | refuted: every split asks for a volume first, and in dimension zero that panics |
| C81 | `Steps.*` (the raw tree as a program of single block accesses), `Pool.run` | the memory is split into a frozen shared part and one part per thread; every thread, run alone on the shared part and its own, ends as on values (C26's simulation; `&self` calls change only blocks they made); the split is invariant under every access |
| C82 | `Model/Work.lean`: the functions of Select, Split, Node and Tree again with the calls of user code counted | `Does w x k`: the counting function computes what the function of the other model computes, with at most `k` calls; composed function by function, the split by the number of values left; the height by C24 |
| C83 | `RawQuery`, `RawSorted`, `RawJoin`, `RawLeftTree` over `RawTree` memory | every read is simulated by the value-level iterator under the ownership invariant of C26; for left joins, cursors in slices of memory are related to suffixes of lists; for sorted iteration a ghost queue is mapped to both queues (`UniformHeap`) |
| C84 | `RawMut` over `RawTree` memory, with a client that runs at every yield (`Verif/Updates.lean`) | the skeleton of the tree (all but the values) is invariant; the n-th value in iteration order is at a fixed place (`places`), and different addresses have different places; the client is simulated by the same client on values |
| C85 | threads that hold references of one mutable iteration, each access (a read or a write of one value) a step of the scheduler (`Verif/RefThreads.lean`), on top of the mutable iterators in raw memory | simulation: the memory on one side, every thread alone with private values on the other; the references are at different places (C84) |
| C86 | the iterators with user code given by an oracle (`Model/Callbacks.lean`, `Model/CallsSorted.lean`, `Model/CallsLeft.lean`) | invariant of the loops: below the current level all stack entries are exhausted, so after `None` all are; then the loop only climbs. For the left join only the right stack is rewound |
| C87 | `Model/Unwind.lean` run with the user code `honest` of `HonestSpec.lean`, against the program on values of `Programs.lean`; trees read back from memory by `readVars` | simulation of the raw-memory model by the model with unwinding, function by function, with a partial bijection of blocks (bounds own further blocks in the latter), then the simulation of the value model by the raw-memory model (C26); calls worse than a panic are excluded by C54 |
| C88 | `Model/Unwind.lean` (run with any code), trees read from memory by `readVars`; the further program with the code `honest`, against `specProgram` on what was read; the tree a call works on is `target` of `UnwindSpec.lean` | the ownership invariant of C54 extended by what each call keeps (`Kept`); the simulations of C87 started from any forest whose nodes fit into memory (`Proofs/AnyForest.lean`), with the bounds' own blocks stripped (`Proofs/HonestStrip.lean`) |
| C89 | `Model/Integers.lean`: integers of a type and a profile as a scalar instance of the generic geometry (`Model/Geom.lean`): an operation gives the exact result if it fits, else panics (debug) or wraps around (release); volumes through `num_traits` `to_f64` and `N64`. (1) by the volume laws of boxes with finite sides (`AABB.sidesVolumeLaws`) from C02; (2) by showing that the ranking of every entry and node is defined and least over the entries below | (1) for `D ≤ 31` |
| C90 | the same model; **false**: `dist_sq` (ranking.rs) subtracts the query point from the key (for a node, from the closest point of its bounds), which underflows when the query point is beyond the keys in a coordinate. `_refuted` for every reachable tree of this kind; `_partial` for query points that are in no coordinate greater than a key | |
| C91 | the same model with the profile `release`. (1) every wrapped volume is finite, so C02 applies without a condition on the keys; (2) wrap-around is a ring homomorphism: a sum of squares that fits is right; inner nodes are ranked by a point of them that is at most as far as the entries below | |
| C92 | `Proofs/IntShapes.lean`: `SameArith f` says that wherever the arithmetic of the one scalar type is defined, the arithmetic of the other gives the image under `f`, with the same order and the same conversion to `f64`; every function of `Model/Geom.lean` and `Model/Lines.lean` keeps this; `MInt.as` from debug to any profile has it. Queries from C41, C43, C40 in the debug profile plus the tree theorems `filterIter_on`, `join_on`, `leftJoin_on` | |
| C93 | the same model; **false**: all four subtract coordinates in the coordinate type. `_refuted` for every pair of boxes (debug), every point below a center, every segment that goes down or starts beyond a box, every ray that starts beyond a box; wrong answers in release builds for `u8`, `u16`, `u32`. `_partial` for shapes that lie below all keys in every coordinate | |
| C94 | `Verif/Translate.lean`: translations of bounds, volumes, keys, values, filters and calls; `Props/Translate.lean` | each model function commutes with translations (`Img` is closed under bind, folds and array accesses), then induction over histories; instances: other values, swapped axes |
| C95 | `MInt T .debug` and `MInt T .release` (`Model/Integers.lean`) | instance of C94's translations: the arithmetic of the two profiles agrees where nothing overflows (`SameArith`) |
| C96 | the single accesses of `Verif/Model/Steps.lean` run on raw memory; `Verif/Allocator.lean` lists the calls of the allocator a run makes for the buffers of nodes, in order, and says how many each call may make (`Cmd.MayCall`); not counted: the boxed array of slots `remove` makes and frees (node.rs 767-768), which is a list in the model | a calculus of costs over programs of single accesses (`Proofs/Allocator.lean`), the simulation of C26 for the heights and the exact counts, C24 for the logarithm |

Every property of `properties.jsonl` is expressed in the model; none is marked `not_applicable`.

## Properties that the code does not have

Found while proving; each has a kernel-checked witness (`*_refuted`).

* C05 `remove` takes the *last* matching leaf, not the first entry in iteration order. C14 `min_by` does not return the first of several
  least entries. C22 a split may leave `min_children - 1` children when `2*min = max+1`. C23 with `min_children = 1` an insertion can
  panic. C34 `AABB::contains(&point)` has its comparisons reversed. C35 `AABB::contains(&AABB)` is the intersection test. C37 hence
  containment queries are wrong. C39, C52 arithmetic overflow on the inverted bounds of an empty tree. C40, C43 distances and radii are squared in `f64`,
  so large ones are not exact. C41 a segment that ends in a corner of a box may miss it, and the extent
  of a very long segment between `N64` points overflows to infinity, so that boxes in its middle are missed. C42 `Ray::intersects` reports boxes
  behind the origin and misses boxes touched in one point. C46 zero-sized elements vanish in by-value iteration, so that `remove` loses entries of a tree whose pairs have size zero. C48 inverted boxes may
  be lost. C51 `is_empty` with `min_children = 0`. C53 zero-byte allocation requests. C54 with
  `max_children = 1` a caught panic leads to a double free. C56 a panic in user code during a split or a reinsertion loses entries. C60 `Box::from_raw` on a
  leaked `Vec` is undefined behaviour if the vector has spare capacity, which the documentation of `Vec` allows. C40, C43, C44 with
  floating point coordinates a bounds test may prune what the key test accepts. C62 volumes of boxes of finite keys may be NaN, so that
  inserting panics. C67 the seeds of a split need not be the most wasteful pair in two dimensions. C69 `empty()` is not an identity of the union for infinite
  coordinates. C73 a destructor that panics while a tree is dropped keeps the rest of the tree from being dropped and freed. C78 every configuration with
  `min_children < 2` or `max_children < 2` has a history that panics. C79 with `min_children = max_children` the tree of sorted points is a list. C80 trees of dimension
  zero panic at the first split. C90 in debug builds a nearest-neighbour query with unsigned coordinates panics when the query point is beyond
  all keys in a coordinate. C93 with unsigned coordinates `sq_dist_to` of boxes, spheres, segments and rays panic in debug builds and give wrong
  answers in release builds.

## Trusted base

* Lean 4.33 kernel; the theorems depend on no axioms beyond `propext`, `Classical.choice`, `Quot.sound` (`vcheck` prints them per theorem).
  No axioms are added, no `native_decide`, no `bv_decide`; concrete facts are by `decide +kernel` or `rfl`.
* The reading of the Rust source into the model, definition by definition (cited lines).
* The behaviour of `std` as recorded in the model: slices and their iterators, `Vec`, `Box`, `mem::swap/replace/forget`, `ptr::*`,
  `alloc::{alloc,dealloc}`, `Layout::array`, `Iterator::{find,position,min_by_key,filter,enumerate}`, the documented contract of
  `BinaryHeap` (C66: its source, as modelled); `num_traits`/`noisy_float` (`N32`, `N64` panic on NaN - a debug assertion;
  `Bounded` gives the least and greatest *finite* number); `f64` arithmetic is IEEE 754.

### Modelled
All of `lib.rs` (public API, `Debug` in the form `{:?}`), `node.rs`, `split.rs`, `select.rs`, `fc_vec.rs`, `iter.rs`, `iter_stack.rs` (as lists of frames, and in raw memory),
`join.rs`, `left_join.rs` (as values, and in raw memory), `rc_mut.rs` (protocol, boxes in raw memory, layouts), `filter.rs`, `ranking.rs`, `bounds.rs`, `intersects.rs`, `contains.rs`, `geom/*`, `vector.rs` and the parts of
`util.rs` they use.

### Not modelled
* Threads (C81): iterators handed to other threads (of shared trees `get`, `len`, `is_empty`, `clone`, `iter`, `filter_iter`, sorted iteration, joins and left joins are
  modelled, of own trees everything else including mutable iteration; iterators run within one command; references of one mutable iteration handed to other threads are C85); unwinding of a thread that panics (its trees are left in memory); locks and channels around trees.
* `Debug` output in the form `{:#?}` (the form `{:?}` is modelled, C76), benches.
* Alignment of addresses (sizes and alignments of layouts are modelled for boxes, C72) and pointer provenance; allocation failure (`handle_alloc_error` aborts); stack overflow by deep recursion (the height is
  logarithmic for sound configurations, C24, but can be linear if `min_children = max_children`, C79).
* Destructors that panic while another panic unwinds: they abort the program.  (Destructors of keys and bounds that panic in the course of an insertion or a
  removal are part of C54-C56, those that panic while a tree is dropped are C73; by-value iterators of `FCVec` are only used inside of the crate.)
* In raw memory: the guard in `IterStack::init_into` (it acts only if a closure panics; the closures copy slice iterators and run no user code), `Vec` growth.
* Drop of bounds values (plain data for the crate's own `AABB`) outside `Verif/Model/Unwind.lean`; `Clone` of keys and values is the identity there.
* The sign of zero in `f64` (a parameter where it matters); decimal conversion.
* `RcMut::drop` of a shared handle does not run the destructor of the value; harmless for the slice iterators stored in it.
