import Verif.Proofs.RawKinds
import Verif.Props.Callbacks
/-!
# The memory of iterators (C59, C60)

A client makes iterators (or joins) of trees, calls `next` of them and drops them, in any order, any number of them at a time; the filters may
panic (the client catches that) or answer inconsistently.  `Session.run` fails if there is undefined behaviour (an access outside of a block, of memory that
is uninitialised or freed, of the wrong field of a union, a `dealloc` with the wrong layout) or a panic that does not come from a filter.
-/

namespace RTree.Raw

open Calls (Story iterQuery joinQuery)

/-! ## C59: stacks of iterators and joins -/

section Tree

variable {B K V Q : Type} [Bounds B] [Volume B] [Bounded K B] [BEq K]

/-- C59: many iterators in one memory.  Whatever a client does with iterators of trees, there is no undefined behaviour and no panic but those of the filters; memory
    that the client had before is not touched; when all iterators are dropped, all memory they took is free again; and each iterator, whatever happens to the others in the
    meantime, tells the `Story` of C57.  `hroom`: `Vec::with_capacity(n)` has room for `n` elements exactly (see C60). -/
theorem C59_iterators {E : Env} (hs : 0 < E.size) {room : Nat → Nat} (hroom : ∀ n, room n = n) (borrow : K → Q) (h0 : Heap (TreeEntry B K V))
    (cmds : List (IterCmd (Tree B K V) (SpatialFilter B Q)))
    (hc : ∀ t code, (t, code) ∈ started cmds → (∃ (c : Config) (P : K → Prop), Reachable c P t) ∧ (t.level + 1) * E.size ≤ E.maxBytes) :
    ∃ st, Session.run (treeKind E room borrow) ⟨h0, [], []⟩ cmds = .ok st ∧ (∀ j, j < h0.length → st.heap[j]? = h0[j]?) ∧
      ((∀ o ∈ st.its, o = none) → ∃ m, st.heap = h0 ++ List.replicate m none) ∧
      ∀ (k : Nat) (t : Tree B K V) (code : Nat → Option (SpatialFilter B Q)), (started cmds)[k]? = some (t, code) →
        match code 0 with
        | none => itemsOf k st.log = []
        | some f => Story (iterQuery borrow t.nodes) code 1 (if f.testBounds t.root.bounds then t.entries else []) (itemsOf k st.log) := by
  obtain ⟨st, h1, h2, h3, -, h4⟩ := (treeMirror hs room borrow).session hs h0 cmds (fun x hx => by
    obtain ⟨⟨c, P, hr⟩, hm⟩ := hc x.1 x.2 hx
    exact ⟨hr.shape, hm, hroom _⟩)
  refine ⟨st, h1, h2, h3, fun k t code hk => ?_⟩
  obtain ⟨⟨c, P, hr⟩, -⟩ := hc t code (List.mem_of_getElem? hk)
  rcases h4 k t code hk with ⟨g1, g2⟩ | ⟨⟨f, g1⟩, s0, s, n, ⟨s₀, g2⟩, g3⟩
  · rw [g1]; exact g2
  · rw [g1]
    have key := Calls.filter_iter_of_shape hr.shape code borrow s₀
    rw [g1] at key
    obtain ⟨s₁, g4, g5⟩ := key
    rw [g2] at g4
    cases g4
    obtain ⟨outs, s', n', g6, -, g7⟩ := g5 (itemsOf k st.log).length
    rw [← nextsOf_tree] at g6
    have g3 : nextsOf (Calls.TreeIter.next code borrow) (itemsOf k st.log).length s0 1 = _ := g3
    rw [g6] at g3
    cases g3
    exact g7

/-- C59: `iter_mut` and `filter_iter_mut`: whatever a client does, each iterator hands out each value at most once. -/
theorem C59_no_alias {E : Env} (hs : 0 < E.size) {room : Nat → Nat} (hroom : ∀ n, room n = n) (borrow : K → Q) (h0 : Heap (TreeEntry B K Nat))
    (cmds : List (IterCmd (Tree B K Nat) (SpatialFilter B Q))) {st : Session (TreeEntry B K Nat) BoxStack (SpatialFilter B Q) (K × Nat)}
    (hc : ∀ t code, (t, code) ∈ started cmds → (∃ (V : Type) (c : Config) (P : K → Prop) (t' : Tree B K V), Reachable c P t' ∧ t = t'.addressed) ∧
      (t.level + 1) * E.size ≤ E.maxBytes)
    (hrun : Session.run (treeKind E room borrow) ⟨h0, [], []⟩ cmds = .ok st) (k : Nat) :
    ((Calls.yields (itemsOf k st.log)).map Prod.snd).Nodup := by
  obtain ⟨st', h1, -, -, h3, h4⟩ := (treeMirror hs room borrow).session hs h0 cmds (fun x hx => by
    obtain ⟨⟨V, c, P, t', hr, ht⟩, hm⟩ := hc x.1 x.2 hx
    refine ⟨?_, hm, hroom _⟩
    rw [ht]
    exact hr.addressed_shape)
  rw [hrun] at h1
  cases h1
  cases hk : (started cmds)[k]? with
  | none =>
    have : itemsOf k st.log = [] := by
      unfold itemsOf
      rw [List.map_eq_nil_iff, List.filter_eq_nil_iff]
      intro x hx
      have := h3 x hx
      have := List.getElem?_eq_none_iff.1 hk
      simp; omega
    rw [this]
    exact List.nodup_nil
  | some x =>
    obtain ⟨t, code⟩ := x
    obtain ⟨⟨V, c, P, t', hr, rfl⟩, -⟩ := hc t code (List.mem_of_getElem? hk)
    rcases h4 k _ code hk with ⟨g1, g2⟩ | ⟨⟨f, g1⟩, s0, s, n, ⟨s₀, g2⟩, g3⟩
    · rw [g2]; exact List.nodup_nil
    · have g3 : nextsOf (Calls.TreeIter.next code borrow) (itemsOf k st.log).length s0 1 = _ := g3
      rw [nextsOf_tree] at g3
      exact t'.addressed_nodup.sublist ((Calls.sublist_of_shape hr.addressed_shape code borrow g2 g3).1.map _)

end Tree

section Join

variable {B0 B1 K0 K1 V0 V1 Q0 Q1 : Type} [Bounds B0] [Volume B0] [Bounded K0 B0] [BEq K0] [Bounds B1] [Volume B1] [Bounded K1 B1] [BEq K1]

/-- C59: many joins in one memory: as `C59_iterators`, with the `Story` of C58. -/
theorem C59_joins {E : Env} (hs : 0 < E.size) {room : Nat → Nat} (hroom : ∀ n, room n = n) (borrow0 : K0 → Q0) (borrow1 : K1 → Q1)
    (h0 : Heap (JoinEntry B0 B1 K0 K1 V0 V1)) (cmds : List (IterCmd (Tree B0 K0 V0 × Tree B1 K1 V1) (JoinFilter B0 B1 Q0 Q1)))
    (hc : ∀ t code, (t, code) ∈ started cmds → (∃ (c : Config) (P : K0 → Prop), Reachable c P t.1) ∧ (∃ (c : Config) (P : K1 → Prop), Reachable c P t.2) ∧
      (max t.1.level t.2.level + 1) * E.size ≤ E.maxBytes) :
    ∃ st, Session.run (joinKind E room borrow0 borrow1) ⟨h0, [], []⟩ cmds = .ok st ∧ (∀ j, j < h0.length → st.heap[j]? = h0[j]?) ∧
      ((∀ o ∈ st.its, o = none) → ∃ m, st.heap = h0 ++ List.replicate m none) ∧
      ∀ (k : Nat) (t0 : Tree B0 K0 V0) (t1 : Tree B1 K1 V1) (code : Nat → Option (JoinFilter B0 B1 Q0 Q1)) (all : List ((K0 × V0) × (K1 × V1))),
        (started cmds)[k]? = some ((t0, t1), code) → t0.join borrow0 borrow1 (Calls.acceptAll B0 B1 Q0 Q1) t1 = Except.ok all →
        match code 0 with
        | none => itemsOf k st.log = []
        | some f => Story (joinQuery borrow0 borrow1 t0.nodes t1.nodes) code 1 (if f.testBounds t0.root.bounds t1.root.bounds then all else []) (itemsOf k st.log) := by
  obtain ⟨st, h1, h2, h3, -, h4⟩ := (joinMirror hs room borrow0 borrow1).session hs h0 cmds (fun x hx => by
    obtain ⟨⟨c0, P0, hr0⟩, ⟨c1, P1, hr1⟩, hm⟩ := hc x.1 x.2 hx
    exact ⟨hr0.shape, hr1.shape, hm, hroom _⟩)
  refine ⟨st, h1, h2, h3, fun k t0 t1 code all hk hall => ?_⟩
  obtain ⟨⟨c0, P0, hr0⟩, ⟨c1, P1, hr1⟩, -⟩ := hc (t0, t1) code (List.mem_of_getElem? hk)
  rcases h4 k (t0, t1) code hk with ⟨g1, g2⟩ | ⟨⟨f, g1⟩, s0, s, n, ⟨s₀, g2⟩, g3⟩
  · rw [g1]; exact g2
  · rw [g1]
    have key := Calls.join_of_shape hr0.shape hr1.shape code borrow0 borrow1 s₀
    rw [g1, Calls.join_acceptAll hr0 hr1 hall] at key
    obtain ⟨s₁, g4, g5⟩ := key
    have g2 : Calls.JoinIter.new code t0.root t0.level t1.root t1.level s₀ 0 = _ := g2
    rw [g2] at g4
    cases g4
    obtain ⟨outs, s', n', g6, -, g7⟩ := g5 (itemsOf k st.log).length
    rw [← nextsOf_join] at g6
    have g3 : nextsOf (Calls.JoinIter.next code borrow0 borrow1) (itemsOf k st.log).length s0 1 = _ := g3
    rw [g6] at g3
    cases g3
    exact g7

end Join

/-- Entries of 24 bytes. -/
def stackEnv : Env := ⟨24, 1000000, false, fun _ => 0⟩

/-- Two iterators, one with a filter that panics at its fourth call, used by turns; the first is dropped early. -/
def stackCmds : List (IterCmd (Tree (AABB I32 2) (AABB I32 2) Nat) (SpatialFilter (AABB I32 2) (AABB I32 2))) :=
  [.start sampleTree Calls.shaky, .next 0, .start smallTree (fun _ => some (noFilter _ _)), .next 1, .next 0, .next 0, .next 1, .drop 0, .next 1, .next 1, .drop 1]

/-- What is left of a session: freed or not, for each block and each iterator, and what was handed out. -/
def summary {α ι F K : Type} (r : Res (Session α ι F (K × Nat))) : Option (List Bool × List Bool × List (Nat × Option (Option Nat))) :=
  match r with
  | .ok st => some (st.heap.map Option.isNone, st.its.map Option.isNone, st.log.map fun x => (x.1, match x.2 with
    | .ok e => some (e.map Prod.snd)
    | .error _ => none))
  | .error _ => none

example : summary (Session.run (treeKind stackEnv id id) ⟨[], [], []⟩ stackCmds) = some ([true, true], [true, true],
    [(0, some (some 1)), (1, some (some 1)), (0, none), (0, some (some 3)), (1, some (some 2)), (1, some none), (1, some none)]) := by decide +kernel

/-- The hypotheses of `C59_iterators` are met. -/
example : ∀ t code, (t, code) ∈ started stackCmds → (∃ (c : Config) (P : AABB I32 2 → Prop), Reachable c P t) ∧ (t.level + 1) * stackEnv.size ≤ stackEnv.maxBytes := by
  intro t code h
  simp only [stackCmds, started, List.mem_cons, Prod.mk.injEq, List.not_mem_nil, or_false] at h
  rcases h with ⟨rfl, _⟩ | ⟨rfl, _⟩
  · exact ⟨⟨_, _, sample_reachable⟩, by decide +kernel⟩
  · exact ⟨⟨_, _, small_reachable⟩, by decide +kernel⟩

/-- A join by a filter that panics, and one by a filter that does not, used by turns. -/
def stackJoins : List (IterCmd (Tree (AABB I32 2) (AABB I32 2) Nat × Tree (AABB I32 2) (AABB I32 2) Nat) (JoinFilter (AABB I32 2) (AABB I32 2) (AABB I32 2) (AABB I32 2))) :=
  [.start (sampleTree, smallTree) Calls.shakyJoin, .start (smallTree, sampleTree) (fun _ => some (Calls.acceptAll _ _ _ _)), .next 0, .next 1, .next 0, .next 0,
    .drop 1, .next 0, .next 0, .drop 0]

/-- What is left of `stackJoins`: freed or not, for each block, and what was handed out. -/
def joinSummary : Option (List Bool × List (Nat × Option (Option (Nat × Nat)))) :=
  match Session.run (joinKind stackEnv id id id) ⟨[], [], []⟩ stackJoins with
  | .ok st => some (st.heap.map Option.isNone, st.log.map fun x => (x.1, match x.2 with
    | .ok e => some (e.map fun y => (y.1.2, y.2.2))
    | .error _ => none))
  | .error _ => none

example : joinSummary.map Prod.fst = some [true, true] := by decide +kernel
example : (joinSummary.map fun x => x.2.map Prod.fst) = some [0, 1, 0, 0, 0, 0] := by decide +kernel
example : (joinSummary.map fun x => x.2.map Prod.snd) =
    some [some (some (1, 1)), some (some (1, 1)), some (some (5, 1)), some (some (3, 1)), none, some (some (1, 2))] := by decide +kernel

/-- The hypotheses of `C59_joins` are met. -/
example : ∀ t code, (t, code) ∈ started stackJoins → (∃ (c : Config) (P : AABB I32 2 → Prop), Reachable c P t.1) ∧ (∃ (c : Config) (P : AABB I32 2 → Prop), Reachable c P t.2) ∧
    (max t.1.level t.2.level + 1) * stackEnv.size ≤ stackEnv.maxBytes := by
  intro t code h
  simp only [stackJoins, started, List.mem_cons, Prod.mk.injEq, List.not_mem_nil, or_false] at h
  rcases h with ⟨rfl, _⟩ | ⟨rfl, _⟩
  · exact ⟨⟨_, _, sample_reachable⟩, ⟨_, _, small_reachable⟩, by decide +kernel⟩
  · exact ⟨⟨_, _, small_reachable⟩, ⟨_, _, sample_reachable⟩, by decide +kernel⟩

/-! ## C60: vectors with room to spare -/

/-- C60 is refuted: with a `Vec::with_capacity` that has room for one element more, as its documentation allows, dropping an iterator is undefined behaviour: the box that
    was made of the leaked vector gives its memory back with the layout of the slice, which is not that of the allocation. -/
theorem C60_spare_capacity_refuted : ¬ ∀ room : Nat → Nat, (∀ n, n ≤ room n) →
    ∃ st, Session.run (treeKind (B := AABB I32 2) (K := AABB I32 2) (V := Nat) stackEnv room id) ⟨[], [], []⟩
      [.start sampleTree (fun _ => some (noFilter (AABB I32 2) (AABB I32 2))), .next 0, .drop 0] = .ok st := by
  intro h
  obtain ⟨st, hst⟩ := h (· + 1) (fun n => Nat.le_succ n)
  have hu : (match Session.run (treeKind (B := AABB I32 2) (K := AABB I32 2) (V := Nat) stackEnv (· + 1) id) ⟨[], [], []⟩
      [.start sampleTree (fun _ => some (noFilter (AABB I32 2) (AABB I32 2))), .next 0, .drop 0] with
    | .ok _ => false
    | .error p => decide (p = .ub)) = true := by decide +kernel
  rw [hst] at hu
  cases hu

/-- C60, the part that holds: no undefined behaviour and no leak, if the vector of each iterator made has exactly the room asked for.  Missing: all other vectors that follow the
    documentation (refuted above). -/
theorem C60_exact_capacity_partial {B K V Q : Type} [Bounds B] [Volume B] [Bounded K B] [BEq K] {E : Env} (hs : 0 < E.size) (room : Nat → Nat) (borrow : K → Q)
    (h0 : Heap (TreeEntry B K V)) (cmds : List (IterCmd (Tree B K V) (SpatialFilter B Q)))
    (hc : ∀ t code, (t, code) ∈ started cmds → (∃ (c : Config) (P : K → Prop), Reachable c P t) ∧ (t.level + 1) * E.size ≤ E.maxBytes ∧ room (t.level + 1) = t.level + 1) :
    ∃ st, Session.run (treeKind E room borrow) ⟨h0, [], []⟩ cmds = .ok st ∧ (∀ j, j < h0.length → st.heap[j]? = h0[j]?) ∧
      ((∀ o ∈ st.its, o = none) → ∃ m, st.heap = h0 ++ List.replicate m none) := by
  obtain ⟨st, h1, h2, h3, -⟩ := (treeMirror hs room borrow).session hs h0 cmds (fun x hx => by
    obtain ⟨⟨c, P, hr⟩, hm⟩ := hc x.1 x.2 hx
    exact ⟨hr.shape, hm⟩)
  exact ⟨st, h1, h2, h3⟩

/-- The hypotheses are met by a vector with room to spare at other sizes than that of the tree. -/
example : ∀ t code, (t, code) ∈ started [IterCmd.start sampleTree (fun _ => some (noFilter (AABB I32 2) (AABB I32 2))), .next 0, .drop 0] →
    (∃ (c : Config) (P : AABB I32 2 → Prop), Reachable c P t) ∧ (t.level + 1) * stackEnv.size ≤ stackEnv.maxBytes ∧
      (fun n => if n = 2 then 2 else n + 7) (t.level + 1) = t.level + 1 := by
  intro t code h
  simp only [started, List.mem_cons, Prod.mk.injEq, List.not_mem_nil, or_false] at h
  obtain ⟨rfl, _⟩ := h
  exact ⟨⟨_, _, sample_reachable⟩, by decide +kernel, by decide +kernel⟩

end RTree.Raw
