import Verif.Props.Floats
import Verif.Props.Limits
import Verif.Proofs.Checks
import Verif.Proofs.FiniteRange
/-!
# The self-checks of the tree (C68), bounds of float keys (C19) and `empty()` for floats (C69)

The tests of the crate call `_debug_assert_bvh`, `_debug_assert_min_children` and `_debug_assert_eq` after some
modifications of sample trees. Here: they pass after every modification of every tree, and what it means that they pass.
-/

namespace RTree

variable {B K V : Type} [Bounds B] [Volume B] [Bounded K B] [BEq K]
variable {c c' : Config} {P P' : K → Prop} {t t' : Tree B K V}

/-! ## C68: the checks pass -/

/-- C68: `_debug_assert_bvh` passes exactly if the bounds recorded in every node are the union of the bounds of its children;
    of any tree of uniform height. -/
theorem C68_bvh_check_means [BEq B] [LawfulBEq B] (hs : Shape t.level t.root) :
    t.assertBvh = .ok () ↔ ∀ n ∈ t.nodes, n.bounds = Bounds.unionAll n.childBounds := by
  unfold Tree.assertBvh
  rw [bind_eq_ok]
  constructor
  · rintro ⟨b, hb, -⟩
    exact ((assertBvhNode_ok_iff hs b).1 hb).2
  · intro h
    exact ⟨_, (assertBvhNode_ok_iff hs _).2 ⟨rfl, h⟩, rfl⟩

/-- C68: `_debug_assert_bvh` passes on every reachable tree, if the union of bounds is exact and `empty()` is an identity for
    the keys. -/
theorem C68_bvh_check [ExactBounds B] [LawfulKey K B] [BEq B] [LawfulBEq B]
    (hP : ∀ k, P k → Normal (Bounded.bounds k : B)) (h : Reachable c P t) : t.assertBvh = .ok () :=
  (C68_bvh_check_means h.shape).2 fun _ hn => (C19_bounds_exact hP h hn).1

/-- C68: `_debug_assert_min_children` passes exactly if every node but the root has at least `min_children` children. -/
theorem C68_min_children_check_means (hs : Shape t.level t.root) :
    t.assertMinChildren = .ok () ↔ ∀ n ∈ t.root.descendants, t.alloc.minChildren ≤ n.fanout := by
  unfold Tree.assertMinChildren
  rw [assertMinChildrenNode_ok_iff hs]
  simp

/-- C68: `_debug_assert_min_children` passes on every reachable tree if `2 ≤ min_children` and
    `2 * min_children ≤ max_children` and volumes can be computed. -/
theorem C68_min_children_check [VolumeLaws B] (h2 : 2 ≤ c.minChildren) (hm : 2 * c.minChildren ≤ c.maxChildren)
    (hP : ∀ k, P k → VolumeLaws.volOk (Bounded.bounds k : B)) (h : Reachable c P t) : t.assertMinChildren = .ok () := by
  refine (C68_min_children_check_means h.shape).2 fun n hn => ?_
  rw [h.treeOk_any.2]
  exact (C21_min_children h2 hm hP h).1 n hn

/-- C68: `_debug_assert_eq` passes exactly for trees with the same configuration, height, arrangement of nodes and entries (the
    bounds are not compared); such trees yield the same entries in the same order. -/
theorem C68_eq_check_means [LawfulBEq K] [BEq V] [LawfulBEq V] (h : Reachable c P t) (h' : Reachable c' P' t') :
    (t.assertEq t' = .ok () ↔ t.alloc = t'.alloc ∧ t.level = t'.level ∧ t.root.SameForm t'.root) ∧
      (t.assertEq t' = .ok () → c = c' ∧ t.root.leaves = t'.root.leaves ∧ t.iter = t'.iter) := by
  have key : t.assertEq t' = .ok () ↔ t.alloc = t'.alloc ∧ t.level = t'.level ∧ t.root.SameForm t'.root := by
    unfold Tree.assertEq
    rw [bind_eq_ok]
    constructor
    · rintro ⟨⟨⟩, h1, h2⟩
      obtain ⟨⟨⟩, h3, h4⟩ := bind_eq_ok.1 h2
      exact ⟨by simpa using assertThat_ok.1 h1, (assertEqNode_ok_iff h.shape h'.shape).1 h4⟩
    · rintro ⟨h1, h2, h3⟩
      exact ⟨(), assertThat_ok.2 (by simpa using h1), bind_eq_ok.2 ⟨(), assertThat_ok.2 (by simpa using h2),
        (assertEqNode_ok_iff h.shape h'.shape).2 ⟨h2, h3⟩⟩⟩
  refine ⟨key, fun hc => ?_⟩
  obtain ⟨h1, -, h3⟩ := key.1 hc
  have hl := h3.leaves h.shape h'.shape
  refine ⟨?_, hl, ?_⟩
  · rw [h.treeOk_any.2, h'.treeOk_any.2] at h1
    injection h1 with h4 h5
    cases c; cases c'; simp_all
  · rw [h.iter_eq, h'.iter_eq]
    congr 1
    show t.root.entries = t'.root.entries
    rw [← leaves_flatten _ _ h.shape, ← leaves_flatten _ _ h'.shape, hl]

/-- C68: a tree and its clone pass `_debug_assert_eq`. -/
theorem C68_clone_check [LawfulBEq K] [BEq V] [LawfulBEq V] (h : Reachable c P t) :
    ∃ t', t.clone = .ok t' ∧ t.assertEq t' = .ok () :=
  ⟨t, C25_clone h, (C68_eq_check_means h h).1.2 ⟨rfl, rfl, .refl h.shape⟩⟩

/-- Client code: run the calls, with all self-checks after each of them, as the tests of the crate do
    (lib.rs 565-660). -/
def checkedRun [BEq B] [BEq V] (t : Tree B K V) (ops : List (Op B K V)) : Res (Tree B K V) :=
  ops.foldlM (fun t op => do
    let t ← op.step t
    t.assertBvh
    t.assertMinChildren
    let t' ← t.clone
    t.assertEq t'
    pure t) t

/-- C68: no self-check fails in any history. -/
theorem C68_checked_histories [ExactBounds B] [LawfulKey K B] [BEq B] [LawfulBEq B] [LawfulBEq K] [BEq V] [LawfulBEq V]
    [VolumeLaws B] (h2 : 2 ≤ c.minChildren) (hm : 2 * c.minChildren ≤ c.maxChildren) {ops : List (Op B K V)}
    (hP : ∀ op ∈ ops, ∀ k, op.inserts = some k →
      VolumeLaws.volOk (Bounded.bounds k : B) ∧ Normal (Bounded.bounds k : B)) :
    ∃ t, checkedRun (Tree.new c) ops = .ok t ∧ run (Tree.new c) ops = .ok t := by
  let P' : K → Prop := fun k => VolumeLaws.volOk (Bounded.bounds k : B) ∧ Normal (Bounded.bounds k : B)
  have key : ∀ (ops : List (Op B K V)) (t t1 : Tree B K V), Reachable c P' t →
      (∀ op ∈ ops, ∀ k, op.inserts = some k → P' k) → run t ops = .ok t1 → checkedRun t ops = .ok t1 := by
    intro ops
    induction ops with
    | nil => intro t t1 _ _ h; exact h
    | cons op ops ih =>
      intro t t1 ht hops hr
      unfold run at hr
      rw [List.foldlM_cons] at hr
      obtain ⟨t2, e2, hr⟩ := bind_eq_ok.1 hr
      have h2' := ht.step (hops op (by simp)) e2
      unfold checkedRun
      rw [List.foldlM_cons, e2]
      have b1 := C68_bvh_check (fun _ hk => hk.2) h2'
      have b2 := C68_min_children_check h2 hm (fun _ hk => hk.1) h2'
      obtain ⟨t', b3, b4⟩ := C68_clone_check h2'
      simp only [ok_bind, b1, b2, b3, b4, pure_eq_ok]
      exact ih t2 t1 h2' (fun op' h' => hops op' (by simp [h'])) hr
  obtain ⟨t, ht⟩ := C02_no_panic ⟨h2, by omega⟩ fun op ho k hk => (hP op ho k hk).1
  exact ⟨t, key ops _ t .new hP ht, ht⟩

/-- C68 for the boxes of the crate, with `i32` coordinates of which no two are further apart than `i32::MAX`, in up to 33
    dimensions. -/
theorem C68_checked_histories_i32_boxes {D : Nat} (hD : 0 < D) (hD33 : D ≤ 33) (h2 : 2 ≤ c.minChildren)
    (hm : 2 * c.minChildren ≤ c.maxChildren) {lo hi : I32} (hw : hi.1 - lo.1 ≤ 2147483647) [BEq V] [LawfulBEq V]
    {ops : List (Op (AABB I32 D) (AABB I32 D) V)}
    (hP : ∀ op ∈ ops, ∀ k, op.inserts = some k → k.InWindow lo hi) :
    ∃ t, checkedRun (Tree.new c) ops = .ok t ∧ run (Tree.new c) ops = .ok t := by
  let _ : VolumeLaws (AABB I32 D) := AABB.windowVolumeLaws lo hi (FullRange.minVal_le _) (FullRange.le_maxVal _) hD
    (by omega) (I32.window hw)
  exact C68_checked_histories h2 hm fun op ho k hk => ⟨hP op ho k hk, AABB.normal _⟩

example : ∃ t, checkedRun (Tree.new cfg42) sampleOps = .ok t ∧ run (Tree.new cfg42) sampleOps = .ok t :=
  C68_checked_histories_i32_boxes (by decide) (by decide) (by decide) (by decide) (lo := i32 (-1000)) (hi := i32 1000)
    (by decide) fun op h k hk => (sampleOps_keys op h k hk).1

/-- The checks do fail on wrong trees: on one with too wide bounds, one with too few children in a node, and on two trees
    with different values; bounds are not compared by `_debug_assert_eq`. -/
example :
    (⟨⟨2, 4⟩, 0, .leaf (box 0 0 9 9) [(box 0 0 1 1, 5)]⟩ : BoxTree).assertBvh = .error .assertFailed ∧
    tightTree.assertMinChildren = .error .assertFailed ∧
    (⟨⟨2, 4⟩, 0, .leaf (box 0 0 1 1) [(box 0 0 1 1, 5)]⟩ : BoxTree).assertEq
      ⟨⟨2, 4⟩, 0, .leaf (box 0 0 1 1) [(box 0 0 1 1, 6)]⟩ = .error .assertFailed ∧
    (⟨⟨2, 4⟩, 0, .leaf (box 0 0 1 1) [(box 0 0 1 1, 5)]⟩ : BoxTree).assertEq
      ⟨⟨2, 4⟩, 0, .leaf (box 0 0 9 9) [(box 0 0 1 1, 5)]⟩ = .ok () := by
  decide +kernel

/-! ## C69: `empty()` for floats -/

variable {F : Format} {D : Nat}

/-- C69: the documentation demands that `empty()` is the identity for the union. It is for the boxes of floats that do not
    lie at infinity in some coordinate, and only for these.
    Missing: boxes at infinity, see `C69_empty_identity_refuted`. -/
theorem C69_empty_identity_partial (hF : F = .binary32 ∨ F = .binary64) (a : AABB (NoisyFloat F) D) :
    (Bounds.union Bounds.empty a = a ∧ Bounds.union a Bounds.empty = a) ↔
      ∀ i, (a.min.get i).1 ≠ XRat.top ∧ (a.max.get i).1 ≠ ⊥ := by
  have hw : F.Wide := by
    rcases hF with rfl | rfl
    · exact Format.binary32_wide
    · exact Format.binary64_wide
  have hn := AABB.normal_iff (a := a)
  have hc : Bounds.union a Bounds.empty = Bounds.union Bounds.empty a := ExactBounds.union_comm _ _
  rw [hc, and_self]
  refine Iff.trans hn ?_
  refine forall_congr' fun i => and_congr ?_ ?_
  · refine ⟨fun h ht => ?_, NoisyFloat.le_maxVal hw⟩
    have h' : (a.min.get i).1 ≤ (Scalar.maxVal : NoisyFloat F).1 := h
    rw [ht, hw.maxVal] at h'
    exact absurd (top_le_iff.1 h') (by intro hh; cases hh)
  · refine ⟨fun h ht => ?_, NoisyFloat.minVal_le hw⟩
    have h' : (Scalar.minVal : NoisyFloat F).1 ≤ (a.max.get i).1 := h
    rw [ht, hw.minVal] at h'
    exact absurd (le_bot_iff.1 h') (by intro hh; cases hh)

/-- C69 (refuted): `empty()` is not the identity for the union of boxes over `N64`. -/
theorem C69_empty_identity_refuted :
    ¬ ∀ a : AABB N64 2, Bounds.union Bounds.empty a = a ∧ Bounds.union a Bounds.empty = a := by
  intro h
  have := (C69_empty_identity_partial (.inr rfl) (⟨fpt inf64 (n64 0), fpt inf64 (n64 1)⟩ : AABB N64 2)).1 (h _) 0
  exact this.1 rfl

/-- C69, what follows: `union_all` of a single box at infinity is not that box, but contains it.
    (So the bounds of a leaf depend on whether it was made by a split or by insertion into an empty tree.) -/
theorem C69_union_all_singleton_refuted :
    ¬ ∀ a : AABB N64 2, Bounds.unionAll [a] = a := by
  intro h
  exact C69_empty_identity_refuted fun a => ⟨h a, (ExactBounds.union_comm _ _).trans (h a)⟩

example : (Bounds.union Bounds.empty (⟨fpt (n64 0) (n64 1), fpt inf64 (n64 1)⟩ : AABB N64 2)) =
    ⟨fpt (n64 0) (n64 1), fpt inf64 (n64 1)⟩ :=
  ((C69_empty_identity_partial (.inr rfl) _).2 (by decide +kernel)).1

/-! ## C19 and C68 for floats -/

/-- C19 for keys with boxes of floats as bounds, none of which lies at infinity in some coordinate: the bounds recorded in every
    node are the union of the bounds of its children, and of those of the keys below. -/
theorem C19_noisy_float_bounds_exact (hF : F = .binary32 ∨ F = .binary64) {K : Type} [Bounded K (AABB (NoisyFloat F) D)]
    [BEq K] [LawfulKey K (AABB (NoisyFloat F) D)] {t : Tree (AABB (NoisyFloat F) D) K V} {P : K → Prop}
    (hP : ∀ k, P k → ∀ i, ((Bounded.bounds k : AABB (NoisyFloat F) D).min.get i).1 ≠ XRat.top ∧
      ((Bounded.bounds k : AABB (NoisyFloat F) D).max.get i).1 ≠ ⊥)
    (h : Reachable c P t) {n : Node (AABB (NoisyFloat F) D) K V} (hn : n ∈ t.nodes) :
    n.bounds = Bounds.unionAll n.childBounds ∧
      n.bounds = Bounds.unionAll (n.entries.map fun e => Bounded.bounds e.1) :=
  C19_bounds_exact (fun k hk => ((C69_empty_identity_partial hF _).2 (hP k hk)).1) h hn

/-- C68 for these: `_debug_assert_bvh` passes. -/
theorem C68_bvh_check_floats (hF : F = .binary32 ∨ F = .binary64) {K : Type} [Bounded K (AABB (NoisyFloat F) D)]
    [BEq K] [LawfulKey K (AABB (NoisyFloat F) D)] {t : Tree (AABB (NoisyFloat F) D) K V} {P : K → Prop}
    (hP : ∀ k, P k → ∀ i, ((Bounded.bounds k : AABB (NoisyFloat F) D).min.get i).1 ≠ XRat.top ∧
      ((Bounded.bounds k : AABB (NoisyFloat F) D).max.get i).1 ≠ ⊥)
    (h : Reachable c P t) : t.assertBvh = .ok () :=
  C68_bvh_check (fun k hk => ((C69_empty_identity_partial hF _).2 (hP k hk)).1) h

example : nearTree.assertBvh = .ok () :=
  C68_bvh_check_floats (c := cfg42) (P := fun k => ∀ i, (k.get i).1 ≠ XRat.top ∧ (k.get i).1 ≠ ⊥) (.inr rfl)
    (fun _ hk => hk) (Reachable.run .new (by decide +kernel) (Res.ok_getD _ (by decide +kernel)))

end RTree
