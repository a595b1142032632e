import Verif.Props.StdHeap
import Verif.Props.Core
import Verif.Props.Structure
import Verif.Props.Map
import Verif.Props.Order
import Verif.Props.Limits
import Verif.Props.Join
import Verif.Props.Nearest
import Verif.Props.Boxes
import Verif.Props.Space
import Verif.Props.Shapes
import Verif.Props.Checks
import Verif.Props.Heuristics
import Verif.Props.Configs
import Verif.Props.Heights
import Verif.Props.Dimension
import Verif.Props.Work
import Verif.Props.Lazy
import Verif.Props.Debug
/-!
# The theorems about trees, applied to concrete trees

For the theorems without an example of their own beside them: each is applied, by name, to a case that meets all its hypotheses.
The trees are those of `Verif/Samples.lean` and the modules imported here (several levels, equal keys, splits and removals in
their history).
-/

namespace RTree

/-- The heap used where a theorem allows any heap. -/
abbrev caseHeap : IterHeap (AABB I32 2) (AABB I32 2) Nat I32 := (listHeap I32).heap _

/-! ## Single calls -/

example := C01_insert_adds_one sample_reachable (k := box 0 0 1 1) (v := 77) (Res.ok_getD sampleTree (by decide +kernel))
example := C04_remove_one sample_reachable (borrow := id) (fun _ => rfl) (q := box 8 8 9 9) (box_valid (by decide +kernel))
  (Res.ok_getD (sampleTree, none) (by decide +kernel))
example := C04_remove_some_iff sample_reachable (borrow := id) (fun _ => rfl) (q := box 8 8 9 9) (box_valid (by decide +kernel))
  (Res.ok_getD (sampleTree, none) (by decide +kernel)) sample_iter
example := C05_remove_last_leaf_partial equal_reachable (borrow := id) (fun _ => rfl) (q := box 0 0 1 1)
  (box_valid (by decide +kernel)) (Res.ok_getD (equalTree, none) (by decide +kernel))
example := C05_remove_first_leaf_partial small_reachable (borrow := id) (fun _ => rfl) (q := box 0 0 1 1)
  (box_valid (by decide +kernel)) (Res.ok_getD (smallTree, none) (by decide +kernel)) (by decide +kernel) small_reachable.iter_eq
example := C06_insert_unique sample_reachable (k := box 1 3 1 3) (v := 61) (box_valid (by decide +kernel))
  (Res.ok_getD (sampleTree, none) (by decide +kernel))
example := C06_insert_unique sample_reachable (k := box 1 3 1 4) (v := 61) (box_valid (by decide +kernel))
  (Res.ok_getD (sampleTree, none) (by decide +kernel))
example := C11_filter_iter_honest sample_reachable (borrow := id) (f := sampleFilter) (fun _ => true)
  (fun k b _ hk hb => sampleFilter_honours k b hk hb) sample_iter (C10_filter_iter_exact sample_reachable sampleFilter_honours sample_iter)
example := C28_no_alias sample_reachable id sampleFilter
example := C28_iter_mut sample_reachable sample_iter
example := C28_filter_iter_mut_updates sample_reachable sampleFilter_honours (fun _ v => v + 1) sample_iter

/-! ## Histories and structure -/

example := let _ := sampleLaws; C02_no_panic_calls cfg42_sound.safe (P := SampleKey) (fun _ hk => hk.1) sample_reachable
example := let _ := sampleLaws; C02_no_panic cfg42_sound.safe (ops := sampleOps) fun op h k hk => (sampleOps_keys op h k hk).1
example := C02_no_panic_i32_boxes (by decide) (by decide) cfg42_sound.safe (lo := i32 (-1000)) (hi := i32 1000) (by decide)
  (ops := sampleOps) fun op h k hk => (sampleOps_keys op h k hk).1
example := C07_unique_histories_are_maps (ops := sampleMapOps) (c := cfg42)
  (by have : ∀ op ∈ sampleMapOps, ∀ i, op.key.min.get i ≤ op.key.max.get i := by decide +kernel
      exact this) (Res.ok_getD (Tree.new cfg42, []) (by decide +kernel))
example := C19_bounds_cover sample_reachable (n := sampleTree.root) List.mem_cons_self (e := (box 8 8 9 9, 7)) (by decide +kernel)
example := C19_bounds_exact (fun _ _ => AABB.normal _) sample_reachable (n := sampleTree.root) List.mem_cons_self
example := C19_box_bounds_exact sample_reachable (n := sampleTree.root) List.mem_cons_self
example := C20_uniform_height sample_reachable
example := C20_no_ub sample_reachable
example := C21_max_children sample_reachable (n := sampleTree.root) List.mem_cons_self
example := let _ := sampleLaws
  C24_log_height_floor cfg42_sound (P := SampleKey) (fun _ hk => hk.1) sample_reachable (by rw [sample_level])
    (C08_len sample_reachable sample_iter)
example := let _ := sampleLaws
  C77_nodes_floor cfg42_sound (P := SampleKey) (fun _ hk => hk.1) sample_reachable (C08_len sample_reachable sample_iter)

/-- The keys of `tightTree` lie in the window. -/
theorem tight_sample : Reachable cfg32 SampleKey tightTree := by
  have : ∀ op ∈ tightOps, ∀ k ∈ op.inserts, SampleKey k := by decide +kernel
  exact Reachable.run .new (fun op h k hk => this op h k (by simp [hk])) (Res.ok_getD _ (by decide +kernel))

/-- The keys of `lonelyTree` lie in the window. -/
theorem lonely_sample : Reachable cfg41 SampleKey lonelyTree := by
  have : ∀ op ∈ lonelyOps, ∀ k ∈ op.inserts, SampleKey k := by decide +kernel
  exact Reachable.run .new (fun op h k hk => this op h k (by simp [hk])) (Res.ok_getD _ (by decide +kernel))

example := let _ := sampleLaws; C22_min_children_tight_partial (c := cfg32) (by decide) (by decide) (P := SampleKey) (fun _ hk => hk.1) tight_sample
example := let _ := sampleLaws; C23_min_one_partial (c := cfg41) rfl (by decide) (P := SampleKey) (fun _ hk => hk.1) lonely_sample

/-- A single leaf with an inverted key among others. -/
def invertedLeaf : BoxTree := (run (Tree.new cfg42) [.insert (box 5 0 0 1) 1, .insert (box 100 0 101 1) 2, .insert (box 5 0 0 1) 3]).getD (Tree.new cfg42)

theorem invertedLeaf_reachable : Reachable cfg42 (fun _ => True) invertedLeaf :=
  Reachable.run .new (fun _ _ _ _ => trivial) (Res.ok_getD _ (by decide +kernel))

example := C48_inverted_leaf_partial invertedLeaf_reachable id (box 5 0 0 1) (by decide +kernel) invertedLeaf_reachable.iter_eq
example := C51_is_empty_partial sample_reachable sample_iter
example := C49_select_least_enlargement (cs := [box 0 0 10 10, box 0 0 4 4, box 0 0 5 5]) (x := box 1 1 2 2)
  (fun b hb => by rw [← Option.isSome_iff_exists]; revert b; decide +kernel) (i := 1)
  (by rw [Res.ok_getD (x := select [box 0 0 10 10, box 0 0 4 4, box 0 0 5 5] (box 1 1 2 2)) none (by decide +kernel)]
      congr 1; decide +kernel)

/-- Boxes to split. -/
def splitBoxes : List (AABB I32 2) := [box 0 0 1 1, box 9 9 10 10, box 0 0 2 2, box 8 8 9 9]

example := C50_split_partitions (B := AABB I32 2) (bf := id) (minC := 2) (values := splitBoxes) (overflow := box 1 1 2 2) rfl
  (Res.ok_getD (x := split id 2 4 splitBoxes (box 1 1 2 2)) ⟨Bounds.empty, [], Bounds.empty, []⟩ (by decide +kernel))
example := let _ := sampleLaws
  C50_split_min (B := AABB I32 2) (bf := id) (minC := 2) (values := splitBoxes) (overflow := box 1 1 2 2) rfl (by decide) (by decide)
    (by have : ∀ x ∈ box 1 1 2 2 :: splitBoxes, SampleKey x := by decide +kernel
        exact fun x hx => (this x hx).1)
example := let _ := sampleLaws
  C50_split_returns (B := AABB I32 2) (bf := id) (minC := 9) (values := splitBoxes) (overflow := box 1 1 2 2) rfl (by decide)
    (by have : ∀ x ∈ box 1 1 2 2 :: splitBoxes, SampleKey x := by decide +kernel
        exact fun x hx => (this x hx).1)

/-! ## Sorted iteration -/

example := C12_iter_asc_by sample_reachable caseHeap (C38_honours_boxes (pt 6 7) fun _ hk => hk.2) sample_defined sample_iter
example := C12_iter_asc_by_returned sample_reachable caseHeap (C38_honours_boxes (pt 6 7) fun _ hk => hk.2) sample_iter
  (Res.ok_getD [] (by decide +kernel)) (by
    intro e he
    exact sample_defined.2 e (by rw [show sampleTree.entries = sampleEntries by simpa [sample_reachable.iter_eq] using sample_iter]; exact he))
example := C13_min_by sample_reachable caseHeap (C38_honours_boxes (pt 6 7) fun _ hk => hk.2) sample_defined sample_iter
example := C15_filter_min_by sample_reachable caseHeap (within_honours (pt 6 7) (i32 25) fun _ hk => hk.2) (within_defined _ sample_defined) sample_iter
example := C29_iter_asc_by_mut sample_reachable ((listHeap I32).heap _) (C38_honours_boxes (pt 6 7) fun _ hk => hk.2) sample_defined sample_iter
example := C29_same_entries sample_reachable (listHeap I32) (within_honours (pt 6 7) (i32 25) fun _ hk => hk.2)
  (within_defined _ sample_defined) sample_iter
example := C29_same_min sample_reachable (listHeap I32) (within_honours (pt 6 7) (i32 25) fun _ hk => hk.2)
  (within_defined _ sample_defined) sample_iter

example := C12_std_heap sample_reachable (C38_honours_boxes (pt 6 7) fun _ hk => hk.2) sample_defined sample_iter
example := C13_std_heap sample_reachable (C38_honours_boxes (pt 6 7) fun _ hk => hk.2) sample_defined sample_iter
example := C15_std_heap sample_reachable (within_honours (pt 6 7) (i32 25) fun _ hk => hk.2) (within_defined _ sample_defined) sample_iter
example := C29_std_heap sample_reachable (within_honours (pt 6 7) (i32 25) fun _ hk => hk.2) (within_defined _ sample_defined) sample_iter

/-! ## Equal contents, different histories -/

/-- A second tree of other capacity with the entries of `sampleTree`, inserted in reverse order. -/
def otherTree : BoxTree :=
  (run (Tree.new cfg32) (sampleEntries.reverse.map fun e => .insert e.1 e.2)).getD (Tree.new cfg32)

theorem other_reachable : Reachable cfg32 SampleKey otherTree := by
  have : ∀ op ∈ (sampleEntries.reverse.map fun e => (.insert e.1 e.2 : Op (AABB I32 2) (AABB I32 2) Nat)), ∀ k ∈ op.inserts, SampleKey k := by
    decide +kernel
  exact Reachable.run .new (fun op h k hk => this op h k (by simp [hk])) (Res.ok_getD _ (by decide +kernel))

theorem other_perm : sampleEntries.Perm otherTree.entries := List.isPerm_iff.1 (by decide +kernel)

example : otherTree.level ≠ sampleTree.level := by decide +kernel

theorem other_defined : (euclidBoxes (pt 6 7)).DefinedOn otherTree :=
  C38_defined_i32_boxes (c := cfg32) (lo := i32 (-1000)) (hi := i32 1000) (by decide) (by decide) (by decide)
    (P := SampleKey) (fun _ hk => hk.1) other_reachable (by rw [other_reachable.iter_eq]; decide +kernel) (by decide +kernel)

example := C30_same_queries (Q := AABB I32 2) sample_reachable other_reachable sample_iter other_reachable.iter_eq other_perm
example := C30_same_is_empty sample_reachable other_reachable (by decide) (by decide) sample_iter other_reachable.iter_eq other_perm
example := C30_same_ranks (fun (_ _ : I32) => le_antisymm) sample_reachable other_reachable sample_iter other_reachable.iter_eq other_perm
  caseHeap caseHeap (r := euclidBoxes (pt 6 7)) (C38_honours_boxes (pt 6 7) fun _ hk => hk.2) sample_defined other_defined
example := C30_same_joins sample_reachable other_reachable tall_reachable tall_reachable sample_iter other_reachable.iter_eq
  tall_reachable.iter_eq tall_reachable.iter_eq other_perm (List.Perm.refl _) (overlapFilter_honours _ _)
example := C30_insert_orders (c₁ := cfg42) (c₂ := cfg32) (kvs := sampleEntries) (kvs' := sampleEntries.reverse) sampleEntries.reverse_perm.symm
  (Res.ok_getD (Tree.new cfg42) (by decide +kernel)) (Res.ok_getD (Tree.new cfg32) (by decide +kernel))
example := C30_net_content (c := cfg42) (P := fun e => e ∈ sampleEntries.eraseIdx 4 ∧ e.1 ≠ box 8 8 9 9)
  (by have : ∀ a ∈ sampleEntries.eraseIdx 4, ∀ b ∈ sampleEntries.eraseIdx 4, (a.1 == b.1) = true → a = b := by decide +kernel
      exact fun a b ha hb => this a ha.1 b hb.1)
  (xs := [.insert (box 0 0 1 1) 1, .remove (box 5 5 6 6), .insert (box 0 2 0 2) 5, .insert (box 0 2 0 2) 5, .remove (box 0 2 0 2)])
  (by intro k v h
      have : ∀ e ∈ [(box 0 0 1 1, 1), (box 0 2 0 2, 5)], e ∈ sampleEntries.eraseIdx 4 ∧ e.1 ≠ box 8 8 9 9 := by decide +kernel
      refine this (k, v) ?_
      simp only [List.mem_cons, Change.insert.injEq, reduceCtorEq, List.not_mem_nil, or_false, false_or] at h
      rcases h with ⟨rfl, rfl⟩ | ⟨rfl, rfl⟩ | ⟨rfl, rfl⟩ <;> simp)
  (by intro k h
      simp only [List.mem_cons, Change.remove.injEq, reduceCtorEq, List.not_mem_nil, or_false, false_or] at h
      rcases h with rfl | rfl <;> exact box_valid (by decide +kernel))
  (Res.ok_getD (Tree.new cfg42) (by decide +kernel))

/-! ## Geometric queries -/

example := C33_intersects_iff (a := box 0 0 1 1) (b := box 1 1 2 2) (box_valid (by decide +kernel)) (box_valid (by decide +kernel))
example := C33_intersects_mono (a := box 0 0 1 1) (b := box 1 1 2 2) (a' := box 0 0 5 5) (b' := box 1 1 3 3) (by unfold AABB.Le; decide +kernel)
  (by unfold AABB.Le; decide +kernel) (by decide +kernel)
example := C36_intersect_points tie_reachable (box 0 0 5 5) tie_reachable.iter_eq
example := C36_intersect_boxes_geometric (fun _ hk => hk.2) sample_reachable (q := box 1 1 2 2) (box_valid (by decide +kernel)) sample_iter
example := C37_contain_boxes_partial sample_reachable (box 1 1 2 2) sample_iter
example := C37_contain_points_partial tie_reachable (q := box 0 0 5 5) (box_valid (by decide +kernel)) tie_reachable.iter_eq

/-! ## Nearest neighbours -/

example := C38_point_rank (p := pt 0 0) (k := pt 3 4) (m := i32 25)
  (arith_eq_ok.2 (show (pt 3 4).distSq (pt 0 0) = some (i32 25) by decide +kernel))
example := C38_box_rank (p := pt 0 0) (b := box 3 4 5 5) (box_valid (by decide +kernel)) (m := i32 25)
  (arith_eq_ok.2 (show (box 3 4 5 5).distSq (pt 0 0) = some (i32 25) by decide +kernel))
example := C38_nearest_points tie_reachable ((listHeap I32).heap _) (pt 1 1)
  (C38_defined_i32_points (c := cfg42) (lo := i32 (-1000)) (hi := i32 1000) (by decide) (by decide) (by decide) (P := SamplePoint)
    (fun _ hk => hk) tie_sample (by rw [tie_iter]; decide +kernel) (by decide +kernel)) tie_iter

/-! ## Joins -/

example := C16_join_exact tall_reachable sample_reachable (overlapFilter_honours _ _) tall_reachable.iter_eq sample_iter
example := C16_join_sound tall_reachable sample_reachable id id overlapFilter tall_reachable.iter_eq sample_iter
example := C17_left_join_exact tall_reachable sample_reachable (fun _ => rfl) (overlapFilter_honours _ _) tall_reachable.iter_eq sample_iter
example := C17_left_join_sound tall_reachable sample_reachable id id overlapFilter tall_reachable.iter_eq sample_iter

/-! ## Self-checks, heuristics, configurations, numbers of calls -/

example := C68_bvh_check_means (t := sampleTree) sample_reachable.shape
example := C68_bvh_check (fun _ _ => AABB.normal _) sample_reachable
example := C68_min_children_check_means (t := sampleTree) sample_reachable.shape
example := let _ := sampleLaws; C68_min_children_check (c := cfg42) (by decide) (by decide) (P := SampleKey) (fun _ hk => hk.1) sample_reachable
example := C68_eq_check_means sample_reachable other_reachable
example := C68_clone_check sample_reachable
example := let _ := sampleLaws
  C68_checked_histories (c := cfg42) (by decide) (by decide) (ops := sampleOps) fun op h k hk => ⟨(sampleOps_keys op h k hk).1, AABB.normal _⟩
example := C67_seeds_partial (bf := id) (minC := 2) (cap := 4) (values := splitBoxes) (overflow := box 1 1 2 2)
  (Res.ok_getD ⟨Bounds.empty, [], Bounds.empty, []⟩ (by decide +kernel))
example := C67_one_dimension_partial (bf := id) (minC := 2) (cap := 4)
  (values := [ivl (i32 3) (i32 4), ivl (i32 0) (i32 1), ivl (i32 2) (i32 2), ivl (i32 1) (i32 3)]) (overflow := ivl (i32 90) (i32 91))
  (by unfold AABB.Valid; decide +kernel) (Res.ok_getD ⟨Bounds.empty, [], Bounds.empty, []⟩ (by decide +kernel))
example := C78_safe (c := ⟨2, 3⟩) (V := Nat) (by unfold Config.Safe; decide) [.insert ⟨1⟩ 1, .insert ⟨2⟩ 2, .insert ⟨3⟩ 3, .remove ⟨2⟩]
example := C78_only_safe (c := cfg41) (by unfold Config.Safe; decide) 7
example := C79_logarithmic_refuted (V := Nat) 7 100 (by decide) (by decide)
example := C80_few_entries_partial (N := I32) cfg42 [(⟨Fin.elim0⟩, 1), (⟨Fin.elim0⟩, 2), (⟨Fin.elim0⟩, 3)] (by decide)
example := C82_insert sample_reachable (box 0 0 1 1) 77
example := C82_get sample_reachable id (box 8 8 9 9)
example := C82_get_mut sample_reachable id (box 8 8 9 9)
example := C82_insert_unique sample_reachable (box 8 8 9 9) 77
example := C82_remove sample_reachable id (box 8 8 9 9)
example := C82_get_linear_reached cfg42_sound.safe 100 7

/-! ## Laziness of sorted iteration -/

/-- The distance to (2, 2) if it is 0, for three keys; a panic for all others. -/
def narrowWithin : Ranking (AABB I32 2) (AABB I32 2) (Option I32) where
  boundsMin := (within (pt 2 2) (i32 0)).boundsMin
  rankKey k := if k ∈ [box 8 8 9 9, box 2 2 3 3, box 5 5 6 6] then (within (pt 2 2) (i32 0)).rankKey k else .error .arithmetic

theorem narrow_same : (within (pt 2 2) (i32 0)).SameWhere (fun o => o ≠ none) narrowWithin sampleTree := by
  refine ⟨rfl, fun _ _ _ _ _ _ _ _ => rfl, ?_⟩
  intro b es o hn hb hm e he
  have hall : ∀ n ∈ sampleTree.nodes, narrowBad n = false := by decide +kernel
  have := hall _ hn
  obtain ⟨m, hm', rfl⟩ := map_eq_ok.1 hb
  have hm0 : m ≤ i32 0 := by
    by_contra h
    exact hm (if_neg h)
  have hin : e.1 ∈ [box 8 8 9 9, box 2 2 3 3, box 5 5 6 6] := by
    by_contra hc
    have hbad : narrowBad (.leaf b es) = true := by
      simp only [narrowBad, hm', Bool.and_eq_true, decide_eq_true_eq, List.any_eq_true]
      exact ⟨hm0, e, he, hc⟩
    rw [this] at hbad
    cases hbad
  exact if_pos hin

theorem narrow_same_le : (within (pt 2 2) (i32 0)).SameWhere (fun o => ∃ q, o = some q ∧ q ≤ i32 0) narrowWithin sampleTree :=
  ⟨narrow_same.root, fun b cs m h1 h2 ⟨q, h3, _⟩ => narrow_same.nodes b cs m h1 h2 (by simp [h3]),
    fun b es m h1 h2 ⟨q, h3, _⟩ => narrow_same.entries b es m h1 h2 (by simp [h3])⟩

theorem within_le {p : SVec I32 2} {d q : I32} {k : AABB I32 2} (h : (within p d).rankKey k = .ok (some q)) : q ≤ d := by
  obtain ⟨m, -, h⟩ := map_eq_ok.1 h
  split at h
  · rename_i hd; cases h; exact hd
  · cases h

theorem narrow_honours : (within (pt 2 2) (i32 0)).FilterHonours SampleKey := within_honours _ _ fun _ hk => hk.2

/-- The answers of `within`, as the theorems take them. -/
theorem narrow_first : sampleTree.filterFirstAscBy caseHeap (within (pt 2 2) (i32 0)) 1 = .ok [(box 2 2 3 3, 4)] := by
  rw [Res.ok_getD (x := sampleTree.filterFirstAscBy caseHeap (within (pt 2 2) (i32 0)) 1) [] (by decide +kernel)]
  congr 1
  decide +kernel

theorem narrow_min : sampleTree.filterMinBy caseHeap (within (pt 2 2) (i32 0)) = .ok (some (box 2 2 3 3, 4)) := by
  rw [Res.ok_getD (x := sampleTree.filterMinBy caseHeap (within (pt 2 2) (i32 0))) none (by decide +kernel)]
  congr 1
  decide +kernel

theorem narrow_first_mut : sampleTree.filterFirstAscByMut caseHeap (within (pt 2 2) (i32 0)) 1 = .ok [(box 2 2 3 3, 5)] := by
  rw [Res.ok_getD (x := sampleTree.filterFirstAscByMut caseHeap (within (pt 2 2) (i32 0)) 1) [] (by decide +kernel)]
  congr 1
  decide +kernel

example := C71_filter_iter_asc_by sample_reachable caseHeap narrow_honours narrow_first rfl (m := i32 0) (fun _ _ _ h => within_le h) narrow_same_le
example := C71_filter_iter_asc_by_mut sample_reachable caseHeap narrow_honours narrow_first_mut rfl (m := i32 0) (fun _ _ _ h => within_le h) narrow_same_le
example := C71_filter_min_by sample_reachable caseHeap narrow_honours narrow_min (m := i32 0)
  (map_eq_ok.2 ⟨i32 0, arith_eq_ok.2 (show (box 2 2 3 3).distSq (pt 2 2) = some (i32 0) by decide +kernel), rfl⟩) narrow_same_le
example := C71_filter_exhausted sample_reachable caseHeap (k := 9) narrow_honours (Res.ok_getD [] (by decide +kernel)) narrow_same
example := C71_prefix (t := sampleTree) caseHeap (r := within (pt 6 7) (i32 25)) (Res.ok_getD [] (by decide +kernel)) 3

theorem narrowRank_same : (euclidBoxes (pt 2 2)).SameWhere (· ≤ i32 0) narrowRank sampleTree := by
  refine ⟨rfl, fun _ _ _ _ _ _ _ _ => rfl, ?_⟩
  intro b es m hn hb hm e he
  have hall : ∀ n ∈ sampleTree.nodes, narrowBad n = false := by decide +kernel
  have := hall _ hn
  have hin : e.1 ∈ [box 8 8 9 9, box 2 2 3 3, box 5 5 6 6] := by
    by_contra hc
    have hbad : narrowBad (.leaf b es) = true := by
      simp only [narrowBad, hb, Bool.and_eq_true, decide_eq_true_eq, List.any_eq_true]
      exact ⟨hm, e, he, hc⟩
    rw [this] at hbad
    cases hbad
  exact if_pos hin

theorem narrowRank_first : sampleTree.firstAscBy caseHeap (euclidBoxes (pt 2 2)) 1 = .ok [(box 2 2 3 3, 4)] := by
  rw [Res.ok_getD (x := sampleTree.firstAscBy caseHeap (euclidBoxes (pt 2 2)) 1) [] (by decide +kernel)]
  congr 1
  decide +kernel

theorem narrowRank_key : (euclidBoxes (pt 2 2)).rankKey (box 2 2 3 3) = .ok (i32 0) :=
  arith_eq_ok.2 (show (box 2 2 3 3).distSq (pt 2 2) = some (i32 0) by decide +kernel)

example := C71_iter_asc_by sample_reachable caseHeap (C38_honours_boxes (pt 2 2) fun _ hk => hk.2) narrowRank_first rfl (m := i32 0)
  (fun e he q hq => by
    obtain rfl := List.mem_singleton.1 he
    cases narrowRank_key.symm.trans hq
    exact le_refl _) narrowRank_same

theorem near67_min : sampleTree.minBy caseHeap (euclidBoxes (pt 6 7)) = .ok (some (box 5 5 6 6, 10)) := by
  rw [Res.ok_getD (x := sampleTree.minBy caseHeap (euclidBoxes (pt 6 7))) none (by decide +kernel)]
  congr 1
  decide +kernel

example := C13_min_by_returned sample_reachable caseHeap (C38_honours_boxes (pt 6 7) fun _ hk => hk.2) sample_iter near67_min
example := C38_nearest_boxes (fun _ hk => hk.2) sample_reachable caseHeap _ sample_defined sample_iter

end RTree
