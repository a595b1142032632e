import Verif.Cases.Trees
import Verif.Props.Callbacks
import Verif.Props.LeftCalls
import Verif.Props.SortedCalls
import Verif.Props.Account
/-!
# The theorems about misbehaving user code, applied to concrete cases

As `Verif/Cases/Trees.lean`. The filters and rankings panic, or give different answers from call to call. Where a theorem has
the results of a session as hypotheses, a theorem beside it says that there is such a session.
-/

namespace RTree.Calls

/-! ## Unordered iteration -/

theorem shaky_ran : ∃ s outs s' n', TreeIter.newFilter shaky sampleTree.level sampleTree.root [] 0 = (.ok (), s, 1) ∧
    TreeIter.nexts shaky id 8 s 1 = (.ok outs, s', n') ∧ outs.length = 8 := by
  obtain ⟨s, h1, h2⟩ := C57_filter_iter sample_reachable shaky id []
  obtain ⟨outs, s', n', h3, h4, -⟩ := h2 8
  exact ⟨s, outs, s', n', h1, h3, h4⟩

theorem shaky_ran_mut : ∃ s outs s' n', TreeIter.newFilter shaky sampleTree.addressed.level sampleTree.addressed.root [] 0 = (.ok (), s, 1) ∧
    TreeIter.nexts shaky id 8 s 1 = (.ok outs, s', n') ∧ outs.length = 8 := by
  obtain ⟨s, h1, h2⟩ := filter_iter_of_shape sample_reachable.addressed_shape shaky id []
  obtain ⟨outs, s', n', h3, h4, -⟩ := h2 8
  exact ⟨s, outs, s', n', h1, h3, h4⟩

example := C57_filter_iter sample_reachable shaky id []
example {s s' n' outs} (h1 : TreeIter.newFilter shaky sampleTree.level sampleTree.root [] 0 = (.ok (), s, 1))
    (h2 : TreeIter.nexts shaky id 8 s 1 = (.ok outs, s', n')) := C57_sublist sample_reachable shaky id h1 h2 sample_iter
example {s s' n' outs} (h1 : TreeIter.newFilter shaky sampleTree.addressed.level sampleTree.addressed.root [] 0 = (.ok (), s, 1))
    (h2 : TreeIter.nexts shaky id 8 s 1 = (.ok outs, s', n')) := C57_no_alias sample_reachable shaky id h1 h2
example := C57_consistent_filter (t := sampleTree) cornerFilter id (Res.ok_getD [] (by decide +kernel)) []
example := C70_filter_iter_account sample_reachable shaky id []
example := C70_number_of_tests sample_reachable cornerFilter id (Res.ok_getD [] (by decide +kernel)) []

/-! ## Joins -/

theorem shaky_all : ∃ all, sampleTree.join id id (acceptAll (AABB I32 2) (AABB I32 2) (AABB I32 2) (AABB I32 2)) smallTree = .ok all :=
  ⟨_, Res.ok_getD [] (by decide +kernel)⟩

theorem shaky_joined : ∃ s outs s' n', JoinIter.new shakyJoin sampleTree.root sampleTree.level smallTree.root smallTree.level ⟨[], 0, 0⟩ 0 = (.ok (), s, 1) ∧
    JoinIter.nexts shakyJoin id id 14 s 1 = (.ok outs, s', n') ∧ outs.length = 14 := by
  obtain ⟨all, ha⟩ := shaky_all
  obtain ⟨s, h1, h2⟩ := C58_join sample_reachable small_reachable shakyJoin id id ha ⟨[], 0, 0⟩
  obtain ⟨outs, s', n', h3, h4, -⟩ := h2 14
  exact ⟨s, outs, s', n', h1, h3, h4⟩

example := C58_join sample_reachable small_reachable shakyJoin id id shaky_all.choose_spec ⟨[], 0, 0⟩
example {s s' n' outs} (h1 : JoinIter.new shakyJoin sampleTree.root sampleTree.level smallTree.root smallTree.level ⟨[], 0, 0⟩ 0 = (.ok (), s, 1))
    (h2 : JoinIter.nexts shakyJoin id id 14 s 1 = (.ok outs, s', n')) :=
  C58_sublist sample_reachable small_reachable shakyJoin id id h1 h2 sample_iter small_reachable.iter_eq
example := C58_consistent_filter sample_reachable small_reachable _ id id shaky_all.choose_spec ⟨[], 0, 0⟩
example := C70_join_account sample_reachable small_reachable shakyJoin id id ⟨[], 0, 0⟩
example := C70_number_of_join_tests sample_reachable small_reachable _ id id shaky_all.choose_spec ⟨[], 0, 0⟩

/-! ## Left joins -/

theorem shaky_left : ∃ it, RTree.LeftJoinIter.new sampleTree.root sampleTree.level smallTree.root smallTree.level = .ok it := by
  obtain ⟨it, h, -⟩ := C65_left_join sample_reachable small_reachable shakyLeft id id sample_iter small_reachable.iter_eq
  exact ⟨it, h⟩

/-- A filter whose answers depend on the number of the call. -/
def fickleLeft : Nat → Option (JoinCode (AABB I32 2) (AABB I32 2) (AABB I32 2) (AABB I32 2)) :=
  fun n => some ⟨⟨fun _ _ => n % 3 != 0, fun _ _ => n % 2 == 0⟩, id⟩

example := C65_left_join sample_reachable small_reachable shakyLeft id id sample_iter small_reachable.iter_eq
example := C65_sublists sample_reachable small_reachable shakyLeft id id sample_iter small_reachable.iter_eq shaky_left.choose_spec (cmds := shakyCmds) rfl
example := C65_no_panic_no_loss sample_reachable small_reachable fickleLeft (fun _ h => by cases h) id id sample_iter shaky_left.choose_spec (cmds := shakyCmds) rfl
example := C65_consistent_filter (tl := sampleTree) (tr := smallTree) overlapFilter id id (Res.ok_getD [] (by decide +kernel))

/-! ## Sorted iteration -/

theorem shaky_sorted : ∃ s outs s' n', SortedIter.new (shakyRank [4, 20]) sampleTree.level sampleTree.root [] 0 = (.ok (), s, 1) ∧
    SortedIter.nexts (shakyRank [4, 20]) sampleTree.sortedFuel 11 s 1 = (.ok outs, s', n') ∧ outs.length = 11 := by
  have h := C66_iter_asc_by sample_reachable (shakyRank [4, 20]) [] sample_iter
  split at h
  · next h0 => exact absurd h0 (by decide +kernel)
  · obtain ⟨s, h1, h2⟩ := h
    obtain ⟨outs, s', n', h3, h4, -⟩ := h2 11
    exact ⟨s, outs, s', n', h1, h3, h4⟩

/-- Ranks of the boxes at most 5 away; some calls panic, and some leave a box out. -/
def shakyWithin (bad : List Nat) : Nat → RankCode (AABB I32 2) (AABB I32 2) (Option I32) I32 := fun n =>
  ⟨fun b => if n ∈ bad then none else (withinCode n).boundsMin b, fun k => if n ∈ bad then none else (withinCode n).rankKey k, cmpI32⟩

theorem shakyWithin_faithful (bad : List Nat) : Faithful (within (pt 6 7) (i32 25)) (shakyWithin bad) := by
  intro n
  refine ⟨fun b a h => ?_, fun k a h => ?_, cmpI32_spec⟩
  · dsimp only [shakyWithin] at h
    split at h
    · cases h
    · exact toOption_some h
  · dsimp only [shakyWithin] at h
    split at h
    · cases h
    · exact toOption_some h

theorem shaky_filtered : ∃ s outs s' n', FilterSortedIter.new (shakyWithin [4, 9]) sampleTree.level sampleTree.root [] 0 = (.ok (), s, 1) ∧
    FilterSortedIter.nexts (shakyWithin [4, 9]) sampleTree.sortedFuel 7 s 1 = (.ok outs, s', n') ∧ outs.length = 7 := by
  have h := C66_filter_iter_asc_by sample_reachable (shakyWithin [4, 9]) [] sample_iter
  split at h
  · next h0 => exact absurd h0 (by decide +kernel)
  · obtain ⟨s, h1, h2⟩ := h
    obtain ⟨outs, s', n', h3, h4, -⟩ := h2 7
    exact ⟨s, outs, s', n', h1, h3, h4⟩

theorem shaky_sorted_mut : ∃ s outs s' n', FilterSortedIter.new (shakyWithin [4, 9]) sampleTree.addressed.level sampleTree.addressed.root [] 0 = (.ok (), s, 1) ∧
    FilterSortedIter.nexts (shakyWithin [4, 9]) sampleTree.addressed.sortedFuel 7 s 1 = (.ok outs, s', n') ∧ outs.length = 7 := by
  have h := filter_sorted_of_shape sample_reachable.addressed_shape (shakyWithin [4, 9]) []
  split at h
  · next h0 => exact absurd h0 (by decide +kernel)
  · obtain ⟨s, h1, h2⟩ := h
    obtain ⟨outs, s', n', h3, h4, -⟩ := h2 7
    exact ⟨s, outs, s', n', h1, h3, h4⟩

theorem wild_sorted_mut : ∃ s outs s' n', SortedIter.new wildRank sampleTree.addressed.level sampleTree.addressed.root [] 0 = (.ok (), s, 1) ∧
    SortedIter.nexts wildRank sampleTree.addressed.sortedFuel 7 s 1 = (.ok outs, s', n') ∧ outs.length = 7 := by
  have h := filter_sorted_of_shape sample_reachable.addressed_shape (fun n => (wildRank n).some) []
  rw [new_some] at h
  obtain ⟨s, h1, h2⟩ := h
  obtain ⟨outs, s', n', h3, h4, -⟩ := h2 7
  rw [nexts_some] at h3
  exact ⟨s, outs, s', n', h1, h3, h4⟩

example := C66_filter_iter_asc_by sample_reachable (shakyWithin [4, 9]) [] sample_iter
example := C66_iter_asc_by sample_reachable wildRank [] sample_iter
example {s s' n' outs} (h1 : SortedIter.new (shakyRank [4, 20]) sampleTree.level sampleTree.root [] 0 = (.ok (), s, 1))
    (h2 : SortedIter.nexts (shakyRank [4, 20]) sampleTree.sortedFuel 11 s 1 = (.ok outs, s', n')) :=
  C66_entries sample_reachable (shakyRank [4, 20]) h1 h2 sample_iter
example {s s' n' outs} (h1 : FilterSortedIter.new (shakyWithin [4, 9]) sampleTree.level sampleTree.root [] 0 = (.ok (), s, 1))
    (h2 : FilterSortedIter.nexts (shakyWithin [4, 9]) sampleTree.sortedFuel 7 s 1 = (.ok outs, s', n')) :=
  C66_filter_entries sample_reachable (shakyWithin [4, 9]) h1 h2 sample_iter
example {s s' n' outs} (h1 : SortedIter.new wildRank sampleTree.addressed.level sampleTree.addressed.root [] 0 = (.ok (), s, 1))
    (h2 : SortedIter.nexts wildRank sampleTree.addressed.sortedFuel 7 s 1 = (.ok outs, s', n')) := C66_no_alias sample_reachable wildRank h1 h2
example {s s' n' outs} (h1 : FilterSortedIter.new (shakyWithin [4, 9]) sampleTree.addressed.level sampleTree.addressed.root [] 0 = (.ok (), s, 1))
    (h2 : FilterSortedIter.nexts (shakyWithin [4, 9]) sampleTree.addressed.sortedFuel 7 s 1 = (.ok outs, s', n')) :=
  C66_filter_no_alias sample_reachable (shakyWithin [4, 9]) h1 h2
example {s s' n' outs} (h1 : FilterSortedIter.new (shakyWithin [4, 9]) sampleTree.level sampleTree.root [] 0 = (.ok (), s, 1))
    (h2 : FilterSortedIter.nexts (shakyWithin [4, 9]) sampleTree.sortedFuel 7 s 1 = (.ok outs, s', n')) :=
  C66_filter_ascending sample_reachable (within_honours (pt 6 7) (i32 25) fun _ hk => hk.2) (shakyWithin_faithful [4, 9]) h1 h2

end RTree.Calls
