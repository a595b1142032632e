import Verif.Proofs.Account
import Verif.Props.Callbacks
import Verif.Props.Structure
/-!
# Which questions queries ask their filters, and how many (C70)
-/

namespace RTree.Calls

variable {B K V Q : Type} [Bounds B] [Volume B] [Bounded K B] [BEq K]
variable {c : Config} {P : K → Prop} {t : Tree B K V}

/-- C70: `filter_iter` and `filter_iter_mut` ask the filter about the bounds of the root once, when they are made; if these are accepted, the questions that follow
    are those of the plan of the root: the filter is asked about the children of a node from left to right, about what is below a node only if it accepted the
    node and then at once, about nothing twice.  A call of `next` asks no further than to the next entry it accepts, or to its next panic.  This is so also for
    filters that panic or answer inconsistently. -/
theorem C70_filter_iter_account (h : Reachable c P t) (code : Nat → Option (SpatialFilter B Q)) (borrow : K → Q) (s₀ : TreeIter B K V) :
    match code 0 with
    | none => TreeIter.newFilter code t.level t.root s₀ 0 = (.error .user, s₀, 1)
    | some f => ∃ s, TreeIter.newFilter code t.level t.root s₀ 0 = (.ok (), s, 1) ∧
        ∀ k, ∃ s', TreeIter.nexts code borrow k s 1 =
          (.ok (played k 1 (account code (if f.testBounds t.root.bounds then t.root.plan borrow else []) 1)).1, s',
            (played k 1 (account code (if f.testBounds t.root.bounds then t.root.plan borrow else []) 1)).2) :=
  filter_iter_account h.shape code borrow s₀

/-- C70: the same for `join`: the filter is asked about pairs. -/
theorem C70_join_account {B0 B1 K0 K1 V0 V1 Q0 Q1 : Type} [Bounds B0] [Volume B0] [Bounded K0 B0] [BEq K0] [Bounds B1] [Volume B1] [Bounded K1 B1] [BEq K1]
    {c0 c1 : Config} {P0 : K0 → Prop} {P1 : K1 → Prop} {t0 : Tree B0 K0 V0} {t1 : Tree B1 K1 V1} (h0 : Reachable c0 P0 t0) (h1 : Reachable c1 P1 t1)
    (code : Nat → Option (JoinFilter B0 B1 Q0 Q1)) (borrow0 : K0 → Q0) (borrow1 : K1 → Q1) (s₀ : JoinIter B0 B1 K0 K1 V0 V1) :
    match code 0 with
    | none => JoinIter.new code t0.root t0.level t1.root t1.level s₀ 0 = (.error .user, s₀, 1)
    | some f => ∃ s, JoinIter.new code t0.root t0.level t1.root t1.level s₀ 0 = (.ok (), s, 1) ∧
        ∀ k, ∃ s', JoinIter.nexts code borrow0 borrow1 k s 1 =
          (.ok (played k 1 (account code (if f.testBounds t0.root.bounds t1.root.bounds then
              joinPlan borrow0 borrow1 (max t0.level t1.level) t0.root t1.root else []) 1)).1, s',
            (played k 1 (account code (if f.testBounds t0.root.bounds t1.root.bounds then
              joinPlan borrow0 borrow1 (max t0.level t1.level) t0.root t1.root else []) 1)).2) :=
  join_account h0.shape h1.shape code borrow0 borrow1 s₀

/-- C70: the number of questions of `filter_iter` with a filter that always answers the same, if it is run to the end (`k` calls of `next`, the last of which
    yields nothing): one about the root, and if it is accepted, those about its children; and so on below accepted nodes. -/
theorem C70_number_of_tests (h : Reachable c P t) (f : SpatialFilter B Q) (borrow : K → Q) {es : List (K × V)} (hes : t.filterIter borrow f = .ok es)
    (s₀ : TreeIter B K V) :
    ∃ s s', TreeIter.newFilter (fun _ => some f) t.level t.root s₀ 0 = (.ok (), s, 1) ∧
      TreeIter.nexts (fun _ => some f) borrow (es.length + 1) s 1 =
        (.ok (es.map (fun e => .ok (some e)) ++ [.ok none]), s', 1 + if f.testBounds t.root.bounds then tests f (t.root.plan borrow) else 0) := by
  obtain ⟨s, s', n', h1, h2⟩ := C57_consistent_filter f borrow hes s₀
  obtain ⟨s₂, h3, h4⟩ := filter_iter_account h.shape (fun _ => some f) borrow s₀
  rw [h1] at h3
  cases h3
  obtain ⟨s₃, h5⟩ := h4 (es.length + 1)
  rw [h2] at h5
  refine ⟨s, s', h1, ?_⟩
  rw [h2]
  simp only [Prod.mk.injEq, Except.ok.injEq] at h5 ⊢
  refine ⟨trivial, trivial, ?_⟩
  rw [h5.2.2]
  have := played_last (k := es.length) (n := 1) (acc := account (fun _ => some f) (if f.testBounds t.root.bounds then t.root.plan borrow else []) 1)
    (by rw [← h5.1]; simp)
  rw [this, account_const]
  split <;> rfl

/-- C70: the same for `join`. -/
theorem C70_number_of_join_tests {B0 B1 K0 K1 V0 V1 Q0 Q1 : Type} [Bounds B0] [Volume B0] [Bounded K0 B0] [BEq K0] [Bounds B1] [Volume B1] [Bounded K1 B1] [BEq K1]
    {c0 c1 : Config} {P0 : K0 → Prop} {P1 : K1 → Prop} {t0 : Tree B0 K0 V0} {t1 : Tree B1 K1 V1} (h0 : Reachable c0 P0 t0) (h1 : Reachable c1 P1 t1)
    (f : JoinFilter B0 B1 Q0 Q1) (borrow0 : K0 → Q0) (borrow1 : K1 → Q1) {es : List ((K0 × V0) × (K1 × V1))}
    (hes : t0.join borrow0 borrow1 f t1 = .ok es) (s₀ : JoinIter B0 B1 K0 K1 V0 V1) :
    ∃ s s', JoinIter.new (fun _ => some f) t0.root t0.level t1.root t1.level s₀ 0 = (.ok (), s, 1) ∧
      JoinIter.nexts (fun _ => some f) borrow0 borrow1 (es.length + 1) s 1 =
        (.ok (es.map (fun e => .ok (some e)) ++ [.ok none]), s',
          1 + if f.testBounds t0.root.bounds t1.root.bounds then tests f (joinPlan borrow0 borrow1 (max t0.level t1.level) t0.root t1.root) else 0) := by
  obtain ⟨s, s', n', g1, g2⟩ := C58_consistent_filter h0 h1 f borrow0 borrow1 hes s₀
  obtain ⟨s₂, g3, g4⟩ := join_account h0.shape h1.shape (fun _ => some f) borrow0 borrow1 s₀
  rw [g1] at g3
  cases g3
  obtain ⟨s₃, g5⟩ := g4 (es.length + 1)
  rw [g2] at g5
  refine ⟨s, s', g1, ?_⟩
  rw [g2]
  simp only [Prod.mk.injEq, Except.ok.injEq] at g5 ⊢
  refine ⟨trivial, trivial, ?_⟩
  rw [g5.2.2]
  have := played_last (k := es.length) (n := 1) (acc := account (fun _ => some f) (if f.testBounds t0.root.bounds t1.root.bounds then
      joinPlan borrow0 borrow1 (max t0.level t1.level) t0.root t1.root else []) 1)
    (by rw [← g5.1]; simp)
  rw [this, account_const]
  split <;> rfl

/-- C70: a query asks at most one question about each node and each entry. -/
theorem C70_tests_at_most_once (t : Tree B K V) (f : SpatialFilter B Q) (borrow : K → Q) :
    1 + (if f.testBounds t.root.bounds then tests f (t.root.plan borrow) else 0) ≤ t.nodes.length + t.entries.length := by
  have := tests_plan_le f borrow t.root
  rw [Tree.nodes, List.length_cons, Tree.entries]
  split <;> omega

/-- C70: besides the one about the root, a query asks at most `max_children` questions for each node whose bounds the filter accepts: parts of the tree whose
    bounds it turns down cost nothing. -/
theorem C70_tests_pruned (h : Reachable c P t) (f : SpatialFilter B Q) (borrow : K → Q) :
    1 + (if f.testBounds t.root.bounds then tests f (t.root.plan borrow) else 0) ≤
      1 + c.maxChildren * (t.nodes.filter fun n => f.testBounds n.bounds).length := by
  have hm : ∀ n ∈ t.root :: t.root.descendants, n.fanout ≤ c.maxChildren := fun n hn => C21_max_children h hn
  have := tests_plan_pruned f borrow c.maxChildren t.root hm
  rw [Tree.nodes, List.filter_cons]
  split
  · rw [List.length_cons]; omega
  · omega

/-! ## Examples -/

/-- The filter that accepts everything and panics at its fourth and its seventh call: what happens by which call, on the sample tree with three leaves (calls 1,
    6 and 7 are about leaves); the panic by call 6 is about the second leaf, so its entries are not asked about. -/
example : (account shaky (sampleTree.root.plan id) 1).1.map (fun x => (x.1, match x.2 with
      | .ok e => some e.2
      | .error _ => none)) =
    [(2, some 1), (3, none), (4, some 3), (5, some 60), (6, none), (8, some 8), (9, some 7)] ∧ (account shaky (sampleTree.root.plan id) 1).2 = 10 := by
  decide +kernel

/-- A box that meets the bounds of two of the three leaves: eleven of thirteen possible questions are asked. -/
def cornerFilter : SpatialFilter (AABB I32 2) (AABB I32 2) := intersectsFilter AABB.intersectsBox AABB.intersectsBox (box 1 1 2 2)

example : 1 + tests cornerFilter (sampleTree.root.plan id) = 11 ∧ sampleTree.nodes.length + sampleTree.entries.length = 13 ∧
    (sampleTree.nodes.filter fun n => cornerFilter.testBounds n.bounds).length = 3 ∧
    1 + tests (noFilter _ _) (sampleTree.root.plan (id : AABB I32 2 → AABB I32 2)) = 13 := by
  decide +kernel

/-- The hypotheses are met. -/
example : 1 + (if cornerFilter.testBounds sampleTree.root.bounds then tests cornerFilter (sampleTree.root.plan id) else 0) ≤
    1 + cfg42.maxChildren * (sampleTree.nodes.filter fun n => cornerFilter.testBounds n.bounds).length :=
  C70_tests_pruned sample_reachable cornerFilter id

/-- A join of trees of different heights that panics twice. -/
example : (account shakyJoin (joinPlan id id 1 sampleTree.root smallTree.root) 1).1.map (fun x => (x.1, match x.2 with
      | .ok e => some (e.1.2, e.2.2)
      | .error _ => none)) =
    [(2, some (1, 1)), (3, some (5, 1)), (4, some (3, 1)), (5, none), (6, some (1, 2)), (7, some (5, 2)), (8, some (3, 2)), (9, some (60, 2)), (10, none),
      (12, some (8, 1)), (13, some (7, 1)), (14, some (8, 2)), (15, some (7, 2))] := by
  decide +kernel

end RTree.Calls
