import Verif.Props.Core
/-!
# Boxes and box queries (C32 - C37)
-/

namespace RTree

variable {N : Type} {D : Nat} [Scalar N]

namespace AABB

/-! ## Boxes as point sets -/

theorem mem_min {a : AABB N D} (h : a.Valid) : Mem a.min a := fun i => ⟨le_refl _, h i⟩

theorem mem_max {a : AABB N D} (h : a.Valid) : Mem a.max a := fun i => ⟨h i, le_refl _⟩

/-- Side-by-side containment of a non-inverted box is containment of its points. -/
theorem le_iff_points {a b : AABB N D} (h : a.Valid) : a.Le b ↔ ∀ p, Mem p a → Mem p b := by
  constructor
  · intro hl p hp i
    exact ⟨le_trans (hl i).1 (hp i).1, le_trans (hp i).2 (hl i).2⟩
  · intro hp i
    exact ⟨(hp _ (mem_min h) i).1, (hp _ (mem_max h) i).2⟩

theorem union_le {a b c : AABB N D} (ha : a.Le c) (hb : b.Le c) : (a.union b).Le c := fun i =>
  ⟨le_min (ha i).1 (hb i).1, max_le (ha i).2 (hb i).2⟩

theorem empty_le [FullRange N] (b : AABB N D) : (empty : AABB N D).Le b := fun _ =>
  ⟨FullRange.le_maxVal _, FullRange.minVal_le _⟩

theorem le_antisymm {a b : AABB N D} (h₁ : a.Le b) (h₂ : b.Le a) : a = b := by
  ext i
  · exact _root_.le_antisymm (h₂ i).1 (h₁ i).1
  · exact _root_.le_antisymm (h₁ i).2 (h₂ i).2

end AABB

open AABB

/-! ## C32: union -/

/-- C32: the union of two boxes is the least box containing both. -/
theorem C32_union_least (a b : AABB N D) :
    a.Le (Bounds.union a b) ∧ b.Le (Bounds.union a b) ∧ ∀ c, a.Le c → b.Le c → (Bounds.union a b).Le c :=
  ⟨le_union_left a b, le_union_right a b, fun _ => union_le⟩

/-- C32: union is commutative, associative and idempotent, `empty()` is its identity on both sides. -/
theorem C32_union_laws [FullRange N] (a b c : AABB N D) :
    Bounds.union a b = Bounds.union b a ∧
    Bounds.union (Bounds.union a b) c = Bounds.union a (Bounds.union b c) ∧
    Bounds.union a a = a ∧ Bounds.union Bounds.empty a = a ∧ Bounds.union a Bounds.empty = a :=
  ⟨union_comm a b, union_assoc a b c, union_self a, empty_union a, (union_comm a _).trans (empty_union a)⟩

/-- C32: a box that lies inside another is absorbed by it. -/
theorem C32_absorb (a b : AABB N D) : a.Le b ↔ Bounds.union a b = b := by
  constructor
  · intro h
    exact le_antisymm (union_le h (Le.refl b)) (le_union_right a b)
  · intro h
    rw [← h]
    exact le_union_left a b

/-- C32: `union_all` of a collection of boxes is the least box containing all of them; of none, it is
    `empty()`. -/
theorem C32_union_all [FullRange N] (bs : List (AABB N D)) :
    (∀ b ∈ bs, b.Le (Bounds.unionAll bs)) ∧ (∀ c, (∀ b ∈ bs, b.Le c) → (Bounds.unionAll bs).Le c) ∧
    (Bounds.unionAll [] : AABB N D) = Bounds.empty := by
  refine ⟨fun b hb => le_unionAll hb, fun c hc => ?_, rfl⟩
  induction bs with
  | nil => exact empty_le c
  | cons a bs ih =>
    show (unionAll (a :: bs)).Le c
    rw [show unionAll (a :: bs) = a.union (unionAll bs) from RTree.unionAll_cons a bs]
    exact union_le (hc a List.mem_cons_self) (ih fun b hb => hc b (List.mem_cons_of_mem _ hb))

example : (Bounds.union (box 0 0 1 1) (box 5 (-2) 6 0) : AABB I32 2) = box 0 (-2) 6 1 ∧
    (Bounds.unionAll [box 0 0 1 1, box 5 (-2) 6 0, box 0 0 0 9] : AABB I32 2) = box 0 (-2) 6 9 := by
  decide +kernel

/-! ## C33: intersection -/

/-- C33: two non-inverted boxes intersect exactly if they share a point. -/
theorem C33_intersects_iff {a b : AABB N D} (ha : a.Valid) (hb : b.Valid) :
    Bounds.intersects a b = true ↔ ∃ p, Mem p a ∧ Mem p b := by
  simp only [Bounds.intersects, intersectsBox, Bool.and_eq_true, SVec.allLe_iff, SVec.allGe_iff]
  constructor
  · rintro ⟨h1, h2⟩
    refine ⟨a.min.cmax b.min, fun i => ⟨?_, ?_⟩, fun i => ⟨?_, ?_⟩⟩ <;> simp only [SVec.cmax]
    · exact le_max_left _ _
    · exact max_le (ha i) (h2 i)
    · exact le_max_right _ _
    · exact max_le (h1 i) (hb i)
  · rintro ⟨p, h1, h2⟩
    exact ⟨fun i => le_trans (h1 i).1 (h2 i).2, fun i => le_trans (h2 i).1 (h1 i).2⟩

/-- C33: box intersection is symmetric, for all boxes. -/
theorem C33_intersects_comm (a b : AABB N D) :
    (Bounds.intersects a b : Bool) = Bounds.intersects b a := by
  rw [Bool.eq_iff_iff]
  simp only [Bounds.intersects, intersectsBox, Bool.and_eq_true, SVec.allLe_iff, SVec.allGe_iff]
  exact ⟨fun h => ⟨h.2, h.1⟩, fun h => ⟨h.2, h.1⟩⟩

/-- C33: a box intersects a point exactly if the point lies in it. -/
theorem C33_intersects_point (b : AABB N D) (p : SVec N D) : b.intersectsPoint p = true ↔ Mem p b := by
  simp only [intersectsPoint, Bool.and_eq_true, SVec.allLe_iff, SVec.allGe_iff]
  exact ⟨fun h i => ⟨h.1 i, h.2 i⟩, fun h => ⟨fun i => (h i).1, fun i => (h i).2⟩⟩

/-- C33: enlarging either box keeps them intersecting, also for inverted boxes. -/
theorem C33_intersects_mono {a a' b b' : AABB N D} (ha : a.Le a') (hb : b.Le b')
    (h : Bounds.intersects a b = true) : Bounds.intersects a' b' = true := by
  simp only [Bounds.intersects, intersectsBox, Bool.and_eq_true, SVec.allLe_iff, SVec.allGe_iff] at h ⊢
  exact ⟨fun i => le_trans (ha i).1 (le_trans (h.1 i) (hb i).2),
    fun i => le_trans (hb i).1 (le_trans (h.2 i) (ha i).2)⟩

/-- Touching boxes intersect, disjoint ones do not. -/
example : (box 0 0 1 1).Valid ∧ (box 1 1 2 2).Valid ∧ Bounds.intersects (box 0 0 1 1) (box 1 1 2 2) = true ∧
    Bounds.intersects (box 0 0 1 1) (box 0 2 1 3) = false := by
  refine ⟨?_, ?_, ?_, ?_⟩ <;> (try unfold AABB.Valid) <;> decide +kernel

/-! ## C34, C35: containment -/

/-- C34 is false of the code: the box `[0,2]²` is said not to contain its centre, and the inverted box from `(2,2)` to
    `(0,0)` is said to contain it. -/
theorem C34_contains_point_refuted :
    (∃ (b : AABB I32 2) (p : SVec I32 2), b.Valid ∧ Mem p b ∧ b.containsPoint p = false) ∧
    ∃ (b : AABB I32 2) (p : SVec I32 2), ¬ Mem p b ∧ b.containsPoint p = true := by
  refine ⟨⟨box 0 0 2 2, pt 1 1, ?_, ?_, ?_⟩, ⟨box 2 2 0 0, pt 1 1, ?_, ?_⟩⟩ <;>
    (try unfold AABB.Valid) <;> (try unfold Mem) <;> decide +kernel

/-- What holds of C34: `contains(&point)` tests the reversed inequalities, so for a non-inverted box it is true exactly
    if the box consists of that point alone. Missing: a point of a larger box is never reported. -/
theorem C34_contains_point_partial (b : AABB N D) (p : SVec N D) :
    (b.containsPoint p = true ↔ Mem p ⟨b.max, b.min⟩) ∧
    (b.Valid → (b.containsPoint p = true ↔ b = ⟨p, p⟩)) := by
  have key : b.containsPoint p = true ↔ Mem p ⟨b.max, b.min⟩ := by
    simp only [containsPoint, Bool.and_eq_true, SVec.allLe_iff, SVec.allGe_iff]
    exact ⟨fun h i => ⟨h.2 i, h.1 i⟩, fun h => ⟨fun i => (h i).2, fun i => (h i).1⟩⟩
  refine ⟨key, fun hv => key.trans ⟨fun h => ?_, fun h => ?_⟩⟩
  · ext i
    · exact _root_.le_antisymm (le_trans (hv i) (h i).1) (h i).2
    · exact _root_.le_antisymm (h i).1 (le_trans (h i).2 (hv i))
  · subst h; exact fun i => ⟨le_refl _, le_refl _⟩

/-- The reversed test is also what `SVec: Intersects<AABB>` answers: a point is said not to intersect a box
    that is said to intersect the point. -/
theorem C34_point_intersects_refuted :
    ∃ (b : AABB I32 2) (p : SVec I32 2), b.Valid ∧ b.intersectsPoint p = true ∧ p.intersectsBox b = false := by
  refine ⟨box 0 0 2 2, pt 1 1, ?_, ?_, ?_⟩ <;> (try unfold AABB.Valid) <;> decide +kernel

/-- C35 is false of the code: `[0,2]²` is said to contain the overlapping box `[1,3]²`. -/
theorem C35_contains_box_refuted :
    ∃ a b : AABB I32 2, a.Valid ∧ b.Valid ∧ Bounds.contains a b = true ∧ ¬ b.Le a := by
  refine ⟨box 0 0 2 2, box 1 1 3 3, ?_, ?_, ?_, ?_⟩ <;> (try unfold AABB.Valid) <;> (try unfold Le) <;>
    decide +kernel

/-- What holds of C35: a non-inverted box inside another is reported, and a reported non-inverted box shares a point with
    it. Missing: a reported box need not lie inside. -/
theorem C35_contains_box_partial (a b : AABB N D) :
    (b.Valid → b.Le a → Bounds.contains a b = true) ∧
    (a.Valid → b.Valid → (Bounds.contains a b = true ↔ ∃ p, Mem p a ∧ Mem p b)) :=
  ⟨intersectsBox_of_le, C33_intersects_iff⟩

/-! ## C36: intersection queries -/

section Queries

variable {V : Type} {c : Config}

/-- C36: over box keys, both intersection filters made from a box yield exactly the entries whose key intersects it, each
    once, in the order of `iter`; inverted boxes included. -/
theorem C36_intersect_boxes {P : AABB N D → Prop} {t : Tree (AABB N D) (AABB N D) V}
    (h : Reachable c P t) (q : AABB N D) {es : List (AABB N D × V)} (hes : t.iter = .ok es) :
    t.filterIter id (intersectsFilter intersectsBox intersectsBox q) =
      .ok (es.filter fun e => Bounds.intersects q e.1) ∧
    t.filterIter id (boundedIntersectsFilter intersectsBox q) =
      .ok (es.filter fun e => Bounds.intersects q e.1) :=
  ⟨C10_filter_iter_exact h (fun _ _ hk hb => C33_intersects_mono (Le.refl q) hb hk) hes,
    C10_filter_iter_exact h (fun _ _ hk hb => C33_intersects_mono (Le.refl q) hb hk) hes⟩

/-- C36: over point keys, both intersection filters made from a box yield exactly the entries whose key lies in it, each
    once, in the order of `iter`. -/
theorem C36_intersect_points {P : SVec N D → Prop} {t : Tree (AABB N D) (SVec N D) V}
    (h : Reachable c P t) (q : AABB N D) {es : List (SVec N D × V)} (hes : t.iter = .ok es) :
    ∃ r, t.filterIter id (intersectsFilter intersectsBox intersectsPoint q) = .ok r ∧
      t.filterIter id (boundedIntersectsFilter intersectsPoint q) = .ok r ∧
      Selects (fun e => Mem e.1 q) es r := by
  have hm : ∀ (k : SVec N D) (b : AABB N D), q.intersectsPoint k = true → (⟨k, k⟩ : AABB N D).Le b →
      q.intersectsBox b = true := by
    intro k b hk hb
    rw [C33_intersects_point] at hk
    refine C33_intersects_mono (Le.refl q) hb (b := ⟨k, k⟩) ?_
    simp only [Bounds.intersects, intersectsBox, Bool.and_eq_true, SVec.allLe_iff, SVec.allGe_iff]
    exact ⟨fun i => (hk i).1, fun i => (hk i).2⟩
  refine ⟨_, C10_filter_iter_exact (borrow := id) (f := intersectsFilter intersectsBox intersectsPoint q) h hm hes,
    C10_filter_iter_exact (borrow := id) (f := boundedIntersectsFilter intersectsPoint q) h hm hes,
    ⟨_, fun e _ => C33_intersects_point q e.1, rfl⟩⟩

/-- C36: for non-inverted boxes "intersects" in `C36_intersect_boxes` means sharing a point. -/
theorem C36_intersect_boxes_geometric {P : AABB N D → Prop} (hP : ∀ k, P k → k.Valid)
    {t : Tree (AABB N D) (AABB N D) V} (h : Reachable c P t) {q : AABB N D} (hq : q.Valid)
    {es : List (AABB N D × V)} (hes : t.iter = .ok es) :
    ∃ r, t.filterIter id (intersectsFilter intersectsBox intersectsBox q) = .ok r ∧
      t.filterIter id (boundedIntersectsFilter intersectsBox q) = .ok r ∧
      Selects (fun e => ∃ p, Mem p q ∧ Mem p e.1) es r := by
  refine ⟨_, (C36_intersect_boxes h q hes).1, (C36_intersect_boxes h q hes).2, _, fun e he => ?_, rfl⟩
  obtain rfl : t.entries = es := by simpa [h.iter_eq] using hes
  exact C33_intersects_iff hq (hP _ (h.keys e he))

example : sampleTree.filterIter id (intersectsFilter intersectsBox intersectsBox (box 1 1 2 2)) =
    .ok [(box 0 0 1 1, 1), (box 0 2 1 3, 3), (box 2 2 3 3, 4)] := by
  rw [(C36_intersect_boxes sample_reachable _ sample_iter).1]
  congr 1

/-! ## C37: containment queries -/

/-- C37 is false of the code: over boxes the filter also yields a key that only overlaps the query; over points it
    misses a point in the middle of the query. -/
theorem C37_contain_queries_refuted :
    (∃ (t : BoxTree) (q k : AABB I32 2), Reachable cfg42 AABB.Valid t ∧ q.Valid ∧ ¬ k.Le q ∧
      t.filterIter id (containsFilter intersectsBox containsBox q) = .ok [(k, 1)]) ∧
    ∃ (t : PointTree) (q : AABB I32 2) (p : SVec I32 2), Reachable cfg42 (fun _ => True) t ∧ q.Valid ∧ Mem p q ∧
      t.iter = .ok [(p, 1)] ∧ t.filterIter id (containsFilter intersectsBox containsPoint q) = .ok [] := by
  refine ⟨⟨((Tree.new cfg42 : BoxTree).insert (box 1 1 3 3) 1).getD (Tree.new cfg42), box 0 0 2 2, box 1 1 3 3,
      ?_, ?_, ?_, ?_⟩,
    ⟨((Tree.new cfg42 : PointTree).insert (pt 1 1) 1).getD (Tree.new cfg42), box 0 0 2 2, pt 1 1, ?_, ?_, ?_, ?_, ?_⟩⟩
  · refine .insert .new (k := box 1 1 3 3) ?_ (Res.ok_getD _ (by decide +kernel))
    unfold AABB.Valid; decide +kernel
  · unfold AABB.Valid; decide +kernel
  · unfold Le; decide +kernel
  · refine (Res.ok_getD [] (by decide +kernel)).trans ?_
    congr 1
  · exact .insert .new (k := pt 1 1) trivial (Res.ok_getD _ (by decide +kernel))
  · unfold AABB.Valid; decide +kernel
  · unfold Mem; decide +kernel
  · refine (Res.ok_getD [] (by decide +kernel)).trans ?_
    congr 1
  · refine (Res.ok_getD [] (by decide +kernel)).trans ?_
    congr 1

/-- What holds of C37 over box keys: both containment filters yield what the intersection filters yield, in particular every
    non-inverted key inside the query. Missing: keys that only overlap the query are yielded too. -/
theorem C37_contain_boxes_partial {P : AABB N D → Prop} {t : Tree (AABB N D) (AABB N D) V}
    (h : Reachable c P t) (q : AABB N D) {es : List (AABB N D × V)} (hes : t.iter = .ok es) :
    ∃ r, t.filterIter id (containsFilter intersectsBox containsBox q) = .ok r ∧
      t.filterIter id (boundedContainsFilter containsBox q) = .ok r ∧
      r = (es.filter fun e => Bounds.intersects q e.1) ∧ ∀ e ∈ es, e.1.Valid → e.1.Le q → e ∈ r := by
  refine ⟨_, (C36_intersect_boxes h q hes).1, (C36_intersect_boxes h q hes).2, rfl, fun e he hv hl => ?_⟩
  exact List.mem_filter.2 ⟨he, intersectsBox_of_le hv hl⟩

/-- What holds of C37 over point keys: for a non-inverted query both containment filters yield a subsequence of the points
    in the query, namely those equal to the query when it is a single point. Missing: for any larger
    query nothing is yielded. -/
theorem C37_contain_points_partial {P : SVec N D → Prop} {t : Tree (AABB N D) (SVec N D) V}
    (h : Reachable c P t) {q : AABB N D} (hq : q.Valid) {es : List (SVec N D × V)} (hes : t.iter = .ok es) :
    ∃ r, t.filterIter id (containsFilter intersectsBox containsPoint q) = .ok r ∧
      t.filterIter id (boundedContainsFilter containsPoint q) = .ok r ∧ Selects (fun e => q = ⟨e.1, e.1⟩) es r ∧
      ∀ e ∈ r, Mem e.1 q := by
  have hm : ∀ (k : SVec N D) (b : AABB N D), q.containsPoint k = true → (⟨k, k⟩ : AABB N D).Le b →
      q.intersectsBox b = true := by
    intro k b hk hb
    rw [((C34_contains_point_partial q k).2 hq)] at hk
    subst hk
    exact C33_intersects_mono (Le.refl _) hb (intersectsBox_of_le (fun _ => le_refl _) (Le.refl _))
  have key : ∀ e : SVec N D × V, q.containsPoint e.1 = true ↔ q = ⟨e.1, e.1⟩ :=
    fun e => (C34_contains_point_partial q e.1).2 hq
  refine ⟨_, C10_filter_iter_exact (borrow := id) (f := containsFilter intersectsBox containsPoint q) h hm hes,
    C10_filter_iter_exact (borrow := id) (f := boundedContainsFilter containsPoint q) h hm hes,
    ⟨_, fun e _ => key e, rfl⟩, fun e he => ?_⟩
  · have := (key e).1 (List.mem_filter.1 he).2
    rw [this]; exact fun i => ⟨le_refl _, le_refl _⟩

end Queries

end RTree
