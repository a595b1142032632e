import Verif.Props.Sorted
import Verif.Props.Structure
import Verif.Proofs.Distance
/-!
# Nearest neighbours (C38, C39) and ties of `min_by` (C14)
-/

namespace RTree

variable {N : Type} {D : Nat} [Scalar N]

/-! ## C38: the euclidean ranking -/

section Exact

variable [ExactScalar N]

/-- C38: the rank of a point key is its squared distance. -/
theorem C38_point_rank {p k : SVec N D} {m : N} (h : (euclidPoints p).rankKey k = .ok m) :
    Scalar.toRat m = sqDist k p := SVec.distSq_eq (arith_eq_ok.1 h)

/-- C38: the rank of a non-inverted box, as a key and as bounds, is the least squared distance of its points. -/
theorem C38_box_rank {p : SVec N D} {b : AABB N D} (hv : b.Valid) {m : N} (h : (euclidBoxes p).rankKey b = .ok m) :
    b.HasDist p (Scalar.toRat m) := by
  have := AABB.distSq_eq (arith_eq_ok.1 h)
  exact ⟨⟨b.closest p, AABB.closest_mem hv p, this.symm⟩, fun q hq => this ▸ AABB.closest_le p hq⟩

end Exact

/-- C38: the ranking of points honours the contract of `Ranking`; for this the arithmetic need not be exact. -/
theorem C38_honours_points [MonoScalar N] (p : SVec N D) (P : SVec N D → Prop) : (euclidPoints p).Honours P := by
  intro k b m n _ hle hm hn
  exact AABB.distSq_le (fun i => hle i) (arith_eq_ok.1 hm) (arith_eq_ok.1 hn)

/-- C38: the ranking of boxes honours the contract of `Ranking` for keys that are not inverted; for this the arithmetic
    need not be exact. -/
theorem C38_honours_boxes [MonoScalar N] (p : SVec N D) {P : AABB N D → Prop} (hP : ∀ k, P k → k.Valid) :
    (euclidBoxes p).Honours P := by
  intro k b m n hk hle hm hn
  have hmem := AABB.closest_mem (hP k hk) p
  exact AABB.distSq_le (fun i => ⟨le_trans (hle i).1 (hmem i).1, le_trans (hmem i).2 (hle i).2⟩) (arith_eq_ok.1 hm)
    (arith_eq_ok.1 hn)

section Nearest

variable {V : Type} {c : Config} [ExactScalar N]

/-- C38: on a tree of points, `iter_asc_by` yields every entry once by non-decreasing distance, and `min_by` returns a
    nearest entry (`None` iff there is none), provided no distance overflows. -/
theorem C38_nearest_points {P : SVec N D → Prop} {t : Tree (AABB N D) (SVec N D) V} (h : Reachable c P t)
    (hp : IterHeap (AABB N D) (SVec N D) V N) (p : SVec N D) (hd : (euclidPoints p).DefinedOn t)
    {es : List (SVec N D × V)} (hes : t.iter = .ok es) :
    (∃ out, t.iterAscBy hp (euclidPoints p) = .ok out ∧ out.Perm es ∧
      out.Pairwise fun a b => sqDist a.1 p ≤ sqDist b.1 p) ∧
    ∃ o, t.minBy hp (euclidPoints p) = .ok o ∧ (o = none ↔ es = []) ∧
      ∀ e, o = some e → e ∈ es ∧ ∀ e' ∈ es, sqDist e.1 p ≤ sqDist e'.1 p := by
  have hent : t.entries = es := by simpa [h.iter_eq] using hes
  have key : ∀ a b : SVec N D × V, a ∈ es → b ∈ es →
      (∀ m n, (euclidPoints p).rankKey a.1 = .ok m → (euclidPoints p).rankKey b.1 = .ok n → m ≤ n) →
      sqDist a.1 p ≤ sqDist b.1 p := by
    intro a b ha hb hab
    obtain ⟨m, hm⟩ := hd.2 a (hent ▸ ha)
    obtain ⟨n, hn⟩ := hd.2 b (hent ▸ hb)
    rw [← C38_point_rank hm, ← C38_point_rank hn, ← ExactScalar.le_iff]
    exact hab m n hm hn
  constructor
  · obtain ⟨out, h1, h2, h3⟩ := C12_iter_asc_by h hp (C38_honours_points p P) hd hes
    exact ⟨out, h1, h2, h3.imp_of_mem fun ha hb hab => key _ _ (h2.mem_iff.1 ha) (h2.mem_iff.1 hb) hab⟩
  · obtain ⟨o, h1, h2, h3⟩ := C13_min_by h hp (C38_honours_points p P) hd hes
    refine ⟨o, h1, h2, fun e he => ?_⟩
    obtain ⟨h4, h5⟩ := h3 e he
    exact ⟨h4, fun e' he' => key e e' h4 he' (h5 e' he')⟩

/-- C38: the same for a tree of boxes that are not inverted, by the distance of the boxes. -/
theorem C38_nearest_boxes {P : AABB N D → Prop} (hP : ∀ k, P k → k.Valid) {t : Tree (AABB N D) (AABB N D) V}
    (h : Reachable c P t) (hp : IterHeap (AABB N D) (AABB N D) V N) (p : SVec N D) (hd : (euclidBoxes p).DefinedOn t)
    {es : List (AABB N D × V)} (hes : t.iter = .ok es) :
    (∃ out, t.iterAscBy hp (euclidBoxes p) = .ok out ∧ out.Perm es ∧
      out.Pairwise fun a b => ∃ m n, a.1.HasDist p m ∧ b.1.HasDist p n ∧ m ≤ n) ∧
    ∃ o, t.minBy hp (euclidBoxes p) = .ok o ∧ (o = none ↔ es = []) ∧
      ∀ e, o = some e → e ∈ es ∧ ∀ e' ∈ es, ∃ m n, e.1.HasDist p m ∧ e'.1.HasDist p n ∧ m ≤ n := by
  have hent : t.entries = es := by simpa [h.iter_eq] using hes
  have key : ∀ a b : AABB N D × V, a ∈ es → b ∈ es →
      (∀ m n, (euclidBoxes p).rankKey a.1 = .ok m → (euclidBoxes p).rankKey b.1 = .ok n → m ≤ n) →
      ∃ m n, a.1.HasDist p m ∧ b.1.HasDist p n ∧ m ≤ n := by
    intro a b ha hb hab
    obtain ⟨m, hm⟩ := hd.2 a (hent ▸ ha)
    obtain ⟨n, hn⟩ := hd.2 b (hent ▸ hb)
    exact ⟨_, _, C38_box_rank (hP _ (h.keys a (hent ▸ ha))) hm, C38_box_rank (hP _ (h.keys b (hent ▸ hb))) hn,
      (ExactScalar.le_iff _ _).1 (hab m n hm hn)⟩
  constructor
  · obtain ⟨out, h1, h2, h3⟩ := C12_iter_asc_by h hp (C38_honours_boxes p hP) hd hes
    exact ⟨out, h1, h2, h3.imp_of_mem fun ha hb hab => key _ _ (h2.mem_iff.1 ha) (h2.mem_iff.1 hb) hab⟩
  · obtain ⟨o, h1, h2, h3⟩ := C13_min_by h hp (C38_honours_boxes p hP) hd hes
    refine ⟨o, h1, h2, fun e he => ?_⟩
    obtain ⟨h4, h5⟩ := h3 e he
    exact ⟨h4, fun e' he' => key e e' h4 he' (h5 e' he')⟩

end Nearest

/-! ### `i32`: when no distance overflows -/

section NonEmpty

variable {B K V : Type} [Bounds B] [Volume B] [Bounded K B] [BEq K] {c : Config} {P : K → Prop} {t : Tree B K V}

theorem ChildOk.nonempty [VolumeLaws B] {rel : B → List B → Prop} {a : Alloc} {g : Prop} (ha : 1 ≤ a.minChildren)
    {l : Nat} {n : Node B K V} (h : ChildOk rel a g l n) : n.entries ≠ [] := by
  induction l generalizing n with
  | zero =>
    obtain ⟨b, es, rfl, _⟩ := h.1.leaf
    have := h.2.2 ha
    intro h0
    simp [Node.fanout] at this h0
    simp [h0] at this
  | succ l ih =>
    obtain ⟨b, cs, rfl, _, _, hcs⟩ := h.1.inner
    have := h.2.2 ha
    cases cs with
    | nil => simp [Node.fanout] at this
    | cons c cs =>
      intro h0
      simp only [entries_inner, entriesList_cons, List.append_eq_nil_iff] at h0
      exact ih (hcs c List.mem_cons_self) h0.1

/-- With `1 ≤ min_children`, every node of a non-empty tree has entries below it. -/
theorem Reachable.nodes_nonempty (h : Reachable c P t) (hm : 1 ≤ c.minChildren) (hne : t.entries ≠ []) {n : Node B K V}
    (hn : n ∈ t.nodes) : n.entries ≠ [] := by
  let _ : VolumeLaws B := trivialVolumeLaws
  rcases List.mem_cons.1 hn with rfl | hn
  · exact hne
  · obtain ⟨l, hl⟩ := h.treeOk_any.1.ok.descendants hn
    exact hl.nonempty (by rw [h.treeOk_any.2]; exact hm)

end NonEmpty

section I32

variable {V : Type} {c : Config} {lo hi : I32} {p : SVec I32 D}

theorem Reachable.bounds_inWindow [FullRange N] {K : Type} [Bounded K (AABB N D)] [BEq K] [LawfulKey K (AABB N D)] {P : K → Prop}
    {lo hi : N} {t : Tree (AABB N D) K V} (h : Reachable c P t) (hm : 1 ≤ c.minChildren) (hne : t.entries ≠ [])
    (hP : ∀ k, P k → (Bounded.bounds k : AABB N D).InWindow lo hi) {n : Node (AABB N D) K V} (hn : n ∈ t.nodes) :
    n.bounds.InWindow lo hi := by
  rw [(C19_bounds_exact (fun _ _ => AABB.normal _) h hn).2]
  have hne' := h.nodes_nonempty hm hne hn
  refine AABB.inWindow_unionAll (FullRange.minVal_le _) (FullRange.le_maxVal _) (by simpa using hne') ?_
  intro b hb
  obtain ⟨e, he, rfl⟩ := List.mem_map.1 hb
  exact hP _ (h.keys_below hn he)

theorem closest_inWindow {b : AABB N D} {lo hi : N} {p : SVec N D} (hb : b.InWindow lo hi)
    (hp : ∀ i, lo ≤ p.get i ∧ p.get i ≤ hi) (i : Fin D) : lo ≤ (b.closest p).get i ∧ (b.closest p).get i ≤ hi := by
  simp only [AABB.closest, SVec.cmin, SVec.cmax]
  have := hb i
  have := hp i
  exact ⟨le_min (le_max_of_le_left this.1) (hb i).2.1, min_le_of_right_le (hb i).2.2⟩

/-- C38 for `i32` points in a window `[lo, hi]` with `D * (hi - lo)² ≤ i32::MAX`: no distance overflows on a non-empty
    tree. -/
theorem C38_defined_i32_points (hD : 0 < D) (hw : D * ((hi.1 - lo.1) * (hi.1 - lo.1)) ≤ 2147483647)
    (hm : 1 ≤ c.minChildren) {P : SVec I32 D → Prop} (hP : ∀ k, P k → ∀ i, lo ≤ k.get i ∧ k.get i ≤ hi)
    {t : Tree (AABB I32 D) (SVec I32 D) V} (h : Reachable c P t) (hne : t.iter ≠ .ok [])
    (hp : ∀ i, lo ≤ p.get i ∧ p.get i ≤ hi) : (euclidPoints p).DefinedOn t := by
  have hne' : t.entries ≠ [] := fun h0 => hne (by rw [h.iter_eq, h0])
  refine ⟨fun n hn => ?_, fun e he => ?_⟩
  · obtain ⟨m, h1⟩ := I32.distSq_isSome hD hw
      (closest_inWindow (h.bounds_inWindow hm hne' (fun k hk i => ⟨hP k hk i, hP k hk i⟩) hn) hp) hp
    exact ⟨m, arith_eq_ok.2 h1⟩
  · obtain ⟨m, h1⟩ := I32.distSq_isSome hD hw (hP _ (h.keys e he)) hp
    exact ⟨m, arith_eq_ok.2 h1⟩

/-- C38 for `i32` boxes in a window `[lo, hi]` with `D * (hi - lo)² ≤ i32::MAX`: no distance overflows on a non-empty
    tree. -/
theorem C38_defined_i32_boxes (hD : 0 < D) (hw : D * ((hi.1 - lo.1) * (hi.1 - lo.1)) ≤ 2147483647)
    (hm : 1 ≤ c.minChildren) {P : AABB I32 D → Prop} (hP : ∀ k, P k → k.InWindow lo hi)
    {t : Tree (AABB I32 D) (AABB I32 D) V} (h : Reachable c P t) (hne : t.iter ≠ .ok [])
    (hp : ∀ i, lo ≤ p.get i ∧ p.get i ≤ hi) : (euclidBoxes p).DefinedOn t := by
  have hne' : t.entries ≠ [] := fun h0 => hne (by rw [h.iter_eq, h0])
  refine ⟨fun n hn => ?_, fun e he => ?_⟩
  · obtain ⟨m, h1⟩ := I32.distSq_isSome hD hw
      (closest_inWindow (h.bounds_inWindow hm hne' hP hn) hp) hp
    exact ⟨m, arith_eq_ok.2 h1⟩
  · obtain ⟨m, h1⟩ := I32.distSq_isSome hD hw (closest_inWindow (hP _ (h.keys e he)) hp) hp
    exact ⟨m, arith_eq_ok.2 h1⟩

end I32

/-- The sample tree and a query point meet the hypotheses. -/
theorem sample_defined : (euclidBoxes (pt 6 7)).DefinedOn sampleTree :=
  C38_defined_i32_boxes (c := cfg42) (lo := i32 (-1000)) (hi := i32 1000) (by decide) (by decide) (by decide)
    (P := SampleKey) (fun _ hk => hk.1) sample_reachable (by rw [sample_iter]; decide +kernel) (by decide +kernel)

example : sampleTree.minBy ((listHeap I32).heap _) (euclidBoxes (pt 6 7)) = .ok (some (box 5 5 6 6, 10)) ∧
    sampleTree.iterAscBy ((listHeap I32).heap _) (euclidBoxes (pt 6 7)) =
      .ok [(box 5 5 6 6, 10), (box 8 8 9 9, 9), (box 8 8 9 9, 7), (box 9 9 12 12, 8), (box 2 2 3 3, 4),
        (box 0 2 1 3, 3), (box 1 3 1 3, 60), (box 0 0 1 1, 1), (box 0 2 0 2, 5)] := by
  constructor
  · rw [Res.ok_getD (x := sampleTree.minBy ((listHeap I32).heap _) (euclidBoxes (pt 6 7))) none (by decide +kernel)]
    congr 1
    decide +kernel
  · rw [Res.ok_getD (x := sampleTree.iterAscBy ((listHeap I32).heap _) (euclidBoxes (pt 6 7))) [] (by decide +kernel)]
    congr 1
    decide +kernel

example : ∃ o, sampleTree.minBy ((listHeap I32).heap _) (euclidBoxes (pt 6 7)) = .ok o ∧ (o = none ↔ sampleEntries = []) ∧
    ∀ e, o = some e → e ∈ sampleEntries ∧ ∀ e' ∈ sampleEntries,
      ∃ m n, e.1.HasDist (pt 6 7) m ∧ e'.1.HasDist (pt 6 7) n ∧ m ≤ n :=
  (C38_nearest_boxes (fun _ hk => hk.2) sample_reachable _ _ sample_defined sample_iter).2

/-! ## C39: empty trees -/

section Empty

variable {K V : Type} [Bounded K (AABB N D)] [BEq K] {c : Config}

/-- C39, what holds: on an empty tree `min_by` with the euclidean ranking (of points, boxes or other keys) returns `None`
    if the distance of the query point to the (inverted) bounds `empty()` of the tree can be calculated.
    Missing: for fixed-width integers the calculation overflows, see `C39_refuted`. -/
theorem C39_empty_partial (hp : IterHeap (AABB N D) K V N) {r : Ranking (AABB N D) K N} {p : SVec N D}
    (hr : r.boundsMin = (euclidBoxes p).boundsMin) {m : N} (hm : (AABB.empty : AABB N D).distSq p = some m) :
    (Tree.new c : Tree (AABB N D) K V).minBy hp r = .ok none := by
  have h1 : SortedIter.new hp r 0 (.leaf AABB.empty []) =
      .ok (hp.push (⟨m, 1⟩, .node (.leaf AABB.empty [])) hp.empty) := by
    simp only [SortedIter.new, Node.bounds, hr, euclidBoxes, hm]
    rfl
  have hi := hp.items_push (⟨m, 1⟩, .node (.leaf AABB.empty [])) hp.empty
  rw [hp.items_empty] at hi
  obtain ⟨h', h2, h3⟩ := hp.pop_unique hi (by simp)
  have h4 := hp.pop_nil h3.eq_nil
  simp only [Tree.minBy, Tree.new, Bounds.empty, h1, Tree.sortedFuel, Node.weight, ok_bind]
  simp only [SortedIter.nextLoop, h2, SortedItem.getNode, Node.leafChildren, SortedIter.pushEntries, ok_bind,
    List.foldlM_nil, pure, Except.pure, List.length_nil]
  simp only [h4, ok_bind]

/-- C39 fails: with `i32` coordinates `min_by` with the euclidean ranking on an empty tree panics on arithmetic overflow
    instead of returning `None`, for every query point with a coordinate above `i32::MIN + 46340` (and every heap, every
    kind of key). -/
theorem C39_refuted {K : Type} [Bounded K (AABB I32 D)] (hp : IterHeap (AABB I32 D) K V I32)
    {r : Ranking (AABB I32 D) K I32} {p : SVec I32 D} (hr : r.boundsMin = (euclidBoxes p).boundsMin) {i : Fin D}
    (hi : -2147483648 + 46340 < (p.get i).1) :
    (Tree.new c : Tree (AABB I32 D) K V).minBy hp r = .error .arithmetic := by
  have hnone : (AABB.empty : AABB I32 D).distSq p = none := by
    cases hd : (AABB.empty : AABB I32 D).distSq p with
    | none => rfl
    | some m =>
      exfalso
      have h1 := AABB.distSq_eq hd
      have h2 : (AABB.empty : AABB I32 D).closest p = SVec.minValue := by
        refine SVec.ext (funext fun j => ?_)
        simp only [AABB.closest, AABB.empty, SVec.cmin, SVec.cmax, SVec.minValue, SVec.maxValue]
        exact min_eq_right (FullRange.minVal_le _)
      rw [h2, sqDist] at h1
      have h3 : (Scalar.toRat ((SVec.minValue : SVec I32 D).get i) - Scalar.toRat (p.get i)) ^ 2 ≤ Scalar.toRat m := by
        rw [h1]
        exact Finset.single_le_sum (f := fun i => (Scalar.toRat ((SVec.minValue : SVec I32 D).get i) - Scalar.toRat (p.get i)) ^ 2)
          (fun j _ => by positivity) (Finset.mem_univ i)
      have h4 : (((-2147483648 - (p.get i).1) ^ 2 : ℤ) : ℚ) ≤ ((m.1 : ℤ) : ℚ) := by
        have e : Scalar.toRat ((SVec.minValue : SVec I32 D).get i) = ((-2147483648 : ℤ) : ℚ) := rfl
        have e2 : Scalar.toRat (p.get i) = (((p.get i).1 : ℤ) : ℚ) := rfl
        have e3 : Scalar.toRat m = ((m.1 : ℤ) : ℚ) := rfl
        rw [e, e2, e3] at h3
        rw [Int.cast_pow, Int.cast_sub]
        exact h3
      have h5 : (-2147483648 - (p.get i).1) ^ 2 ≤ m.1 := by exact_mod_cast h4
      have h6 := m.2.2
      nlinarith
  simp only [Tree.minBy, Tree.new, SortedIter.new, Node.bounds, hr, euclidBoxes, Bounds.empty, hnone]
  rfl

end Empty

/-- C39: in particular at the origin of the plane. -/
example (c : Config) (hp : IterHeap (AABB I32 2) (SVec I32 2) Nat I32) :
    (Tree.new c : PointTree).minBy hp (euclidPoints (pt 0 0)) = .error .arithmetic :=
  C39_refuted (p := pt 0 0) (i := 0) hp rfl (by decide)

/-- C39: and near the least `i32` there is no overflow. -/
example (c : Config) (hp : IterHeap (AABB I32 2) (SVec I32 2) Nat I32) :
    (Tree.new c : PointTree).minBy hp (euclidPoints (pt (-2147483648) (-2147483600))) = .ok none :=
  C39_empty_partial (p := pt (-2147483648) (-2147483600)) (m := i32 2304) hp rfl (by decide +kernel)

/-! ## C14: ties -/

section Ties

variable {B K V M : Type} [Bounds B] [Volume B] [Bounded K B] [BEq K] [Enclosure B] [LE M] [Std.IsPreorder M]
variable {c : Config} {P : K → Prop} {t : Tree B K V}

/-- C14, what holds: if a single entry has least rank, `min_by` returns it.
    Missing: with several entries of least rank it need not be the first, see `C14_refuted`. -/
theorem C14_unique_partial (h : Reachable c P t) (hp : IterHeap B K V M) {r : Ranking B K M} (hr : r.Honours P)
    (hd : r.DefinedOn t) {x y : List (K × V)} {e : K × V} (hes : t.iter = .ok (x ++ e :: y))
    (hu : ∀ e' ∈ x ++ y, ∀ m n, r.rankKey e.1 = .ok m → r.rankKey e'.1 = .ok n → ¬ n ≤ m) :
    t.minBy hp r = .ok (some e) := by
  obtain ⟨o, h1, h2, h3⟩ := C13_min_by h hp hr hd hes
  cases o with
  | none => exact absurd (h2.1 rfl) (by simp)
  | some e' =>
    obtain ⟨h4, h5⟩ := h3 e' rfl
    have hent : t.entries = x ++ e :: y := by simpa [h.iter_eq] using hes
    have hmem : e' = e ∨ e' ∈ x ++ y := by
      simp only [List.mem_append, List.mem_cons] at h4 ⊢
      rcases h4 with h | h | h
      · exact .inr (.inl h)
      · exact .inl h
      · exact .inr (.inr h)
    rcases hmem with rfl | hmem
    · exact h1
    · exfalso
      obtain ⟨m, hm⟩ := hd.2 e (by simp [hent])
      obtain ⟨n, hn⟩ := hd.2 e' (by rw [hent]; exact h4)
      exact hu e' hmem m n hm hn (h5 e (by simp) n m hn hm)

end Ties

/-- Five points of the plane, inserted in turn. -/
def tieOps : List (Op (AABB I32 2) (SVec I32 2) Nat) :=
  [.insert (pt (-5) 6) 0, .insert (pt (-2) 6) 1, .insert (pt (-1) 6) 2, .insert (pt 6 (-5)) 3, .insert (pt (-6) (-1)) 4]

/-- The tree of the five points. -/
def tieTree : PointTree := (run (Tree.new cfg42) tieOps).getD (Tree.new cfg42)

theorem tie_run : run (Tree.new cfg42) tieOps = .ok tieTree := Res.ok_getD _ (by decide +kernel)

theorem tie_reachable : Reachable cfg42 (fun _ => True) tieTree :=
  Reachable.run .new (fun _ _ _ _ => trivial) tie_run

theorem tie_root : tieTree.root = .inner (box (-6) (-5) 6 6)
    [.leaf (box (-5) 6 (-1) 6) [(pt (-5) 6, 0), (pt (-2) 6, 1), (pt (-1) 6, 2)],
      .leaf (box (-6) (-5) 6 (-1)) [(pt 6 (-5), 3), (pt (-6) (-1), 4)]] :=
  Node.eq_of_eqb (by decide +kernel)

theorem tie_iter : tieTree.iter = .ok [(pt (-5) 6, 0), (pt (-2) 6, 1), (pt (-1) 6, 2), (pt 6 (-5), 3), (pt (-6) (-1), 4)] := by
  rw [tie_reachable.iter_eq, Tree.entries, tie_root]
  simp

/-- Popping the item with the least score, and the remaining items. -/
theorem next_step {B K V M : Type} [LE M] {hp : IterHeap B K V M} {r : Ranking B K M} {fuel : Nat} {h : hp.H}
    {x : Score M × SortedItem B K V} {rest : List (Score M × SortedItem B K V)} (hi : (hp.items h).Perm (x :: rest))
    (hx : ∀ y ∈ rest, ¬ y.1 ≤ x.1) : ∃ h', (hp.items h').Perm rest ∧ SortedIter.nextLoop hp r (fuel + 1) h =
      match x.1.level with
      | 0 => (do
        pure (some (← x.2.getEntry), h'))
      | 1 => (do
        let node ← x.2.getNode
        let h ← SortedIter.pushEntries hp r (← node.leafChildren) h'
        SortedIter.nextLoop hp r fuel h)
      | l + 2 => (do
        let node ← x.2.getNode
        let h ← SortedIter.pushNodes hp r (l + 1) (← node.innerChildren) h'
        SortedIter.nextLoop hp r fuel h) := by
  obtain ⟨h', h1, h2⟩ := hp.pop_unique hi hx
  refine ⟨h', h2, ?_⟩
  simp only [SortedIter.nextLoop, h1]
  match x.1.level with
  | 0 => rfl
  | 1 => rfl
  | l + 2 => rfl

/-- C14 fails: in this tree of five points, the third and the fifth entry (in iteration order) are the two nearest to the
    origin, at the same distance, and `min_by` returns the fifth, for every heap. -/
theorem C14_refuted : ∃ (t : PointTree) (p : SVec I32 2) (x y z : List (SVec I32 2 × Nat)) (e e' : SVec I32 2 × Nat),
    Reachable cfg42 (fun _ => True) t ∧ (euclidPoints p).Honours (fun _ => True) ∧ (euclidPoints p).DefinedOn t ∧
    t.iter = .ok (x ++ e :: y ++ e' :: z) ∧ e ≠ e' ∧
    (∀ f ∈ x ++ e :: y ++ e' :: z, sqDist e.1 p ≤ sqDist f.1 p ∧ sqDist e'.1 p ≤ sqDist f.1 p) ∧
    ∀ hp, t.minBy hp (euclidPoints p) = .ok (some e') := by
  have hlevel : tieTree.level = 1 := by decide +kernel
  have hfuel : tieTree.sortedFuel = 9 := by decide +kernel
  refine ⟨tieTree, pt 0 0, [(pt (-5) 6, 0), (pt (-2) 6, 1)], [(pt 6 (-5), 3)], [], (pt (-1) 6, 2), (pt (-6) (-1), 4),
    tie_reachable, C38_honours_points _ _, ?_, tie_iter, by decide, ?_, ?_⟩
  · refine C38_defined_i32_points (c := cfg42) (lo := i32 (-10)) (hi := i32 10) (by decide) (by decide) (by decide)
      (P := fun k => ∀ i, i32 (-10) ≤ k.get i ∧ k.get i ≤ i32 10) (fun _ hk => hk) (Reachable.run .new ?_ tie_run)
      (by rw [tie_iter]; decide) (by decide +kernel)
    have : ∀ op ∈ tieOps, ∀ k ∈ op.inserts, ∀ i, i32 (-10) ≤ k.get i ∧ k.get i ≤ i32 10 := by decide +kernel
    intro op h k hk
    exact this op h k (by simp [hk])
  · intro f hf
    simp only [sqDist]
    revert f
    decide +kernel
  · intro hp
    have r1 : (euclidPoints (pt 0 0)).boundsMin (box (-6) (-5) 6 6) = .ok (i32 0) := by decide +kernel
    have r2 : (euclidPoints (pt 0 0)).boundsMin (box (-5) 6 (-1) 6) = .ok (i32 37) := by decide +kernel
    have r3 : (euclidPoints (pt 0 0)).boundsMin (box (-6) (-5) 6 (-1)) = .ok (i32 1) := by decide +kernel
    have r4 : (euclidPoints (pt 0 0)).rankKey (pt 6 (-5)) = .ok (i32 61) := by decide +kernel
    have r5 : (euclidPoints (pt 0 0)).rankKey (pt (-6) (-1)) = .ok (i32 37) := by decide +kernel
    simp only [Tree.minBy, hlevel, hfuel, tie_root, SortedIter.new, Node.bounds, r1, ok_bind, pure, Except.pure]
    have hi := hp.items_push (⟨i32 0, 1 + 1⟩, .node tieTree.root) hp.empty
    rw [hp.items_empty, tie_root] at hi
    obtain ⟨h1, hi1, e1⟩ := next_step (r := euclidPoints (pt 0 0)) (fuel := 8) hi (by simp)
    rw [e1]
    simp only [SortedItem.getNode, Node.innerChildren, SortedIter.pushNodes, ok_bind, List.foldlM_cons, List.foldlM_nil,
      Node.bounds, r2, r3, pure, Except.pure]
    have hi2 := (hp.items_push (⟨i32 1, 0 + 1⟩, .node (.leaf (box (-6) (-5) 6 (-1)) [(pt 6 (-5), 3), (pt (-6) (-1), 4)]))
      (hp.push (⟨i32 37, 0 + 1⟩, .node (.leaf (box (-5) 6 (-1) 6) [(pt (-5) 6, 0), (pt (-2) 6, 1), (pt (-1) 6, 2)])) h1)).trans
      (((hp.items_push _ _).trans (hi1.cons _)).cons _)
    have n1 : ¬ i32 37 ≤ i32 1 := by decide
    have n2 : ¬ i32 61 ≤ i32 37 := by decide
    obtain ⟨h2, hi3, e2⟩ := next_step (r := euclidPoints (pt 0 0)) (fuel := 7) hi2 (by
      intro y hy
      simp only [List.mem_singleton] at hy
      subst hy
      exact fun h => n1 h.1)
    rw [e2]
    simp only [SortedItem.getNode, Node.leafChildren, SortedIter.pushEntries, ok_bind, List.foldlM_cons, List.foldlM_nil,
      r4, r5, pure, Except.pure]
    have hi4 := (hp.items_push (⟨i32 37, 0⟩, .entry (pt (-6) (-1), 4)) (hp.push (⟨i32 61, 0⟩, .entry (pt 6 (-5), 3)) h2)).trans
      (((hp.items_push _ _).trans (hi3.cons _)).cons _)
    obtain ⟨h3, _, e3⟩ := next_step (r := euclidPoints (pt 0 0)) (fuel := 6) hi4 (by
      intro y hy
      simp only [List.mem_cons, List.not_mem_nil, or_false] at hy
      rcases hy with rfl | rfl
      · exact fun h => n2 h.1
      · exact fun h => by
          have := h.2 (by show i32 37 ≤ i32 37; decide)
          simp at this)
    rw [e3]
    rfl

/-- C14: where the least rank is unique, `min_by` returns it for every heap. -/
example (hp : IterHeap (AABB I32 2) (AABB I32 2) Nat I32) :
    sampleTree.minBy hp (euclidBoxes (pt 6 7)) = .ok (some (box 5 5 6 6, 10)) := by
  refine C14_unique_partial sample_reachable hp (C38_honours_boxes _ fun _ hk => hk.2) sample_defined
    (x := [(box 0 0 1 1, 1), (box 0 2 0 2, 5), (box 0 2 1 3, 3), (box 1 3 1 3, 60), (box 8 8 9 9, 9), (box 2 2 3 3, 4)])
    (y := [(box 9 9 12 12, 8), (box 8 8 9 9, 7)]) sample_iter ?_
  intro e' he' m n hm hn
  have key : ∀ e' ∈ [(box 0 0 1 1, 1), (box 0 2 0 2, 5), (box 0 2 1 3, 3), (box 1 3 1 3, 60), (box 8 8 9 9, 9),
      (box 2 2 3 3, 4)] ++ [(box 9 9 12 12, 8), (box 8 8 9 9, 7)],
      (match (euclidBoxes (pt 6 7)).rankKey (box 5 5 6 6), (euclidBoxes (pt 6 7)).rankKey e'.1 with
      | .ok m, .ok n => decide (¬ n ≤ m)
      | _, _ => false) = true := by decide +kernel
  have := key e' he'
  rw [hm, hn] at this
  exact of_decide_eq_true this

/-! ## Instances of the theorems of `Verif/Props/Sorted.lean` -/

/-- A ranking of the boxes within a given distance. -/
def within (p : SVec I32 2) (d : I32) : Ranking (AABB I32 2) (AABB I32 2) (Option I32) where
  boundsMin b := (fun m => if m ≤ d then some m else none) <$> (euclidBoxes p).boundsMin b
  rankKey k := (fun m => if m ≤ d then some m else none) <$> (euclidBoxes p).rankKey k

theorem within_honours (p : SVec I32 2) (d : I32) {P : AABB I32 2 → Prop} (hP : ∀ k, P k → k.Valid) :
    (within p d).FilterHonours P := by
  intro k b o n hk hle hb hr
  obtain ⟨m, hm, rfl⟩ := map_eq_ok.1 hb
  obtain ⟨n', hn, hn'⟩ := map_eq_ok.1 hr
  have h := C38_honours_boxes p hP k b m n' hk hle hm hn
  split at hn'
  · rename_i hd
    injection hn' with hn'
    subst hn'
    exact ⟨m, by rw [if_pos (le_trans h hd)], h⟩
  · cases hn'

theorem within_defined {t : BoxTree} {p : SVec I32 2} (d : I32) (h : (euclidBoxes p).DefinedOn t) :
    (within p d).DefinedOn t := by
  refine ⟨fun n hn => ?_, fun e he => ?_⟩
  · obtain ⟨m, hm⟩ := h.1 n hn
    exact ⟨_, map_eq_ok.2 ⟨m, hm, rfl⟩⟩
  · obtain ⟨m, hm⟩ := h.2 e he
    exact ⟨_, map_eq_ok.2 ⟨m, hm, rfl⟩⟩

example : ∃ out, sampleTree.filterIterAscBy ((listHeap I32).heap _) (within (pt 6 7) (i32 25)) = .ok out ∧
    out.Perm [(box 8 8 9 9, 9), (box 2 2 3 3, 4), (box 5 5 6 6, 10), (box 9 9 12 12, 8), (box 8 8 9 9, 7)] ∧
    out.Pairwise fun a b => ∀ m n, (within (pt 6 7) (i32 25)).rankKey a.1 = .ok (some m) →
      (within (pt 6 7) (i32 25)).rankKey b.1 = .ok (some n) → m ≤ n := by
  obtain ⟨out, h1, h2, h3⟩ := C15_filter_iter_asc_by sample_reachable ((listHeap I32).heap _)
    (within_honours (pt 6 7) (i32 25) fun _ hk => hk.2) (within_defined _ sample_defined) sample_iter
  refine ⟨out, h1, h2.trans (List.Perm.of_eq ?_), h3⟩
  decide +kernel

example : ∃ refs, sampleTree.filterIterAscByMut ((listHeap I32).heap _) (within (pt 6 7) (i32 25)) = .ok refs ∧
    (refs.map Prod.snd).Perm [4, 5, 6, 7, 8] := by
  obtain ⟨refs, h1, h2, h3⟩ := C29_filter_iter_asc_by_mut sample_reachable ((listHeap I32).heap _)
    (within_honours (pt 6 7) (i32 25) fun _ hk => hk.2) (within_defined _ sample_defined) sample_iter
  refine ⟨refs, h1, (h2.map _).trans (List.Perm.of_eq ?_)⟩
  decide +kernel

end RTree
