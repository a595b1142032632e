import Verif.Proofs.IntNearest
import Verif.Proofs.BinaryHeap
/-!
# Integer coordinates of every type, in debug and in release builds (C89, C90, C91)

`MInt T pr` are the integers of the type `T` (`i8` … `u32`) in a program built with the profile `pr`. What needs no arithmetic
(C01-C11, C16-C37 …) is proved for every `Scalar` and therefore for them; here is what does need arithmetic: the volumes
calculated by insertion and the distances of nearest-neighbour queries.
-/

namespace RTree

variable {T : IntTy} {D : ℕ} {V : Type} {c : Config}

/-! ## C89: debug builds -/

/-- C89: with unsigned coordinates, no call of any history panics in a debug build, if no inserted key is inverted; for keys
    of every kind with boxes as bounds. -/
theorem C89_no_panic_unsigned {K : Type} [Bounded K (AABB (MInt T .debug) D)] [BEq K] (hT : T.lo = 0) (hD : 0 < D)
    (hD31 : D ≤ 31) (hs : c.Safe) {ops : List (Op (AABB (MInt T .debug) D) K V)}
    (hP : ∀ op ∈ ops, ∀ k, op.inserts = some k → (Bounded.bounds k : AABB (MInt T .debug) D).Valid) :
    ∃ t, run (Tree.new c) ops = .ok t := by
  let _ : VolumeLaws (AABB (MInt T .debug) D) := AABB.sidesVolumeLaws AABB.Valid (fun ha _ => AABB.valid_union ha)
    AABB.valid_unionAll hD (m := 32) (by omega) fun b hb => MInt.sides_debug fun i => by
      have h1 : (b.min.get i).1 ≤ (b.max.get i).1 := hb i
      have h2 := (b.max.get i).2.2
      have h3 := (b.min.get i).2.1
      omega
  exact C02_no_panic hs hP

/-- C89: with signed coordinates, no call of any history panics in a debug build, if all coordinates of the keys lie between
    `lo` and `hi` with a difference of at most `MAX`, inverted or not. -/
theorem C89_no_panic_signed {K : Type} [Bounded K (AABB (MInt T .debug) D)] [BEq K] (hT : T.lo < 0) (hD : 0 < D)
    (hD31 : D ≤ 31) (hs : c.Safe) {lo hi : MInt T .debug} (hw : hi.1 - lo.1 ≤ T.hi)
    {ops : List (Op (AABB (MInt T .debug) D) K V)}
    (hP : ∀ op ∈ ops, ∀ k, op.inserts = some k → (Bounded.bounds k : AABB (MInt T .debug) D).InWindow lo hi) :
    ∃ t, run (Tree.new c) ops = .ok t := by
  let _ : VolumeLaws (AABB (MInt T .debug) D) := AABB.sidesVolumeLaws (AABB.InWindow lo hi) AABB.inWindow_union
    (fun hne h => AABB.inWindow_unionAll (FullRange.minVal_le _) (FullRange.le_maxVal _) hne h) hD (m := 32) (by omega)
    fun b hb => MInt.sides_debug fun i => by
      have h1 : lo.1 ≤ (b.min.get i).1 := (hb i).1.1
      have h2 : (b.min.get i).1 ≤ hi.1 := (hb i).1.2
      have h3 : lo.1 ≤ (b.max.get i).1 := (hb i).2.1
      have h4 : (b.max.get i).1 ≤ hi.1 := (hb i).2.2
      have h5 := T.neg_hi hT.ne
      omega
  exact C02_no_panic hs hP

/-- C89: with signed coordinates, nearest-neighbour queries on a non-empty tree of points are right in a debug build if the
    squared distances of the entries fit the coordinate type. -/
theorem C89_nearest_points_signed (hT : T.lo < 0) (hD : 0 < D) (hm : 1 ≤ c.minChildren)
    {P : SVec (MInt T .debug) D → Prop} {t : Tree (AABB (MInt T .debug) D) (SVec (MInt T .debug) D) V}
    (h : Reachable c P t) (hp : IterHeap (AABB (MInt T .debug) D) (SVec (MInt T .debug) D) V (MInt T .debug))
    (p : SVec (MInt T .debug) D) {es : List (SVec (MInt T .debug) D × V)} (hes : t.iter = .ok es) (hne : es ≠ [])
    (hfit : ∀ e ∈ es, sqDist e.1 p ≤ T.hi) :
    (∃ out, t.iterAscBy hp (euclidPoints p) = .ok out ∧ out.Perm es ∧
      out.Pairwise fun a b => sqDist a.1 p ≤ sqDist b.1 p) ∧
    ∃ e, t.minBy hp (euclidPoints p) = .ok (some e) ∧ e ∈ es ∧ ∀ e' ∈ es, sqDist e.1 p ≤ sqDist e'.1 p := by
  have hent : t.entries = es := by simpa [h.iter_eq] using hes
  have key : ∀ a : SVec (MInt T .debug) D, sqDist a p ≤ T.hi → ∃ m, arith (a.distSq p) = .ok m := fun a ha =>
    let ⟨m, hm⟩ := MInt.distSq_debug hD (MInt.sub_signed hT ha) ha
    ⟨m, arith_eq_ok.2 hm⟩
  have hd : (euclidPoints p).DefinedOn t := by
    refine ⟨fun n hn => ?_, fun e he => key _ (hfit e (hent ▸ he))⟩
    obtain ⟨e, he⟩ := List.exists_mem_of_ne_nil _ (h.nodes_nonempty hm (hent ▸ hne) hn)
    exact key (n.bounds.closest p) ((MInt.closest_le _ p fun i => C19_bounds_cover h hn he i).trans
      (hfit e (hent ▸ h.entries_below hn he)))
  obtain ⟨h1, o, h2, h3, h4⟩ := C38_nearest_points h hp p hd hes
  cases o with
  | none => exact absurd (h3.1 rfl) hne
  | some e => exact ⟨h1, e, h2, h4 e rfl⟩

/-- C89: the same for boxes that are not inverted, if each has a point whose squared distance fits the type. -/
theorem C89_nearest_boxes_signed (hT : T.lo < 0) (hD : 0 < D) (hm : 1 ≤ c.minChildren)
    {P : AABB (MInt T .debug) D → Prop} (hP : ∀ k, P k → k.Valid)
    {t : Tree (AABB (MInt T .debug) D) (AABB (MInt T .debug) D) V}
    (h : Reachable c P t) (hp : IterHeap (AABB (MInt T .debug) D) (AABB (MInt T .debug) D) V (MInt T .debug))
    (p : SVec (MInt T .debug) D) {es : List (AABB (MInt T .debug) D × V)} (hes : t.iter = .ok es) (hne : es ≠ [])
    (hfit : ∀ e ∈ es, ∃ q, AABB.Mem q e.1 ∧ sqDist q p ≤ T.hi) :
    (∃ out, t.iterAscBy hp (euclidBoxes p) = .ok out ∧ out.Perm es ∧
      out.Pairwise fun a b => ∃ m n, a.1.HasDist p m ∧ b.1.HasDist p n ∧ m ≤ n) ∧
    ∃ e, t.minBy hp (euclidBoxes p) = .ok (some e) ∧ e ∈ es ∧
      ∀ e' ∈ es, ∃ m n, e.1.HasDist p m ∧ e'.1.HasDist p n ∧ m ≤ n := by
  have hent : t.entries = es := by simpa [h.iter_eq] using hes
  have key : ∀ a : SVec (MInt T .debug) D, sqDist a p ≤ T.hi → ∃ m, arith (a.distSq p) = .ok m := fun a ha =>
    let ⟨m, hm⟩ := MInt.distSq_debug hD (MInt.sub_signed hT ha) ha
    ⟨m, arith_eq_ok.2 hm⟩
  have hd : (euclidBoxes p).DefinedOn t := by
    refine ⟨fun n hn => ?_, fun e he => ?_⟩
    · obtain ⟨e, he⟩ := List.exists_mem_of_ne_nil _ (h.nodes_nonempty hm (hent ▸ hne) hn)
      obtain ⟨q, hq, hfq⟩ := hfit e (hent ▸ h.entries_below hn he)
      have hle := C19_bounds_cover h hn he
      exact key (n.bounds.closest p) ((MInt.closest_le _ p (q := q)
        fun i => ⟨le_trans (hle i).1 (hq i).1, le_trans (hq i).2 (hle i).2⟩).trans hfq)
    · obtain ⟨q, hq, hfq⟩ := hfit e (hent ▸ he)
      exact key (e.1.closest p) ((MInt.closest_le _ p hq).trans hfq)
  obtain ⟨h1, o, h2, h3, h4⟩ := C38_nearest_boxes hP h hp p hd hes
  cases o with
  | none => exact absurd (h3.1 rfl) hne
  | some e => exact ⟨h1, e, h2, h4 e rfl⟩

/-! ## C90: nearest neighbours with unsigned coordinates -/

/-- C90 is false of the code: with unsigned coordinates, in a debug build, the euclidean ranking panics if the query point
    lies beyond all keys in some coordinate (the difference of the coordinates is negative), however small the distances
    are. -/
theorem C90_unsigned_refuted (hT : T.lo = 0) {P : SVec (MInt T .debug) D → Prop}
    {t : Tree (AABB (MInt T .debug) D) (SVec (MInt T .debug) D) V} (h : Reachable c P t)
    (hp : IterHeap (AABB (MInt T .debug) D) (SVec (MInt T .debug) D) V (MInt T .debug))
    {es : List (SVec (MInt T .debug) D × V)} (hes : t.iter = .ok es) {p : SVec (MInt T .debug) D} {i : Fin D}
    (h0 : 0 < (p.get i).1) (hbeyond : ∀ e ∈ es, (e.1.get i).1 < (p.get i).1) :
    t.minBy hp (euclidPoints p) = .error .arithmetic := by
  have hent : t.entries = es := by simpa [h.iter_eq] using hes
  have hpi := (p.get i).2
  have hlt : (t.root.bounds.max.get i).1 < (p.get i).1 := by
    rw [(C19_bounds_exact (fun _ _ => AABB.normal _) h (n := t.root) List.mem_cons_self).2]
    let q : AABB (MInt T .debug) D := ⟨SVec.minValue, ⟨fun j => ⟨if j = i then (p.get i).1 - 1 else T.hi, by
      have := T.small; split <;> omega⟩⟩⟩
    have hq : (q.max.get i).1 = (p.get i).1 - 1 := if_pos rfl
    have key : (AABB.unionAll (t.root.entries.map fun e => Bounded.bounds e.1)).Le q := by
      refine AABB.unionAll_le (fun j => ⟨FullRange.minVal_le _, ?_⟩) fun b hb j => ⟨FullRange.minVal_le _, ?_⟩
      · show T.lo ≤ (q.max.get j).1
        exact (q.max.get j).2.1
      · obtain ⟨e, he, rfl⟩ := List.mem_map.1 hb
        have hlt := hbeyond e (hent ▸ he)
        show (e.1.get j).1 ≤ (q.max.get j).1
        by_cases hj : j = i
        · subst hj; omega
        · show _ ≤ if j = i then (p.get i).1 - 1 else T.hi
          rw [if_neg hj]; exact (e.1.get j).2.2
    have := (key i).2
    rw [MInt.le_iff, hq] at this
    exact lt_of_le_of_lt this (by omega)
  have hnone : t.root.bounds.distSq p = none := by
    unfold AABB.distSq SVec.distSq SVec.sub
    rw [dif_neg]
    · rfl
    · intro hall
      have h1 := hall i
      have hge := (((p.cmax t.root.bounds.min).cmin t.root.bounds.max).get i).2.1
      have hle : (((p.cmax t.root.bounds.min).cmin t.root.bounds.max).get i) ≤ t.root.bounds.max.get i := min_le_right _ _
      rw [MInt.le_iff] at hle
      have hno : ¬ (T.lo ≤ (((p.cmax t.root.bounds.min).cmin t.root.bounds.max).get i).1 - (p.get i).1 ∧
          (((p.cmax t.root.bounds.min).cmin t.root.bounds.max).get i).1 - (p.get i).1 ≤ T.hi) := by omega
      have h2 : Scalar.sub (((p.cmax t.root.bounds.min).cmin t.root.bounds.max).get i) (p.get i) = none := by
        show MInt.result T .debug _ = none
        rw [MInt.result, dif_neg hno]
      rw [h2] at h1
      cases h1
  simp only [Tree.minBy, SortedIter.new, euclidPoints, hnone]
  rfl

/-- C90, what holds: nearest-neighbour queries on a non-empty tree of points with unsigned coordinates are right in a debug
    build, if the squared distances of the entries fit the type *and no key lies below the query point in any coordinate*.
    Missing: all other query points. -/
theorem C90_unsigned_partial (hD : 0 < D) (hm : 1 ≤ c.minChildren)
    {P : SVec (MInt T .debug) D → Prop} {t : Tree (AABB (MInt T .debug) D) (SVec (MInt T .debug) D) V}
    (h : Reachable c P t) (hp : IterHeap (AABB (MInt T .debug) D) (SVec (MInt T .debug) D) V (MInt T .debug))
    (p : SVec (MInt T .debug) D) {es : List (SVec (MInt T .debug) D × V)} (hes : t.iter = .ok es) (hne : es ≠ [])
    (hfit : ∀ e ∈ es, sqDist e.1 p ≤ T.hi) (habove : ∀ e ∈ es, ∀ i, p.get i ≤ e.1.get i) :
    (∃ out, t.iterAscBy hp (euclidPoints p) = .ok out ∧ out.Perm es ∧
      out.Pairwise fun a b => sqDist a.1 p ≤ sqDist b.1 p) ∧
    ∃ e, t.minBy hp (euclidPoints p) = .ok (some e) ∧ e ∈ es ∧ ∀ e' ∈ es, sqDist e.1 p ≤ sqDist e'.1 p := by
  have hent : t.entries = es := by simpa [h.iter_eq] using hes
  have key : ∀ a : SVec (MInt T .debug) D, (∀ i, p.get i ≤ a.get i) → sqDist a p ≤ T.hi →
      ∃ m, arith (a.distSq p) = .ok m := fun a hle ha => by
    have hlo : ∀ i, T.lo ≤ (a.get i).1 - (p.get i).1 := fun i => by
      have h1 := (MInt.le_iff _ _).1 (hle i)
      have h2 := T.small
      omega
    obtain ⟨m, hm⟩ := MInt.distSq_debug hD hlo ha
    exact ⟨m, arith_eq_ok.2 hm⟩
  have hd : (euclidPoints p).DefinedOn t := by
    refine ⟨fun n hn => ?_, fun e he => key _ (habove e (hent ▸ he)) (hfit e (hent ▸ he))⟩
    obtain ⟨e, he⟩ := List.exists_mem_of_ne_nil _ (h.nodes_nonempty hm (hent ▸ hne) hn)
    refine key (n.bounds.closest p) (fun i => ?_) ((MInt.closest_le _ p fun i => C19_bounds_cover h hn he i).trans
      (hfit e (hent ▸ h.entries_below hn he)))
    refine le_min (le_max_left _ _) ?_
    exact le_trans (habove e (hent ▸ h.entries_below hn he) i) (C19_bounds_cover h hn he i).2
  obtain ⟨h1, o, h2, h3, h4⟩ := C38_nearest_points h hp p hd hes
  cases o with
  | none => exact absurd (h3.1 rfl) hne
  | some e => exact ⟨h1, e, h2, h4 e rfl⟩

/-! ## C91: release builds -/

/-- C91: in a release build no call of any history panics, for integer coordinates of every type and keys of every kind with
    boxes as bounds, inverted or not and however far apart. -/
theorem C91_no_panic {K : Type} [Bounded K (AABB (MInt T .release) D)] [BEq K] (hD : 0 < D) (hD31 : D ≤ 31) (hs : c.Safe)
    (ops : List (Op (AABB (MInt T .release) D) K V)) : ∃ t, run (Tree.new c) ops = .ok t := by
  let _ : VolumeLaws (AABB (MInt T .release) D) := AABB.sidesVolumeLaws (fun _ => True) (fun _ _ => trivial)
    (fun _ _ => trivial) hD (m := 32) (by omega) fun b _ => MInt.sides_release b
  exact C02_no_panic hs fun _ _ _ _ => trivial

/-- C91: nearest-neighbour queries on a tree of points, empty or not, are right in a release build if the squared distances of
    the entries fit the coordinate type, signed or unsigned; although differences and squares may wrap around on the way. -/
theorem C91_nearest_points (hD : 0 < D) {P : SVec (MInt T .release) D → Prop}
    {t : Tree (AABB (MInt T .release) D) (SVec (MInt T .release) D) V} (h : Reachable c P t)
    (hp : IterHeap (AABB (MInt T .release) D) (SVec (MInt T .release) D) V (MInt T .release))
    (p : SVec (MInt T .release) D) {es : List (SVec (MInt T .release) D × V)} (hes : t.iter = .ok es)
    (hfit : ∀ e ∈ es, sqDist e.1 p ≤ T.hi) :
    (∃ out, t.iterAscBy hp (euclidPoints p) = .ok out ∧ out.Perm es ∧
      out.Pairwise fun a b => sqDist a.1 p ≤ sqDist b.1 p) ∧
    ∃ o, t.minBy hp (euclidPoints p) = .ok o ∧ (o = none ↔ es = []) ∧
      ∀ e, o = some e → e ∈ es ∧ ∀ e' ∈ es, sqDist e.1 p ≤ sqDist e'.1 p := by
  have hd := MInt.defined_points_release hD p t
  have hr := MInt.honours_points_release hD p
  have key : ∀ a b : SVec (MInt T .release) D × V, a ∈ es → b ∈ es →
      (∀ m n, (euclidPoints p).rankKey a.1 = .ok m → (euclidPoints p).rankKey b.1 = .ok n → m ≤ n) →
      sqDist a.1 p ≤ sqDist b.1 p := by
    intro a b ha hb hab
    obtain ⟨m, hm, em⟩ := MInt.distSq_release_exact hD (hfit a ha)
    obtain ⟨n, hn, en⟩ := MInt.distSq_release_exact hD (hfit b hb)
    rw [← em, ← en]
    exact Int.cast_le.2 (hab m n (arith_eq_ok.2 hm) (arith_eq_ok.2 hn))
  constructor
  · obtain ⟨out, h1, h2, h3⟩ := h.iter_asc_by_entries hp hr hd hes hfit
    exact ⟨out, h1, h2, h3.imp_of_mem fun ha hb hab => key _ _ (h2.mem_iff.1 ha) (h2.mem_iff.1 hb) hab⟩
  · obtain ⟨o, h1, h2, h3⟩ := h.min_by_entries hp hr hd hes hfit
    refine ⟨o, h1, h2, fun e he => ?_⟩
    obtain ⟨h4, h5⟩ := h3 e he
    exact ⟨h4, fun e' he' => key e e' h4 he' (h5 e' he')⟩

/-- C91: the same for boxes that are not inverted, if each has a point whose squared distance fits the type. -/
theorem C91_nearest_boxes (hD : 0 < D) {P : AABB (MInt T .release) D → Prop} (hP : ∀ k, P k → k.Valid)
    {t : Tree (AABB (MInt T .release) D) (AABB (MInt T .release) D) V} (h : Reachable c P t)
    (hp : IterHeap (AABB (MInt T .release) D) (AABB (MInt T .release) D) V (MInt T .release))
    (p : SVec (MInt T .release) D) {es : List (AABB (MInt T .release) D × V)} (hes : t.iter = .ok es)
    (hfit : ∀ e ∈ es, ∃ q, AABB.Mem q e.1 ∧ sqDist q p ≤ T.hi) :
    (∃ out, t.iterAscBy hp (euclidBoxes p) = .ok out ∧ out.Perm es ∧
      out.Pairwise fun a b => ∃ m n, a.1.HasDist p m ∧ b.1.HasDist p n ∧ m ≤ n) ∧
    ∃ o, t.minBy hp (euclidBoxes p) = .ok o ∧ (o = none ↔ es = []) ∧
      ∀ e, o = some e → e ∈ es ∧ ∀ e' ∈ es, ∃ m n, e.1.HasDist p m ∧ e'.1.HasDist p n ∧ m ≤ n := by
  have hent : t.entries = es := by simpa [h.iter_eq] using hes
  have hd := MInt.defined_boxes_release hD p t
  have hr := MInt.honours_boxes_release hD p
  have hval : ∀ e ∈ es, e.1.Valid := fun e he => hP _ (h.keys e (hent ▸ he))
  have hfit : ∀ e ∈ es, e.1.Valid ∧ sqDist (e.1.closest p) p ≤ T.hi := fun e he => by
    obtain ⟨q, hq, hfq⟩ := hfit e he
    exact ⟨hval e he, (MInt.closest_le _ p hq).trans hfq⟩
  have hdist : ∀ e ∈ es, e.1.HasDist p (sqDist (e.1.closest p) p) := fun e he =>
    ⟨⟨_, AABB.closest_mem (hval e he) p, rfl⟩, fun q hq => MInt.closest_le _ p hq⟩
  have key : ∀ a b : AABB (MInt T .release) D × V, a ∈ es → b ∈ es →
      (∀ m n, (euclidBoxes p).rankKey a.1 = .ok m → (euclidBoxes p).rankKey b.1 = .ok n → m ≤ n) →
      ∃ m n, a.1.HasDist p m ∧ b.1.HasDist p n ∧ m ≤ n := by
    intro a b ha hb hab
    obtain ⟨m, hm, em⟩ := MInt.distSq_release_exact hD (hfit a ha).2
    obtain ⟨n, hn, en⟩ := MInt.distSq_release_exact hD (hfit b hb).2
    refine ⟨_, _, hdist a ha, hdist b hb, ?_⟩
    rw [← em, ← en]
    exact Int.cast_le.2 (hab m n (arith_eq_ok.2 hm) (arith_eq_ok.2 hn))
  constructor
  · obtain ⟨out, h1, h2, h3⟩ := h.iter_asc_by_entries hp hr hd hes hfit
    exact ⟨out, h1, h2, h3.imp_of_mem fun ha hb hab => key _ _ (h2.mem_iff.1 ha) (h2.mem_iff.1 hb) hab⟩
  · obtain ⟨o, h1, h2, h3⟩ := h.min_by_entries hp hr hd hes hfit
    refine ⟨o, h1, h2, fun e he => ?_⟩
    obtain ⟨h4, h5⟩ := h3 e he
    exact ⟨h4, fun e' he' => key e e' h4 he' (h5 e' he')⟩

/-! ## Cases -/

section Cases

/-- Client code: a point of the plane with coordinates of an integer type. -/
def intPt (T : IntTy) (pr : Profile) (a b : ℤ) : SVec (MInt T pr) 2 := ⟨![⟨T.wrap a, T.wrap_mem a⟩, ⟨T.wrap b, T.wrap_mem b⟩]⟩

/-- Client code: points inserted one by one. -/
def intOps (T : IntTy) (pr : Profile) (ps : List (ℤ × ℤ)) : List (Op (AABB (MInt T pr) 2) (SVec (MInt T pr) 2) Nat) :=
  (ps.zipIdx).map fun x => .insert (intPt T pr x.1.1 x.1.2) x.2

/-- Client code: the tree of some points. -/
def intTree (T : IntTy) (pr : Profile) (ps : List (ℤ × ℤ)) : Tree (AABB (MInt T pr) 2) (SVec (MInt T pr) 2) Nat :=
  (run (Tree.new cfg42) (intOps T pr ps)).getD (Tree.new cfg42)

/-- Client code: six points. -/
def sixPoints : List (ℤ × ℤ) := [(3, 4), (5, 5), (100, 90), (4, 9), (101, 88), (7, 3)]

theorem int_reachable {T : IntTy} {pr : Profile} {ps : List (ℤ × ℤ)}
    (h : (run (Tree.new cfg42) (intOps T pr ps)).isOk = true) : Reachable cfg42 (fun _ => True) (intTree T pr ps) :=
  .run .new (fun _ _ _ _ => trivial) (Res.ok_getD _ h)

/-- The points of the tree, as numbers. -/
def readInts {T : IntTy} {pr : Profile} (es : List (SVec (MInt T pr) 2 × Nat)) : List (ℤ × ℤ × Nat) :=
  es.map fun e => ((e.1.get 0).1, (e.1.get 1).1, e.2)

theorem fits {T : IntTy} {pr : Profile} {p : SVec (MInt T pr) 2} {es : List (SVec (MInt T pr) 2 × Nat)}
    (h : ∀ e ∈ es, MInt.sqDistZ e.1 p ≤ T.hi) : ∀ e ∈ es, sqDist e.1 p ≤ T.hi := fun e he => by
  rw [MInt.sqDist_eq]
  exact_mod_cast h e he

-- Insertions of unsigned points, which are never inverted:
example : ∃ t, run (Tree.new cfg42) (intOps .u8 .debug sixPoints) = .ok t :=
  C89_no_panic_unsigned rfl (by decide) (by decide) cfg42_sound.safe fun _ _ _ _ _ => le_refl _

-- The tree has two levels.
example : (intTree .u8 .debug sixPoints).level = 1 ∧ (intTree .u8 .debug sixPoints).iter.map readInts =
    .ok [(3, 4, 0), (5, 5, 1), (4, 9, 3), (7, 3, 5), (100, 90, 2), (101, 88, 4)] := by
  refine ⟨by decide +kernel, ?_⟩
  refine (Res.ok_getD [] (by decide +kernel)).trans ?_
  exact congrArg _ (by decide +kernel)

-- Signed ones, in the window from -20 to 107:
example : ∃ t, run (Tree.new cfg42) (intOps .i8 .debug sixPoints) = .ok t :=
  C89_no_panic_signed (lo := ⟨-20, by decide⟩) (hi := ⟨107, by decide⟩) (by decide) (by decide) (by decide)
    cfg42_sound.safe (by decide) (by
      intro op h k hk
      obtain ⟨x, hx, rfl⟩ := List.mem_map.1 h
      obtain rfl := Option.some.inj hk
      clear h hk
      revert x
      unfold AABB.InWindow
      decide +kernel)

-- Nearest neighbours of a point between the keys:
example := C89_nearest_points_signed (T := .i16) (c := cfg42) (by decide) (by decide) (by decide)
  (int_reachable (ps := sixPoints) (by decide +kernel)) ((BinaryHeap.stdHeap _).heap _) (intPt .i16 .debug 6 6)
  (C09_iter_exact (int_reachable (by decide +kernel))) (by decide +kernel) (fits (by decide +kernel))

-- The query point lies one beyond a key in each coordinate:
example : (intTree .u32 .debug [(5, 5)]).minBy ((BinaryHeap.stdHeap _).heap _) (euclidPoints (intPt .u32 .debug 6 6)) =
    .error .arithmetic :=
  C90_unsigned_refuted (i := 0) rfl (int_reachable (by decide +kernel)) _
    (C09_iter_exact (int_reachable (by decide +kernel))) (by decide) (by decide +kernel)

-- The query point lies below all keys:
example := C90_unsigned_partial (T := .u16) (c := cfg42) (by decide) (by decide)
  (int_reachable (ps := sixPoints) (by decide +kernel)) ((BinaryHeap.stdHeap _).heap _) (intPt .u16 .debug 2 3)
  (C09_iter_exact (int_reachable (by decide +kernel))) (by decide +kernel) (fits (by decide +kernel)) (by decide +kernel)

-- Release builds: `u16` points on all sides of the query point.
example := C91_nearest_points (T := .u16) (c := cfg42) (by decide)
  (int_reachable (ps := sixPoints) (by decide +kernel)) ((BinaryHeap.stdHeap _).heap _) (intPt .u16 .release 6 6)
  (C09_iter_exact (int_reachable (by decide +kernel))) (fits (by decide +kernel))

-- The nearest of them is (5, 5), at distance 2; the difference to 6 wraps around to 65535, and its square to 1.
example : ((intTree .u16 .release sixPoints).minBy ((BinaryHeap.stdHeap _).heap _)
    (euclidPoints (intPt .u16 .release 6 6))).map (Option.map fun e => readInts [e]) = .ok (some [(5, 5, 1)]) := by
  refine (Res.ok_getD none (by decide +kernel)).trans ?_
  exact congrArg _ (by decide +kernel)

-- The hypothesis is needed: the squared distance 256 of the second point wraps around to 0.
example : ((intTree .i8 .release [(10, 0), (16, 0)]).minBy ((BinaryHeap.stdHeap _).heap _)
    (euclidPoints (intPt .i8 .release 0 0))).map (Option.map fun e => readInts [e]) = .ok (some [(16, 0, 1)]) := by
  refine (Res.ok_getD none (by decide +kernel)).trans ?_
  exact congrArg _ (by decide +kernel)

-- On an empty tree nothing panics (compare C39).
example (p : SVec (MInt .i32 .release) 2) : ∃ o,
    (Tree.new cfg42 : Tree (AABB (MInt .i32 .release) 2) (SVec (MInt .i32 .release) 2) Nat).minBy
      ((BinaryHeap.stdHeap _).heap _) (euclidPoints p) = .ok o ∧ o = none := by
  obtain ⟨-, o, h1, h2, -⟩ := C91_nearest_points (V := Nat) (T := .i32) (D := 2) (c := cfg42) (P := fun _ => True)
    (by decide) .new ((BinaryHeap.stdHeap _).heap _) p (es := []) rfl (fun e he => by cases he)
  exact ⟨o, h1, h2.2 rfl⟩

/-- Client code: boxes inserted one by one, given by their corners. -/
def intBoxOps (T : IntTy) (pr : Profile) (bs : List ((ℤ × ℤ) × (ℤ × ℤ))) :
    List (Op (AABB (MInt T pr) 2) (AABB (MInt T pr) 2) Nat) :=
  (bs.zipIdx).map fun x => .insert ⟨intPt T pr x.1.1.1 x.1.1.2, intPt T pr x.1.2.1 x.1.2.2⟩ x.2

/-- Client code: the tree of some boxes. -/
def intBoxTree (T : IntTy) (pr : Profile) (bs : List ((ℤ × ℤ) × (ℤ × ℤ))) : Tree (AABB (MInt T pr) 2) (AABB (MInt T pr) 2) Nat :=
  (run (Tree.new cfg42) (intBoxOps T pr bs)).getD (Tree.new cfg42)

/-- Client code: six boxes. -/
def sixBoxes : List ((ℤ × ℤ) × (ℤ × ℤ)) :=
  [((3, 4), (4, 4)), ((5, 5), (5, 8)), ((10, 9), (12, 11)), ((4, 9), (6, 9)), ((10, 8), (11, 9)), ((7, 3), (9, 3))]

theorem int_box_reachable {T : IntTy} {pr : Profile} {bs : List ((ℤ × ℤ) × (ℤ × ℤ))}
    (hv : ∀ x ∈ bs.zipIdx, AABB.Valid (⟨intPt T pr x.1.1.1 x.1.1.2, intPt T pr x.1.2.1 x.1.2.2⟩ : AABB (MInt T pr) 2))
    (h : (run (Tree.new cfg42) (intBoxOps T pr bs)).isOk = true) : Reachable cfg42 AABB.Valid (intBoxTree T pr bs) :=
  .run .new (fun op ho k hk => by
    obtain ⟨x, hx, rfl⟩ := List.mem_map.1 ho
    obtain rfl := Option.some.inj hk
    exact hv x hx) (Res.ok_getD _ h)

theorem fits_boxes {T : IntTy} {pr : Profile} {p : SVec (MInt T pr) 2} {es : List (AABB (MInt T pr) 2 × Nat)}
    (h : ∀ e ∈ es, AABB.Mem e.1.min e.1 ∧ MInt.sqDistZ e.1.min p ≤ T.hi) :
    ∀ e ∈ es, ∃ q, AABB.Mem q e.1 ∧ sqDist q p ≤ T.hi := fun e he => by
  refine ⟨e.1.min, (h e he).1, ?_⟩
  rw [MInt.sqDist_eq]
  exact_mod_cast (h e he).2

-- The boxes nearest to a point between them: no panic, although its coordinates are beyond some boxes and below others.
example := C89_nearest_boxes_signed (T := .i16) (c := cfg42) (by decide) (by decide) (by decide) (fun _ h => h)
  (int_box_reachable (bs := sixBoxes) (by unfold AABB.Valid; decide +kernel) (by decide +kernel)) ((BinaryHeap.stdHeap _).heap _)
  (intPt .i16 .debug 7 7) (C09_iter_exact (int_box_reachable (by unfold AABB.Valid; decide +kernel) (by decide +kernel)))
  (by decide +kernel) (fits_boxes (by unfold AABB.Mem; decide +kernel))

-- The same with unsigned coordinates in a release build.
example := C91_nearest_boxes (T := .u8) (c := cfg42) (by decide) (fun _ h => h)
  (int_box_reachable (bs := sixBoxes) (by unfold AABB.Valid; decide +kernel) (by decide +kernel)) ((BinaryHeap.stdHeap _).heap _)
  (intPt .u8 .release 7 7) (C09_iter_exact (int_box_reachable (by unfold AABB.Valid; decide +kernel) (by decide +kernel)))
  (fits_boxes (by unfold AABB.Mem; decide +kernel))

-- The nearest box is (5, 5)–(5, 8).
example : ((intBoxTree .u8 .release sixBoxes).minBy ((BinaryHeap.stdHeap _).heap _) (euclidBoxes (intPt .u8 .release 7 7))).map
    (Option.map fun e => e.2) = .ok (some 1) := by
  refine (Res.ok_getD none (by decide +kernel)).trans ?_
  exact congrArg _ (by decide +kernel)

-- And insertion of keys of any kind, inverted ones too, in a release build (compare C48).
example := C91_no_panic (T := .i8) (D := 2) (c := cfg42) (K := AABB (MInt .i8 .release) 2) (by decide) (by decide)
  cfg42_sound.safe (intBoxOps .i8 .release [((100, 100), (-100, -100)), ((127, 0), (-128, 127)), ((0, 0), (1, 1)),
    ((5, 5), (3, 3)), ((9, 9), (9, 10))])

end Cases

end RTree
