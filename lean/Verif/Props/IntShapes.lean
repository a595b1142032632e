import Verif.Proofs.IntShapes
import Verif.Props.Integers
/-!
# Shapes with integer coordinates of every type, in both build profiles (C92, C93)

`MInt T pr` are the integers of the type `T` (`i8` to `u32`) in a program built with the profile `pr`; `a.as pr'` is the same
number in a program built with the profile `pr'`, and `cast` does this for all coordinates of a vector, box, segment, ray or
sphere.
-/

namespace RTree

variable {T : IntTy} {pr : Profile} {D : ℕ} {V : Type} {c : Config}

/-! ## C92: what does not panic in a debug build has the same result in a release build -/

section Same

/-- The number, in a release build. -/
local notation "rel" => MInt.as (T := T) (pr := Profile.debug) Profile.release

/-- C92: squared distances to a point, of points and of boxes, and of two boxes. -/
theorem C92_same_distances {a p : SVec (MInt T .debug) D} {b b' : AABB (MInt T .debug) D} :
    (∀ m, a.distSq p = some m → (a.cast rel).distSq (p.cast rel) = some (rel m)) ∧
    (∀ m, b.distSq p = some m → (b.cast rel).distSq (p.cast rel) = some (rel m)) ∧
    ∀ R m, b.sqDistTo R b' = some m → (b.cast rel).sqDistTo R (b'.cast rel) = some m :=
  ⟨fun _ h => (MInt.sameArith T .release).distSq h, fun _ h => (MInt.sameArith T .release).boxDistSq h,
    fun _ _ h => (MInt.sameArith T .release).sqDistTo h⟩

/-- C92: volumes of boxes, intersection of boxes. -/
theorem C92_same_boxes {b b' : AABB (MInt T .debug) D} :
    (∀ v, b.volume = some v → (b.cast rel).volume = some v) ∧
    Bounds.intersects (b.cast rel) (b'.cast rel) = Bounds.intersects b b' :=
  ⟨fun _ h => (MInt.sameArith T .release).volume h, (MInt.sameArith T .release).intersects b b'⟩

/-- C92: segments and rays. -/
theorem C92_same_segments {R : Rounding} {negZero : Fin D → Bool} {b : AABB (MInt T .debug) D} {l : Line (MInt T .debug) D}
    {r : Ray (MInt T .debug) D} :
    (∀ x, l.intersectsBox R negZero b = some x → (l.cast rel).intersectsBox R negZero (b.cast rel) = some x) ∧
    (∀ x, r.intersectsBox R negZero b = some x → (r.cast rel).intersectsBox R negZero (b.cast rel) = some x) ∧
    (∀ x, l.sqLen R = some x → (l.cast rel).sqLen R = some x) ∧ ∀ x, l.len R = some x → (l.cast rel).len R = some x :=
  ⟨fun _ h => (MInt.sameArith T .release).line h, fun _ h => (MInt.sameArith T .release).ray h,
    fun _ h => (MInt.sameArith T .release).sqLen h, fun _ h => (MInt.sameArith T .release).len h⟩

/-- C92: spheres. -/
theorem C92_same_spheres {R : Rounding} {s : Sphere (MInt T .debug) D} {p : SVec (MInt T .debug) D} :
    (∀ x, s.intersectsPoint R p = some x → (s.cast rel).intersectsPoint R (p.cast rel) = some x) ∧
    ∀ b, s.bounds = some b → (s.cast rel).bounds = some (b.cast rel) :=
  ⟨fun _ h => (MInt.sameArith T .release).sphere h, fun _ h => (MInt.sameArith T .release).sphereBounds h⟩

end Same

/-! ## C92: queries, in any profile -/

theorem MInt.subDefined {lo hi : MInt T .debug} (hT : T.lo < 0) (hw : hi.1 - lo.1 ≤ T.hi) : SubDefined lo hi := by
  intro x y h1 h2 h3 h4
  have e1 : lo.1 ≤ x.1 := h1
  have e2 : x.1 ≤ hi.1 := h2
  have e3 : lo.1 ≤ y.1 := h3
  have e4 : y.1 ≤ hi.1 := h4
  have := T.neg_hi hT.ne
  show (MInt.result T .debug (x.1 - y.1)).isSome = true
  rw [MInt.result_debug ⟨by omega, by omega⟩]
  rfl

/-- In any profile, and if a debug build does not panic, the answer is that of the debug build. -/
theorem MInt.line_of_debug {R : Rounding} {negZero : Fin D → Bool} {l : Line (MInt T pr) D} {b : AABB (MInt T pr) D} {x : Bool}
    (h : (l.cast (MInt.as .debug)).intersectsBox R negZero (b.cast (MInt.as .debug)) = some x) :
    l.intersectsBox R negZero b = some x := (MInt.sameArith T pr).line h

theorem MInt.ray_of_debug {R : Rounding} {negZero : Fin D → Bool} {l : Ray (MInt T pr) D} {b : AABB (MInt T pr) D} {x : Bool}
    (h : (l.cast (MInt.as .debug)).intersectsBox R negZero (b.cast (MInt.as .debug)) = some x) :
    l.intersectsBox R negZero b = some x := (MInt.sameArith T pr).ray h

theorem MInt.sphere_of_debug {R : Rounding} {s : Sphere (MInt T pr) D} {p : SVec (MInt T pr) D} {x : Bool}
    (h : (s.cast (MInt.as .debug)).intersectsPoint R (p.cast (MInt.as .debug)) = some x) :
    s.intersectsPoint R p = some x := (MInt.sameArith T pr).sphere h

theorem MInt.sqDistTo_of_debug {R : Rounding} {a b : AABB (MInt T pr) D} {x : XRat}
    (h : (a.cast (MInt.as .debug)).sqDistTo R (b.cast (MInt.as .debug)) = some x) :
    a.sqDistTo R b = some x := (MInt.sameArith T pr).sqDistTo h

theorem MInt.meetsWithin_debug {l : Line (MInt T pr) D} {b : AABB (MInt T pr) D} {ε : ℚ} :
    (l.cast (MInt.as .debug)).MeetsWithin (b.cast (MInt.as .debug)) ε ↔ l.MeetsWithin b ε := by
  have h := (MInt.sameArith T pr).meetsWithin (l := l.cast (MInt.as .debug)) (b := b.cast (MInt.as .debug)) (ε := ε)
  exact h.symm

theorem MInt.inWithin_debug {l : Ray (MInt T pr) D} {b : AABB (MInt T pr) D} {ε t : ℚ} :
    (l.cast (MInt.as .debug)).InWithin (b.cast (MInt.as .debug)) ε t ↔ l.InWithin b ε t :=
  ((MInt.sameArith T pr).inWithin (r := l.cast (MInt.as .debug)) (b := b.cast (MInt.as .debug)) (ε := ε)).symm

theorem MInt.alongFirst_debug {l : Ray (MInt T pr) (D + 1)} {b : AABB (MInt T pr) (D + 1)} :
    (l.cast (MInt.as .debug)).AlongFirst (b.cast (MInt.as .debug)) ↔ l.AlongFirst b :=
  ((MInt.sameArith T pr).alongFirst (r := l.cast (MInt.as .debug)) (b := b.cast (MInt.as .debug))).symm

theorem MInt.sqDist_debug (a p : SVec (MInt T pr) D) :
    sqDist (a.cast (MInt.as .debug)) (p.cast (MInt.as .debug)) = sqDist a p :=
  ((MInt.sameArith T pr).sqDist (a.cast (MInt.as .debug)) (p.cast (MInt.as .debug))).symm

section Segments

variable {P : AABB (MInt T pr) D → Prop} {t : Tree (AABB (MInt T pr) D) (AABB (MInt T pr) D) V}

/-- Segment queries, if the test does not panic in a debug build on boxes of the kind `Q`. -/
theorem MInt.segment_query {Q : AABB (MInt T pr) D → Prop} (h : Reachable c P t) (hP : ∀ k, P k → k.Valid ∧ Q k)
    (hnode : t.entries ≠ [] → ∀ n ∈ t.nodes, Q n.bounds) (negZero : Fin D → Bool) {l : Line (MInt T pr) D}
    (key : ∀ b, Q b → ∃ x, (l.cast (MInt.as .debug)).intersectsBox .binary64 negZero (b.cast (MInt.as .debug)) = some x)
    (d : Bool) :
    (t.entries ≠ [] → (l.filter .binary64 negZero).DefinedOn id t) ∧
    ∃ (r : List (AABB (MInt T pr) D × V)) (f : AABB (MInt T pr) D × V → Bool),
      t.filterIter id ((l.filter .binary64 negZero).orElse d) = .ok r ∧ r = t.entries.filter f ∧
      ∀ e ∈ t.entries, (f e = true → l.MeetsWithin e.1 (1 / 2 ^ 50)) ∧ (l.MeetsWithin e.1 (-(1 / 2 ^ 50)) → f e = true) := by
  have hval : ∀ b : AABB (MInt T pr) D, b.Valid → (b.cast (MInt.as .debug)).Valid := fun b hb => hb
  have hwin : ∀ e ∈ t.entries, e.1.Valid ∧ Q e.1 := fun e he => hP _ (h.keys e he)
  have hkey : ∀ e ∈ t.entries, (l.intersectsBox .binary64 negZero e.1).getD d = true →
      l.MeetsWithin e.1 (1 / 2 ^ 50) := fun e he hx => by
    obtain ⟨x, hx'⟩ := key e.1 (hwin e he).2
    rw [MInt.line_of_debug hx', Option.getD_some] at hx
    subst hx
    exact MInt.meetsWithin_debug.1 (C41_line_sound_partial (hval _ (hwin e he).1) hx')
  have hkey' : ∀ e ∈ t.entries, l.MeetsWithin e.1 (-(1 / 2 ^ 50)) →
      (l.intersectsBox .binary64 negZero e.1).getD d = true := fun e he hx => by
    obtain ⟨x, hx'⟩ := key e.1 (hwin e he).2
    rw [MInt.line_of_debug hx', Option.getD_some]
    exact C41_line_complete_partial (hval _ (hwin e he).1) (MInt.meetsWithin_debug.2 hx) hx'
  by_cases hne : t.entries = []
  · refine ⟨fun hne' => absurd hne hne', _, fun e => (l.intersectsBox .binary64 negZero e.1).getD d,
      h.filterIter_on (P := fun _ => False) (R := fun _ => True) (fun e he => ?_) (fun _ _ => trivial)
        (fun _ _ hk => hk.elim), rfl, fun e he => ⟨hkey e he, hkey' e he⟩⟩
    rw [hne] at he
    cases he
  · refine ⟨fun _ => ⟨fun n hn => ?_, fun e he => ?_⟩, _, fun e => (l.intersectsBox .binary64 negZero e.1).getD d,
      h.filterIter_on (P := fun k => k.Valid ∧ Q k) (R := Q) hwin (hnode hne)
        (fun k b hk hb ht hle => ?_), rfl, fun e he => ⟨hkey e he, hkey' e he⟩⟩
    · obtain ⟨x, hx⟩ := key _ (hnode hne n hn)
      exact Option.isSome_iff_exists.2 ⟨x, MInt.line_of_debug hx⟩
    · obtain ⟨x, hx⟩ := key _ (hwin e he).2
      exact Option.isSome_iff_exists.2 ⟨x, MInt.line_of_debug hx⟩
    · obtain ⟨x, hx⟩ := key k hk.2
      obtain ⟨y, hy⟩ := key b hb
      have ht : (l.intersectsBox .binary64 negZero k).getD d = true := ht
      show (l.intersectsBox .binary64 negZero b).getD d = true
      rw [MInt.line_of_debug hx, Option.getD_some] at ht
      rw [MInt.line_of_debug hy, Option.getD_some]
      subst ht
      obtain ⟨δ, hδ, hx⟩ := Option.bind_eq_some_iff.1 hx
      obtain ⟨δ', hδ', hy⟩ := Option.bind_eq_some_iff.1 hy
      rw [hδ] at hδ'
      injection hδ' with hδ'
      subst hδ'
      have hle' : (k.cast (MInt.as .debug)).Le (b.cast (MInt.as .debug)) := fun i => hle i
      exact lineBoundsIntersect_mono Rounding.binary64_lawful (hval k hk.1) hle' hx hy

/-- C92: a segment query on a tree of boxes with signed coordinates, in a window whose width the type can represent: in both
    profiles no test panics (on a non-empty tree), the query yields entries in the order of `iter`, none twice; the box of an
    entry that is yielded is as close to the segment as `2 ^ -50` times its extent, and a box the segment gets into by
    `2 ^ -50` times its extent is yielded. -/
theorem C92_segment_query (hT : T.lo < 0) (hm : 1 ≤ c.minChildren) {lo hi : MInt T pr} (hw : hi.1 - lo.1 ≤ T.hi)
    (hP : ∀ k, P k → k.Valid ∧ k.InWindow lo hi) (h : Reachable c P t) (negZero : Fin D → Bool) {l : Line (MInt T pr) D}
    (h0 : ∀ i, lo ≤ l.p0.get i ∧ l.p0.get i ≤ hi) (h1 : ∀ i, lo ≤ l.p1.get i ∧ l.p1.get i ≤ hi)
    {es : List (AABB (MInt T pr) D × V)} (hes : t.iter = .ok es) (d : Bool) :
    (es ≠ [] → (l.filter .binary64 negZero).DefinedOn id t) ∧
    ∃ (r : List (AABB (MInt T pr) D × V)) (f : AABB (MInt T pr) D × V → Bool),
      t.filterIter id ((l.filter .binary64 negZero).orElse d) = .ok r ∧ r = es.filter f ∧
      ∀ e ∈ es, (f e = true → l.MeetsWithin e.1 (1 / 2 ^ 50)) ∧ (l.MeetsWithin e.1 (-(1 / 2 ^ 50)) → f e = true) := by
  obtain rfl : t.entries = es := by simpa [h.iter_eq] using hes
  have hsd : SubDefined (lo.as .debug) (hi.as .debug) := MInt.subDefined hT hw
  exact MInt.segment_query h hP (fun hne n hn => h.bounds_inWindow hm hne (fun k hk => (hP k hk).2) hn) negZero
    (fun b hb => Option.isSome_iff_exists.1 (Line.intersectsBox_isSome hsd (b := b.cast (MInt.as .debug)) hb h0 h1)) d

theorem MInt.sub_up {x y : MInt T pr} (hT : T.lo = 0) (h : y ≤ x) : (Scalar.sub x y).isSome := by
  have h : y.1 ≤ x.1 := h
  have h1 := x.2
  have h2 := y.2
  cases pr with
  | release => rfl
  | debug =>
    show (MInt.result T .debug (x.1 - y.1)).isSome = true
    rw [MInt.result_debug ⟨by omega, by omega⟩]
    rfl

theorem MInt.slabLoop_up (hT : T.lo = 0) {R : Rounding} {nz : Fin D → Bool} {b : AABB (MInt T pr) D} {o : SVec (MInt T pr) D}
    (h1 : ∀ i, o.get i ≤ b.min.get i) (h2 : ∀ i, o.get i ≤ b.max.get i) (d : SVec (MInt T pr) D) (dims : List (Fin D)) (x : F64 × F64) :
    (slabLoop R nz b o d dims x).isSome := by
  induction dims generalizing x with
  | nil => rfl
  | cons i dims ih =>
    rw [slabLoop, List.foldlM_cons]
    obtain ⟨u, hu⟩ := Option.isSome_iff_exists.1 (MInt.sub_up hT (h1 i))
    obtain ⟨v, hv⟩ := Option.isSome_iff_exists.1 (MInt.sub_up hT (h2 i))
    simp only [slab, hu, hv]
    exact ih _

/-- C93, what holds of segments with unsigned coordinates: if the segment goes upwards in every coordinate and no box begins
    below its start, a segment query is as good as with signed coordinates, in both profiles. Missing: all other segments and
    trees. -/
theorem C93_segment_query_partial (hT : T.lo = 0) (hm : 1 ≤ c.minChildren) {l : Line (MInt T pr) D}
    (hup : ∀ i, l.p0.get i ≤ l.p1.get i) (hP : ∀ k, P k → k.Valid ∧ ∀ i, l.p0.get i ≤ k.min.get i) (h : Reachable c P t)
    (negZero : Fin D → Bool) {es : List (AABB (MInt T pr) D × V)} (hes : t.iter = .ok es) (d : Bool) :
    (es ≠ [] → (l.filter .binary64 negZero).DefinedOn id t) ∧
    ∃ (r : List (AABB (MInt T pr) D × V)) (f : AABB (MInt T pr) D × V → Bool),
      t.filterIter id ((l.filter .binary64 negZero).orElse d) = .ok r ∧ r = es.filter f ∧
      ∀ e ∈ es, (f e = true → l.MeetsWithin e.1 (1 / 2 ^ 50)) ∧ (l.MeetsWithin e.1 (-(1 / 2 ^ 50)) → f e = true) := by
  obtain rfl : t.entries = es := by simpa [h.iter_eq] using hes
  have hent : ∀ e ∈ t.entries, e.1.Valid ∧ ∀ i, l.p0.get i ≤ e.1.min.get i := fun e he => hP _ (h.keys e he)
  refine MInt.segment_query (Q := fun b => b.Valid ∧ ∀ i, l.p0.get i ≤ b.min.get i) h (fun k hk => ⟨(hP k hk).1, hP k hk⟩)
    (fun hne n hn => ?_) negZero (fun b hb => ?_) d
  · rw [(C19_bounds_exact (fun _ _ => AABB.normal _) h hn).2]
    have hne' := h.nodes_nonempty hm hne hn
    have hsub : ∀ b ∈ n.entries.map (fun e => (Bounded.bounds e.1 : AABB (MInt T pr) D)), b.Valid ∧ ∀ i, l.p0.get i ≤ b.min.get i := by
      intro b hb
      obtain ⟨e, he, rfl⟩ := List.mem_map.1 hb
      exact hent e (h.entries_below hn he)
    refine ⟨AABB.valid_unionAll (by simpa using hne') fun b hb => (hsub b hb).1, fun i => ?_⟩
    exact (AABB.unionAll_le (c := (⟨l.p0, SVec.maxValue⟩ : AABB (MInt T pr) D))
      (fun j => ⟨FullRange.le_maxVal _, FullRange.minVal_le _⟩)
      (fun b hb j => ⟨(hsub b hb).2 j, FullRange.le_maxVal _⟩) i).1
  · have hb1 : ∀ i, ((l.cast (MInt.as .debug)).p0.get i) ≤ (b.cast (MInt.as .debug)).min.get i := hb.2
    have hb2 : ∀ i, ((l.cast (MInt.as .debug)).p0.get i) ≤ (b.cast (MInt.as .debug)).max.get i := fun i => (hb.2 i).trans (hb.1 i)
    have hd : ∃ δ, (l.cast (MInt.as .debug)).delta = some δ := by
      unfold Line.delta SVec.sub
      have hd : ∀ i, (Scalar.sub ((l.cast (MInt.as .debug)).p1.get i) ((l.cast (MInt.as .debug)).p0.get i)).isSome := fun i =>
        MInt.sub_up hT (show (l.cast (MInt.as .debug)).p0.get i ≤ (l.cast (MInt.as .debug)).p1.get i from hup i)
      exact ⟨_, dif_pos hd⟩
    obtain ⟨δ, hδ⟩ := hd
    obtain ⟨y, hy⟩ := Option.isSome_iff_exists.1
      (MInt.slabLoop_up hT hb1 hb2 δ (List.finRange D) (F64.fin 0, F64.fin 1) (R := .binary64) (nz := negZero))
    exact ⟨_, by simp [Line.intersectsBox, hδ, lineBoundsIntersect, hy]; rfl⟩

end Segments

section Rays

variable {P : AABB (MInt T pr) (D + 1) → Prop} {t : Tree (AABB (MInt T pr) (D + 1)) (AABB (MInt T pr) (D + 1)) V}

/-- Ray queries, if the test does not panic in a debug build on boxes of the kind `Q`. -/
theorem MInt.ray_query {Q : AABB (MInt T pr) (D + 1) → Prop} (h : Reachable c P t) (hP : ∀ k, P k → k.Valid ∧ Q k)
    (hnode : t.entries ≠ [] → ∀ n ∈ t.nodes, Q n.bounds) (negZero : Fin (D + 1) → Bool) {l : Ray (MInt T pr) (D + 1)}
    (key : ∀ b, Q b → ∃ x, (l.cast (MInt.as .debug)).intersectsBox .binary64 negZero (b.cast (MInt.as .debug)) = some x)
    (d : Bool) :
    (t.entries ≠ [] → (l.filter .binary64 negZero).DefinedOn id t) ∧
    ∃ (r : List (AABB (MInt T pr) (D + 1) × V)) (f : AABB (MInt T pr) (D + 1) × V → Bool),
      t.filterIter id ((l.filter .binary64 negZero).orElse d) = .ok r ∧ r = t.entries.filter f ∧
      ∀ e ∈ t.entries,
        (f e = true → ∃ s u : ℚ, s < u ∧ l.InWithin e.1 (1 / 2 ^ 51) s ∧ l.InWithin e.1 (1 / 2 ^ 51) u) ∧
        (¬ l.AlongFirst e.1 → ∀ s u : ℚ, s < u → l.InWithin e.1 (-(1 / 2 ^ 51)) s → l.InWithin e.1 (-(1 / 2 ^ 51)) u →
          f e = true) := by
  have hval : ∀ b : AABB (MInt T pr) (D + 1), b.Valid → (b.cast (MInt.as .debug)).Valid := fun b hb => hb
  have hwin : ∀ e ∈ t.entries, e.1.Valid ∧ Q e.1 := fun e he => hP _ (h.keys e he)
  have hkey : ∀ e ∈ t.entries,
      ((l.intersectsBox .binary64 negZero e.1).getD d = true →
        ∃ s u : ℚ, s < u ∧ l.InWithin e.1 (1 / 2 ^ 51) s ∧ l.InWithin e.1 (1 / 2 ^ 51) u) ∧
      (¬ l.AlongFirst e.1 → ∀ s u : ℚ, s < u → l.InWithin e.1 (-(1 / 2 ^ 51)) s → l.InWithin e.1 (-(1 / 2 ^ 51)) u →
        (l.intersectsBox .binary64 negZero e.1).getD d = true) := fun e he => by
    obtain ⟨x, hx⟩ := key e.1 (hwin e he).2
    rw [MInt.ray_of_debug hx, Option.getD_some]
    obtain ⟨k1, k2⟩ := C42_ray_rounded_partial (hval _ (hwin e he).1) hx
    refine ⟨fun ht => ?_, fun ha s u hsu hs hu => ?_⟩
    · obtain ⟨s, u, hsu, hs, hu⟩ := k1 ht
      exact ⟨s, u, hsu, MInt.inWithin_debug.1 hs, MInt.inWithin_debug.1 hu⟩
    · exact k2 (fun hb => ha (MInt.alongFirst_debug.1 hb)) s u hsu (MInt.inWithin_debug.2 hs) (MInt.inWithin_debug.2 hu)
  by_cases hne : t.entries = []
  · refine ⟨fun hne' => absurd hne hne', _, fun e => (l.intersectsBox .binary64 negZero e.1).getD d,
      h.filterIter_on (P := fun _ => False) (R := fun _ => True) (fun e he => ?_) (fun _ _ => trivial)
        (fun _ _ hk => hk.elim), rfl, hkey⟩
    rw [hne] at he
    cases he
  · refine ⟨fun _ => ⟨fun n hn => ?_, fun e he => ?_⟩, _, fun e => (l.intersectsBox .binary64 negZero e.1).getD d,
      h.filterIter_on (P := fun k => k.Valid ∧ Q k) (R := Q) hwin (hnode hne)
        (fun k b hk hb ht hle => ?_), rfl, hkey⟩
    · obtain ⟨x, hx⟩ := key _ (hnode hne n hn)
      exact Option.isSome_iff_exists.2 ⟨x, MInt.ray_of_debug hx⟩
    · obtain ⟨x, hx⟩ := key _ (hwin e he).2
      exact Option.isSome_iff_exists.2 ⟨x, MInt.ray_of_debug hx⟩
    · obtain ⟨x, hx⟩ := key k hk.2
      obtain ⟨y, hy⟩ := key b hb
      have ht : (l.intersectsBox .binary64 negZero k).getD d = true := ht
      show (l.intersectsBox .binary64 negZero b).getD d = true
      rw [MInt.ray_of_debug hx, Option.getD_some] at ht
      rw [MInt.ray_of_debug hy, Option.getD_some]
      subst ht
      have hle' : (k.cast (MInt.as .debug)).Le (b.cast (MInt.as .debug)) := fun i => hle i
      exact rayBoundsIntersect_mono Rounding.binary64_lawful (hval k hk.1) hle' hx hy

/-- C92: a ray query on a tree of boxes with signed coordinates, in a window whose width the type can represent: in both
    profiles no test panics (on a non-empty tree), the query yields entries in the order of `iter`, none twice; the line of the
    ray runs, for a proper interval, through the box of an entry that is yielded, after its sides are moved outwards by
    `2 ^ -51` times their distance from the origin; and a box through which it runs after they are moved inwards by so much is
    yielded, unless the ray runs along a side perpendicular to the first dimension. -/
theorem C92_ray_query (hT : T.lo < 0) (hm : 1 ≤ c.minChildren) {lo hi : MInt T pr} (hw : hi.1 - lo.1 ≤ T.hi)
    (hP : ∀ k, P k → k.Valid ∧ k.InWindow lo hi) (h : Reachable c P t) (negZero : Fin (D + 1) → Bool)
    {l : Ray (MInt T pr) (D + 1)} (h0 : ∀ i, lo ≤ l.origin.get i ∧ l.origin.get i ≤ hi)
    {es : List (AABB (MInt T pr) (D + 1) × V)} (hes : t.iter = .ok es) (d : Bool) :
    (es ≠ [] → (l.filter .binary64 negZero).DefinedOn id t) ∧
    ∃ (r : List (AABB (MInt T pr) (D + 1) × V)) (f : AABB (MInt T pr) (D + 1) × V → Bool),
      t.filterIter id ((l.filter .binary64 negZero).orElse d) = .ok r ∧ r = es.filter f ∧
      ∀ e ∈ es,
        (f e = true → ∃ s u : ℚ, s < u ∧ l.InWithin e.1 (1 / 2 ^ 51) s ∧ l.InWithin e.1 (1 / 2 ^ 51) u) ∧
        (¬ l.AlongFirst e.1 → ∀ s u : ℚ, s < u → l.InWithin e.1 (-(1 / 2 ^ 51)) s → l.InWithin e.1 (-(1 / 2 ^ 51)) u →
          f e = true) := by
  obtain rfl : t.entries = es := by simpa [h.iter_eq] using hes
  have hsd : SubDefined (lo.as .debug) (hi.as .debug) := MInt.subDefined hT hw
  exact MInt.ray_query h hP (fun hne n hn => h.bounds_inWindow hm hne (fun k hk => (hP k hk).2) hn) negZero
    (fun b hb => Option.isSome_iff_exists.1
      (Ray.intersectsBox_isSome (Nat.succ_pos D) hsd (b := b.cast (MInt.as .debug)) hb h0)) d

/-- C93, what holds of rays with unsigned coordinates: if no box begins below the origin in any coordinate, a ray query is as
    good as with signed coordinates, in both profiles. Missing: all other origins and trees. -/
theorem C93_ray_query_partial (hT : T.lo = 0) (hm : 1 ≤ c.minChildren) {l : Ray (MInt T pr) (D + 1)}
    (hP : ∀ k, P k → k.Valid ∧ ∀ i, l.origin.get i ≤ k.min.get i) (h : Reachable c P t)
    (negZero : Fin (D + 1) → Bool) {es : List (AABB (MInt T pr) (D + 1) × V)} (hes : t.iter = .ok es) (d : Bool) :
    (es ≠ [] → (l.filter .binary64 negZero).DefinedOn id t) ∧
    ∃ (r : List (AABB (MInt T pr) (D + 1) × V)) (f : AABB (MInt T pr) (D + 1) × V → Bool),
      t.filterIter id ((l.filter .binary64 negZero).orElse d) = .ok r ∧ r = es.filter f ∧
      ∀ e ∈ es,
        (f e = true → ∃ s u : ℚ, s < u ∧ l.InWithin e.1 (1 / 2 ^ 51) s ∧ l.InWithin e.1 (1 / 2 ^ 51) u) ∧
        (¬ l.AlongFirst e.1 → ∀ s u : ℚ, s < u → l.InWithin e.1 (-(1 / 2 ^ 51)) s → l.InWithin e.1 (-(1 / 2 ^ 51)) u →
          f e = true) := by
  obtain rfl : t.entries = es := by simpa [h.iter_eq] using hes
  have hent : ∀ e ∈ t.entries, e.1.Valid ∧ ∀ i, l.origin.get i ≤ e.1.min.get i := fun e he => hP _ (h.keys e he)
  refine MInt.ray_query (Q := fun b => b.Valid ∧ ∀ i, l.origin.get i ≤ b.min.get i) h (fun k hk => ⟨(hP k hk).1, hP k hk⟩)
    (fun hne n hn => ?_) negZero (fun b hb => ?_) d
  · rw [(C19_bounds_exact (fun _ _ => AABB.normal _) h hn).2]
    have hne' := h.nodes_nonempty hm hne hn
    have hsub : ∀ b ∈ n.entries.map (fun e => (Bounded.bounds e.1 : AABB (MInt T pr) (D + 1))), b.Valid ∧
        ∀ i, l.origin.get i ≤ b.min.get i := by
      intro b hb
      obtain ⟨e, he, rfl⟩ := List.mem_map.1 hb
      exact hent e (h.entries_below hn he)
    refine ⟨AABB.valid_unionAll (by simpa using hne') fun b hb => (hsub b hb).1, fun i => ?_⟩
    exact (AABB.unionAll_le (c := (⟨l.origin, SVec.maxValue⟩ : AABB (MInt T pr) (D + 1)))
      (fun j => ⟨FullRange.le_maxVal _, FullRange.minVal_le _⟩)
      (fun b hb j => ⟨(hsub b hb).2 j, FullRange.le_maxVal _⟩) i).1
  · have hb1 : ∀ i, (l.cast (MInt.as .debug)).origin.get i ≤ (b.cast (MInt.as .debug)).min.get i := hb.2
    have hb2 : ∀ i, (l.cast (MInt.as .debug)).origin.get i ≤ (b.cast (MInt.as .debug)).max.get i :=
      fun i => (hb.2 i).trans (hb.1 i)
    refine Option.isSome_iff_exists.1 ?_
    unfold Ray.intersectsBox rayBoundsIntersect
    cases hd : List.finRange (D + 1) with
    | nil => simp at hd
    | cons i dims =>
      obtain ⟨u, hu⟩ := Option.isSome_iff_exists.1 (MInt.sub_up hT (hb1 i))
      obtain ⟨v, hv⟩ := Option.isSome_iff_exists.1 (MInt.sub_up hT (hb2 i))
      simp only [slab, hu, hv]
      obtain ⟨y, hy⟩ := Option.isSome_iff_exists.1
        (MInt.slabLoop_up hT hb1 hb2 (l.cast (MInt.as .debug)).n dims
          (F64.min (F64.mul .binary64 (some (Scalar.toX u))
              (F64.recip .binary64 (negZero i) (some (Scalar.toX ((l.cast (MInt.as .debug)).n.get i)))))
            (F64.mul .binary64 (some (Scalar.toX v))
              (F64.recip .binary64 (negZero i) (some (Scalar.toX ((l.cast (MInt.as .debug)).n.get i))))),
           F64.max (F64.mul .binary64 (some (Scalar.toX u))
              (F64.recip .binary64 (negZero i) (some (Scalar.toX ((l.cast (MInt.as .debug)).n.get i)))))
            (F64.mul .binary64 (some (Scalar.toX v))
              (F64.recip .binary64 (negZero i) (some (Scalar.toX ((l.cast (MInt.as .debug)).n.get i)))))) (R := .binary64)
          (nz := negZero))
      simp [hy]

end Rays

section Spheres

variable {P : SVec (MInt T pr) D → Prop} {t : Tree (AABB (MInt T pr) D) (SVec (MInt T pr) D) V}

/-- Sphere queries, if the test does not panic in a debug build on the keys. -/
theorem MInt.sphere_query (h : Reachable c P t) {s : Sphere (MInt T pr) D}
    (hr0 : 0 ≤ s.radius.1) (hr : s.radius.1 ^ 2 < 2 ^ 53)
    (hfit : ∀ i, T.lo ≤ (s.center.get i).1 - s.radius.1 ∧ (s.center.get i).1 + s.radius.1 ≤ T.hi)
    (key : ∀ k, P k → ∃ x, (s.cast (MInt.as .debug)).intersectsPoint .binary64 (k.cast (MInt.as .debug)) = some x) (d : Bool) :
    ∃ f, s.boundedFilter .binary64 = some f ∧ f.DefinedOn id t ∧
      ∃ r, t.filterIter id (f.orElse d) = .ok r ∧
        Selects (fun e => sqDist e.1 s.center ≤ (s.radius.1 : ℚ) ^ 2) t.entries r := by
  have hbs : ∃ b, (s.cast (MInt.as .debug)).bounds = some b := by
    unfold Sphere.bounds
    have k : ∀ i, (Scalar.sub ((s.cast (MInt.as (T := T) .debug)).center.get i) (s.cast (MInt.as (T := T) .debug)).radius).isSome ∧
        (Scalar.add ((s.cast (MInt.as (T := T) .debug)).center.get i) (s.cast (MInt.as (T := T) .debug)).radius).isSome := fun i => by
      have k1 := (s.center.get i).2
      have k2 := hfit i
      constructor
      · show (MInt.result T .debug ((s.center.get i).1 - s.radius.1)).isSome = true
        rw [MInt.result_debug ⟨k2.1, by omega⟩]; rfl
      · show (MInt.result T .debug ((s.center.get i).1 + s.radius.1)).isSome = true
        rw [MInt.result_debug ⟨by omega, k2.2⟩]; rfl
    exact ⟨_, dif_pos k⟩
  obtain ⟨b, hb⟩ := hbs
  have hb' : s.bounds = some (b.cast (MInt.as pr)) := (MInt.sameArith T pr).sphereBounds hb
  have hrad : Scalar.toRat (s.cast (MInt.as .debug)).radius = (s.radius.1 : ℚ) := rfl
  have key : ∀ k : SVec (MInt T pr) D, P k → ∃ x, (s.cast (MInt.as .debug)).intersectsPoint .binary64 (k.cast (MInt.as .debug)) =
      some x ∧ (x = true ↔ sqDist k s.center ≤ (s.radius.1 : ℚ) ^ 2) := fun k hk => by
    obtain ⟨x, hx⟩ := key k hk
    refine ⟨x, hx, (C43_sphere_point_partial (s := s.cast (MInt.as .debug)) (by rw [hrad]; exact_mod_cast hr) hx).trans ?_⟩
    have e : sqDist (k.cast (MInt.as .debug)) (s.cast (MInt.as .debug)).center = sqDist k s.center :=
      MInt.sqDist_debug k s.center
    rw [e, hrad]
  refine ⟨_, congrArg _ hb', ⟨fun _ _ => rfl, fun e he => ?_⟩, ?_⟩
  · obtain ⟨x, hx, -⟩ := key e.1 (h.keys e he)
    exact Option.isSome_iff_exists.2 ⟨x, MInt.sphere_of_debug hx⟩
  · refine ⟨_, h.filterIter_on (P := P) (R := fun _ => True) h.keys (fun _ _ => trivial) (fun k n hk _ ht hle => ?_), _,
      fun e he => ?_, rfl⟩
    · obtain ⟨x, hx, -⟩ := key k hk
      have ht : (s.intersectsPoint .binary64 k).getD d = true := ht
      rw [MInt.sphere_of_debug hx, Option.getD_some] at ht
      subst ht
      refine C33_intersects_mono (AABB.Le.refl _) hle (b := ⟨k, k⟩) ?_
      have hmem := C43_sphere_bounds (s := s.cast (MInt.as .debug)) (by rw [hrad]; exact_mod_cast hr0) hb hx
      simp only [Bounds.intersects, AABB.intersectsBox, Bool.and_eq_true, SVec.allLe_iff, SVec.allGe_iff]
      exact ⟨fun i => (hmem i).1, fun i => (hmem i).2⟩
    · obtain ⟨x, hx, hiff⟩ := key e.1 (h.keys e he)
      show (s.intersectsPoint .binary64 e.1).getD d = true ↔ _
      rw [MInt.sphere_of_debug hx, Option.getD_some]
      exact hiff

/-- C92: a sphere query on a tree of points with signed coordinates, in a window whose width the type can represent, if the
    bounds of the sphere fit the type and the square of the radius is below `2 ^ 53`: in both profiles the filter can be made,
    no test panics, and the query yields exactly the points within the radius, each once, in the order of `iter`. -/
theorem C92_sphere_query (hT : T.lo < 0) (hD : 0 < D) {lo hi : MInt T pr} (hw : hi.1 - lo.1 ≤ T.hi)
    (hP : ∀ k, P k → ∀ i, lo ≤ k.get i ∧ k.get i ≤ hi) (h : Reachable c P t) {s : Sphere (MInt T pr) D}
    (hc : ∀ i, lo ≤ s.center.get i ∧ s.center.get i ≤ hi) (hr0 : 0 ≤ s.radius.1) (hr : s.radius.1 ^ 2 < 2 ^ 53)
    (hfit : ∀ i, T.lo ≤ (s.center.get i).1 - s.radius.1 ∧ (s.center.get i).1 + s.radius.1 ≤ T.hi)
    {es : List (SVec (MInt T pr) D × V)} (hes : t.iter = .ok es) (d : Bool) :
    ∃ f, s.boundedFilter .binary64 = some f ∧ f.DefinedOn id t ∧
      ∃ r, t.filterIter id (f.orElse d) = .ok r ∧
        Selects (fun e => sqDist e.1 s.center ≤ (s.radius.1 : ℚ) ^ 2) es r := by
  obtain rfl : t.entries = es := by simpa [h.iter_eq] using hes
  have hsd : SubDefined (lo.as .debug) (hi.as .debug) := MInt.subDefined hT hw
  exact MInt.sphere_query h hr0 hr hfit (fun k hk => Option.isSome_iff_exists.1 (Sphere.intersectsPoint_isSome
    (R := .binary64) hD hsd (s := s.cast (MInt.as .debug)) (p := k.cast (MInt.as .debug)) hc (hP k hk))) d

/-- C93, what holds of spheres with unsigned coordinates: if no point lies below the center in any coordinate, a sphere query
    is right in both profiles. Missing: all other points. -/
theorem C93_sphere_query_partial (hT : T.lo = 0) (hD : 0 < D) {s : Sphere (MInt T pr) D}
    (hP : ∀ k, P k → ∀ i, s.center.get i ≤ k.get i) (h : Reachable c P t) (hr : s.radius.1 ^ 2 < 2 ^ 53)
    (hfit : ∀ i, s.radius.1 ≤ (s.center.get i).1 ∧ (s.center.get i).1 + s.radius.1 ≤ T.hi)
    {es : List (SVec (MInt T pr) D × V)} (hes : t.iter = .ok es) (d : Bool) :
    ∃ f, s.boundedFilter .binary64 = some f ∧ f.DefinedOn id t ∧
      ∃ r, t.filterIter id (f.orElse d) = .ok r ∧
        Selects (fun e => sqDist e.1 s.center ≤ (s.radius.1 : ℚ) ^ 2) es r := by
  obtain rfl : t.entries = es := by simpa [h.iter_eq] using hes
  have hr0 := s.radius.2.1
  refine MInt.sphere_query h (by omega) hr (fun i => ⟨by have := (hfit i).1; omega, (hfit i).2⟩) (fun k hk => ?_) d
  have hd : ∃ δ, (k.cast (MInt.as .debug)).sub (s.cast (MInt.as .debug)).center = some δ := by
    unfold SVec.sub
    have hd : ∀ i, (Scalar.sub ((k.cast (MInt.as .debug)).get i) ((s.cast (MInt.as .debug)).center.get i)).isSome := fun i =>
      MInt.sub_up hT (show (s.cast (MInt.as .debug)).center.get i ≤ (k.cast (MInt.as .debug)).get i from hP k hk i)
    exact ⟨_, dif_pos hd⟩
  obtain ⟨δ, hδ⟩ := hd
  have hm : ∃ m, δ.sqMagF64 .binary64 = some m := by
    unfold SVec.sqMagF64
    cases hl : δ.toList with
    | nil =>
      have := congrArg List.length hl
      simp [SVec.toList] at this
      omega
    | cons x xs => exact ⟨_, rfl⟩
  obtain ⟨m, hm⟩ := hm
  refine Option.isSome_iff_exists.1 ?_
  unfold Sphere.intersectsPoint
  rw [hδ]
  simp only [Option.bind_eq_bind, Option.bind_some, hm]
  rfl

end Spheres

section Joins

variable {V' : Type} {c' : Config} {P P' : SVec (MInt T pr) D → Prop} {t : Tree (AABB (MInt T pr) D) (SVec (MInt T pr) D) V}
  {t' : Tree (AABB (MInt T pr) D) (SVec (MInt T pr) D) V'}

theorem MInt.distSq_fits (hT : T.lo < 0) (hD : 0 < D) {lo hi : MInt T pr} (hw : hi.1 - lo.1 ≤ T.hi) {a p : SVec (MInt T pr) D}
    (ha : ∀ i, lo ≤ a.get i ∧ a.get i ≤ hi) (hp : ∀ i, lo ≤ p.get i ∧ p.get i ≤ hi) (h : sqDist a p ≤ T.hi) :
    ∃ m, (a.cast (MInt.as .debug)).distSq (p.cast (MInt.as .debug)) = some m ∧ a.distSq p = some (m.as pr) ∧
      Scalar.toX m = XRat.rat (sqDist a p) := by
  have hlo := T.neg_hi hT.ne
  obtain ⟨m, hm⟩ := MInt.distSq_debug hD (a := a.cast (MInt.as .debug)) (p := p.cast (MInt.as .debug)) (fun i => by
    have h1 : lo.1 ≤ (a.get i).1 := (ha i).1
    have h2 : (p.get i).1 ≤ hi.1 := (hp i).2
    show T.lo ≤ (a.get i).1 - (p.get i).1
    omega) ((MInt.sqDist_debug a p).symm ▸ h)
  refine ⟨m, hm, (MInt.sameArith T pr).distSq hm, ?_⟩
  rw [ExactScalar.toX_eq, SVec.distSq_eq hm, MInt.sqDist_debug]

/-- C92: a distance join of two non-empty trees of points with signed coordinates, in a window whose width the type can
    represent, if the squared distances of the entries fit the type: in both profiles no test panics, and exactly the pairs are
    found whose squared distance is less than the (rounded) square `rr` of `r`, each once; in a left join each entry of the left
    tree comes once, in the order of `iter`, with its matches in the order of `iter`. -/
theorem C92_distance_join (hT : T.lo < 0) (hD : 0 < D) (hm : 1 ≤ c.minChildren) (hm' : 1 ≤ c'.minChildren)
    {lo hi : MInt T pr} (hw : hi.1 - lo.1 ≤ T.hi) (hP : ∀ k, P k → ∀ i, lo ≤ k.get i ∧ k.get i ≤ hi)
    (hP' : ∀ k, P' k → ∀ i, lo ≤ k.get i ∧ k.get i ≤ hi) (h : Reachable c P t) (h' : Reachable c' P' t') {r rr : XRat}
    (hrr : N64.mul .binary64 r r = some rr)
    {es : List (SVec (MInt T pr) D × V)} {fs : List (SVec (MInt T pr) D × V')} (hes : t.iter = .ok es) (hfs : t'.iter = .ok fs)
    (hne : es ≠ []) (hne' : fs ≠ []) (hfit : ∀ a ∈ es, ∀ b ∈ fs, sqDist a.1 b.1 ≤ T.hi) (d : Bool) :
    (distanceFilter .binary64 r).DefinedOn id id t t' ∧
    (∃ out, t.join id id ((distanceFilter .binary64 r).orElse d) t' = .ok out ∧
      out.Perm ((es.flatMap fun a => fs.map fun b => (a, b)).filter fun x => decide (XRat.rat (sqDist x.1.1 x.2.1) < rr))) ∧
    t.leftJoin id id ((distanceFilter .binary64 r).orElse d) t' =
      .ok (es.map fun a => (a, fs.filter fun b => decide (XRat.rat (sqDist a.1 b.1) < rr))) := by
  obtain rfl : t.entries = es := by simpa [h.iter_eq] using hes
  obtain rfl : t'.entries = fs := by simpa [h'.iter_eq] using hfs
  have hsd : SubDefined (lo.as .debug) (hi.as .debug) := MInt.subDefined hT hw
  have occ : ∀ b, t.Occurs b → b.InWindow lo hi := by
    rintro b (⟨n, hn, rfl⟩ | ⟨e, he, rfl⟩)
    · exact h.bounds_inWindow hm hne (fun k hk i => ⟨hP k hk i, hP k hk i⟩) hn
    · exact fun i => ⟨hP _ (h.keys e he) i, hP _ (h.keys e he) i⟩
  have occ' : ∀ b, t'.Occurs b → b.InWindow lo hi := by
    rintro b (⟨n, hn, rfl⟩ | ⟨e, he, rfl⟩)
    · exact h'.bounds_inWindow hm' hne' (fun k hk i => ⟨hP' k hk i, hP' k hk i⟩) hn
    · exact fun i => ⟨hP' _ (h'.keys e he) i, hP' _ (h'.keys e he) i⟩
  have keyB : ∀ b b' : AABB (MInt T pr) D, b.InWindow lo hi → b'.InWindow lo hi → ∃ m,
      (b.cast (MInt.as .debug)).sqDistTo .binary64 (b'.cast (MInt.as .debug)) = some m ∧
      (distanceFilter (N := MInt T pr) (D := D) .binary64 r).testBounds b b' = some (decide (m < rr)) := by
    intro b b' hb hb'
    obtain ⟨m, hm⟩ := C40_sq_dist_defined hD hsd (a := b.cast (MInt.as .debug)) (b := b'.cast (MInt.as .debug)) hb hb'
    refine ⟨m, hm, ?_⟩
    simp only [distanceFilter, MInt.sqDistTo_of_debug hm, hrr, Option.bind_eq_bind, Option.bind_some, Option.pure_def]
  have keyK : ∀ e ∈ t.entries, ∀ e' ∈ t'.entries,
      (distanceFilter (N := MInt T pr) (D := D) .binary64 r).testKey e.1 e'.1 = some (decide (XRat.rat (sqDist e.1 e'.1) < rr)) := by
    intro e he e' he'
    obtain ⟨m, -, hm, hx⟩ := MInt.distSq_fits hT hD hw (hP _ (h.keys e he)) (hP' _ (h'.keys e' he')) (hfit e he e' he')
    have hx' : Scalar.toX (m.as pr) = XRat.rat (sqDist e.1 e'.1) := hx
    simp only [distanceFilter, hm, hrr, hx', Option.bind_eq_bind, Option.bind_some, Option.pure_def]
  have hkey : ∀ a ∈ t.entries, ∀ b ∈ t'.entries,
      ((distanceFilter (N := MInt T pr) (D := D) .binary64 r).orElse d).testKey (id a.1) (id b.1) =
        decide (XRat.rat (sqDist a.1 b.1) < rr) := by
    intro a ha b hb
    simp only [PJoinFilter.orElse, id, keyK a ha b hb, Option.getD_some]
  have hR : ∀ n ∈ t.nodes, t.Occurs n.bounds := fun n hn => .inl ⟨n, hn, rfl⟩
  have hR' : ∀ n ∈ t'.nodes, t'.Occurs n.bounds := fun n hn => .inl ⟨n, hn, rfl⟩
  have hK : ∀ e ∈ t.entries, ∃ e' ∈ t.entries, e'.1 = e.1 := fun e he => ⟨e, he, rfl⟩
  have hK' : ∀ e ∈ t'.entries, ∃ e' ∈ t'.entries, e'.1 = e.1 := fun e he => ⟨e, he, rfl⟩
  have key : ∀ (k k' : SVec (MInt T pr) D) (b b' : AABB (MInt T pr) D), (∃ e ∈ t.entries, e.1 = k) →
      (∃ e ∈ t'.entries, e.1 = k') → t.Occurs b → t'.Occurs b' →
      ((distanceFilter (N := MInt T pr) (D := D) .binary64 r).orElse d).testKey (id k) (id k') = true →
      Enclosure.le (Bounded.bounds k) b → Enclosure.le (Bounded.bounds k') b' →
      ((distanceFilter (N := MInt T pr) (D := D) .binary64 r).orElse d).testBounds b b' = true := by
    rintro k k' b b' ⟨e, he, rfl⟩ ⟨e', he', rfl⟩ hb hb' ht hl hl'
    rw [hkey e he e' he', decide_eq_true_eq] at ht
    obtain ⟨m, hm, hB⟩ := keyB b b' (occ b hb) (occ' b' hb')
    obtain ⟨n, hn, -, hx⟩ := MInt.distSq_fits hT hD hw (hP _ (h.keys e he)) (hP' _ (h'.keys e' he')) (hfit e he e' he')
    simp only [PJoinFilter.orElse, hB, Option.getD_some, decide_eq_true_eq]
    have hmem : AABB.Mem (e.1.cast (MInt.as .debug)) (b.cast (MInt.as .debug)) := fun i => hl i
    have hmem' : AABB.Mem (e'.1.cast (MInt.as .debug)) (b'.cast (MInt.as .debug)) := fun i => hl' i
    exact lt_of_le_of_lt ((AABB.sqDistTo_le_distSq hmem hmem' hm hn).trans_eq hx) ht
  refine ⟨⟨fun b b' hb hb' => ?_, fun e he e' he' => ?_⟩, ?_, ?_⟩
  · obtain ⟨m, -, hB⟩ := keyB b b' (occ b hb) (occ' b' hb')
    rw [hB]; rfl
  · exact Option.isSome_iff_exists.2 ⟨_, keyK e he e' he'⟩
  · obtain ⟨out, o1, o2⟩ := h.join_on h' hK hK' hR hR' key
    refine ⟨out, o1, o2.trans (List.Perm.of_eq (List.filter_congr fun x hx => ?_))⟩
    obtain ⟨a, ha, hx⟩ := List.mem_flatMap.1 hx
    obtain ⟨b, hb, rfl⟩ := List.mem_map.1 hx
    exact hkey a ha b hb
  · rw [h.leftJoin_on (borrow0 := id) h' hK hK' hR hR' (fun k hk => by
      obtain ⟨e, he, rfl⟩ := hk
      exact .inr ⟨e, he, rfl⟩) (fun _ => rfl) key]
    congr 1
    refine List.map_congr_left fun a ha => ?_
    congr 1
    exact List.filter_congr fun b hb => hkey a ha b hb

end Joins

/-! ## C93: unsigned coordinates -/

theorem MInt.sub_none {x y : MInt T .debug} (hT : T.lo = 0) (h : x < y) : Scalar.sub x y = none := by
  have h : x.1 < y.1 := h
  show MInt.result T .debug (x.1 - y.1) = none
  rw [MInt.result, dif_neg]
  omega

theorem SVec.sub_none {N : Type} [Scalar N] {a b : SVec N D} {i : Fin D} (h : Scalar.sub (a.get i) (b.get i) = none) :
    a.sub b = none := by
  unfold SVec.sub
  rw [dif_neg]
  intro hall
  have := hall i
  rw [h] at this
  cases this

theorem mapM_none {α β : Type} {g : α → Option β} {l : List α} {a : α} (ha : a ∈ l) (h : g a = none) : l.mapM g = none := by
  induction l with
  | nil => cases ha
  | cons x l ih =>
    rw [List.mapM_cons]
    rcases List.mem_cons.1 ha with rfl | ha
    · rw [h]; rfl
    · rw [ih ha]
      cases g x <;> rfl

/-- C93 is false of the code: in a debug build with unsigned coordinates, `sq_dist_to` of two non-inverted boxes panics always,
    except if both are the same single number in each coordinate. -/
theorem C93_distance_refuted (hT : T.lo = 0) {R : Rounding} {a b : AABB (MInt T .debug) D} (ha : a.Valid) (hb : b.Valid)
    {i : Fin D} (h : ¬(a.min.get i = a.max.get i ∧ b.min.get i = b.max.get i ∧ a.min.get i = b.min.get i)) :
    a.sqDistTo R b = none := by
  have h1 : a.min.get i ≤ a.max.get i := ha i
  have h2 : b.min.get i ≤ b.max.get i := hb i
  have hgap : a.sqGap R b i = none := by
    unfold AABB.sqGap
    rcases lt_or_ge (b.min.get i) (a.max.get i) with h3 | h3
    · rw [MInt.sub_none hT h3]; rfl
    · rcases lt_or_ge (a.min.get i) (b.max.get i) with h4 | h4
      · rw [MInt.sub_none hT h4]
        cases Scalar.sub (b.min.get i) (a.max.get i) <;> rfl
      · exact absurd ⟨le_antisymm h1 (h3.trans (h2.trans h4)), le_antisymm h2 (h4.trans (h1.trans h3)),
          le_antisymm (h1.trans h3) (h2.trans h4)⟩ h
  unfold AABB.sqDistTo
  rw [mapM_none (List.mem_finRange i) hgap]
  rfl

/-- C93 is false of the code: in a debug build with unsigned coordinates, the test of a sphere panics for every point that lies
    below the center in some coordinate. -/
theorem C93_sphere_refuted (hT : T.lo = 0) {R : Rounding} {s : Sphere (MInt T .debug) D} {p : SVec (MInt T .debug) D} {i : Fin D}
    (h : p.get i < s.center.get i) : s.intersectsPoint R p = none := by
  unfold Sphere.intersectsPoint
  rw [SVec.sub_none (MInt.sub_none hT h)]
  rfl

theorem MInt.slab_none (hT : T.lo = 0) {R : Rounding} {nz : Bool} {lo hi o d : MInt T .debug} (h : lo < o) :
    slab R nz lo hi o d = none := by
  unfold slab
  rw [MInt.sub_none hT h]
  rfl

theorem MInt.slabLoop_none (hT : T.lo = 0) {R : Rounding} {nz : Fin D → Bool} {b : AABB (MInt T .debug) D}
    {o d : SVec (MInt T .debug) D} {i : Fin D} (h : b.min.get i < o.get i) (dims : List (Fin D)) (t : F64 × F64)
    (hi : i ∈ dims) : slabLoop R nz b o d dims t = none := by
  unfold slabLoop
  induction dims generalizing t with
  | nil => cases hi
  | cons j dims ih =>
    rw [List.foldlM_cons]
    rcases List.mem_cons.1 hi with rfl | hi
    · rw [MInt.slab_none hT h]
      rfl
    · cases hs : slab R (nz j) (b.min.get j) (b.max.get j) (o.get j) (d.get j) with
      | none => rfl
      | some u => exact ih _ hi

/-- C93 is false of the code: in a debug build with unsigned coordinates, the test of a segment panics if the segment goes down
    in some coordinate, whatever the box, or if the box begins below the start of the segment in some coordinate. -/
theorem C93_segment_refuted (hT : T.lo = 0) {R : Rounding} {negZero : Fin D → Bool} {l : Line (MInt T .debug) D}
    {b : AABB (MInt T .debug) D} {i : Fin D} (h : l.p1.get i < l.p0.get i ∨ b.min.get i < l.p0.get i) :
    l.intersectsBox R negZero b = none := by
  unfold Line.intersectsBox
  cases hd : l.delta with
  | none => rfl
  | some δ =>
    rcases h with h | h
    · unfold Line.delta at hd
      rw [SVec.sub_none (MInt.sub_none hT h)] at hd
      cases hd
    · show lineBoundsIntersect R negZero b l.p0 δ = none
      unfold lineBoundsIntersect
      rw [MInt.slabLoop_none hT h _ _ (List.mem_finRange i)]
      rfl

/-- C93 is false of the code: in a debug build with unsigned coordinates, the test of a ray panics if the box begins below the
    origin in some coordinate. -/
theorem C93_ray_refuted (hT : T.lo = 0) {R : Rounding} {negZero : Fin D → Bool} {l : Ray (MInt T .debug) D}
    {b : AABB (MInt T .debug) D} {i : Fin D} (h : b.min.get i < l.origin.get i) :
    l.intersectsBox R negZero b = none := by
  unfold Ray.intersectsBox rayBoundsIntersect
  have hmem := List.mem_finRange i
  cases hd : List.finRange D with
  | nil => rfl
  | cons j dims =>
    rw [hd] at hmem
    rcases List.mem_cons.1 hmem with rfl | hmem
    · simp only [MInt.slab_none hT h]
      rfl
    · cases hs : slab R (negZero j) (b.min.get j) (b.max.get j) (l.origin.get j) (l.n.get j) with
      | none => simp [hs]
      | some u => simp [hs, MInt.slabLoop_none hT h _ _ hmem]

/-- Client code: a box of the plane with coordinates of an integer type. -/
def intBox (T : IntTy) (pr : Profile) (a b c d : ℤ) : AABB (MInt T pr) 2 := ⟨intPt T pr a b, intPt T pr c d⟩

/-- Client code: a number of an integer type. -/
def intNum (T : IntTy) (pr : Profile) (a : ℤ) : MInt T pr := ⟨T.wrap a, T.wrap_mem a⟩

/-- C93 is false of the code: in a release build with unsigned coordinates of any type nothing panics, but answers are wrong:
    a box that has `sq_dist_to` itself that is not 0 (so a distance join can miss its entries); a point at distance 1 of the
    center that is not within a sphere of radius 2; a segment, and a ray, that meet a box they do not intersect. -/
theorem C93_release_refuted (hT : T.lo = 0) :
    (∃ (b : AABB (MInt T .release) 2) (x : XRat), b.Valid ∧ b.HasBoxDist b 0 ∧ b.sqDistTo .binary64 b = some x ∧ x ≠ XRat.rat 0) ∧
    (∃ (s : Sphere (MInt T .release) 2) (p : SVec (MInt T .release) 2), sqDist p s.center = 1 ∧ s.radius.1 = 2 ∧
      s.intersectsPoint .binary64 p = some false) ∧
    (∃ (l : Line (MInt T .release) 2) (b : AABB (MInt T .release) 2), l.Meets b ∧
      l.intersectsBox .binary64 (fun _ => false) b = some false) ∧
    ∃ (r : Ray (MInt T .release) 2) (b : AABB (MInt T .release) 2), r.Meets b ∧
      r.intersectsBox .binary64 (fun _ => false) b = some false := by
  refine ⟨?_, ⟨Sphere.mk (intPt T .release 5 5) (intNum T .release 2), intPt T .release 4 5, ?_⟩,
    ⟨Line.mk (intPt T .release 5 5) (intPt T .release 0 0), intBox T .release 1 1 2 2, ⟨4 / 5, by norm_num, by norm_num, ?_⟩, ?_⟩,
    ⟨Ray.mk (intPt T .release 5 5) (intPt T .release 1 1), intBox T .release 7 3 9 9, ⟨2, by norm_num, ?_⟩, ?_⟩⟩
  · have hx : ∃ x, (intBox T .release 0 0 1 1).sqDistTo .binary64 (intBox T .release 0 0 1 1) = some x ∧ x ≠ XRat.rat 0 := by
      cases T <;> first
        | exact absurd hT (by decide)
        | exact ⟨_, (Option.some_get (by decide +kernel : (AABB.sqDistTo _ _ _).isSome = true)).symm, by decide +kernel⟩
    obtain ⟨x, h1, h2⟩ := hx
    have hv : (intBox T .release 0 0 1 1).Valid := by
      unfold AABB.Valid
      cases T <;> decide +kernel
    refine ⟨_, x, hv, ⟨⟨_, _, fun i => ⟨le_refl _, hv i⟩, fun i => ⟨le_refl _, hv i⟩, ?_⟩, fun p q _ _ => ?_⟩, h1, h2⟩
    · simp [sqDist]
    · exact Finset.sum_nonneg fun i _ => sq_nonneg _
  · cases T <;> first
      | exact absurd hT (by decide)
      | exact ⟨by decide +kernel, by decide +kernel, by decide +kernel⟩
  · unfold AABB.OnLine
    cases T <;> first
      | exact absurd hT (by decide)
      | decide +kernel
  · cases T <;> first
      | exact absurd hT (by decide)
      | decide +kernel
  · unfold AABB.OnLine
    cases T <;> first
      | exact absurd hT (by decide)
      | decide +kernel
  · cases T <;> first
      | exact absurd hT (by decide)
      | decide +kernel

/-! ## Cases -/

section IntShapesCases

theorem int_box_reachable_in {T : IntTy} {pr : Profile} {bs : List ((ℤ × ℤ) × (ℤ × ℤ))} {P : AABB (MInt T pr) 2 → Prop}
    (hv : ∀ x ∈ bs.zipIdx, P ⟨intPt T pr x.1.1.1 x.1.1.2, intPt T pr x.1.2.1 x.1.2.2⟩)
    (h : (run (Tree.new cfg42) (intBoxOps T pr bs)).isOk = true) : Reachable cfg42 P (intBoxTree T pr bs) :=
  .run .new (fun op ho k hk => by
    obtain ⟨x, hx, rfl⟩ := List.mem_map.1 ho
    obtain rfl := Option.some.inj hk
    exact hv x hx) (Res.ok_getD _ h)

theorem int_reachable_in {T : IntTy} {pr : Profile} {ps : List (ℤ × ℤ)} {P : SVec (MInt T pr) 2 → Prop}
    (hv : ∀ x ∈ ps.zipIdx, P (intPt T pr x.1.1 x.1.2))
    (h : (run (Tree.new cfg42) (intOps T pr ps)).isOk = true) : Reachable cfg42 P (intTree T pr ps) :=
  .run .new (fun op ho k hk => by
    obtain ⟨x, hx, rfl⟩ := List.mem_map.1 ho
    obtain rfl := Option.some.inj hk
    exact hv x hx) (Res.ok_getD _ h)

-- Debug answers that release builds repeat, with unsigned and with signed coordinates:
example := (C92_same_distances (a := intPt .u8 .debug 8 9) (p := intPt .u8 .debug 5 5) (b := intBox .u8 .debug 0 0 1 1)
  (b' := intBox .u8 .debug 0 0 1 1)).1 _ (Option.some_get (by decide +kernel :
    ((intPt .u8 .debug 8 9).distSq (intPt .u8 .debug 5 5)).isSome = true)).symm
example := (C92_same_distances (a := intPt .i8 .debug 8 9) (p := intPt .i8 .debug 5 5) (b := intBox .i8 .debug 8 9 20 20)
  (b' := intBox .i8 .debug (-5) 5 6 10)).2.2 .binary64 _ (Option.some_get (by decide +kernel :
    ((intBox .i8 .debug 8 9 20 20).sqDistTo .binary64 (intBox .i8 .debug (-5) 5 6 10)).isSome = true)).symm
example := (C92_same_boxes (b := intBox .i8 .debug (-8) 9 20 20) (b' := intBox .i8 .debug 0 0 1 1)).1 _
  (Option.some_get (by decide +kernel : (intBox .i8 .debug (-8) 9 20 20).volume.isSome = true)).symm
example := (C92_same_segments (R := .binary64) (negZero := fun _ => false) (l := ⟨intPt .i8 .debug 0 0, intPt .i8 .debug 20 (-30)⟩)
  (b := intBox .i8 .debug (-8) 9 20 20) (r := ⟨intPt .i8 .debug 0 0, intPt .i8 .debug 1 1⟩)).1 _
  (Option.some_get (by decide +kernel : ((Line.mk (intPt .i8 .debug 0 0) (intPt .i8 .debug 20 (-30))).intersectsBox .binary64
    (fun _ => false) (intBox .i8 .debug (-8) 9 20 20)).isSome = true)).symm
example := (C92_same_spheres (R := .binary64) (s := ⟨intPt .u16 .debug 5 5, intNum .u16 .debug 2⟩) (p := intPt .u16 .debug 6 5)).1 _
  (Option.some_get (by decide +kernel : ((Sphere.mk (intPt .u16 .debug 5 5) (intNum .u16 .debug 2)).intersectsPoint .binary64
    (intPt .u16 .debug 6 5)).isSome = true)).symm

-- A segment across the boxes, in the window from -20 to 20; it goes down in one coordinate.
example := C92_segment_query (T := .i8) (pr := .debug) (c := cfg42) (lo := intNum .i8 .debug (-20)) (hi := intNum .i8 .debug 20)
  (by decide) (by decide) (by decide) (fun _ h => h)
  (int_box_reachable_in (bs := sixBoxes)
    (P := fun k => k.Valid ∧ k.InWindow (intNum .i8 .debug (-20)) (intNum .i8 .debug 20))
    (by unfold AABB.Valid AABB.InWindow; decide +kernel) (by decide +kernel))
  (fun _ => false) (l := ⟨intPt .i8 .debug (-10) 10, intPt .i8 .debug 20 5⟩) (by decide +kernel) (by decide +kernel)
  (C09_iter_exact (int_box_reachable (by unfold AABB.Valid; decide +kernel) (by decide +kernel))) false

-- Unsigned coordinates: an upward segment that starts below all boxes.
example := C93_segment_query_partial (T := .u8) (pr := .release) (c := cfg42) (l := ⟨intPt .u8 .release 3 3, intPt .u8 .release 20 9⟩)
  rfl (by decide) (by decide +kernel) (fun _ h => h)
  (int_box_reachable_in (bs := sixBoxes)
    (P := fun k => k.Valid ∧ ∀ i, (intPt .u8 .release 3 3).get i ≤ k.min.get i)
    (by unfold AABB.Valid; decide +kernel) (by decide +kernel))
  (fun _ => false) (C09_iter_exact (int_box_reachable (by unfold AABB.Valid; decide +kernel) (by decide +kernel))) false

-- A ray, with boxes in front of its origin and behind it.
example := C92_ray_query (T := .i8) (pr := .release) (c := cfg42) (lo := intNum .i8 .release (-20)) (hi := intNum .i8 .release 20)
  (by decide) (by decide) (by decide) (fun _ h => h)
  (int_box_reachable_in (bs := sixBoxes)
    (P := fun k => k.Valid ∧ k.InWindow (intNum .i8 .release (-20)) (intNum .i8 .release 20))
    (by unfold AABB.Valid AABB.InWindow; decide +kernel) (by decide +kernel))
  (fun _ => false) (l := ⟨intPt .i8 .release 8 8, intPt .i8 .release (-100) 127⟩) (by decide +kernel)
  (C09_iter_exact (int_box_reachable (by unfold AABB.Valid; decide +kernel) (by decide +kernel))) false

-- Unsigned coordinates: a ray from below all boxes.
example := C93_ray_query_partial (T := .u8) (pr := .debug) (c := cfg42) (l := ⟨intPt .u8 .debug 3 3, intPt .u8 .debug 200 9⟩)
  rfl (by decide) (fun _ h => h)
  (int_box_reachable_in (bs := sixBoxes)
    (P := fun k => k.Valid ∧ ∀ i, (intPt .u8 .debug 3 3).get i ≤ k.min.get i)
    (by unfold AABB.Valid; decide +kernel) (by decide +kernel))
  (fun _ => false) (C09_iter_exact (int_box_reachable (by unfold AABB.Valid; decide +kernel) (by decide +kernel))) false

-- A sphere with points on all sides of its center.
example := C92_sphere_query (T := .i8) (pr := .release) (c := cfg42) (lo := intNum .i8 .release (-20)) (hi := intNum .i8 .release 107)
  (by decide) (by decide) (by decide) (fun _ h => h)
  (int_reachable_in (ps := sixPoints)
    (P := fun k => ∀ i, intNum .i8 .release (-20) ≤ k.get i ∧ k.get i ≤ intNum .i8 .release 107) (by decide +kernel) (by decide +kernel))
  (s := ⟨intPt .i8 .release 5 5, intNum .i8 .release 3⟩) (by decide +kernel) (by decide +kernel) (by decide +kernel)
  (by decide +kernel) (C09_iter_exact (int_reachable (by decide +kernel))) false

-- An unsigned one with all points above its center.
example := C93_sphere_query_partial (T := .u16) (pr := .debug) (c := cfg42)
  (s := ⟨intPt .u16 .debug 3 3, intNum .u16 .debug 3⟩) rfl (by decide) (fun _ h => h)
  (int_reachable_in (ps := sixPoints) (P := fun k => ∀ i, (intPt .u16 .debug 3 3).get i ≤ k.get i) (by decide +kernel)
    (by decide +kernel)) (by decide +kernel) (by decide +kernel) (C09_iter_exact (int_reachable (by decide +kernel))) false

-- A distance join of the tree with itself; its squared distances are greater than 127 * 127 - 1.
theorem int_window {T : IntTy} {pr : Profile} (h : ∀ x ∈ sixPoints.zipIdx, ∀ i, intNum T pr (-20) ≤ (intPt T pr x.1.1 x.1.2).get i ∧
    (intPt T pr x.1.1 x.1.2).get i ≤ intNum T pr 107) (h' : (run (Tree.new cfg42) (intOps T pr sixPoints)).isOk = true) :
    Reachable cfg42 (fun k => ∀ i, intNum T pr (-20) ≤ k.get i ∧ k.get i ≤ intNum T pr 107) (intTree T pr sixPoints) :=
  int_reachable_in (fun x hx => h x hx) h'

example := C92_distance_join (T := .i16) (pr := .debug) (c := cfg42) (c' := cfg42) (lo := intNum .i16 .debug (-20))
  (hi := intNum .i16 .debug 107) (by decide) (by decide) (by decide) (by decide) (by decide) (fun _ h => h) (fun _ h => h)
  (int_window (by decide +kernel) (by decide +kernel)) (int_window (by decide +kernel) (by decide +kernel))
  (r := XRat.rat 5) (rr := XRat.rat 25) (by decide +kernel)
  (C09_iter_exact (int_reachable (by decide +kernel))) (C09_iter_exact (int_reachable (by decide +kernel)))
  (by decide +kernel) (by decide +kernel)
  (fun a ha b hb => fits (T := .i16) (pr := .debug) (p := b.1) (by revert b; decide +kernel) a ha) false

-- Unsigned coordinates in debug builds:
example := C93_distance_refuted (T := .u8) (R := .binary64) (a := intBox .u8 .debug 0 0 1 1) (b := intBox .u8 .debug 5 5 6 6) rfl
  (by unfold AABB.Valid; decide +kernel) (by unfold AABB.Valid; decide +kernel) (i := 0) (by decide +kernel)
example := C93_sphere_refuted (T := .u8) (R := .binary64) (s := ⟨intPt .u8 .debug 5 5, intNum .u8 .debug 2⟩)
  (p := intPt .u8 .debug 4 5) rfl (i := 0) (by decide +kernel)
example := C93_segment_refuted (T := .u8) (R := .binary64) (negZero := fun _ => false) (b := intBox .u8 .debug 0 0 9 9)
  (l := ⟨intPt .u8 .debug 5 5, intPt .u8 .debug 6 4⟩) rfl (i := 1) (.inl (by decide +kernel))
example := C93_ray_refuted (T := .u32) (R := .binary64) (negZero := fun _ => false) (b := intBox .u32 .debug 0 0 9 9)
  (l := ⟨intPt .u32 .debug 5 5, intPt .u32 .debug 6 4⟩) rfl (i := 1) (by decide +kernel)
example := C93_release_refuted (T := .u16) rfl

end IntShapesCases

end RTree
