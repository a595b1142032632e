import Verif.Proofs.Integers
/-! Nearest neighbours with machine integers. -/

namespace RTree

section Entries

variable {B K V M : Type} [Bounds B] [Volume B] [Bounded K B] [BEq K] [Enclosure B]
variable {c : Config} {P P' : K → Prop} {t : Tree B K V}

/-- An entry below a node is an entry of the tree. -/
theorem Reachable.entries_below (h : Reachable c P t) {n : Node B K V} (hn : n ∈ t.nodes) {e : K × V}
    (he : e ∈ n.entries) : e ∈ t.entries := by
  let _ : VolumeLaws B := trivialVolumeLaws
  rcases List.mem_cons.1 hn with rfl | hn
  · exact he
  · exact h.treeOk_any.1.ok.entries_descendant hn he

variable [LE M] [Std.IsPreorder M]

theorem Reachable.rankOk_entries (h : Reachable c P t) {r : Ranking B K (Option M)} (hr : r.FilterHonours P')
    (hk : ∀ e ∈ t.entries, P' e.1) : RankOk r (r.DefinedOn t) t.level t.root :=
  letI : VolumeLaws B := trivialVolumeLaws
  Ok.rankOk hr h.treeOk_covers.ok hk (fun hd => hd.1) fun hd => hd.2

/-- C12 for a ranking that honours its contract for the keys in the tree. -/
theorem Reachable.iter_asc_by_entries (h : Reachable c P t) (hp : IterHeap B K V M) {r : Ranking B K M} (hr : r.Honours P')
    (hd : r.DefinedOn t) {es : List (K × V)} (hes : t.iter = .ok es) (hk : ∀ e ∈ es, P' e.1) :
    ∃ out, t.iterAscBy hp r = .ok out ∧ out.Perm es ∧
      out.Pairwise fun a b => ∀ m n, r.rankKey a.1 = .ok m → r.rankKey b.1 = .ok n → m ≤ n := by
  obtain rfl : t.entries = es := by simpa [h.iter_eq] using hes
  rw [Tree.iterAscBy_eq]
  have hs := Tree.sat_filterIterAscBy (hp := hp) (h.rankOk_entries hr.some hk)
  cases ho : t.filterIterAscBy hp r.some with
  | error e => rw [ho] at hs; exact absurd hd.some hs
  | ok out =>
    rw [ho] at hs
    refine ⟨out, rfl, hs.1.trans ?_, hs.2.imp ?_⟩
    · have : t.entries.filter (fun e => r.some.ranked e.1) = t.entries := by
        rw [List.filter_eq_self]
        intro e he
        obtain ⟨m, hm⟩ := hd.2 e he
        simp [Ranking.ranked, Ranking.some, hm, Functor.map, Except.map]
      rw [this]
    · intro a b hab m n hm hn
      refine hab m n ?_ ?_
      · simp [Ranking.some, hm, Functor.map, Except.map]
      · simp [Ranking.some, hn, Functor.map, Except.map]

/-- C13 for a ranking that honours its contract for the keys in the tree. -/
theorem Reachable.min_by_entries (h : Reachable c P t) (hp : IterHeap B K V M) {r : Ranking B K M} (hr : r.Honours P')
    (hd : r.DefinedOn t) {es : List (K × V)} (hes : t.iter = .ok es) (hk : ∀ e ∈ es, P' e.1) :
    ∃ o, t.minBy hp r = .ok o ∧ (o = none ↔ es = []) ∧
      ∀ e, o = some e → e ∈ es ∧ ∀ e' ∈ es, ∀ m n, r.rankKey e.1 = .ok m → r.rankKey e'.1 = .ok n → m ≤ n := by
  obtain rfl : t.entries = es := by simpa [h.iter_eq] using hes
  rw [Tree.minBy_eq]
  have hs := Tree.sat_filterMinBy (hp := hp) (h.rankOk_entries hr.some hk)
  have hall : t.entries.filter (fun e => r.some.ranked e.1) = t.entries := by
    rw [List.filter_eq_self]
    intro e he
    obtain ⟨m, hm⟩ := hd.2 e he
    simp [Ranking.ranked, Ranking.some, hm, Functor.map, Except.map]
  cases ho : t.filterMinBy hp r.some with
  | error e => rw [ho] at hs; exact absurd hd.some hs
  | ok o =>
    rw [ho] at hs
    refine ⟨o, rfl, ?_⟩
    cases o with
    | none =>
      have hs : t.entries.filter (fun e => r.some.ranked e.1) = [] := hs
      exact ⟨by simpa [hall] using hs, fun e he => by cases he⟩
    | some e =>
      obtain ⟨h1, m, h2, h3⟩ := hs
      refine ⟨⟨fun h => by (cases h), fun h => by rw [h] at h1; cases h1⟩, ?_⟩
      rintro e' he'
      injection he' with he'
      subst he'
      refine ⟨h1, fun e' he' m' n' hm' hn' => ?_⟩
      have : m = m' := by simpa [Ranking.some, hm', Functor.map, Except.map] using h2.symm
      subst this
      exact h3 e' he' n' (by simp [Ranking.some, hn', Functor.map, Except.map])

end Entries

namespace MInt

variable {T : IntTy} {pr : Profile} {D : ℕ}

/-- The closest point of a box is not further away than any of its points. -/
theorem closest_le (b : AABB (MInt T pr) D) (p : SVec (MInt T pr) D) {q : SVec (MInt T pr) D} (hq : AABB.Mem q b) :
    sqDist (b.closest p) p ≤ sqDist q p := by
  refine Finset.sum_le_sum fun i _ => ?_
  obtain ⟨h1, h2⟩ := hq i
  have e1 : (Scalar.toRat (b.min.get i) : ℚ) ≤ Scalar.toRat (q.get i) := Int.cast_le.2 h1
  have e2 : (Scalar.toRat (q.get i) : ℚ) ≤ Scalar.toRat (b.max.get i) := Int.cast_le.2 h2
  simp only [AABB.closest, SVec.cmin, SVec.cmax]
  rcases le_total (p.get i) (b.min.get i) with h3 | h3
  · have e3 : (Scalar.toRat (p.get i) : ℚ) ≤ Scalar.toRat (b.min.get i) := Int.cast_le.2 h3
    rw [max_eq_right h3, min_eq_left (le_trans h1 h2)]
    nlinarith
  · have e3 : (Scalar.toRat (b.min.get i) : ℚ) ≤ Scalar.toRat (p.get i) := Int.cast_le.2 h3
    rw [max_eq_left h3]
    rcases le_total (p.get i) (b.max.get i) with h4 | h4
    · rw [min_eq_left h4]
      nlinarith
    · have e4 : (Scalar.toRat (b.max.get i) : ℚ) ≤ Scalar.toRat (p.get i) := Int.cast_le.2 h4
      rw [min_eq_right h4]
      nlinarith

theorem le_of_toRat {a b : MInt T pr} (h : Scalar.toRat a ≤ Scalar.toRat b) : a ≤ b := Int.cast_le.1 h

section Release

variable {V : Type} {c : Config}

/-- In a release build the ranking of points is defined everywhere, and honours its contract for the points whose distance
    fits the type. -/
theorem honours_points_release (hD : 0 < D) (p : SVec (MInt T .release) D) :
    (euclidPoints p).Honours (K := SVec (MInt T .release) D) fun k => sqDist k p ≤ T.hi := by
  intro k b m n hk hle hm hn
  have h1 := closest_le b p (q := k) fun i => hle i
  obtain ⟨m', e1, e2⟩ := distSq_release_exact hD (a := b.closest p) (p := p) (h1.trans hk)
  obtain ⟨n', e3, e4⟩ := distSq_release_exact hD hk
  obtain rfl := Option.some.inj (e1.symm.trans (arith_eq_ok.1 hm))
  obtain rfl := Option.some.inj (e3.symm.trans (arith_eq_ok.1 hn))
  exact le_of_toRat (by rw [e2, e4]; exact h1)

theorem honours_boxes_release (hD : 0 < D) (p : SVec (MInt T .release) D) :
    (euclidBoxes p).Honours (K := AABB (MInt T .release) D) fun k => k.Valid ∧ sqDist (k.closest p) p ≤ T.hi := by
  intro k b m n hk hle hm hn
  have hmem := AABB.closest_mem hk.1 p
  have h1 := closest_le b p (q := k.closest p)
    fun i => ⟨le_trans (hle i).1 (hmem i).1, le_trans (hmem i).2 (hle i).2⟩
  obtain ⟨m', e1, e2⟩ := distSq_release_exact hD (a := b.closest p) (p := p) (h1.trans hk.2)
  obtain ⟨n', e3, e4⟩ := distSq_release_exact hD hk.2
  obtain rfl := Option.some.inj (e1.symm.trans (arith_eq_ok.1 hm))
  obtain rfl := Option.some.inj (e3.symm.trans (arith_eq_ok.1 hn))
  exact le_of_toRat (by rw [e2, e4]; exact h1)

theorem rank_defined (hD : 0 < D) (a p : SVec (MInt T .release) D) : ∃ m, arith (a.distSq p) = .ok m :=
  let ⟨m, h, _⟩ := distSq_release hD a p
  ⟨m, arith_eq_ok.2 h⟩

theorem defined_points_release (hD : 0 < D) (p : SVec (MInt T .release) D)
    (t : Tree (AABB (MInt T .release) D) (SVec (MInt T .release) D) V) : (euclidPoints p).DefinedOn t :=
  ⟨fun n _ => rank_defined hD (n.bounds.closest p) p, fun e _ => rank_defined hD e.1 p⟩

theorem defined_boxes_release (hD : 0 < D) (p : SVec (MInt T .release) D)
    (t : Tree (AABB (MInt T .release) D) (AABB (MInt T .release) D) V) : (euclidBoxes p).DefinedOn t :=
  ⟨fun n _ => rank_defined hD (n.bounds.closest p) p, fun e _ => rank_defined hD (e.1.closest p) p⟩

end Release

end MInt

namespace AABB

variable {N : Type} {D : ℕ} [Scalar N]

theorem unionAll_le {c : AABB N D} (h0 : AABB.empty.Le c) {bs : List (AABB N D)} (h : ∀ b ∈ bs, b.Le c) : (unionAll bs).Le c := by
  have key : ∀ (bs : List (AABB N D)) (a : AABB N D), a.Le c → (∀ b ∈ bs, b.Le c) → (bs.foldl union a).Le c := by
    intro bs
    induction bs with
    | nil => exact fun a ha _ => ha
    | cons b bs ih =>
      intro a ha hb
      refine ih _ (fun i => ?_) fun x hx => hb x (List.mem_cons_of_mem _ hx)
      have h1 := ha i
      have h2 := hb b List.mem_cons_self i
      exact ⟨le_min h1.1 h2.1, max_le h1.2 h2.2⟩
  exact key bs _ h0 h

end AABB

end RTree
