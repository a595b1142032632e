import Verif.Props.Core
import Verif.Proofs.SortedMap
/-!
# Iteration in ascending rank (C12 - C15, C29)

The theorems hold for every heap that satisfies the contract of a priority queue (`Heap`).
-/

namespace RTree

variable {B K V M S : Type} [Bounds B] [Volume B] [Bounded K B] [BEq K] [Enclosure B] [LE M] [Std.IsPreorder M] [LE S]
  [Std.IsPreorder S]
variable {c : Config} {P : K → Prop} {t : Tree B K V}

/-! ## C12, C13: rankings without `None` -/

/-- C12: with a ranking that honours its contract and does not panic on the tree, `iter_asc_by` yields the entries of `iter`,
    each exactly once, in non-decreasing rank. -/
theorem C12_iter_asc_by (h : Reachable c P t) (hp : IterHeap B K V M) {r : Ranking B K M} (hr : r.Honours P)
    (hd : r.DefinedOn t) {es : List (K × V)} (hes : t.iter = .ok es) :
    ∃ out, t.iterAscBy hp r = .ok out ∧ out.Perm es ∧
      out.Pairwise fun a b => ∀ m n, r.rankKey a.1 = .ok m → r.rankKey b.1 = .ok n → m ≤ n := by
  obtain rfl : t.entries = es := by simpa [h.iter_eq] using hes
  rw [Tree.iterAscBy_eq]
  have hs := Tree.sat_filterIterAscBy (hp := hp) (h.rankOk hr.some)
  cases ho : t.filterIterAscBy hp r.some with
  | error e => rw [ho] at hs; exact absurd hd.some hs
  | ok out =>
    rw [ho] at hs
    refine ⟨out, rfl, hs.1.trans ?_, hs.2.imp ?_⟩
    · have : t.entries.filter (fun e => r.some.ranked e.1) = t.entries := by
        rw [List.filter_eq_self]
        intro e he
        obtain ⟨m, hm⟩ := hd.2 e he
        simp [Ranking.ranked, Ranking.some, hm, Functor.map, Except.map]
      rw [this]
    · intro a b hab m n hm hn
      refine hab m n ?_ ?_
      · simp [Ranking.some, hm, Functor.map, Except.map]
      · simp [Ranking.some, hn, Functor.map, Except.map]

/-- C12, without assuming that the ranking returns everywhere: a completed `iter_asc_by` yields each entry once, in
    non-decreasing rank. -/
theorem C12_iter_asc_by_returned (h : Reachable c P t) (hp : IterHeap B K V M) {r : Ranking B K M} (hr : r.Honours P)
    {es out : List (K × V)} (hes : t.iter = .ok es) (ho : t.iterAscBy hp r = .ok out)
    (hk : ∀ e ∈ es, ∃ m, r.rankKey e.1 = .ok m) :
    out.Perm es ∧ out.Pairwise fun a b => ∀ m n, r.rankKey a.1 = .ok m → r.rankKey b.1 = .ok n → m ≤ n := by
  obtain rfl : t.entries = es := by simpa [h.iter_eq] using hes
  rw [Tree.iterAscBy_eq] at ho
  have hs := Tree.sat_filterIterAscBy (hp := hp) (h.rankOk hr.some)
  rw [ho] at hs
  refine ⟨hs.1.trans ?_, hs.2.imp ?_⟩
  · have : t.entries.filter (fun e => r.some.ranked e.1) = t.entries := by
      rw [List.filter_eq_self]
      intro e he
      obtain ⟨m, hm⟩ := hk e he
      simp [Ranking.ranked, Ranking.some, hm, Functor.map, Except.map]
    rw [this]
  · intro a b hab m n hm hn
    refine hab m n ?_ ?_
    · simp [Ranking.some, hm, Functor.map, Except.map]
    · simp [Ranking.some, hn, Functor.map, Except.map]

/-- C13: `min_by` returns `None` iff the tree is empty, and otherwise an entry of least rank. -/
theorem C13_min_by (h : Reachable c P t) (hp : IterHeap B K V M) {r : Ranking B K M} (hr : r.Honours P)
    (hd : r.DefinedOn t) {es : List (K × V)} (hes : t.iter = .ok es) :
    ∃ o, t.minBy hp r = .ok o ∧ (o = none ↔ es = []) ∧
      ∀ e, o = some e → e ∈ es ∧ ∀ e' ∈ es, ∀ m n, r.rankKey e.1 = .ok m → r.rankKey e'.1 = .ok n → m ≤ n := by
  obtain rfl : t.entries = es := by simpa [h.iter_eq] using hes
  rw [Tree.minBy_eq]
  have hs := Tree.sat_filterMinBy (hp := hp) (h.rankOk hr.some)
  have hall : t.entries.filter (fun e => r.some.ranked e.1) = t.entries := by
    rw [List.filter_eq_self]
    intro e he
    obtain ⟨m, hm⟩ := hd.2 e he
    simp [Ranking.ranked, Ranking.some, hm, Functor.map, Except.map]
  cases ho : t.filterMinBy hp r.some with
  | error e => rw [ho] at hs; exact absurd hd.some hs
  | ok o =>
    rw [ho] at hs
    refine ⟨o, rfl, ?_⟩
    cases o with
    | none =>
      have hs : t.entries.filter (fun e => r.some.ranked e.1) = [] := hs
      exact ⟨by simpa [hall] using hs, fun e he => by cases he⟩
    | some e =>
      obtain ⟨h1, m, h2, h3⟩ := hs
      refine ⟨⟨fun h => by (cases h), fun h => by rw [h] at h1; cases h1⟩, ?_⟩
      rintro e' he'
      injection he' with he'
      subst he'
      refine ⟨h1, fun e' he' m' n' hm' hn' => ?_⟩
      have : m = m' := by simpa [Ranking.some, hm', Functor.map, Except.map] using h2.symm
      subst this
      exact h3 e' he' n' (by simp [Ranking.some, hn', Functor.map, Except.map])

/-- C13, without assuming that the ranking returns everywhere: a returned entry is in the tree and has least rank among the
    entries with a rank. -/
theorem C13_min_by_returned (h : Reachable c P t) (hp : IterHeap B K V M) {r : Ranking B K M} (hr : r.Honours P)
    {es : List (K × V)} (hes : t.iter = .ok es) {e : K × V} (ho : t.minBy hp r = .ok (some e)) :
    e ∈ es ∧ ∃ m, r.rankKey e.1 = .ok m ∧ ∀ e' ∈ es, ∀ n, r.rankKey e'.1 = .ok n → m ≤ n := by
  obtain rfl : t.entries = es := by simpa [h.iter_eq] using hes
  rw [Tree.minBy_eq] at ho
  have hs := Tree.sat_filterMinBy (hp := hp) (h.rankOk hr.some)
  rw [ho] at hs
  obtain ⟨h1, m, h2, h3⟩ := hs
  obtain ⟨m', hm', hm⟩ := map_eq_ok.1 h2
  injection hm with hm
  subst hm
  exact ⟨h1, m', hm', fun e' he' n hn => h3 e' he' n (by simp [Ranking.some, hn, Functor.map, Except.map])⟩

/-! ## C15: rankings with `None` -/

/-- C15: `filter_iter_asc_by` yields exactly the entries whose rank is not `None`, each once, in non-decreasing rank. -/
theorem C15_filter_iter_asc_by (h : Reachable c P t) (hp : IterHeap B K V S) {r : Ranking B K (Option S)}
    (hr : r.FilterHonours P) (hd : r.DefinedOn t) {es : List (K × V)} (hes : t.iter = .ok es) :
    ∃ out, t.filterIterAscBy hp r = .ok out ∧ out.Perm (es.filter fun e => r.ranked e.1) ∧
      out.Pairwise fun a b => ∀ m n, r.rankKey a.1 = .ok (some m) → r.rankKey b.1 = .ok (some n) → m ≤ n := by
  obtain rfl : t.entries = es := by simpa [h.iter_eq] using hes
  have hs := Tree.sat_filterIterAscBy (hp := hp) (h.rankOk hr)
  cases ho : t.filterIterAscBy hp r with
  | error e => rw [ho] at hs; exact absurd hd hs
  | ok out => rw [ho] at hs; exact ⟨out, rfl, hs.1, hs.2⟩

/-- C15: `filter_min_by` returns an entry of least rank among those whose rank is not `None`, or `None` iff there is
    none. -/
theorem C15_filter_min_by (h : Reachable c P t) (hp : IterHeap B K V S) {r : Ranking B K (Option S)}
    (hr : r.FilterHonours P) (hd : r.DefinedOn t) {es : List (K × V)} (hes : t.iter = .ok es) :
    ∃ o, t.filterMinBy hp r = .ok o ∧ (o = none ↔ ∀ e ∈ es, r.rankKey e.1 = .ok none) ∧
      ∀ e, o = some e → e ∈ es ∧ ∃ m, r.rankKey e.1 = .ok (some m) ∧
        ∀ e' ∈ es, ∀ n, r.rankKey e'.1 = .ok (some n) → m ≤ n := by
  obtain rfl : t.entries = es := by simpa [h.iter_eq] using hes
  have hs := Tree.sat_filterMinBy (hp := hp) (h.rankOk hr)
  cases ho : t.filterMinBy hp r with
  | error e => rw [ho] at hs; exact absurd hd hs
  | ok o =>
    rw [ho] at hs
    refine ⟨o, rfl, ?_⟩
    cases o with
    | none =>
      have hs : t.entries.filter (fun e => r.ranked e.1) = [] := hs
      rw [List.filter_eq_nil_iff] at hs
      refine ⟨⟨fun _ e he => ?_, fun _ => rfl⟩, fun e he => by cases he⟩
      obtain ⟨m, hm⟩ := hd.2 e he
      have := hs e he
      cases m with
      | none => exact hm
      | some m => simp [Ranking.ranked, hm] at this
    | some e =>
      obtain ⟨h1, m, h2, h3⟩ := hs
      refine ⟨⟨fun h => by (cases h), fun h => ?_⟩, ?_⟩
      · have := h e h1; rw [h2] at this; cases this
      · rintro e' he'
        injection he' with he'
        subst he'
        exact ⟨h1, m, h2, h3⟩

/-! ## C29: mutable sorted iteration -/

/-- C29: `iter_asc_by_mut` hands out one reference to each value of the tree (`es.zipIdx` pairs each entry with its
    place), never the same twice, in non-decreasing rank. -/
theorem C29_iter_asc_by_mut (h : Reachable c P t) (hp : IterHeap B K Nat M) {r : Ranking B K M} (hr : r.Honours P)
    (hd : r.DefinedOn t) {es : List (K × V)} (hes : t.iter = .ok es) :
    ∃ refs, t.iterAscByMut hp r = .ok refs ∧ refs.Perm (es.zipIdx.map fun e => (e.1.1, e.2)) ∧
      (refs.map Prod.snd).Nodup ∧
      refs.Pairwise fun a b => ∀ m n, r.rankKey a.1 = .ok m → r.rankKey b.1 = .ok n → m ≤ n := by
  obtain rfl : t.entries = es := by simpa [h.iter_eq] using hes
  unfold Tree.iterAscByMut
  rw [Tree.iterAscBy_eq]
  have hs := Tree.sat_filterIterAscBy (hp := hp) (h.rankOk_addressed hr.some)
  cases ho : t.addressed.filterIterAscBy hp r.some with
  | error e => rw [ho] at hs; exact absurd hd.some hs
  | ok out =>
    rw [ho] at hs
    have hperm : out.Perm t.addressed.entries := by
      refine hs.1.trans ?_
      have : t.addressed.entries.filter (fun e => r.some.ranked e.1) = t.addressed.entries := by
        rw [List.filter_eq_self]
        intro e he
        rw [t.entries_addressed] at he
        obtain ⟨p, hp', rfl⟩ := List.mem_map.1 he
        obtain ⟨m, hm⟩ := hd.2 p.1 (List.fst_mem_of_mem_zipIdx hp')
        simp [Ranking.ranked, Ranking.some, hm, Functor.map, Except.map]
      rw [this]
    refine ⟨out, rfl, ?_, ?_, hs.2.imp ?_⟩
    · rw [t.entries_addressed] at hperm; exact hperm
    · exact (hperm.map Prod.snd).nodup_iff.2 t.addressed_nodup
    · intro a b hab m n hm hn
      refine hab m n ?_ ?_
      · simp [Ranking.some, hm, Functor.map, Except.map]
      · simp [Ranking.some, hn, Functor.map, Except.map]

/-- C29: `filter_iter_asc_by_mut` hands out one reference to each value whose key has a rank, never the same twice, in
    non-decreasing rank. -/
theorem C29_filter_iter_asc_by_mut (h : Reachable c P t) (hp : IterHeap B K Nat S) {r : Ranking B K (Option S)}
    (hr : r.FilterHonours P) (hd : r.DefinedOn t) {es : List (K × V)} (hes : t.iter = .ok es) :
    ∃ refs, t.filterIterAscByMut hp r = .ok refs ∧
      refs.Perm ((es.zipIdx.map fun e => (e.1.1, e.2)).filter fun e => r.ranked e.1) ∧
      (refs.map Prod.snd).Nodup ∧
      refs.Pairwise fun a b => ∀ m n, r.rankKey a.1 = .ok (some m) → r.rankKey b.1 = .ok (some n) → m ≤ n := by
  obtain rfl : t.entries = es := by simpa [h.iter_eq] using hes
  unfold Tree.filterIterAscByMut
  have hs := Tree.sat_filterIterAscBy (hp := hp) (h.rankOk_addressed hr)
  cases ho : t.addressed.filterIterAscBy hp r with
  | error e => rw [ho] at hs; exact absurd hd hs
  | ok out =>
    rw [ho] at hs
    refine ⟨out, rfl, ?_, ?_, hs.2⟩
    · have := hs.1; rw [t.entries_addressed] at this; exact this
    · refine (hs.1.map Prod.snd).nodup_iff.2 ?_
      exact t.addressed_nodup.sublist (List.filter_sublist.map _)

/-- C29: the mutable versions agree with the shared ones, for one and the same generic heap: the `i`-th reference handed
    out is the one to the value of the `i`-th entry yielded. -/
theorem C29_same_entries (h : Reachable c P t) (u : UniformHeap (Score S)) {r : Ranking B K (Option S)}
    (hr : r.FilterHonours P) (hd : r.DefinedOn t) {es : List (K × V)} (hes : t.iter = .ok es) :
    ∃ ps : List (K × V × Nat), (∀ p ∈ ps, es[p.2.2]? = some (p.1, p.2.1)) ∧
      t.filterIterAscBy (u.heap _) r = .ok (ps.map fun p => (p.1, p.2.1)) ∧
      t.filterIterAscByMut (u.heap _) r = .ok (ps.map fun p => (p.1, p.2.2)) := by
  obtain rfl : t.entries = es := by simpa [h.iter_eq] using hes
  have hrk : RankOk r (r.DefinedOn t) t.paired.level t.paired.root := by
    rw [← rankOk_erase]
    have : t.paired.root.erase = t.root.erase := by
      rw [← Node.erase_mapV Prod.fst]
      exact congrArg (fun x : Tree B K V => x.root.erase) t.paired_fst
    rw [this, rankOk_erase]
    exact h.rankOk hr
  have hs := Tree.sat_filterIterAscBy (hp := u.heap _) hrk
  cases ho : t.paired.filterIterAscBy (u.heap _) r with
  | error e => rw [ho] at hs; exact absurd hd hs
  | ok ps =>
    rw [ho] at hs
    refine ⟨ps, fun p hp => ?_, ?_, ?_⟩
    · have := (List.mem_filter.1 (hs.1.mem_iff.1 hp)).1
      rw [t.entries_paired] at this
      obtain ⟨q, hq, rfl⟩ := List.mem_map.1 this
      simpa using List.mem_zipIdx_iff_getElem?.1 hq
    · have := Tree.filterIterAscBy_mapV u r Prod.fst t.paired
      rw [t.paired_fst, ho] at this
      exact this
    · have := Tree.filterIterAscBy_mapV u r Prod.snd t.paired
      rw [t.paired_snd, ho] at this
      exact this

/-- C29: `min_by_mut` and `filter_min_by_mut` return the reference to the value of the entry the shared versions return, for
    one and the same generic heap. -/
theorem C29_same_min (h : Reachable c P t) (u : UniformHeap (Score S)) {r : Ranking B K (Option S)}
    (hr : r.FilterHonours P) (hd : r.DefinedOn t) {es : List (K × V)} (hes : t.iter = .ok es) :
    ∃ o : Option (K × V × Nat), (∀ p ∈ o, es[p.2.2]? = some (p.1, p.2.1)) ∧
      t.filterMinBy (u.heap _) r = .ok (o.map fun p => (p.1, p.2.1)) ∧
      t.filterMinByMut (u.heap _) r = .ok (o.map fun p => (p.1, p.2.2)) := by
  obtain rfl : t.entries = es := by simpa [h.iter_eq] using hes
  have hrk : RankOk r (r.DefinedOn t) t.paired.level t.paired.root := by
    rw [← rankOk_erase]
    have : t.paired.root.erase = t.root.erase := by
      rw [← Node.erase_mapV Prod.fst]
      exact congrArg (fun x : Tree B K V => x.root.erase) t.paired_fst
    rw [this, rankOk_erase]
    exact h.rankOk hr
  have hs := Tree.sat_filterMinBy (hp := u.heap _) hrk
  cases ho : t.paired.filterMinBy (u.heap _) r with
  | error e => rw [ho] at hs; exact absurd hd hs
  | ok o =>
    rw [ho] at hs
    refine ⟨o, fun p hp => ?_, ?_, ?_⟩
    · have hp : o = some p := hp
      subst hp
      have := hs.1
      rw [t.entries_paired] at this
      obtain ⟨q, hq, rfl⟩ := List.mem_map.1 this
      simpa using List.mem_zipIdx_iff_getElem?.1 hq
    · have := Tree.filterMinBy_mapV u r Prod.fst t.paired
      rw [t.paired_fst, ho] at this
      exact this
    · have := Tree.filterMinBy_mapV u r Prod.snd t.paired
      rw [t.paired_snd, ho] at this
      exact this

end RTree
