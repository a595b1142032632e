import Verif.Proofs.Lazy
import Verif.Props.SortedCalls
/-!
# Sorted iteration is lazy (C71)

What the first results are depends only on the answers of the ranking about the root and about the children of nodes whose lower bound is at most the rank of the last
result: `r'` may answer differently, dishonour its contract or panic everywhere else.
-/

namespace RTree

variable {B K V M S : Type} [Bounds B] [Volume B] [Bounded K B] [BEq K] [Enclosure B] [LE M] [Std.IsPreorder M] [LE S]
  [Std.IsPreorder S]
variable {c : Config} {P : K → Prop} {t : Tree B K V}

/-! ## Rankings without `None` -/

/-- C71: the first `k` entries of `iter_asc_by`, with ranks up to `m`, do not depend on what the ranking says about anything below nodes whose `bounds_min` is not at
    most `m`. -/
theorem C71_iter_asc_by (h : Reachable c P t) (hp : IterHeap B K V M) {r r' : Ranking B K M} (hr : r.Honours P) {k : Nat} {es : List (K × V)}
    (hes : t.firstAscBy hp r k = .ok es) (hk : es.length = k) {m : M} (hm : ∀ e ∈ es, ∀ q, r.rankKey e.1 = .ok q → q ≤ m)
    (hs : r.SameWhere (· ≤ m) r' t) : t.firstAscBy hp r' k = .ok es := by
  rw [Tree.firstAscBy_eq] at hes ⊢
  refine Tree.filterFirst_same (lim := fun o => ∃ q, o = some q ∧ q ≤ m) (h.rankOk hr.some) hes
    (hs.some fun q hq => by obtain ⟨q', h1, h2⟩ := hq; cases h1; exact h2) ?_ (fun hlt => by omega)
  intro e he q hq q' hq'
  obtain ⟨q'', h1, h2⟩ := map_eq_ok.1 hq
  cases h2
  exact ⟨q', rfl, Std.IsPreorder.le_trans _ _ _ hq' (hm e he _ h1)⟩

/-- C71: the result of `min_by` does not depend on what the ranking says about anything below nodes whose `bounds_min` is not at most its rank. -/
theorem C71_min_by (h : Reachable c P t) (hp : IterHeap B K V M) {r r' : Ranking B K M} (hr : r.Honours P) {e : K × V}
    (he : t.minBy hp r = .ok (some e)) {m : M} (hm : r.rankKey e.1 = .ok m) (hs : r.SameWhere (· ≤ m) r' t) : t.minBy hp r' = .ok (some e) := by
  have h1 : t.firstAscBy hp r 1 = .ok [e] := by
    rw [Tree.firstAscBy_eq, Tree.filterMinBy_first, ← Tree.minBy_eq, he]; rfl
  have h2 := C71_iter_asc_by h hp hr h1 rfl (m := m)
    (fun e' he' q hq => by
      obtain rfl := List.mem_singleton.1 he'
      rw [hm] at hq; cases hq; exact Std.IsPreorder.le_refl _) hs
  rw [Tree.firstAscBy_eq, Tree.filterMinBy_first, ← Tree.minBy_eq] at h2
  obtain ⟨o, h3, h4⟩ := bind_eq_ok.1 h2
  rw [h3]
  cases o with
  | none => cases h4
  | some e' => cases h4; rfl

/-- C71: the first `k` entries of `iter_asc_by` are `k` entries of least rank (all entries if there are at most `k`), in non-decreasing rank; if the ranking does not
    panic on the tree, nor does this. -/
theorem C71_k_least (h : Reachable c P t) (hp : IterHeap B K V M) {r : Ranking B K M} (hr : r.Honours P) (hd : r.DefinedOn t) {es : List (K × V)}
    (hes : t.iter = .ok es) (k : Nat) :
    ∃ out rest, t.firstAscBy hp r k = .ok out ∧ (out ++ rest).Perm es ∧ out.length = min k es.length ∧
      (out.Pairwise fun a b => ∀ m n, r.rankKey a.1 = .ok m → r.rankKey b.1 = .ok n → m ≤ n) ∧
      ∀ a ∈ out, ∀ b ∈ rest, ∀ m n, r.rankKey a.1 = .ok m → r.rankKey b.1 = .ok n → m ≤ n := by
  obtain rfl : t.entries = es := by simpa [h.iter_eq] using hes
  rw [Tree.firstAscBy_eq]
  have hs := Tree.sat_filterFirst (hp := hp) (h.rankOk hr.some) k
  cases ho : t.filterFirstAscBy hp r.some k with
  | error e => rw [ho] at hs; exact absurd hd.some hs
  | ok out =>
    rw [ho] at hs
    obtain ⟨rest, h1, h2, h3, h4, h5⟩ := hs
    have hall : t.entries.filter (fun e => r.some.ranked e.1) = t.entries := by
      rw [List.filter_eq_self]
      intro e he
      obtain ⟨m, hm⟩ := hd.2 e he
      simp [Ranking.ranked, Ranking.some, hm, Functor.map, Except.map]
    rw [hall] at h1
    have hsome : ∀ (e : K × V) m, r.rankKey e.1 = .ok m → r.some.rankKey e.1 = .ok (some m) := fun e m hm => by
      simp [Ranking.some, hm, Functor.map, Except.map]
    refine ⟨out, rest, rfl, h1, ?_, h4.imp fun hab m n hm hn => hab m n (hsome _ _ hm) (hsome _ _ hn),
      fun a ha b hb m n hm hn => h5 a ha b hb m n (hsome _ _ hm) (hsome _ _ hn)⟩
    have hlen := h1.length_eq
    rw [List.length_append] at hlen
    by_cases hlt : out.length < k
    · rw [h3 hlt] at hlen
      simp only [List.length_nil] at hlen
      omega
    · omega

/-! ## Rankings with `None` -/

/-- C71: the same for `filter_iter_asc_by`: nothing is asked about below nodes whose `bounds_min` is `None` or more than the rank of the last entry yielded. -/
theorem C71_filter_iter_asc_by (h : Reachable c P t) (hp : IterHeap B K V S) {r r' : Ranking B K (Option S)} (hr : r.FilterHonours P) {k : Nat}
    {es : List (K × V)} (hes : t.filterFirstAscBy hp r k = .ok es) (hk : es.length = k) {m : S}
    (hm : ∀ e ∈ es, ∀ q, r.rankKey e.1 = .ok (some q) → q ≤ m) (hs : r.SameWhere (fun o => ∃ q, o = some q ∧ q ≤ m) r' t) :
    t.filterFirstAscBy hp r' k = .ok es :=
  Tree.filterFirst_same (h.rankOk hr) hes hs (fun e he q hq q' hq' => ⟨q', rfl, Std.IsPreorder.le_trans _ _ _ hq' (hm e he _ hq)⟩) (fun hlt => by omega)

/-- C71: the same for `filter_iter_asc_by_mut`. -/
theorem C71_filter_iter_asc_by_mut (h : Reachable c P t) (hp : IterHeap B K Nat S) {r r' : Ranking B K (Option S)} (hr : r.FilterHonours P) {k : Nat}
    {refs : List (K × Nat)} (hes : t.filterFirstAscByMut hp r k = .ok refs) (hk : refs.length = k) {m : S}
    (hm : ∀ e ∈ refs, ∀ q, r.rankKey e.1 = .ok (some q) → q ≤ m) (hs : r.SameWhere (fun o => ∃ q, o = some q ∧ q ≤ m) r' t) :
    t.filterFirstAscByMut hp r' k = .ok refs :=
  Tree.filterFirst_same (h.rankOk_addressed hr) hes hs.addressed (fun e he q hq q' hq' => ⟨q', rfl, Std.IsPreorder.le_trans _ _ _ hq' (hm e he _ hq)⟩)
    (fun hlt => by omega)

/-- C71: the same for `filter_min_by`. -/
theorem C71_filter_min_by (h : Reachable c P t) (hp : IterHeap B K V S) {r r' : Ranking B K (Option S)} (hr : r.FilterHonours P) {e : K × V}
    (he : t.filterMinBy hp r = .ok (some e)) {m : S} (hm : r.rankKey e.1 = .ok (some m)) (hs : r.SameWhere (fun o => ∃ q, o = some q ∧ q ≤ m) r' t) :
    t.filterMinBy hp r' = .ok (some e) := by
  have h1 : t.filterFirstAscBy hp r 1 = .ok [e] := by rw [Tree.filterMinBy_first, he]; rfl
  have h2 := C71_filter_iter_asc_by h hp hr h1 rfl (m := m)
    (fun e' he' q hq => by
      obtain rfl := List.mem_singleton.1 he'
      rw [hm] at hq; cases hq; exact Std.IsPreorder.le_refl _) hs
  rw [Tree.filterMinBy_first] at h2
  obtain ⟨o, h3, h4⟩ := bind_eq_ok.1 h2
  rw [h3]
  cases o with
  | none => cases h4
  | some e' => cases h4; rfl

/-- C71: when `filter_iter_asc_by` runs out of entries, nothing was asked about below nodes whose `bounds_min` is `None`. -/
theorem C71_filter_exhausted (h : Reachable c P t) (hp : IterHeap B K V S) {r r' : Ranking B K (Option S)} (hr : r.FilterHonours P) {k : Nat}
    {es : List (K × V)} (hes : t.filterFirstAscBy hp r k = .ok es) (hs : r.SameWhere (fun o => o ≠ none) r' t) : t.filterFirstAscBy hp r' k = .ok es :=
  Tree.filterFirst_same (h.rankOk hr) hes hs (fun _ _ _ _ _ _ => by simp) (fun _ _ => by simp)

/-- C71: taking the first `k` entries is taking the first `k` of all. -/
theorem C71_prefix (hp : IterHeap B K V S) {r : Ranking B K (Option S)} {out : List (K × V)} (ho : t.filterIterAscBy hp r = .ok out) (k : Nat) :
    t.filterFirstAscBy hp r k = .ok (out.take k) :=
  Tree.filterFirst_take ho k

/-! ## Examples -/

section Examples

/-- The distance to (2, 2), for three keys; a panic for all others. -/
def narrowRank : Ranking (AABB I32 2) (AABB I32 2) I32 where
  boundsMin := (euclidBoxes (pt 2 2)).boundsMin
  rankKey k := if k ∈ [box 8 8 9 9, box 2 2 3 3, box 5 5 6 6] then (euclidBoxes (pt 2 2)).rankKey k else .error .arithmetic

/-- Is this a node that must be looked into, with a key on which `narrowRank` panics? -/
def narrowBad : Node (AABB I32 2) (AABB I32 2) Nat → Bool
  | .leaf b es => match (euclidBoxes (pt 2 2)).boundsMin b with
    | .ok q => decide (q ≤ i32 0) && es.any fun e => decide (e.1 ∉ [box 8 8 9 9, box 2 2 3 3, box 5 5 6 6])
    | .error _ => false
  | .inner _ _ => false

/-- The key at (2, 2) is found although the ranking panics on the keys of the first and of the third leaf. -/
example : sampleTree.minBy ((RTree.BinaryHeap.stdHeap I32).heap _) narrowRank = .ok (some (box 2 2 3 3, 4)) := by
  have h1 : sampleTree.minBy ((RTree.BinaryHeap.stdHeap I32).heap _) (euclidBoxes (pt 2 2)) = .ok (some (box 2 2 3 3, 4)) := by
    rw [Res.ok_getD (x := sampleTree.minBy ((RTree.BinaryHeap.stdHeap I32).heap _) (euclidBoxes (pt 2 2))) none (by decide +kernel)]
    congr 1
    decide +kernel
  refine C71_min_by (m := i32 0) sample_reachable _ (C38_honours_boxes _ fun _ hk => hk.2) h1 ?_ ⟨rfl, fun _ _ _ _ _ _ _ _ => rfl, ?_⟩
  · rw [Res.ok_getD (x := (euclidBoxes (pt 2 2)).rankKey (box 2 2 3 3)) (i32 1) (by decide +kernel)]
    congr 1
  · intro b es m hn hb hm e he
    have hall : ∀ n ∈ sampleTree.nodes, narrowBad n = false := by decide +kernel
    have := hall _ hn
    have hin : e.1 ∈ [box 8 8 9 9, box 2 2 3 3, box 5 5 6 6] := by
      by_contra hc
      have hbad : narrowBad (.leaf b es) = true := by
        simp only [narrowBad, hb, Bool.and_eq_true, decide_eq_true_eq, List.any_eq_true]
        exact ⟨hm, e, he, hc⟩
      rw [this] at hbad
      cases hbad
    exact if_pos hin

/-- It does panic on them. -/
example : (sampleTree.iterAscBy ((RTree.BinaryHeap.stdHeap I32).heap _) narrowRank).isOk = false := by decide +kernel

/-- The hypotheses of `C71_k_least` are met: the three boxes nearest to (6, 7). -/
example : ∃ out rest, sampleTree.firstAscBy ((RTree.BinaryHeap.stdHeap I32).heap _) (euclidBoxes (pt 6 7)) 3 = .ok out ∧ (out ++ rest).Perm sampleEntries ∧ out.length = 3 := by
  obtain ⟨out, rest, h1, h2, h3, -⟩ := C71_k_least sample_reachable ((RTree.BinaryHeap.stdHeap I32).heap _) (C38_honours_boxes (pt 6 7) fun _ hk => hk.2) sample_defined sample_iter 3
  exact ⟨out, rest, h1, h2, h3⟩

end Examples

end RTree
