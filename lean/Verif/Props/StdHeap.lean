import Verif.Props.Sorted
import Verif.Proofs.BinaryHeap
/-!
# Sorted iteration with the heap of the standard library (C12, C13, C15, C29)

The theorems of `Verif/Props/Sorted.lean` hold for every priority queue.  Here the queue is the one the crate uses: an array with the heap order, with
`sift_up` and `sift_down_to_bottom` as in `std` (`Verif/Model/BinaryHeap.lean`).
-/

namespace RTree

variable {B K V M : Type} [Bounds B] [Volume B] [Bounded K B] [BEq K] [Enclosure B] [LE M] [Std.IsLinearPreorder M] [DecidableLE M]
variable {c : Config} {P : K → Prop} {t : Tree B K V}

/-- C12 with the heap of `std`: `iter_asc_by` yields every entry exactly once, in non-decreasing rank. -/
theorem C12_std_heap (h : Reachable c P t) {r : Ranking B K M} (hr : r.Honours P) (hd : r.DefinedOn t) {es : List (K × V)} (hes : t.iter = .ok es) :
    ∃ out, t.iterAscBy ((BinaryHeap.stdHeap M).heap _) r = .ok out ∧ out.Perm es ∧
      out.Pairwise fun a b => ∀ m n, r.rankKey a.1 = .ok m → r.rankKey b.1 = .ok n → m ≤ n :=
  C12_iter_asc_by h _ hr hd hes

/-- C13 with the heap of `std`: `min_by` returns `None` iff the tree is empty, and otherwise an entry of least rank. -/
theorem C13_std_heap (h : Reachable c P t) {r : Ranking B K M} (hr : r.Honours P) (hd : r.DefinedOn t) {es : List (K × V)} (hes : t.iter = .ok es) :
    ∃ o, t.minBy ((BinaryHeap.stdHeap M).heap _) r = .ok o ∧ (o = none ↔ es = []) ∧
      ∀ e, o = some e → e ∈ es ∧ ∀ e' ∈ es, ∀ m n, r.rankKey e.1 = .ok m → r.rankKey e'.1 = .ok n → m ≤ n :=
  C13_min_by h _ hr hd hes

/-- C15 with the heap of `std`: `filter_iter_asc_by` yields exactly the entries whose rank is not `None`, each once, in non-decreasing rank. -/
theorem C15_std_heap (h : Reachable c P t) {r : Ranking B K (Option M)} (hr : r.FilterHonours P) (hd : r.DefinedOn t) {es : List (K × V)} (hes : t.iter = .ok es) :
    ∃ out, t.filterIterAscBy ((BinaryHeap.stdHeap M).heap _) r = .ok out ∧ out.Perm (es.filter fun e => r.ranked e.1) ∧
      out.Pairwise fun a b => ∀ m n, r.rankKey a.1 = .ok (some m) → r.rankKey b.1 = .ok (some n) → m ≤ n :=
  C15_filter_iter_asc_by h _ hr hd hes

/-- C29 with the heap of `std`: `filter_iter_asc_by_mut` hands out one reference to each value whose key has a rank, never the same twice, in
    non-decreasing rank, and its `i`-th reference is the one to the value of the `i`-th entry of `filter_iter_asc_by`. -/
theorem C29_std_heap (h : Reachable c P t) {r : Ranking B K (Option M)} (hr : r.FilterHonours P) (hd : r.DefinedOn t) {es : List (K × V)} (hes : t.iter = .ok es) :
    ∃ ps : List (K × V × Nat), (∀ p ∈ ps, es[p.2.2]? = some (p.1, p.2.1)) ∧ (ps.map fun p => p.2.2).Nodup ∧
      t.filterIterAscBy ((BinaryHeap.stdHeap M).heap _) r = .ok (ps.map fun p => (p.1, p.2.1)) ∧
      t.filterIterAscByMut ((BinaryHeap.stdHeap M).heap _) r = .ok (ps.map fun p => (p.1, p.2.2)) := by
  obtain ⟨ps, h1, h2, h3⟩ := C29_same_entries h (BinaryHeap.stdHeap M) hr hd hes
  obtain ⟨refs, h4, _, h5, _⟩ := C29_filter_iter_asc_by_mut h ((BinaryHeap.stdHeap M).heap _) hr hd hes
  rw [h3] at h4
  obtain rfl := Except.ok.inj h4
  rw [List.map_map] at h5
  exact ⟨ps, h1, h5, h2, h3⟩

end RTree
