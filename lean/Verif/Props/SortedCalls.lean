import Verif.Proofs.CallsSorted
import Verif.Props.Nearest
import Verif.Props.Callbacks
/-!
# Sorted iterators with rankings that panic or answer inconsistently (C66)

On the `BinaryHeap` of the standard library.
-/

namespace RTree.Calls

section Main

variable {B K V Mt : Type} [Bounds B] [Volume B] [Bounded K B] [BEq K]
variable {c : Config} {P : K → Prop} {t : Tree B K V}

/-- C66: making an iterator asks the ranking once, about the bounds of the root; then any number of calls of `next`, with panics of the ranking and of comparisons
    caught, goes as told in `SortedStory`: the crate never panics itself and has no undefined behaviour; an entry that does not come was turned down (its rank or
    the lower bound for a node above it was `None` once), or was lost to a panic, which costs one entry or the last entries below one node. -/
theorem C66_filter_iter_asc_by (h : Reachable c P t) (code : Nat → RankCode B K (Option Mt) Mt) (s₀ : SortedHeap B K V Mt) {es : List (K × V)} (hes : t.iter = .ok es) :
    match (code 0).boundsMin t.root.bounds with
    | none => FilterSortedIter.new code t.level t.root s₀ 0 = (.error .user, [], 1)
    | some o => ∃ s, FilterSortedIter.new code t.level t.root s₀ 0 = (.ok (), s, 1) ∧
        ∀ k, ∃ outs s' n', FilterSortedIter.nexts code t.sortedFuel k s 1 = (.ok outs, s', n') ∧ outs.length = k ∧
          SortedStory (filterSortedQuery t.nodes) RankCode.Panics code 1 (if o.isSome then es else []) outs := by
  obtain rfl : t.entries = es := by simpa [h.iter_eq] using hes
  exact filter_sorted_of_shape h.shape code s₀

/-- C66: the same for `iter_asc_by`, where nothing is turned down: entries are lost to panics only. -/
theorem C66_iter_asc_by (h : Reachable c P t) (code : Nat → RankCode B K Mt Mt) (s₀ : SortedHeap B K V Mt) {es : List (K × V)} (hes : t.iter = .ok es) :
    match (code 0).boundsMin t.root.bounds with
    | none => SortedIter.new code t.level t.root s₀ 0 = (.error .user, [], 1)
    | some _ => ∃ s, SortedIter.new code t.level t.root s₀ 0 = (.ok (), s, 1) ∧
        ∀ k, ∃ outs s' n', SortedIter.nexts code t.sortedFuel k s 1 = (.ok outs, s', n') ∧ outs.length = k ∧
          SortedStory (sortedQuery t.nodes) RankCode.Panics code 1 es outs := by
  have h1 := C66_filter_iter_asc_by h (fun n => (code n).some) s₀ hes
  dsimp only [RankCode.some] at h1
  cases hb : (code 0).boundsMin t.root.bounds with
  | none =>
    rw [hb] at h1
    rw [← new_some]
    exact h1
  | some m =>
    rw [hb] at h1
    obtain ⟨s, h2, h3⟩ := h1
    refine ⟨s, by rw [← new_some]; exact h2, fun k => ?_⟩
    obtain ⟨outs, s', n', h4, h5, h6⟩ := h3 k
    exact ⟨outs, s', n', by rw [← nexts_some]; exact h4, h5, story_some h6⟩

/-- C66: whatever the ranking and the order do, what `iter_asc_by` yields over its whole life, before and after panics, are entries of the tree, none more often
    than it is stored; the crate does not panic. -/
theorem C66_entries (h : Reachable c P t) (code : Nat → RankCode B K Mt Mt) {s₀ s s' : SortedHeap B K V Mt} {n n' k : Nat}
    {outs : List (Except Stop (Option (K × V)))} (hs : SortedIter.new code t.level t.root s₀ 0 = (.ok (), s, n))
    (hk : SortedIter.nexts code t.sortedFuel k s n = (.ok outs, s', n')) {es : List (K × V)} (hes : t.iter = .ok es) :
    (∃ others, es.Perm (yields outs ++ others)) ∧ ∀ p, .error (.own p) ∉ outs := by
  have h1 := C66_iter_asc_by h code s₀ hes
  split at h1
  · rw [hs] at h1; cases h1
  · obtain ⟨s₁, h2, h3⟩ := h1
    rw [hs] at h2
    cases h2
    obtain ⟨outs', s'', n'', h4, -, h5⟩ := h3 k
    rw [hk] at h4
    cases h4
    exact ⟨h5.sub, h5.no_own⟩

/-- C66: the same for `filter_iter_asc_by`. -/
theorem C66_filter_entries (h : Reachable c P t) (code : Nat → RankCode B K (Option Mt) Mt) {s₀ s s' : SortedHeap B K V Mt} {n n' k : Nat}
    {outs : List (Except Stop (Option (K × V)))} (hs : FilterSortedIter.new code t.level t.root s₀ 0 = (.ok (), s, n))
    (hk : FilterSortedIter.nexts code t.sortedFuel k s n = (.ok outs, s', n')) {es : List (K × V)} (hes : t.iter = .ok es) :
    (∃ others, es.Perm (yields outs ++ others)) ∧ ∀ p, .error (.own p) ∉ outs := by
  have h1 := C66_filter_iter_asc_by h code s₀ hes
  split at h1
  · rw [hs] at h1; cases h1
  · next o _ =>
    obtain ⟨s₁, h2, h3⟩ := h1
    rw [hs] at h2
    cases h2
    obtain ⟨outs', s'', n'', h4, -, h5⟩ := h3 k
    rw [hk] at h4
    cases h4
    refine ⟨?_, h5.no_own⟩
    cases o with
    | some m => exact h5.sub
    | none =>
      obtain ⟨others, h6⟩ := h5.sub
      refine ⟨es, ?_⟩
      rw [(List.append_eq_nil_iff.1 h6.symm.eq_nil).1]
      exact .refl _

/-- C66: `iter_asc_by_mut` never hands out two references to the same value, whatever the ranking and the order do, also after panics. -/
theorem C66_no_alias (h : Reachable c P t) (code : Nat → RankCode B K Mt Mt) {s₀ s s' : SortedHeap B K Nat Mt} {n n' k : Nat}
    {outs : List (Except Stop (Option (K × Nat)))} (hs : SortedIter.new code t.addressed.level t.addressed.root s₀ 0 = (.ok (), s, n))
    (hk : SortedIter.nexts code t.addressed.sortedFuel k s n = (.ok outs, s', n')) : ((yields outs).map Prod.snd).Nodup := by
  rw [← new_some] at hs
  rw [← nexts_some] at hk
  have h1 := filter_sorted_of_shape h.addressed_shape (fun n => (code n).some) s₀
  split at h1
  · rw [hs] at h1; cases h1
  · next o ho =>
    obtain ⟨s₁, h2, h3⟩ := h1
    rw [hs] at h2
    cases h2
    obtain ⟨outs', s'', n'', h4, -, h5⟩ := h3 k
    rw [hk] at h4
    cases h4
    obtain ⟨others, h6⟩ := h5.sub
    cases o with
    | some m =>
      have h7 := (h6.map Prod.snd).nodup_iff.1 t.addressed_nodup
      rw [List.map_append] at h7
      exact (List.nodup_append.1 h7).1
    | none => rw [(List.append_eq_nil_iff.1 h6.symm.eq_nil).1]; exact .nil

/-- C66: the same for `filter_iter_asc_by_mut`. -/
theorem C66_filter_no_alias (h : Reachable c P t) (code : Nat → RankCode B K (Option Mt) Mt) {s₀ s s' : SortedHeap B K Nat Mt} {n n' k : Nat}
    {outs : List (Except Stop (Option (K × Nat)))} (hs : FilterSortedIter.new code t.addressed.level t.addressed.root s₀ 0 = (.ok (), s, n))
    (hk : FilterSortedIter.nexts code t.addressed.sortedFuel k s n = (.ok outs, s', n')) : ((yields outs).map Prod.snd).Nodup := by
  have h1 := filter_sorted_of_shape h.addressed_shape code s₀
  split at h1
  · rw [hs] at h1; cases h1
  · next o ho =>
    obtain ⟨s₁, h2, h3⟩ := h1
    rw [hs] at h2
    cases h2
    obtain ⟨outs', s'', n'', h4, -, h5⟩ := h3 k
    rw [hk] at h4
    cases h4
    obtain ⟨others, h6⟩ := h5.sub
    cases o with
    | some m =>
      have h7 := (h6.map Prod.snd).nodup_iff.1 t.addressed_nodup
      rw [List.map_append] at h7
      exact (List.nodup_append.1 h7).1
    | none => rw [(List.append_eq_nil_iff.1 h6.symm.eq_nil).1]; exact .nil

/-- C66: if no user code panics, `iter_asc_by` yields every entry once, however inconsistent the ranking and the order are: the first calls of `next` yield the
    entries, in some order, and the others `None`. -/
theorem C66_no_panic_no_loss (h : Reachable c P t) (code : Nat → RankCode B K Mt Mt) (hp : ∀ n, ¬ (code n).Panics) {s₀ s s' : SortedHeap B K V Mt} {n n' k : Nat}
    {outs : List (Except Stop (Option (K × V)))} (hs : SortedIter.new code t.level t.root s₀ 0 = (.ok (), s, n))
    (hk : SortedIter.nexts code t.sortedFuel k s n = (.ok outs, s', n')) {es : List (K × V)} (hes : t.iter = .ok es) :
    (yields outs).length = min k es.length ∧ (es.length ≤ k → (yields outs).Perm es) := by
  have h1 := C66_iter_asc_by h code s₀ hes
  split at h1
  · rw [hs] at h1; cases h1
  · obtain ⟨s₁, h2, h3⟩ := h1
    rw [hs] at h2
    cases h2
    obtain ⟨outs', s'', n'', h4, h6, h5⟩ := h3 k
    rw [hk] at h4
    cases h4
    have h7 := story_all hp h5
    rw [h6] at h7
    refine ⟨h7, fun hle => ?_⟩
    obtain ⟨others, h8⟩ := h5.sub
    have h9 := h8.length_eq
    rw [List.length_append] at h9
    have : others = [] := List.eq_nil_of_length_eq_zero (by omega)
    rw [this, List.append_nil] at h8
    exact h8.symm

section Order

variable [Enclosure B] [LE Mt] [Std.IsLinearPreorder Mt] [DecidableLE Mt]

/-- C66: if the ranking honours its contract whenever it does not panic, and comparisons are those of the order and do not panic, then what comes from
    `filter_iter_asc_by`, before and after panics of the ranking, comes in non-decreasing rank. -/
theorem C66_filter_ascending (h : Reachable c P t) {r : Ranking B K (Option Mt)} (hr : r.FilterHonours P) {code : Nat → RankCode B K (Option Mt) Mt} (hf : Faithful r code)
    {s₀ s s' : SortedHeap B K V Mt} {n n' k : Nat} {outs : List (Except Stop (Option (K × V)))} (hs : FilterSortedIter.new code t.level t.root s₀ 0 = (.ok (), s, n))
    (hk : FilterSortedIter.nexts code t.sortedFuel k s n = (.ok outs, s', n')) :
    (yields outs).Pairwise fun a b => ∀ m q, r.rankKey a.1 = .ok (some m) → r.rankKey b.1 = .ok (some q) → m ≤ q := by
  have hro : RankOk r False t.level t.root := by
    exact (h.rankOk hr).imp False.elim
  rw [new_eq] at hs
  have key : (∀ y ∈ s, Item code t.nodes n y) → InOrder r s → itemsWeight s < t.sortedFuel →
      (yields outs).Pairwise fun a b => ∀ m q, r.rankKey a.1 = .ok (some m) → r.rankKey b.1 = .ok (some q) → m ≤ q := by
    intro h1 h2 h3
    have h4 := nexts_faithful (closed_nodes t) hf t.sortedFuel k s n h1 h2 h3
    unfold Ends at h4
    rw [hk] at h4
    exact h4 outs rfl
  split at hs
  · cases hs
  · cases hs
    exact key (fun _ h => by cases h) ⟨fun i x y _ h => by simp at h, (fun _ h => by cases h)⟩ (Nat.succ_pos _)
  · next m hm =>
    cases hs
    refine key ?_ ⟨?_, ?_⟩ (weight_root t m _)
    · intro y hy
      obtain rfl := List.mem_singleton.1 hy
      exact ⟨h.shape, List.mem_cons_self⟩
    · intro i x y hi hx
      have := (List.getElem?_eq_some_iff.1 hx).1
      simp at this; omega
    · intro y hy
      obtain rfl := List.mem_singleton.1 hy
      exact ⟨hro, (hf 0).1 _ _ hm⟩

/-- C66: the same for `iter_asc_by`. -/
theorem C66_ascending (h : Reachable c P t) {r : Ranking B K Mt} (hr : r.Honours P) {code : Nat → RankCode B K Mt Mt} (hf : Faithful r code)
    {s₀ s s' : SortedHeap B K V Mt} {n n' k : Nat} {outs : List (Except Stop (Option (K × V)))} (hs : SortedIter.new code t.level t.root s₀ 0 = (.ok (), s, n))
    (hk : SortedIter.nexts code t.sortedFuel k s n = (.ok outs, s', n')) :
    (yields outs).Pairwise fun a b => ∀ m q, r.rankKey a.1 = .ok m → r.rankKey b.1 = .ok q → m ≤ q := by
  rw [← new_some] at hs
  rw [← nexts_some] at hk
  have hf' : Faithful r.some fun n => (code n).some := by
    intro n
    refine ⟨fun b a hb => ?_, fun k a hb => ?_, (hf n).2.2⟩
    · obtain ⟨m, h1, rfl⟩ := Option.map_eq_some_iff.1 hb
      simp [Ranking.some, (hf n).1 _ _ h1, Functor.map, Except.map]
    · obtain ⟨m, h1, rfl⟩ := Option.map_eq_some_iff.1 hb
      simp [Ranking.some, (hf n).2.1 _ _ h1, Functor.map, Except.map]
  refine (C66_filter_ascending h hr.some hf' hs hk).imp ?_
  intro a b hab m q hm hq
  refine hab m q ?_ ?_
  · simp [Ranking.some, hm, Functor.map, Except.map]
  · simp [Ranking.some, hq, Functor.map, Except.map]

end Order

end Main

/-- C66: with user code that answers as a ranking does and does not panic, this is `filter_iter_asc_by` of the other theorems, on the heap of the standard library. -/
theorem C66_consistent {B K V Mt : Type} [Bounds B] [LE Mt] [Std.IsLinearPreorder Mt] [DecidableLE Mt] {t : Tree B K V} {r : Ranking B K (Option Mt)} {code : Nat → RankCode B K (Option Mt) Mt} (ha : Answers r code) {out : List (K × V)}
    (ho : t.filterIterAscBy ((BinaryHeap.stdHeap Mt).heap _) r = .ok out) (s₀ : SortedHeap B K V Mt) :
    ∃ s s' n', FilterSortedIter.new code t.level t.root s₀ 0 = (.ok (), s, 1) ∧
      FilterSortedIter.nexts code t.sortedFuel (out.length + 1) s 1 = (.ok (out.map (fun e => .ok (some e)) ++ [.ok none]), s', n') :=
  filterIterAscBy_answers ha ho s₀


/-! ## Concrete cases -/

/-- The comparison of `i32`. -/
def cmpI32 (x y : I32) : Option (Option Ordering) := some (some (if x ≤ y then if y ≤ x then .eq else .lt else .gt))

theorem cmpI32_spec (x y : I32) : ∃ o, cmpI32 x y = some (some o) ∧ (o.isLE ↔ x ≤ y) ∧ (o.isGE ↔ y ≤ x) := by
  refine ⟨_, rfl, ?_⟩
  have := Std.Total.total (r := (· ≤ ·)) x y
  by_cases h1 : x ≤ y <;> by_cases h2 : y ≤ x <;> simp [h1, h2, Ordering.isLE, Ordering.isGE]
  simp [h1, h2] at this

/-- Ranks by the distance to (6, 7), but panics in some calls of the ranking. -/
def shakyRank (bad : List Nat) : Nat → RankCode (AABB I32 2) (AABB I32 2) I32 I32 := fun n =>
  ⟨fun b => if n ∈ bad then none else ((euclidBoxes (pt 6 7)).boundsMin b).toOption,
    fun k => if n ∈ bad then none else ((euclidBoxes (pt 6 7)).rankKey k).toOption, cmpI32⟩

/-- What `k` calls of `next` yield: values, `none` for a panic. -/
def sortedAnswers (code : Nat → RankCode (AABB I32 2) (AABB I32 2) I32 I32) (k : Nat) : List (Option (Option Nat)) :=
  match SortedIter.new code sampleTree.level sampleTree.root [] 0 with
  | (.ok _, s, n) => match SortedIter.nexts code sampleTree.sortedFuel k s n with
    | (.ok outs, _, _) => outs.map fun o => match o with
      | .ok r => some (r.map Prod.snd)
      | _ => none
    | _ => []
  | _ => []

/-- Without a panic; the fifth call of user code panics, which costs the two entries below the third node; a later one costs the last entry of the first node. -/
example : sortedAnswers (shakyRank []) 11 =
      [some (some 10), some (some 9), some (some 7), some (some 8), some (some 4), some (some 3), some (some 60), some (some 5), some (some 1), some none, some none] ∧
    sortedAnswers (shakyRank [4, 20]) 11 =
      [none, some (some 10), some (some 9), some (some 4), none, some (some 3), some (some 5), some (some 1), some none, some none, some none] := by decide +kernel

theorem toOption_some {x : Res α} {a : α} (h : x.toOption = some a) : x = .ok a := by
  cases x with
  | error e => cases h
  | ok b => cases h; rfl

theorem shakyRank_faithful (bad : List Nat) : Faithful (euclidBoxes (pt 6 7)) (shakyRank bad) := by
  intro n
  refine ⟨fun b a h => ?_, fun k a h => ?_, cmpI32_spec⟩
  · dsimp only [shakyRank] at h
    split at h
    · cases h
    · exact toOption_some h
  · dsimp only [shakyRank] at h
    split at h
    · cases h
    · exact toOption_some h

/-- Whichever calls of the ranking panic, what comes is in non-decreasing distance. -/
example (bad : List Nat) {s s' : SortedHeap (AABB I32 2) (AABB I32 2) Nat I32} {n n' k : Nat} {outs : List (Except Stop (Option (AABB I32 2 × Nat)))}
    (hs : SortedIter.new (shakyRank bad) sampleTree.level sampleTree.root [] 0 = (.ok (), s, n))
    (hk : SortedIter.nexts (shakyRank bad) sampleTree.sortedFuel k s n = (.ok outs, s', n')) :
    (yields outs).Pairwise fun a b => ∀ m q, (euclidBoxes (pt 6 7)).rankKey a.1 = .ok m → (euclidBoxes (pt 6 7)).rankKey b.1 = .ok q → m ≤ q :=
  C66_ascending sample_reachable (C38_honours_boxes _ fun _ hk => hk.2) (shakyRank_faithful bad) hs hk

/-- Ranks that change from call to call, compared in an order that changes from call to call, and sometimes not at all. -/
def wildRank : Nat → RankCode (AABB I32 2) (AABB I32 2) I32 I32 := fun n =>
  ⟨fun _ => some (if n % 4 = 1 then i32 7 else i32 2), fun _ => some (if n % 3 = 1 then i32 1 else i32 9),
    fun _ _ => some (if n % 7 = 3 then none else if n % 3 = 0 then some .lt else if n % 5 = 0 then some .eq else some .gt)⟩

/-- All nine entries come, in some order. -/
example : sortedAnswers wildRank 11 = [some (some 10), some (some 9), some (some 4), some (some 5), some (some 1), some (some 3), some (some 60), some (some 8), some (some 7),
    some none, some none] := by decide +kernel

example {s s' : SortedHeap (AABB I32 2) (AABB I32 2) Nat I32} {n n' : Nat} {outs : List (Except Stop (Option (AABB I32 2 × Nat)))}
    (hs : SortedIter.new wildRank sampleTree.level sampleTree.root [] 0 = (.ok (), s, n))
    (hk : SortedIter.nexts wildRank sampleTree.sortedFuel 11 s n = (.ok outs, s', n')) : (yields outs).Perm sampleEntries := by
  refine (C66_no_panic_no_loss sample_reachable wildRank ?_ hs hk sample_iter).2 (by decide)
  rintro m (⟨b, h⟩ | ⟨k, h⟩ | ⟨x, y, h⟩) <;> cases h

/-- The standard library's heap on the sample tree (compare the one of `Proofs/SortedMap.lean`). -/
example : sampleTree.iterAscBy ((RTree.BinaryHeap.stdHeap I32).heap _) (euclidBoxes (pt 6 7)) =
      .ok [(box 5 5 6 6, 10), (box 8 8 9 9, 9), (box 8 8 9 9, 7), (box 9 9 12 12, 8), (box 2 2 3 3, 4),
        (box 0 2 1 3, 3), (box 1 3 1 3, 60), (box 0 2 0 2, 5), (box 0 0 1 1, 1)] := by
  rw [Res.ok_getD (x := sampleTree.iterAscBy ((RTree.BinaryHeap.stdHeap I32).heap _) (euclidBoxes (pt 6 7))) [] (by decide +kernel)]
  congr 1
  decide +kernel

/-- `Answers`: the ranking of a filtering iterator that does not panic, here the boxes at most 5 away. -/
def withinCode : Nat → RankCode (AABB I32 2) (AABB I32 2) (Option I32) I32 := fun _ =>
  ⟨fun b => ((within (pt 6 7) (i32 25)).boundsMin b).toOption, fun k => ((within (pt 6 7) (i32 25)).rankKey k).toOption, cmpI32⟩

example : ∃ (out : List (AABB I32 2 × Nat)) (s s' : SortedHeap (AABB I32 2) (AABB I32 2) Nat I32) (n' : Nat), FilterSortedIter.new withinCode sampleTree.level sampleTree.root [] 0 = (.ok (), s, 1) ∧
    FilterSortedIter.nexts withinCode sampleTree.sortedFuel (out.length + 1) s 1 = (.ok (out.map (fun e => .ok (some e)) ++ [.ok none]), s', n') ∧
    out.Perm [(box 8 8 9 9, 9), (box 2 2 3 3, 4), (box 5 5 6 6, 10), (box 9 9 12 12, 8), (box 8 8 9 9, 7)] := by
  obtain ⟨out, h1, h2, -⟩ := C15_filter_iter_asc_by sample_reachable ((RTree.BinaryHeap.stdHeap I32).heap _)
    (within_honours (pt 6 7) (i32 25) fun _ hk => hk.2) (within_defined _ sample_defined) sample_iter
  obtain ⟨s, s', n', h3, h4⟩ := C66_consistent (r := within (pt 6 7) (i32 25)) (code := withinCode) (t := sampleTree)
    (fun _ => ⟨fun b a h => by simp [withinCode, h, Except.toOption], fun k a h => by simp [withinCode, h, Except.toOption], cmpI32_spec⟩) h1 []
  refine ⟨out, s, s', n', h3, h4, h2.trans (List.Perm.of_eq ?_)⟩
  decide +kernel

end RTree.Calls
