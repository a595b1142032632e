import Verif.Proofs.Sorted
import Verif.Proofs.Callbacks
/-! Sorted iteration looks below a node only when it must. -/

namespace RTree

variable {B K V M S : Type}

/-- `Ranking.SameWhere` below some nodes. -/
structure SameIn (N : List (Node B K V)) (lim : M → Prop) (r r' : Ranking B K M) : Prop where
  nodes : ∀ b cs m, Node.inner b cs ∈ N → r.boundsMin b = .ok m → lim m → ∀ c ∈ cs, r'.boundsMin c.bounds = r.boundsMin c.bounds
  entries : ∀ b es m, Node.leaf b es ∈ N → r.boundsMin b = .ok m → lim m → ∀ e ∈ es, r'.rankKey e.1 = r.rankKey e.1

/-- The nodes in the heap are among the given ones. -/
def HeldIn (N : List (Node B K V)) (xs : List (Score S × SortedItem B K V)) : Prop :=
  ∀ x ∈ xs, ∀ n, x.2 = .node n → n ∈ N

variable [LE S] {r r' : Ranking B K (Option S)} {d : Prop} {N : List (Node B K V)} {lim : Option S → Prop}

namespace FilterSortedIter

variable {hp : IterHeap B K V S}

theorem pushEntries_same {es : List (K × V)} (hs : ∀ e ∈ es, r'.rankKey e.1 = r.rankKey e.1) (h : hp.H) :
    pushEntries hp r' es h = pushEntries hp r es h := by
  unfold pushEntries
  induction es generalizing h with
  | nil => rfl
  | cons e es ih =>
    rw [List.foldlM_cons, List.foldlM_cons, hs e List.mem_cons_self]
    congr 1
    funext h'
    exact ih (fun e he => hs e (List.mem_cons_of_mem _ he)) h'

theorem pushNodes_same {l : Nat} {cs : List (Node B K V)} (hs : ∀ c ∈ cs, r'.boundsMin c.bounds = r.boundsMin c.bounds) (h : hp.H) :
    pushNodes hp r' l cs h = pushNodes hp r l cs h := by
  unfold pushNodes
  induction cs generalizing h with
  | nil => rfl
  | cons e es ih =>
    rw [List.foldlM_cons, List.foldlM_cons, hs e List.mem_cons_self]
    congr 1
    funext h'
    exact ih (fun e he => hs e (List.mem_cons_of_mem _ he)) h'

theorem heldIn_push {x : Score S × SortedItem B K V} {h : hp.H} (hh : HeldIn N (hp.items h)) (hx : ∀ n, x.2 = .node n → n ∈ N) :
    HeldIn N (hp.items (hp.push x h)) := by
  intro y hy n hn
  rcases List.mem_cons.1 ((hp.items_push x h).mem_iff.1 hy) with rfl | hy
  · exact hx n hn
  · exact hh y hy n hn

theorem heldIn_pushEntries {es : List (K × V)} {h h' : hp.H} (hh : HeldIn N (hp.items h)) (he : pushEntries hp r es h = .ok h') :
    HeldIn N (hp.items h') := by
  induction es generalizing h with
  | nil => cases he; exact hh
  | cons e es ih =>
    unfold pushEntries at he
    rw [List.foldlM_cons] at he
    obtain ⟨h1, h2, h3⟩ := bind_eq_ok.1 he
    obtain ⟨o, h4, h5⟩ := bind_eq_ok.1 h2
    refine ih ?_ h3
    cases o with
    | none => cases h5; exact hh
    | some m => cases h5; exact heldIn_push hh (fun n hn => by cases hn)

theorem heldIn_pushNodes {l : Nat} {cs : List (Node B K V)} {h h' : hp.H} (hh : HeldIn N (hp.items h)) (hcs : ∀ c ∈ cs, c ∈ N)
    (he : pushNodes hp r l cs h = .ok h') : HeldIn N (hp.items h') := by
  induction cs generalizing h with
  | nil => cases he; exact hh
  | cons c cs ih =>
    unfold pushNodes at he
    rw [List.foldlM_cons] at he
    obtain ⟨h1, h2, h3⟩ := bind_eq_ok.1 he
    obtain ⟨o, h4, h5⟩ := bind_eq_ok.1 h2
    refine ih ?_ (fun c hc => hcs c (List.mem_cons_of_mem _ hc)) h3
    cases o with
    | none => cases h5; exact hh
    | some m =>
      cases h5
      refine heldIn_push hh (fun n hn => ?_)
      cases hn
      exact hcs _ List.mem_cons_self

/-- Which lower bounds `next` may look below, if this is what it returns. -/
def Limit (r : Ranking B K (Option S)) (lim : Option S → Prop) : Option (K × V) → Prop
  | none => ∀ q, lim (some q)
  | some e => ∀ m, r.rankKey e.1 = .ok (some m) → ∀ q, q ≤ m → lim (some q)

theorem nextLoop_same [Std.IsPreorder S] (hN : Calls.Closed N) (hsame : SameIn N lim r r') (fuel : Nat) {h h' : hp.H} {o : Option (K × V)}
    (hok : ∀ x ∈ hp.items h, ItemOk r d x) (hw : itemsWeight (hp.items h) < fuel) (hh : HeldIn N (hp.items h))
    (he : nextLoop hp r fuel h = .ok (o, h')) (hl : Limit r lim o) :
    nextLoop hp r' fuel h = .ok (o, h') ∧ HeldIn N (hp.items h') := by
  induction fuel generalizing h with
  | zero => omega
  | succ fuel ih =>
    have hpost := sat_nextLoop (r := r) (d := d) (fuel + 1) h hok hw
    rw [he] at hpost
    rw [nextLoop] at he ⊢
    cases hpop : hp.pop h with
    | none => rw [hpop] at he; cases he; exact ⟨rfl, hh⟩
    | some xh =>
      obtain ⟨⟨⟨m, level⟩, item⟩, h1⟩ := xh
      rw [hpop] at he
      obtain ⟨hperm, hle⟩ := hp.pop_some hpop
      have hx : ItemOk r d (⟨m, level⟩, item) := hok _ (hperm.mem_iff.2 List.mem_cons_self)
      have hin : ∀ n, item = .node n → n ∈ N := hh _ (hperm.mem_iff.2 List.mem_cons_self)
      have hok1 : ∀ x ∈ hp.items h1, ItemOk r d x := fun x hx => hok x (hperm.mem_iff.2 (List.mem_cons_of_mem _ hx))
      have hh1 : HeldIn N (hp.items h1) := fun x hx => hh x (hperm.mem_iff.2 (List.mem_cons_of_mem _ hx))
      have hweight := itemsWeight_perm hperm
      rw [itemsWeight_cons] at hweight
      have hlim : lim (some m) := by
        cases o with
        | none => exact hl m
        | some e =>
          obtain ⟨-, h5, -, m', h6, h7⟩ := hpost
          refine hl m' h6 m ?_
          have hmem : e ∈ pend r (hp.items h) := h5.mem_iff.2 List.mem_cons_self
          obtain ⟨y, hy, hy'⟩ := List.mem_flatMap.1 hmem
          exact Std.IsPreorder.le_trans _ _ _ (hle y hy).1 ((hok y hy).low (List.mem_filter.1 hy').1 h6)
      match level, item, hx with
      | 0, .entry e, hx => cases he; exact ⟨rfl, hh1⟩
      | 0, .node n, hx => simp [ItemOk] at hx
      | l + 1, .entry e, hx => simp [ItemOk] at hx
      | 1, .node n, hx =>
        obtain ⟨hr, hm⟩ := hx
        cases n with
        | inner b cs => simp [RankOk] at hr
        | leaf b es =>
          simp only [SortedItem.getNode, Node.leafChildren, ok_bind] at he ⊢
          rw [pushEntries_same (r := r) (hsame.entries b es (some m) (hin _ rfl) hm hlim)]
          obtain ⟨h2, h3, h4⟩ := bind_eq_ok.1 he
          rw [h3]
          have hp2 := sat_pushEntries (r := r) (d := d) hr.2.2 h1 hok1
          rw [h3] at hp2
          have hwn : (SortedItem.node (.leaf b es) : SortedItem B K V).weight = 1 + es.length := rfl
          rw [hwn] at hweight
          exact ih hp2.1 (by have := hp2.2.2; omega) (heldIn_pushEntries hh1 h3) h4
      | l + 2, .node n, hx =>
        obtain ⟨hr, hm⟩ := hx
        cases n with
        | leaf b es => simp [RankOk] at hr
        | inner b cs =>
          simp only [SortedItem.getNode, Node.innerChildren, ok_bind] at he ⊢
          rw [pushNodes_same (r := r) (hsame.nodes b cs (some m) (hin _ rfl) hm hlim)]
          obtain ⟨h2, h3, h4⟩ := bind_eq_ok.1 he
          rw [h3]
          have hp2 := sat_pushNodes (r := r) (d := d) hr.2.2 h1 hok1
          rw [h3] at hp2
          have hwn : (SortedItem.node (.inner b cs) : SortedItem B K V).weight = 1 + weightList cs := rfl
          rw [hwn] at hweight
          exact ih hp2.1 (by have := hp2.2.2; omega) (heldIn_pushNodes hh1 (hN b cs (hin _ rfl)) h3) h4

theorem takeLoop_same [Std.IsPreorder S] (hN : Calls.Closed N) (hsame : SameIn N lim r r') (fuel k : Nat) {h : hp.H} {es : List (K × V)}
    (hok : ∀ x ∈ hp.items h, ItemOk r d x) (hw : itemsWeight (hp.items h) < fuel) (hh : HeldIn N (hp.items h))
    (he : takeLoop hp r fuel k h = .ok es) (hl : ∀ e ∈ es, Limit r lim (some e)) (hs : es.length < k → ∀ q, lim (some q)) :
    takeLoop hp r' fuel k h = .ok es := by
  induction k generalizing h es with
  | zero => exact he
  | succ k ih =>
    rw [takeLoop] at he ⊢
    obtain ⟨⟨o, h1⟩, h2, h3⟩ := bind_eq_ok.1 he
    have hpost := sat_nextLoop (r := r) (d := d) fuel h hok hw
    rw [h2] at hpost
    cases o with
    | none =>
      cases h3
      have := (nextLoop_same hN hsame fuel hok hw hh h2 (hs (by simp))).1
      rw [this]; rfl
    | some e =>
      obtain ⟨es', h4, h5⟩ := bind_eq_ok.1 h3
      cases h5
      obtain ⟨g1, g2⟩ := nextLoop_same hN hsame fuel hok hw hh h2 (hl e List.mem_cons_self)
      rw [g1]
      dsimp only [ok_bind]
      have h6 : itemsWeight (hp.items h1) < itemsWeight (hp.items h) := hpost.2.2.1
      have := ih hpost.1 (Nat.lt_trans h6 hw) g2 h4 (fun e he => hl e (List.mem_cons_of_mem _ he)) (fun hlt => hs (by simp; omega))
      show (takeLoop hp r' fuel k h1 >>= fun es => pure (e :: es)) = _
      rw [this]; rfl

/-- What the first `k` entries are. -/
theorem sat_takeLoop [Std.IsPreorder S] (fuel k : Nat) (h : hp.H) (hok : ∀ x ∈ hp.items h, ItemOk r d x)
    (hw : itemsWeight (hp.items h) < fuel) :
    Sat (takeLoop hp r fuel k h) (fun _ => ¬ d) fun out => ∃ rest, (out ++ rest).Perm (pend r (hp.items h)) ∧
      out.length ≤ k ∧ (out.length < k → rest = []) ∧ Ascending r out ∧
      ∀ a ∈ out, ∀ b ∈ rest, ∀ m n, r.rankKey a.1 = .ok (some m) → r.rankKey b.1 = .ok (some n) → m ≤ n := by
  induction k generalizing h with
  | zero => exact ⟨_, .refl _, Nat.le_refl _, fun h => absurd h (by simp), .nil, fun a ha => by cases ha⟩
  | succ k ih =>
    unfold takeLoop
    refine Sat.bind (sat_nextLoop fuel h hok hw) ?_
    rintro ⟨o, h'⟩ ⟨h1, h2⟩
    cases o with
    | none =>
      simp only at h2
      exact ⟨[], by rw [h2]; exact .refl _, by simp, fun _ => rfl, .nil, fun a ha => by cases ha⟩
    | some e =>
      obtain ⟨h3, h4, m, h5, h6⟩ := h2
      simp only at h3 h4 h5 h6
      refine Sat.bind (ih h' h1 (by omega)) ?_
      rintro out ⟨rest, h7, h8, h9, h10, h11⟩
      have key : ∀ b ∈ out ++ rest, ∀ m' n', r.rankKey e.1 = .ok (some m') → r.rankKey b.1 = .ok (some n') → m' ≤ n' := by
        intro b hb m' n' hm' hn'
        rw [hm'] at h5
        injection h5 with h5; injection h5 with h5
        subst h5
        exact h6 b (h3.mem_iff.2 (List.mem_cons_of_mem _ (h7.mem_iff.1 hb))) n' hn'
      refine ⟨rest, (h7.cons e).trans h3.symm, by simp; omega, fun hlt => h9 (by simp at hlt; omega),
        List.Pairwise.cons (fun b hb => key b (List.mem_append_left _ hb)) h10, ?_⟩
      intro a ha b hb
      rcases List.mem_cons.1 ha with rfl | ha
      · exact key b (List.mem_append_right _ hb)
      · exact h11 a ha b hb

theorem takeLoop_collect {fuel k n : Nat} {h : hp.H} {out : List (K × V)} (ho : collectLoop hp r fuel n h = .ok out) :
    takeLoop hp r fuel k h = .ok (out.take k) := by
  induction k generalizing n h out with
  | zero => rfl
  | succ k ih =>
    cases n with
    | zero => cases ho
    | succ n =>
      rw [collectLoop] at ho
      obtain ⟨⟨o, h1⟩, h2, h3⟩ := bind_eq_ok.1 ho
      rw [takeLoop, h2]
      cases o with
      | none => cases h3; rfl
      | some e =>
        obtain ⟨es', h4, h5⟩ := bind_eq_ok.1 h3
        cases h5
        show (takeLoop hp r fuel k h1 >>= fun es => pure (e :: es)) = _
        rw [ih h4]; rfl

end FilterSortedIter

namespace SortedIter

variable [LE M] {hp : IterHeap B K V M} {r : Ranking B K M}

theorem takeLoop_eq (fuel n : Nat) (h : hp.H) :
    takeLoop hp r fuel n h = FilterSortedIter.takeLoop hp r.some fuel n h := by
  induction n generalizing h with
  | zero => rfl
  | succ n ih =>
    unfold takeLoop FilterSortedIter.takeLoop
    simp only [nextLoop_eq, ih]

end SortedIter

namespace Tree

open FilterSortedIter

theorem firstAscBy_eq [LE M] (hp : IterHeap B K V M) (r : Ranking B K M) (k : Nat) (t : Tree B K V) :
    t.firstAscBy hp r k = t.filterFirstAscBy hp r.some k := by
  simp only [firstAscBy, filterFirstAscBy, SortedIter.new_eq]
  congr 1
  funext h
  exact SortedIter.takeLoop_eq _ _ _

/-- `filter_min_by` is the first entry of `filter_iter_asc_by`. -/
theorem filterMinBy_first (hp : IterHeap B K V S) (r : Ranking B K (Option S)) (t : Tree B K V) :
    t.filterFirstAscBy hp r 1 = t.filterMinBy hp r >>= fun o => pure o.toList := by
  simp only [filterFirstAscBy, filterMinBy, bind_assoc]
  congr 1
  funext h
  rw [takeLoop]
  cases nextLoop hp r t.sortedFuel h with
  | error e => rfl
  | ok x =>
    obtain ⟨o, h'⟩ := x
    cases o <;> rfl

theorem filterFirst_same [Std.IsPreorder S] {hp : IterHeap B K V S} {t : Tree B K V} (ht : RankOk r d t.level t.root) {k : Nat} {es : List (K × V)}
    (he : t.filterFirstAscBy hp r k = .ok es) (hs : r.SameWhere lim r' t) (hl : ∀ e ∈ es, Limit r lim (some e)) (hk : es.length < k → ∀ q, lim (some q)) :
    t.filterFirstAscBy hp r' k = .ok es := by
  unfold filterFirstAscBy at he ⊢
  obtain ⟨h, h1, h2⟩ := bind_eq_ok.1 he
  have hn : FilterSortedIter.new hp r' t.level t.root = .ok h := by
    rw [← h1]; unfold FilterSortedIter.new; rw [hs.root]
  have hnew := sat_new (hp := hp) ht
  rw [h1] at hnew
  rw [hn]
  refine takeLoop_same (d := d) (Calls.closed_nodes t) ⟨hs.nodes, hs.entries⟩ _ _ hnew.1 (by have := hnew.2.2; unfold sortedFuel; omega) ?_ h2 hl hk
  intro x hx n hn
  unfold FilterSortedIter.new at h1
  obtain ⟨o, h3, h4⟩ := bind_eq_ok.1 h1
  cases o with
  | none => cases h4; rw [hp.items_empty] at hx; cases hx
  | some m =>
    cases h4
    have := (hp.items_push _ _).mem_iff.1 hx
    rw [hp.items_empty, List.mem_singleton] at this
    subst this
    cases hn
    exact List.mem_cons_self

theorem sat_filterFirst [Std.IsPreorder S] {hp : IterHeap B K V S} {t : Tree B K V} (ht : RankOk r d t.level t.root) (k : Nat) :
    Sat (t.filterFirstAscBy hp r k) (fun _ => ¬ d) fun out => ∃ rest, (out ++ rest).Perm (t.entries.filter fun e => r.ranked e.1) ∧
      out.length ≤ k ∧ (out.length < k → rest = []) ∧ Ascending r out ∧
      ∀ a ∈ out, ∀ b ∈ rest, ∀ m n, r.rankKey a.1 = .ok (some m) → r.rankKey b.1 = .ok (some n) → m ≤ n := by
  unfold filterFirstAscBy
  refine Sat.bind (sat_new ht) ?_
  rintro h ⟨h1, h2, h3⟩
  refine Sat.mono (sat_takeLoop _ k h h1 (by unfold sortedFuel; omega)) ?_
  rintro out ⟨rest, h4, h5⟩
  exact ⟨rest, h4.trans h2, h5⟩

theorem filterFirst_take {hp : IterHeap B K V S} {t : Tree B K V} {out : List (K × V)} (ho : t.filterIterAscBy hp r = .ok out) (k : Nat) :
    t.filterFirstAscBy hp r k = .ok (out.take k) := by
  unfold filterIterAscBy at ho
  unfold filterFirstAscBy
  obtain ⟨h, h1, h2⟩ := bind_eq_ok.1 ho
  rw [h1]
  exact takeLoop_collect h2

end Tree

/-! ## Trees with the same keys and bounds -/

mutual
theorem Node.descendants_erase (n : Node B K V) : n.erase.descendants = n.descendants.map Node.erase := by
  cases n with
  | leaf b es => rfl
  | inner b cs => rw [Node.erase, Node.descendants, Node.descendants, descendantsList_erase cs]
theorem descendantsList_erase (cs : List (Node B K V)) : descendantsList (eraseList cs) = (descendantsList cs).map Node.erase := by
  cases cs with
  | nil => rfl
  | cons c cs => rw [eraseList, descendantsList, descendantsList, Node.descendants_erase c, descendantsList_erase cs, List.map_cons, List.map_append]
end

omit [LE S] in
theorem Ranking.SameWhere.erase {lim : M → Prop} {r r' : Ranking B K M} {t : Tree B K V} : r.SameWhere lim r' t.erase ↔ r.SameWhere lim r' t := by
  have hmem : ∀ n : Node B K Unit, n ∈ t.erase.nodes ↔ ∃ n' ∈ t.nodes, n'.erase = n := by
    intro n
    have : t.erase.nodes = t.nodes.map Node.erase := by
      rw [Tree.nodes, Tree.nodes, List.map_cons, ← Node.descendants_erase]; rfl
    rw [this, List.mem_map]
  constructor
  · rintro ⟨h1, h2, h3⟩
    refine ⟨by simpa [Tree.erase] using h1, fun b cs m hm hb hl c hc => ?_, fun b es m hm hb hl e he => ?_⟩
    · have := h2 b (eraseList cs) m ((hmem _).2 ⟨_, hm, rfl⟩) hb hl c.erase (by rw [eraseList_eq]; exact List.mem_map.2 ⟨c, hc, rfl⟩)
      simpa using this
    · exact h3 b _ m ((hmem _).2 ⟨_, hm, rfl⟩) hb hl (e.1, ()) (List.mem_map.2 ⟨e, he, rfl⟩)
  · rintro ⟨h1, h2, h3⟩
    refine ⟨by simpa [Tree.erase] using h1, fun b cs m hm hb hl c hc => ?_, fun b es m hm hb hl e he => ?_⟩
    · obtain ⟨n', hn, he⟩ := (hmem _).1 hm
      cases n' with
      | leaf b' es' => cases he
      | inner b' cs' =>
        rw [Node.erase] at he
        injection he with h4 h5
        subst h4 h5
        rw [eraseList_eq] at hc
        obtain ⟨c', hc', rfl⟩ := List.mem_map.1 hc
        simpa using h2 b' cs' m hn hb hl c' hc'
    · obtain ⟨n', hn, h6⟩ := (hmem _).1 hm
      cases n' with
      | inner b' cs' => cases h6
      | leaf b' es' =>
        rw [Node.erase] at h6
        injection h6 with h4 h5
        subst h4 h5
        obtain ⟨e', he', rfl⟩ := List.mem_map.1 he
        exact h3 b' es' m hn hb hl e' he'

omit [LE S] in
theorem Ranking.SameWhere.addressed {lim : M → Prop} {r r' : Ranking B K M} {t : Tree B K V} (h : r.SameWhere lim r' t) : r.SameWhere lim r' t.addressed := by
  rw [← Ranking.SameWhere.erase, t.erase_addressed]
  exact Ranking.SameWhere.erase.2 h

omit [LE S] in
theorem Ranking.SameWhere.some {lim : M → Prop} {lim' : Option M → Prop} {r r' : Ranking B K M} {t : Tree B K V} (h : r.SameWhere lim r' t)
    (hl : ∀ m, lim' (.some m) → lim m) : r.some.SameWhere lim' r'.some t := by
  refine ⟨congrArg (Option.some <$> ·) h.root, fun b cs m hm hb hl' c hc => ?_, fun b es m hm hb hl' e he => ?_⟩
  · obtain ⟨m', h1, rfl⟩ := map_eq_ok.1 hb
    exact congrArg (Option.some <$> ·) (h.nodes b cs m' hm h1 (hl m' hl') c hc)
  · obtain ⟨m', h1, rfl⟩ := map_eq_ok.1 hb
    exact congrArg (Option.some <$> ·) (h.entries b es m' hm h1 (hl m' hl') e he)

end RTree
