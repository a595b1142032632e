import Verif.Model.Sorted
import Verif.Proofs.History
/-! The sorted iterators yield the entries in ascending rank. -/

namespace RTree

variable {B K V M S : Type}

/-- `b` is a lower bound for the ranks of the entries. -/
def Low [LE S] (r : Ranking B K (Option S)) (b : B) (es : List (K × V)) : Prop :=
  ∀ e ∈ es, ∀ n, r.rankKey e.1 = .ok (some n) → ∀ o, r.boundsMin b = .ok o → ∃ m, o = some m ∧ m ≤ n

/-- What the iterators rely on below a node of the given level; `d` says that the ranking does not panic. -/
def RankOk [LE S] (r : Ranking B K (Option S)) (d : Prop) : Nat → Node B K V → Prop
  | 0, .leaf b es => Low r b es ∧ (d → ∃ m, r.boundsMin b = .ok m) ∧ (d → ∀ e ∈ es, ∃ m, r.rankKey e.1 = .ok m)
  | l + 1, .inner b cs => Low r b (entriesList cs) ∧ (d → ∃ m, r.boundsMin b = .ok m) ∧ ∀ c ∈ cs, RankOk r d l c
  | _, _ => False

namespace SortedItem

/-- The entries an item stands for. -/
def entries : SortedItem B K V → List (K × V)
  | .node n => n.entries
  | .entry e => [e]

/-- The number of heap items an item can lead to. -/
def weight : SortedItem B K V → Nat
  | .node n => n.weight
  | .entry _ => 1

end SortedItem

/-- The invariant of a heap item. -/
def ItemOk [LE S] (r : Ranking B K (Option S)) (d : Prop) (x : Score S × SortedItem B K V) : Prop :=
  match x.1.level, x.2 with
  | 0, .entry e => r.rankKey e.1 = .ok (some x.1.metric)
  | l + 1, .node n => RankOk r d l n ∧ r.boundsMin n.bounds = .ok (some x.1.metric)
  | _, _ => False

/-- The ranked entries the items stand for. -/
def pend (r : Ranking B K (Option S)) (xs : List (Score S × SortedItem B K V)) : List (K × V) :=
  xs.flatMap fun x => x.2.entries.filter fun e => r.ranked e.1

/-- The number of heap items that can still be pushed. -/
def itemsWeight (xs : List (Score S × SortedItem B K V)) : Nat := (xs.map fun x => x.2.weight).sum

theorem pend_perm (r : Ranking B K (Option S)) {xs ys : List (Score S × SortedItem B K V)} (h : xs.Perm ys) :
    (pend r xs).Perm (pend r ys) := h.flatMap_right _

theorem itemsWeight_perm {xs ys : List (Score S × SortedItem B K V)} (h : xs.Perm ys) :
    itemsWeight xs = itemsWeight ys := (h.map _).sum_nat

theorem itemsWeight_cons (s : Score S) (x : SortedItem B K V) (xs : List (Score S × SortedItem B K V)) :
    itemsWeight ((s, x) :: xs) = x.weight + itemsWeight xs := rfl

variable [LE S]

theorem RankOk.imp {r : Ranking B K (Option S)} {d d' : Prop} (hd : d' → d) {l : Nat} {n : Node B K V} (h : RankOk r d l n) : RankOk r d' l n := by
  induction l generalizing n with
  | zero =>
    cases n with
    | leaf b es => exact ⟨h.1, fun x => h.2.1 (hd x), fun x => h.2.2 (hd x)⟩
    | inner b cs => exact h.elim
  | succ l ih =>
    cases n with
    | leaf b es => exact h.elim
    | inner b cs => exact ⟨h.1, fun x => h.2.1 (hd x), fun c hc => ih (h.2.2 c hc)⟩

theorem Low.of_le {r : Ranking B K (Option S)} {d : Prop} {l : Nat} {n : Node B K V} (h : RankOk r d l n) :
    Low r n.bounds n.entries := by
  cases l <;> cases n <;> simp [RankOk, Node.bounds] at * <;> exact h.1

theorem RankOk.def {r : Ranking B K (Option S)} {d : Prop} {l : Nat} {n : Node B K V} (h : RankOk r d l n) (hd : d) :
    ∃ m, r.boundsMin n.bounds = .ok m := by
  cases l <;> cases n <;> simp [RankOk, Node.bounds] at * <;> exact h.2.1 hd

section Heap

variable {T : Type}

/-- If one item is smaller than all others, `pop` returns it. -/
theorem Heap.pop_unique (hp : Heap S T) {h : hp.H} {x : S × T} {rest : List (S × T)} (hi : (hp.items h).Perm (x :: rest))
    (hx : ∀ y ∈ rest, ¬ y.1 ≤ x.1) : ∃ h', hp.pop h = some (x, h') ∧ (hp.items h').Perm rest := by
  cases hpop : hp.pop h with
  | none =>
    have := hp.pop_none hpop
    rw [this] at hi
    exact absurd hi.symm.eq_nil (by simp)
  | some yh =>
    obtain ⟨y, h'⟩ := yh
    obtain ⟨h1, h2⟩ := hp.pop_some hpop
    have hy : y ∈ x :: rest := hi.mem_iff.1 (h1.mem_iff.2 List.mem_cons_self)
    have hxy := h2 x (hi.mem_iff.2 List.mem_cons_self)
    rcases List.mem_cons.1 hy with rfl | hy
    · exact ⟨h', rfl, (h1.symm.trans hi).cons_inv⟩
    · exact absurd hxy (hx y hy)

/-- `pop` of an empty heap. -/
theorem Heap.pop_nil (hp : Heap S T) {h : hp.H} (hi : hp.items h = []) : hp.pop h = none := by
  cases hpop : hp.pop h with
  | none => rfl
  | some yh =>
    have := (hp.pop_some (x := yh.1) (h' := yh.2) hpop).1
    rw [hi] at this
    exact absurd this.symm.eq_nil (by simp)

end Heap

/-- Every ranked entry below an item has at least the rank of the item. -/
theorem ItemOk.low [Std.IsPreorder S] {r : Ranking B K (Option S)} {d : Prop} {x : Score S × SortedItem B K V} (h : ItemOk r d x) {e : K × V}
    (he : e ∈ x.2.entries) {n : S} (hn : r.rankKey e.1 = .ok (some n)) : x.1.metric ≤ n := by
  obtain ⟨⟨m, level⟩, item⟩ := x
  cases level with
  | zero =>
    cases item with
    | node => simp [ItemOk] at h
    | entry e' =>
      simp only [SortedItem.entries, List.mem_singleton] at he
      subst he
      simp only [ItemOk] at h
      rw [hn] at h
      injection h with h; injection h with h
      rw [h]; exact Std.IsPreorder.le_refl _
  | succ l =>
    cases item with
    | entry => simp [ItemOk] at h
    | node n' =>
      simp only [ItemOk] at h
      obtain ⟨m', h1, h2⟩ := Low.of_le h.1 e he n hn _ h.2
      injection h1 with h1
      rw [h1]; exact h2

variable {r : Ranking B K (Option S)} {d : Prop}

namespace FilterSortedIter

variable {hp : IterHeap B K V S}

theorem sat_pushEntries {es : List (K × V)} (hd : d → ∀ e ∈ es, ∃ m, r.rankKey e.1 = .ok m) (h : hp.H)
    (hok : ∀ x ∈ hp.items h, ItemOk r d x) :
    Sat (pushEntries hp r es h) (fun _ => ¬ d) fun h' => (∀ x ∈ hp.items h', ItemOk r d x) ∧
      (pend r (hp.items h')).Perm (es.filter (fun e => r.ranked e.1) ++ pend r (hp.items h)) ∧
      itemsWeight (hp.items h') ≤ itemsWeight (hp.items h) + es.length := by
  induction es generalizing h with
  | nil => exact ⟨hok, .refl _, by simp⟩
  | cons e es ih =>
    unfold pushEntries
    rw [List.foldlM_cons]
    have hd' : d → ∀ e ∈ es, ∃ m, r.rankKey e.1 = .ok m := fun h e' he' => hd h e' (List.mem_cons_of_mem _ he')
    cases hr : r.rankKey e.1 with
    | error p =>
      intro hd1
      obtain ⟨m, hm⟩ := hd hd1 e List.mem_cons_self
      rw [hr] at hm; cases hm
    | ok o =>
      cases o with
      | none =>
        have hf : r.ranked e.1 = false := by simp [Ranking.ranked, hr]
        refine Sat.mono (ih hd' h hok) ?_
        rintro h' ⟨h1, h2, h3⟩
        exact ⟨h1, by simpa [hf] using h2, by simp only [List.length_cons]; omega⟩
      | some m =>
        have hf : r.ranked e.1 = true := by simp [Ranking.ranked, hr]
        have hpm := hp.items_push (⟨m, 0⟩, .entry e) h
        refine Sat.mono (ih hd' (hp.push (⟨m, 0⟩, .entry e) h) ?_) ?_
        · intro x hx
          rcases List.mem_cons.1 (hpm.mem_iff.1 hx) with rfl | hx
          · exact hr
          · exact hok x hx
        · rintro h' ⟨h1, h2, h3⟩
          refine ⟨h1, h2.trans ?_, ?_⟩
          · have := pend_perm r hpm
            refine (this.append_left _).trans ?_
            simp only [pend, List.flatMap_cons, SortedItem.entries, List.filter_cons, hf, if_true, List.filter_nil]
            exact List.perm_middle
          · rw [itemsWeight_perm hpm] at h3
            simp only [itemsWeight, List.map_cons, List.sum_cons, SortedItem.weight, List.length_cons] at *
            omega

theorem sat_pushNodes {l : Nat} {cs : List (Node B K V)} (hcs : ∀ c ∈ cs, RankOk r d l c) (h : hp.H)
    (hok : ∀ x ∈ hp.items h, ItemOk r d x) :
    Sat (pushNodes hp r (l + 1) cs h) (fun _ => ¬ d) fun h' => (∀ x ∈ hp.items h', ItemOk r d x) ∧
      (pend r (hp.items h')).Perm ((entriesList cs).filter (fun e => r.ranked e.1) ++ pend r (hp.items h)) ∧
      itemsWeight (hp.items h') ≤ itemsWeight (hp.items h) + weightList cs := by
  induction cs generalizing h with
  | nil => exact ⟨hok, by simpa using .refl _, by simp [weightList]⟩
  | cons c cs ih =>
    unfold pushNodes
    rw [List.foldlM_cons]
    have hcs' : ∀ c ∈ cs, RankOk r d l c := fun c' hc' => hcs c' (List.mem_cons_of_mem _ hc')
    have hc := hcs c List.mem_cons_self
    cases hr : r.boundsMin c.bounds with
    | error p =>
      intro hd1
      obtain ⟨m, hm⟩ := hc.def hd1
      rw [hr] at hm; cases hm
    | ok o =>
      cases o with
      | none =>
        have hf : c.entries.filter (fun e => r.ranked e.1) = [] := by
          rw [List.filter_eq_nil_iff]
          intro e he hre
          simp only [Ranking.ranked] at hre
          split at hre
          · rename_i n hn
            obtain ⟨m, hm, _⟩ := Low.of_le hc e he n hn _ hr
            cases hm
          · cases hre
        refine Sat.mono (ih hcs' h hok) ?_
        rintro h' ⟨h1, h2, h3⟩
        exact ⟨h1, by simpa [hf] using h2, by simp only [weightList]; omega⟩
      | some m =>
        have hpm := hp.items_push (⟨m, l + 1⟩, .node c) h
        refine Sat.mono (ih hcs' (hp.push (⟨m, l + 1⟩, .node c) h) ?_) ?_
        · intro x hx
          rcases List.mem_cons.1 (hpm.mem_iff.1 hx) with rfl | hx
          · exact ⟨hc, hr⟩
          · exact hok x hx
        · rintro h' ⟨h1, h2, h3⟩
          refine ⟨h1, h2.trans ?_, ?_⟩
          · have := pend_perm r hpm
            refine (this.append_left _).trans ?_
            simp only [pend, List.flatMap_cons, SortedItem.entries, entriesList_cons, List.filter_append]
            rw [← List.append_assoc]
            exact (List.perm_append_comm).append_right _
          · rw [itemsWeight_perm hpm] at h3
            simp only [itemsWeight, List.map_cons, List.sum_cons, SortedItem.weight, weightList] at *
            omega

/-- Outcome of `next`. -/
def NextPost (hp : IterHeap B K V S) (r : Ranking B K (Option S)) (d : Prop) (h : hp.H) (x : Option (K × V) × hp.H) :
    Prop :=
  (∀ y ∈ hp.items x.2, ItemOk r d y) ∧
  match x.1 with
  | none => pend r (hp.items h) = []
  | some e => (pend r (hp.items h)).Perm (e :: pend r (hp.items x.2)) ∧
      itemsWeight (hp.items x.2) < itemsWeight (hp.items h) ∧
      ∃ m, r.rankKey e.1 = .ok (some m) ∧
        ∀ e' ∈ pend r (hp.items h), ∀ n, r.rankKey e'.1 = .ok (some n) → m ≤ n

theorem sat_nextLoop [Std.IsPreorder S] (fuel : Nat) (h : hp.H) (hok : ∀ x ∈ hp.items h, ItemOk r d x)
    (hw : itemsWeight (hp.items h) < fuel) :
    Sat (nextLoop hp r fuel h) (fun _ => ¬ d) (NextPost hp r d h) := by
  induction fuel generalizing h with
  | zero => omega
  | succ fuel ih =>
    unfold nextLoop
    cases hpop : hp.pop h with
    | none =>
      have := hp.pop_none hpop
      exact ⟨hok, by simp [this, pend]⟩
    | some xh =>
      obtain ⟨⟨⟨m, level⟩, item⟩, h1⟩ := xh
      obtain ⟨hperm, hle⟩ := hp.pop_some hpop
      have hx : ItemOk r d (⟨m, level⟩, item) := hok _ (hperm.mem_iff.2 List.mem_cons_self)
      have hok1 : ∀ x ∈ hp.items h1, ItemOk r d x := fun x hx => hok x (hperm.mem_iff.2 (List.mem_cons_of_mem _ hx))
      have hpend := pend_perm r hperm
      have hweight := itemsWeight_perm hperm
      rw [itemsWeight_cons] at hweight
      have hstep : ∀ h2 : hp.H, (∀ x ∈ hp.items h2, ItemOk r d x) →
          (pend r (hp.items h2)).Perm (pend r (hp.items h)) →
          itemsWeight (hp.items h2) < itemsWeight (hp.items h) →
          Sat (nextLoop hp r fuel h2) (fun _ => ¬ d) (NextPost hp r d h) := by
        intro h2 hok2 hp2 hw2
        refine Sat.mono (ih h2 hok2 (by omega)) ?_
        rintro ⟨o, h3⟩ ⟨h4, h5⟩
        refine ⟨h4, ?_⟩
        cases o with
        | none => simp only at h5 ⊢; rw [h5] at hp2; exact hp2.symm.eq_nil
        | some e =>
          obtain ⟨h6, h7, m, h8, h9⟩ := h5
          exact ⟨hp2.symm.trans h6, Nat.lt_trans h7 hw2, m, h8, fun e' he' => h9 e' (hp2.mem_iff.2 he')⟩
      match level, item, hx with
      | 0, .entry e, hx =>
        have hx : r.rankKey e.1 = .ok (some m) := hx
        refine ⟨hok1, ?_, ?_, m, hx, ?_⟩
        · refine hpend.trans ?_
          simp [pend, SortedItem.entries, Ranking.ranked, hx]
        · simp only [hweight, SortedItem.weight]; omega
        · intro e' he' n hn
          obtain ⟨y, hy, hy'⟩ := List.mem_flatMap.1 he'
          exact Std.IsPreorder.le_trans _ _ _ (hle y hy).1 ((hok y hy).low (List.mem_filter.1 hy').1 hn)
      | 0, .node n, hx => simp [ItemOk] at hx
      | l + 1, .entry e, hx => simp [ItemOk] at hx
      | 1, .node n, hx =>
        obtain ⟨hr, hm⟩ := hx
        cases n with
        | inner b cs => simp [RankOk] at hr
        | leaf b es =>
          simp only [SortedItem.getNode, Node.leafChildren, ok_bind]
          refine Sat.bind (sat_pushEntries hr.2.2 h1 hok1) ?_
          rintro h2 ⟨h3, h4, h5⟩
          refine hstep h2 h3 (h4.trans ?_) ?_
          · refine .trans ?_ hpend.symm
            simp [pend, SortedItem.entries]
          · have hwn : (SortedItem.node (.leaf b es) : SortedItem B K V).weight = 1 + es.length := rfl
            rw [hwn] at hweight
            omega
      | l + 2, .node n, hx =>
        obtain ⟨hr, hm⟩ := hx
        cases n with
        | leaf b es => simp [RankOk] at hr
        | inner b cs =>
          simp only [SortedItem.getNode, Node.innerChildren, ok_bind]
          refine Sat.bind (sat_pushNodes hr.2.2 h1 hok1) ?_
          rintro h2 ⟨h3, h4, h5⟩
          refine hstep h2 h3 (h4.trans ?_) ?_
          · refine .trans ?_ hpend.symm
            simp [pend, SortedItem.entries]
          · have hwn : (SortedItem.node (.inner b cs) : SortedItem B K V).weight = 1 + weightList cs := rfl
            rw [hwn] at hweight
            omega

/-- The list is in ascending rank. -/
def Ascending (r : Ranking B K (Option S)) (es : List (K × V)) : Prop :=
  es.Pairwise fun a b => ∀ m n, r.rankKey a.1 = .ok (some m) → r.rankKey b.1 = .ok (some n) → m ≤ n

theorem sat_collectLoop [Std.IsPreorder S] (fuel n : Nat) (h : hp.H) (hok : ∀ x ∈ hp.items h, ItemOk r d x)
    (hw : itemsWeight (hp.items h) < fuel) (hn : itemsWeight (hp.items h) < n) :
    Sat (collectLoop hp r fuel n h) (fun _ => ¬ d) fun out =>
      out.Perm (pend r (hp.items h)) ∧ Ascending r out := by
  induction n generalizing h with
  | zero => omega
  | succ n ih =>
    unfold collectLoop
    refine Sat.bind (sat_nextLoop fuel h hok hw) ?_
    rintro ⟨o, h'⟩ ⟨h1, h2⟩
    cases o with
    | none =>
      simp only at h2
      exact ⟨by rw [h2], .nil⟩
    | some e =>
      obtain ⟨h3, h4, m, h5, h6⟩ := h2
      simp only at h3 h4 h5 h6
      refine Sat.bind (ih h' h1 (by omega) (by omega)) ?_
      rintro out ⟨h7, h8⟩
      refine ⟨(h7.cons e).trans h3.symm, List.Pairwise.cons ?_ h8⟩
      intro b hb m' n' hm' hn'
      rw [hm'] at h5
      injection h5 with h5; injection h5 with h5
      subst h5
      exact h6 b (h3.mem_iff.2 (List.mem_cons_of_mem _ (h7.mem_iff.1 hb))) n' hn'

theorem sat_new {level : Nat} {root : Node B K V} (hr : RankOk r d level root) :
    Sat (new hp r level root) (fun _ => ¬ d) fun h => (∀ x ∈ hp.items h, ItemOk r d x) ∧
      (pend r (hp.items h)).Perm (root.entries.filter fun e => r.ranked e.1) ∧
      itemsWeight (hp.items h) ≤ root.weight := by
  have := sat_pushNodes (hp := hp) (r := r) (d := d) (l := level) (cs := [root]) (by simpa using hr) hp.empty
    (by simp [hp.items_empty])
  have h2 : new hp r level root = pushNodes hp r (level + 1) [root] hp.empty := by
    simp only [new, pushNodes, List.foldlM_cons, List.foldlM_nil]
    rw [bind_pure]
  rw [h2]
  refine Sat.mono this ?_
  rintro h ⟨h1, h2, h3⟩
  refine ⟨h1, ?_, ?_⟩
  · simpa [hp.items_empty, pend] using h2
  · simpa [hp.items_empty, itemsWeight, weightList] using h3

end FilterSortedIter

/-- A ranking without `None`. -/
def Ranking.some (r : Ranking B K M) : Ranking B K (Option M) where
  boundsMin b := Option.some <$> r.boundsMin b
  rankKey k := Option.some <$> r.rankKey k

omit [LE S] in
theorem map_eq_ok {α β : Type} {f : α → β} {x : Res α} {b : β} : f <$> x = .ok b ↔ ∃ a, x = .ok a ∧ f a = b := by
  cases x with
  | error e => simp [Functor.map, Except.map]
  | ok a => simp [Functor.map, Except.map]

namespace SortedIter

variable [LE M] {hp : IterHeap B K V M} {r : Ranking B K M}

theorem pushEntries_eq (es : List (K × V)) (h : hp.H) :
    pushEntries hp r es h = FilterSortedIter.pushEntries hp r.some es h := by
  unfold pushEntries FilterSortedIter.pushEntries
  congr 1
  funext h e
  simp only [Ranking.some]
  cases r.rankKey e.1 <;> rfl

theorem pushNodes_eq (l : Nat) (cs : List (Node B K V)) (h : hp.H) :
    pushNodes hp r l cs h = FilterSortedIter.pushNodes hp r.some l cs h := by
  unfold pushNodes FilterSortedIter.pushNodes
  congr 1
  funext h e
  simp only [Ranking.some]
  cases r.boundsMin e.bounds <;> rfl

theorem nextLoop_eq (fuel : Nat) (h : hp.H) :
    nextLoop hp r fuel h = FilterSortedIter.nextLoop hp r.some fuel h := by
  induction fuel generalizing h with
  | zero => rfl
  | succ fuel ih =>
    unfold nextLoop FilterSortedIter.nextLoop
    cases hp.pop h with
    | none => rfl
    | some x =>
      obtain ⟨⟨⟨m, level⟩, item⟩, h1⟩ := x
      match level with
      | 0 => rfl
      | 1 => simp only [pushEntries_eq, ih]
      | l + 2 => simp only [pushNodes_eq, ih]

theorem collectLoop_eq (fuel n : Nat) (h : hp.H) :
    collectLoop hp r fuel n h = FilterSortedIter.collectLoop hp r.some fuel n h := by
  induction n generalizing h with
  | zero => rfl
  | succ n ih =>
    unfold collectLoop FilterSortedIter.collectLoop
    simp only [nextLoop_eq, ih]

theorem new_eq (level : Nat) (root : Node B K V) :
    new hp r level root = FilterSortedIter.new hp r.some level root := by
  simp only [new, FilterSortedIter.new, Ranking.some]
  cases r.boundsMin root.bounds <;> rfl

end SortedIter

namespace Tree

theorem iterAscBy_eq [LE M] (hp : IterHeap B K V M) (r : Ranking B K M) (t : Tree B K V) :
    t.iterAscBy hp r = t.filterIterAscBy hp r.some := by
  simp only [iterAscBy, filterIterAscBy, SortedIter.new_eq]
  congr 1
  funext h
  exact SortedIter.collectLoop_eq _ _ _

theorem minBy_eq [LE M] (hp : IterHeap B K V M) (r : Ranking B K M) (t : Tree B K V) :
    t.minBy hp r = t.filterMinBy hp r.some := by
  simp only [minBy, filterMinBy, SortedIter.new_eq, SortedIter.nextLoop_eq]

open FilterSortedIter

theorem sat_filterIterAscBy [Std.IsPreorder S] {hp : IterHeap B K V S} {t : Tree B K V} (ht : RankOk r d t.level t.root) :
    Sat (t.filterIterAscBy hp r) (fun _ => ¬ d) fun out =>
      out.Perm (t.entries.filter fun e => r.ranked e.1) ∧ Ascending r out := by
  unfold filterIterAscBy
  refine Sat.bind (sat_new ht) ?_
  rintro h ⟨h1, h2, h3⟩
  refine Sat.mono (sat_collectLoop _ _ h h1 (by unfold sortedFuel; omega) (by unfold sortedFuel; omega)) ?_
  rintro out ⟨h4, h5⟩
  exact ⟨h4.trans h2, h5⟩

theorem sat_filterMinBy [Std.IsPreorder S] {hp : IterHeap B K V S} {t : Tree B K V} (ht : RankOk r d t.level t.root) :
    Sat (t.filterMinBy hp r) (fun _ => ¬ d) fun o =>
      match o with
      | none => (t.entries.filter fun e => r.ranked e.1) = []
      | some e => e ∈ t.entries ∧ ∃ m, r.rankKey e.1 = .ok (some m) ∧
          ∀ e' ∈ t.entries, ∀ n, r.rankKey e'.1 = .ok (some n) → m ≤ n := by
  unfold filterMinBy
  refine Sat.bind (sat_new ht) ?_
  rintro h ⟨h1, h2, h3⟩
  refine Sat.bind (sat_nextLoop _ h h1 (by unfold sortedFuel; omega)) ?_
  rintro ⟨o, h'⟩ ⟨_, h4⟩
  cases o with
  | none => simp only at h4; rw [h4] at h2; exact h2.symm.eq_nil
  | some e =>
    obtain ⟨h5, _, m, h6, h7⟩ := h4
    simp only at h5 h6
    refine ⟨(List.mem_filter.1 (h2.mem_iff.1 (h5.mem_iff.2 List.mem_cons_self))).1, m, h6, fun e' he' n hn => ?_⟩
    exact h7 e' (h2.mem_iff.2 (List.mem_filter.2 ⟨he', by simp [Ranking.ranked, hn]⟩)) n hn

end Tree

section Bridge

theorem rankOk_erase {l : Nat} {n : Node B K V} : RankOk r d l n.erase ↔ RankOk r d l n := by
  have hlow : ∀ (b : B) (es : List (K × V)), Low r b (es.map fun e => (e.1, ())) ↔ Low r b es := by
    intro b es
    simp only [Low, List.mem_map, forall_exists_index, and_imp, forall_apply_eq_imp_iff₂]
  induction l generalizing n with
  | zero =>
    cases n with
    | leaf b es =>
      simp only [Node.erase, RankOk, hlow, List.mem_map, forall_exists_index, and_imp, forall_apply_eq_imp_iff₂]
    | inner b cs => simp [Node.erase, RankOk]
  | succ l ih =>
    cases n with
    | leaf b es => simp [Node.erase, RankOk]
    | inner b cs =>
      simp only [Node.erase, RankOk, entriesList_erase, hlow]
      simp only [eraseList_eq, List.mem_map, forall_exists_index, and_imp, forall_apply_eq_imp_iff₂, ih]

variable [Bounds B] [Volume B] [Bounded K B] [Enclosure B] {P : K → Prop}

theorem Ok.rankOk [VolumeLaws B] {a : Alloc} {g : Prop} (hr : r.FilterHonours P) {l : Nat} {n : Node B K V}
    (hn : Ok Covers a g l n) (hP : ∀ e ∈ n.entries, P e.1)
    (h1 : d → ∀ n' ∈ n :: n.descendants, ∃ m, r.boundsMin n'.bounds = .ok m)
    (h2 : d → ∀ e ∈ n.entries, ∃ m, r.rankKey e.1 = .ok m) : RankOk r d l n := by
  have hlow : Low r n.bounds n.entries := by
    intro e he k hk o ho
    exact hr e.1 n.bounds o k (hP e he) (hn.agg _ (List.mem_map.2 ⟨e, he, rfl⟩)) ho hk
  induction l generalizing n with
  | zero =>
    obtain ⟨b, es, rfl, _⟩ := hn.leaf
    exact ⟨hlow, fun hd => h1 hd _ List.mem_cons_self, h2⟩
  | succ l ih =>
    obtain ⟨b, cs, rfl, _, _, hcs⟩ := hn.inner
    refine ⟨hlow, fun hd => h1 hd _ List.mem_cons_self, fun c hc => ?_⟩
    have hent : ∀ e ∈ c.entries, e ∈ (Node.inner b cs).entries := by
      intro e he
      rw [entries_inner]
      exact mem_entriesList.2 ⟨c, hc, he⟩
    have hdesc : ∀ n' ∈ c :: c.descendants, n' ∈ (Node.inner b cs).descendants := by
      intro n' hn'
      exact mem_descendantsList.2 ⟨c, hc, List.mem_cons.1 hn'⟩
    refine ih (hcs c hc).1 (fun e he => hP e (hent e he)) (fun hd n' hn' => h1 hd n' (List.mem_cons_of_mem _ (hdesc n' hn')))
      (fun hd e he => h2 hd e (hent e he)) ?_
    intro e he k hk o ho
    exact hr e.1 c.bounds o k (hP e (hent e he)) ((hcs c hc).1.agg _ (List.mem_map.2 ⟨e, he, rfl⟩)) ho hk

variable [BEq K] {c : Config} {t : Tree B K V}

theorem Reachable.rankOk (h : Reachable c P t) (hr : r.FilterHonours P) :
    RankOk r (r.DefinedOn t) t.level t.root :=
  letI : VolumeLaws B := trivialVolumeLaws
  Ok.rankOk hr h.treeOk_covers.ok h.keys (fun hd => hd.1) fun hd => hd.2

theorem Reachable.rankOk_addressed (h : Reachable c P t) (hr : r.FilterHonours P) :
    RankOk r (r.DefinedOn t) t.addressed.level t.addressed.root := by
  rw [← rankOk_erase]
  have : t.addressed.root.erase = t.root.erase := congrArg Tree.root t.erase_addressed
  rw [this, rankOk_erase]
  exact h.rankOk hr

omit [LE S] [Volume B] [BEq K] in
theorem Ranking.Honours.some [LE M] {r : Ranking B K M} (h : r.Honours P) : r.some.FilterHonours P := by
  intro k b o n hP hle hb hk
  obtain ⟨m, hm, rfl⟩ := map_eq_ok.1 hb
  obtain ⟨n', hn, hn'⟩ := map_eq_ok.1 hk
  injection hn' with hn'
  subst hn'
  exact ⟨m, rfl, h k b m n' hP hle hm hn⟩

omit [LE S] [Bounds B] [Volume B] [Bounded K B] [Enclosure B] [BEq K] in
theorem Ranking.DefinedOn.some {r : Ranking B K M} (h : r.DefinedOn t) : r.some.DefinedOn t := by
  refine ⟨fun n hn => ?_, fun e he => ?_⟩
  · obtain ⟨m, hm⟩ := h.1 n hn
    exact ⟨Option.some m, by simp only [Ranking.some, hm]; rfl⟩
  · obtain ⟨m, hm⟩ := h.2 e he
    exact ⟨Option.some m, by simp only [Ranking.some, hm]; rfl⟩

end Bridge

end RTree
