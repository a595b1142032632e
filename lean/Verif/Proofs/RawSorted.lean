import Verif.Model.RawSorted
import Verif.Proofs.RawQuery
import Verif.Proofs.Sorted
/-!
# Sorted iteration over a tree in raw memory is sorted iteration over the tree

The items of a ghost priority queue are ghost nodes and entries; the queue of the code and that of the value-level model are its images.
-/

namespace RTree.Raw

variable {B K V S : Type}

/-- An item of the ghost queue. -/
inductive GItem (B K V : Type) where
  | node (l : Nat) (g : G B K V l)
  | entry (e : K × V)

namespace GItem

/-- The item in memory. -/
def raw : GItem B K V → RawItem B K V
  | .node _ g => .node (Raw.raw g)
  | .entry e => .entry e

/-- The item of the value-level model. -/
def val : GItem B K V → SortedItem B K V
  | .node l g => .node (Raw.node l g)
  | .entry e => .entry e

/-- The score has the level of the item, and the item is in memory. -/
def Good (E : TEnv) (cap : Nat) (h : Heap (Cell B K V)) (x : Score S × GItem B K V) : Prop :=
  match x.2 with
  | .node l g => x.1.level = l + 1 ∧ Has h (chunks E cap l g)
  | .entry _ => x.1.level = 0

end GItem

/-- The number of items below the items. -/
def ghostWeight (xs : List (Score S × GItem B K V)) : Nat := (xs.map fun x => x.2.val.weight).sum

theorem ghostWeight_perm {xs ys : List (Score S × GItem B K V)} (h : xs.Perm ys) : ghostWeight xs = ghostWeight ys :=
  (h.map _).sum_nat

theorem ghostWeight_cons (s : Score S) (x : GItem B K V) (xs : List (Score S × GItem B K V)) :
    ghostWeight ((s, x) :: xs) = x.val.weight + ghostWeight xs := by
  simp [ghostWeight]

/-- A ranking panics in documented ways only. -/
def Calm (r : Ranking B K (Option S)) : Prop :=
  (∀ b e, r.boundsMin b = .error e → UserPanic e) ∧ ∀ k e, r.rankKey k = .error e → UserPanic e

section

variable [LE S] {E : TEnv} {h : Heap (Cell B K V)} {cap : Nat} (u : UniformHeap (Score S)) {r : Ranking B K (Option S)}

/-- The outcome of a loop that fills the queue. -/
def PushPost (E : TEnv) (cap : Nat) (h : Heap (Cell B K V)) (u : UniformHeap (Score S)) (w : Nat) (gq : (u.heap (GItem B K V)).H)
    (vq : Res (u.heap (SortedItem B K V)).H) (rq : Res ((u.heap (RawItem B K V)).H × Heap (Cell B K V))) : Prop :=
  match vq with
  | .ok vq => ∃ gq', vq = u.map GItem.val gq' ∧ rq = .ok (u.map GItem.raw gq', h) ∧
      (∀ x ∈ (u.heap _).items gq', GItem.Good E cap h x) ∧ ghostWeight ((u.heap _).items gq') ≤ ghostWeight ((u.heap _).items gq) + w
  | .error e => rq = .error e ∧ UserPanic e

variable {u}

theorem queue_push {gq : (u.heap (GItem B K V)).H} (hg : ∀ x ∈ (u.heap _).items gq, GItem.Good E cap h x) {x : Score S × GItem B K V}
    (hx : GItem.Good E cap h x) : (∀ y ∈ (u.heap _).items ((u.heap _).push x gq), GItem.Good E cap h y) ∧
    ghostWeight ((u.heap _).items ((u.heap _).push x gq)) = x.2.val.weight + ghostWeight ((u.heap _).items gq) := by
  have hp := (u.heap _).items_push x gq
  refine ⟨fun y hy => ?_, ?_⟩
  · rcases List.mem_cons.1 (hp.mem_iff.1 hy) with rfl | hy
    · exact hx
    · exact hg y hy
  · rw [ghostWeight_perm hp]; exact ghostWeight_cons _ _ _

theorem PushPost.mono {w w' : Nat} {gq gq' : (u.heap (GItem B K V)).H} {vq : Res (u.heap (SortedItem B K V)).H}
    {rq : Res ((u.heap (RawItem B K V)).H × Heap (Cell B K V))} (H : PushPost E cap h u w gq vq rq)
    (hw : ghostWeight ((u.heap _).items gq) + w ≤ ghostWeight ((u.heap _).items gq') + w') : PushPost E cap h u w' gq' vq rq := by
  cases vq with
  | error e => exact H
  | ok q => obtain ⟨g, a, b, c, d⟩ := H; exact ⟨g, a, b, c, by omega⟩

theorem pushEntries_cons (hp : IterHeap B K V S) (r : Ranking B K (Option S)) (e : K × V) (es : List (K × V)) (q : hp.H) :
    FilterSortedIter.pushEntries hp r (e :: es) q = r.rankKey e.1 >>= fun m =>
      FilterSortedIter.pushEntries hp r es (match m with | some m => hp.push (⟨m, 0⟩, .entry e) q | none => q) := by
  rw [FilterSortedIter.pushEntries, List.foldlM_cons]
  cases r.rankKey e.1 with
  | error e => rfl
  | ok o => cases o <;> rfl

theorem pushNodes_cons (hp : IterHeap B K V S) (r : Ranking B K (Option S)) (l : Nat) (c : Node B K V) (cs : List (Node B K V)) (q : hp.H) :
    FilterSortedIter.pushNodes hp r l (c :: cs) q = r.boundsMin c.bounds >>= fun m =>
      FilterSortedIter.pushNodes hp r l cs (match m with | some m => hp.push (⟨m, l⟩, .node c) q | none => q) := by
  rw [FilterSortedIter.pushNodes, List.foldlM_cons]
  cases r.boundsMin c.bounds with
  | error e => rfl
  | ok o => cases o <;> rfl

theorem pushEntries_sim (Z : Sizes E cap) (hr : Calm r) {v : FCVec} {es : List (K × V)}
    (H : Has h [vecC E.entry cap v (es.map (cell (B := B) 0))]) : ∀ (n i : Nat) (gq : (u.heap (GItem B K V)).H), i + n = es.length →
    (∀ x ∈ (u.heap _).items gq, GItem.Good E cap h x) →
    PushPost E cap h u n gq (FilterSortedIter.pushEntries (u.heap _) r (es.drop i) (u.map GItem.val gq))
      (Sorted.pushEntries E (u.heap _) r v n i (u.map GItem.raw gq) h)
  | 0, i, gq, hi, hg => by
    rw [List.drop_eq_nil_of_le (by omega)]
    exact ⟨gq, rfl, rfl, hg, by omega⟩
  | n + 1, i, gq, hi, hg => by
    have hlt : i < es.length := by omega
    have := FCVec.get_ok H.owns Z.entry i
    simp only [index, List.getElem?_map, List.getElem?_eq_getElem hlt, Option.map_some] at this
    rw [Sorted.pushEntries, bind_ok this]
    have e1 : (lift (cell (B := B) (V := V) 0 es[i]).asEntry : TM B K V (K × V)) h = .ok (es[i], h) := rfl
    rw [bind_ok e1, List.drop_eq_getElem_cons hlt, pushEntries_cons]
    cases hm : r.rankKey es[i].1 with
    | error e => exact ⟨bind_err rfl, hr.2 _ _ hm⟩
    | ok o =>
      rw [ok_bind, bind_ok rfl]
      cases o with
      | none => exact (pushEntries_sim Z hr H n (i + 1) gq (by omega) hg).mono (by omega)
      | some m =>
        obtain ⟨h1, h2⟩ := queue_push (u := u) hg (x := (⟨m, 0⟩, .entry es[i])) rfl
        have ih := pushEntries_sim Z hr H n (i + 1) _ (by omega) h1
        rw [u.map_push, u.map_push] at ih
        refine ih.mono ?_
        rw [h2, GItem.val, SortedItem.weight]
        omega

theorem weightList_map : ∀ (l : Nat) (kids : List (G B K V l)), weightList (kids.map (node l)) = (kids.map fun g => (node l g).weight).sum
  | _, [] => rfl
  | l, g :: kids => by rw [List.map_cons, weightList, weightList_map l kids]; rfl

theorem node_header_bounds (l : Nat) (g : G B K V l) : (node l g).bounds = (raw g).bounds := by cases l <;> rfl

theorem pushNodes_sim (Z : Sizes E cap) (hr : Calm r) {l : Nat} {v : FCVec} {kids : List (Item B K V (l + 1))}
    (H : Has h [vecC E.node cap v (kids.map (cell (l + 1)))]) (hk : ∀ c ∈ kids, Has h (chunks E cap l c)) : ∀ (n i : Nat) (gq : (u.heap (GItem B K V)).H), i + n = kids.length →
    (∀ x ∈ (u.heap _).items gq, GItem.Good E cap h x) →
    PushPost E cap h u (weightList ((kids.drop i).map (node l))) gq (FilterSortedIter.pushNodes (u.heap _) r (l + 1) ((kids.drop i).map (node l)) (u.map GItem.val gq))
      (Sorted.pushNodes E (u.heap _) r (l + 1) v n i (u.map GItem.raw gq) h)
  | 0, i, gq, hi, hg => by
    rw [List.drop_eq_nil_of_le (by omega)]
    exact ⟨gq, rfl, rfl, hg, by omega⟩
  | n + 1, i, gq, hi, hg => by
    have hlt : i < kids.length := by omega
    obtain ⟨_, _, e0, rfl, rfl, _⟩ := (nodeAt_sim Z H i).of_ok (a := kids[i]) (by simp [index, hlt])
    rw [Sorted.pushNodes, bind_ok e0, List.drop_eq_getElem_cons hlt, List.map_cons, pushNodes_cons, node_header_bounds]
    cases hm : r.boundsMin (raw kids[i]).bounds with
    | error e => exact ⟨bind_err rfl, hr.1 _ _ hm⟩
    | ok o =>
      rw [ok_bind, bind_ok rfl]
      cases o with
      | none => exact (pushNodes_sim Z hr H hk n (i + 1) gq (by omega) hg).mono (by rw [weightList]; omega)
      | some m =>
        obtain ⟨h1, h2⟩ := queue_push (u := u) hg (x := (⟨m, l + 1⟩, .node l kids[i])) ⟨rfl, hk _ (List.getElem_mem hlt)⟩
        have ih := pushNodes_sim Z hr H hk n (i + 1) _ (by omega) h1
        rw [u.map_push, u.map_push] at ih
        refine ih.mono ?_
        rw [h2, GItem.val, SortedItem.weight, weightList]
        omega

/-- The outcome of `next`. -/
def NextSim (E : TEnv) (cap : Nat) (h : Heap (Cell B K V)) (u : UniformHeap (Score S)) (gq : (u.heap (GItem B K V)).H)
    (vq : Res (Option (K × V) × (u.heap (SortedItem B K V)).H)) (rq : Res ((Option (K × V) × (u.heap (RawItem B K V)).H) × Heap (Cell B K V))) : Prop :=
  match vq with
  | .ok (o, vq) => ∃ gq', vq = u.map GItem.val gq' ∧ rq = .ok ((o, u.map GItem.raw gq'), h) ∧
      (∀ x ∈ (u.heap _).items gq', GItem.Good E cap h x) ∧ ghostWeight ((u.heap _).items gq') ≤ ghostWeight ((u.heap _).items gq)
  | .error e => rq = .error e ∧ UserPanic e

theorem NextSim.mono {gq gq' : (u.heap (GItem B K V)).H} {vq : Res (Option (K × V) × (u.heap (SortedItem B K V)).H)}
    {rq : Res ((Option (K × V) × (u.heap (RawItem B K V)).H) × Heap (Cell B K V))} (H : NextSim E cap h u gq vq rq)
    (hw : ghostWeight ((u.heap _).items gq) ≤ ghostWeight ((u.heap _).items gq')) : NextSim E cap h u gq' vq rq := by
  cases vq with
  | error e => exact H
  | ok q => obtain ⟨g, a, b, c, d⟩ := H; exact ⟨g, a, b, c, by omega⟩

theorem nextLoop_sim (Z : Sizes E cap) (hr : Calm r) : ∀ (fuel fuel' : Nat) (gq : (u.heap (GItem B K V)).H),
    (∀ x ∈ (u.heap _).items gq, GItem.Good E cap h x) → ghostWeight ((u.heap _).items gq) < fuel → ghostWeight ((u.heap _).items gq) < fuel' →
    NextSim E cap h u gq (FilterSortedIter.nextLoop (u.heap _) r fuel (u.map GItem.val gq)) (Sorted.nextLoop E (u.heap _) r fuel' (u.map GItem.raw gq) h)
  | 0, _, _, _, hf, _ => by omega
  | _ + 1, 0, _, _, _, hf => by omega
  | fuel + 1, fuel' + 1, gq, hg, hf, hf' => by
    rw [FilterSortedIter.nextLoop, Sorted.nextLoop, u.map_pop, u.map_pop]
    cases hpop : (u.heap (GItem B K V)).pop gq with
    | none => exact ⟨gq, rfl, rfl, hg, by omega⟩
    | some x =>
      obtain ⟨⟨⟨m, level⟩, item⟩, gq₁⟩ := x
      obtain ⟨hperm, _⟩ := (u.heap _).pop_some hpop
      have hx := hg _ (hperm.mem_iff.2 List.mem_cons_self)
      have hg₁ : ∀ x ∈ (u.heap _).items gq₁, GItem.Good E cap h x := fun x hx => hg x (hperm.mem_iff.2 (List.mem_cons_of_mem _ hx))
      have hw := ghostWeight_perm hperm
      rw [ghostWeight_cons] at hw
      cases item with
      | entry e =>
        obtain rfl : level = 0 := hx
        exact ⟨gq₁, rfl, rfl, hg₁, by omega⟩
      | node l g =>
        obtain ⟨hl, Hg⟩ := hx
        obtain rfl : level = l + 1 := hl
        have hlen : (raw g).vec.len = g.kids.length := by
          have := (Hg.holds _ List.mem_cons_self : Owns _ _ _ _ _).len
          simpa [raw] using this
        cases l with
        | zero =>
          have H' : Has h ([vecC E.entry cap g.vec (g.kids.map (cell 0))] ++ chunksL E cap 0 g.kids) := Hg
          have P := pushEntries_sim (u := u) Z hr H'.left g.kids.length 0 gq₁ (by omega) hg₁
          rw [List.drop_zero] at P
          show NextSim E cap h u gq (FilterSortedIter.pushEntries (u.heap _) r g.kids (u.map GItem.val gq₁) >>= fun q => FilterSortedIter.nextLoop (u.heap _) r fuel q)
            ((Sorted.pushEntries E (u.heap _) r (raw g).vec (raw g).vec.len 0 (u.map GItem.raw gq₁) >>= fun q => Sorted.nextLoop E (u.heap _) r fuel' q) h)
          rw [hlen]
          have hwn : (GItem.node 0 g : GItem B K V).val.weight = 1 + g.kids.length := rfl
          rw [hwn] at hw
          generalize FilterSortedIter.pushEntries (u.heap _) r g.kids (u.map GItem.val gq₁) = vq at P
          cases vq with
          | error e => exact ⟨bind_err P.1, P.2⟩
          | ok q =>
            obtain ⟨gq₂, rfl, e2, hg₂, hw₂⟩ := P
            show NextSim E cap h u gq _ _
            rw [ok_bind]
            refine (bind_ok (f := fun q => Sorted.nextLoop E (u.heap _) r fuel' q) e2).symm ▸ ?_
            exact (nextLoop_sim Z hr fuel fuel' gq₂ hg₂ (by omega) (by omega)).mono (by omega)
        | succ l =>
          have H' : Has h ([vecC E.node cap g.vec (g.kids.map (cell (l + 1)))] ++ chunksL E cap (l + 1) g.kids) := Hg
          have hk : ∀ c ∈ g.kids, Has h (chunks E cap l c) := by
            intro c hc
            obtain ⟨as, bs, e⟩ := List.append_of_mem hc
            have hk := H'.right
            rw [e, chunksL, List.flatMap_append, List.flatMap_cons] at hk
            exact hk.right.left
          have P := pushNodes_sim (u := u) Z hr H'.left hk g.kids.length 0 gq₁ (by omega) hg₁
          rw [List.drop_zero] at P
          show NextSim E cap h u gq (FilterSortedIter.pushNodes (u.heap _) r (l + 1) (g.kids.map (node l)) (u.map GItem.val gq₁) >>= fun q => FilterSortedIter.nextLoop (u.heap _) r fuel q)
            ((Sorted.pushNodes E (u.heap _) r (l + 1) (raw g).vec (raw g).vec.len 0 (u.map GItem.raw gq₁) >>= fun q => Sorted.nextLoop E (u.heap _) r fuel' q) h)
          rw [hlen]
          have hwn : (GItem.node (l + 1) g : GItem B K V).val.weight = 1 + weightList (g.kids.map (node l)) := rfl
          rw [hwn] at hw
          generalize FilterSortedIter.pushNodes (u.heap _) r (l + 1) (g.kids.map (node l)) (u.map GItem.val gq₁) = vq at P
          cases vq with
          | error e => exact ⟨bind_err P.1, P.2⟩
          | ok q =>
            obtain ⟨gq₂, rfl, e2, hg₂, hw₂⟩ := P
            show NextSim E cap h u gq _ _
            rw [ok_bind]
            refine (bind_ok (f := fun q => Sorted.nextLoop E (u.heap _) r fuel' q) e2).symm ▸ ?_
            exact (nextLoop_sim Z hr fuel fuel' gq₂ hg₂ (by omega) (by omega)).mono (by omega)

theorem takeLoop_sim (Z : Sizes E cap) (hr : Calm r) {fuel fuel' : Nat} : ∀ (k : Nat) (gq : (u.heap (GItem B K V)).H),
    (∀ x ∈ (u.heap _).items gq, GItem.Good E cap h x) → ghostWeight ((u.heap _).items gq) < fuel → ghostWeight ((u.heap _).items gq) < fuel' →
    match FilterSortedIter.takeLoop (u.heap _) r fuel k (u.map GItem.val gq) with
    | .ok es => Sorted.takeLoop E (u.heap _) r fuel' k (u.map GItem.raw gq) h = .ok (es, h)
    | .error e => Sorted.takeLoop E (u.heap _) r fuel' k (u.map GItem.raw gq) h = .error e ∧ UserPanic e
  | 0, _, _, _, _ => rfl
  | k + 1, gq, hg, hf, hf' => by
    have P := nextLoop_sim (u := u) Z hr fuel fuel' gq hg hf hf'
    rw [FilterSortedIter.takeLoop, Sorted.takeLoop]
    generalize FilterSortedIter.nextLoop (u.heap _) r fuel (u.map GItem.val gq) = vq at P
    cases vq with
    | error e => exact ⟨bind_err P.1, P.2⟩
    | ok q =>
      obtain ⟨o, q⟩ := q
      obtain ⟨gq₂, rfl, e2, hg₂, hw₂⟩ := P
      rw [ok_bind, bind_ok e2]
      cases o with
      | none => rfl
      | some e =>
        have ih := takeLoop_sim (fuel := fuel) (fuel' := fuel') Z hr k gq₂ hg₂ (by omega) (by omega)
        dsimp only
        generalize FilterSortedIter.takeLoop (u.heap _) r fuel k (u.map GItem.val gq₂) = vs at ih
        cases vs with
        | error e => exact ⟨bind_err ih.1, ih.2⟩
        | ok es => exact bind_ok ih

/-- A node of level `l` whose blocks are in memory weighs at most what a full one weighs. -/
theorem weight_le : ∀ (l : Nat) (g : G B K V l), Has h (chunks E cap l g) → (node l g).weight ≤ (cap + 1) ^ (l + 1)
  | 0, g, H => by
    have hc := (H.holds _ List.mem_cons_self : Owns _ _ _ _ _).fits
    rw [node, Node.weight]
    simp at hc ⊢
    omega
  | l + 1, g, H => by
    have hc := (H.holds _ List.mem_cons_self : Owns _ _ _ _ _).fits
    have H' : Has h ([vecC E.node cap g.vec (g.kids.map (cell (l + 1)))] ++ chunksL E cap (l + 1) g.kids) := H
    have hk : ∀ c ∈ g.kids, Has h (chunks E cap l c) := by
      intro c hc
      obtain ⟨as, bs, e⟩ := List.append_of_mem hc
      have hk := H'.right
      rw [e, chunksL, List.flatMap_append, List.flatMap_cons] at hk
      exact hk.right.left
    rw [node, Node.weight]
    have hl : ∀ cs : List (G B K V l), (∀ c ∈ cs, Has h (chunks E cap l c)) → weightList (cs.map (node l)) ≤ cs.length * (cap + 1) ^ (l + 1) := by
      intro cs hcs
      induction cs with
      | nil => simp [weightList]
      | cons c cs ih =>
        rw [List.map_cons, weightList, List.length_cons, Nat.add_mul, Nat.one_mul]
        have := weight_le l c (hcs c List.mem_cons_self)
        have := ih fun c hc => hcs c (List.mem_cons_of_mem _ hc)
        omega
    have h1 := hl g.kids hk
    have h2 : g.kids.length ≤ cap := by simpa using hc
    have h3 := Nat.mul_le_mul_right ((cap + 1) ^ (l + 1)) h2
    have h4 : 1 ≤ (cap + 1) ^ (l + 1) := Nat.one_le_pow _ _ (by omega)
    rw [Nat.pow_succ (n := cap + 1) (m := l + 1), Nat.mul_add, Nat.mul_one, Nat.mul_comm _ cap]
    omega

theorem filterFirstAscBy_sim (t : GTree B K V) (Z : Sizes E t.alloc.maxChildren) (u : UniformHeap (Score S)) (hr : Calm r) (k : Nat) (H : Has h (t.own E)) :
    match t.abs.filterFirstAscBy (u.heap _) r k with
    | .ok es => RTree.filterFirstAscBy E (u.heap _) r k t.rawT h = .ok (es, h)
    | .error e => RTree.filterFirstAscBy E (u.heap _) r k t.rawT h = .error e ∧ UserPanic e := by
  have hw := weight_le t.level t.root H
  have e1 : t.abs.root = node t.level t.root := rfl
  have e2 : t.rawT.root = raw t.root := rfl
  have e3 : t.rawT.sortedFuel = (t.alloc.maxChildren + 1) ^ (t.level + 1) + 1 := rfl
  have e4 : t.abs.sortedFuel = (node t.level t.root).weight + 1 := rfl
  rw [Tree.filterFirstAscBy, RTree.filterFirstAscBy, FilterSortedIter.new, Sorted.new, e1, e2, node_header_bounds]
  cases hm : r.boundsMin (raw t.root).bounds with
  | error e => exact ⟨bind_err rfl, hr.1 _ _ hm⟩
  | ok o =>
    cases o with
    | none =>
      have := takeLoop_sim (h := h) (u := u) (fuel := t.abs.sortedFuel) (fuel' := t.rawT.sortedFuel) Z hr k (u.heap (GItem B K V)).empty
        (by rw [(u.heap _).items_empty]; intro x hx; cases hx) (by rw [(u.heap _).items_empty, e4]; simp [ghostWeight]) (by rw [(u.heap _).items_empty, e3]; simp [ghostWeight])
      rw [u.map_empty, u.map_empty] at this
      exact this
    | some m =>
      obtain ⟨h1, h2⟩ := queue_push (E := E) (cap := t.alloc.maxChildren) (h := h) (u := u) (gq := (u.heap (GItem B K V)).empty)
        (by rw [(u.heap _).items_empty]; intro x hx; cases hx) (x := (⟨m, t.level + 1⟩, .node t.level t.root)) ⟨rfl, H⟩
      have e5 : (GItem.node t.level t.root).val.weight = (node t.level t.root).weight := rfl
      rw [(u.heap _).items_empty] at h2
      simp only [ghostWeight, List.map_nil, List.sum_nil, Nat.add_zero] at h2
      have := takeLoop_sim (h := h) (u := u) (fuel := t.abs.sortedFuel) (fuel' := t.rawT.sortedFuel) Z hr k _ h1
        (by rw [e4]; simp only [ghostWeight, h2, e5]; omega) (by rw [e3]; simp only [ghostWeight, h2, e5]; omega)
      rw [u.map_push, u.map_push, u.map_empty, u.map_empty] at this
      exact this

end

end RTree.Raw
