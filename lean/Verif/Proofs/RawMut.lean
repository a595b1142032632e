import Verif.Proofs.RawPlaces
import Verif.Proofs.RawSorted
import Verif.Proofs.SortedMap
/-!
# Mutable iteration over a tree in raw memory is mutable iteration over the tree

Between two steps of the iterator the client may change values, so what is known of the memory is an invariant `Inv` that gives the skeletons of the nodes.  The skeleton of the
whole tree has the places `P`; a node whose first value has address `a` has the places from the `a`-th on.
-/

namespace RTree.Raw

variable {B K V Q S σ τ : Type} {E : TEnv} {cap : Nat} {Inv : Heap (Cell B K V) → Prop} {P : List Place}

/-- A node of the tree, by its skeleton, and the address of its first value. -/
structure At (E : TEnv) (cap : Nat) (Inv : Heap (Cell B K V) → Prop) (P : List Place) (l : Nat) (g : G B K Unit l) (a : Nat) : Prop where
  mem : ∀ {h}, Inv h → ∃ g' : G B K V l, skel l g' = g ∧ Has h (chunks E cap l g')
  pos : ∀ j, j < (places l g).length → P[a + j]? = (places l g)[j]?

/-- Several nodes in a row. -/
def AtL (E : TEnv) (cap : Nat) (Inv : Heap (Cell B K V) → Prop) (P : List Place) (l : Nat) : List (G B K Unit l) → Nat → Prop
  | [], _ => True
  | c :: cs, a => At E cap Inv P l c a ∧ AtL E cap Inv P l cs (a + (node l c).size)

theorem At.kids {l : Nat} {g : G B K Unit (l + 1)} {a : Nat} (A : At E cap Inv P (l + 1) g a) : AtL E cap Inv P l g.kids a := by
  have hmem : ∀ c ∈ g.kids, ∀ {h}, Inv h → ∃ g' : G B K V l, skel l g' = c ∧ Has h (chunks E cap l g') := by
    intro c hc h hI
    obtain ⟨g', rfl, H⟩ := A.mem hI
    obtain ⟨c', hc', rfl⟩ := List.mem_map.1 hc
    refine ⟨c', rfl, ?_⟩
    obtain ⟨as, bs, e⟩ := List.append_of_mem hc'
    have hk : Has h (chunksL E cap (l + 1) g'.kids) := Has.right (cs := [vecC E.node cap g'.vec (g'.kids.map (cell (l + 1)))]) H
    rw [e, chunksL, List.flatMap_append, List.flatMap_cons] at hk
    exact hk.right.left
  have hpos := A.pos
  rw [places] at hpos
  clear A
  revert hmem hpos
  generalize g.kids = kids
  intro hmem hpos
  induction kids generalizing a with
  | nil => trivial
  | cons c cs ih =>
    rw [List.flatMap_cons] at hpos
    refine ⟨⟨hmem c List.mem_cons_self, fun j hj => ?_⟩, ih (fun c hc => hmem c (List.mem_cons_of_mem _ hc)) fun j hj => ?_⟩
    · rw [hpos j (by rw [List.length_append]; omega), List.getElem?_append_left hj]
    · rw [size_node]
      have := hpos ((places l c).length + j) (by rw [List.length_append]; omega)
      rw [List.getElem?_append_right (by omega), Nat.add_sub_cancel_left] at this
      rw [Nat.add_assoc]; exact this

theorem AtL.get {l : Nat} : ∀ {cs : List (G B K Unit l)} {a : Nat}, AtL E cap Inv P l cs a → ∀ c ∈ cs, ∃ b, At E cap Inv P l c b
  | [], _, _, c, hc => by cases hc
  | d :: cs, a, A, c, hc => by
    rcases List.mem_cons.1 hc with rfl | hc
    · exact ⟨a, A.1⟩
    · exact AtL.get A.2 c hc

section Reading

variable {h : Heap (Cell B K V)}

theorem At.len {l : Nat} {g : G B K Unit l} {a : Nat} (A : At E cap Inv P l g a) (hI : Inv h) : (raw g).vec.len = g.kids.length := by
  obtain ⟨g', rfl, H⟩ := A.mem hI
  have := (H.holds _ List.mem_cons_self : Owns _ _ _ _ _).len
  simpa [raw] using this

theorem At.readLeaf (Z : Sizes E cap) {g : G B K Unit 0} {a : Nat} (A : At E cap Inv P 0 g a) (hI : Inv h) {i : Nat} (hi : i < g.kids.length) :
    ∃ v : V, FCVec.get E.entry g.vec i h = .ok (.entry (g.kids[i].1, v), h) := by
  obtain ⟨g', rfl, H⟩ := A.mem hI
  have hi' : i < g'.kids.length := by simpa using hi
  have := FCVec.get_ok (Has.left (cs := [vecC E.entry cap g'.vec (g'.kids.map (cell (B := B) 0))]) (ds := chunksL E cap 0 g'.kids) H).owns Z.entry i
  simp only [index, List.getElem?_map, List.getElem?_eq_getElem hi', Option.map_some] at this
  refine ⟨g'.kids[i].2, this.trans ?_⟩
  simp [cell, strip]

theorem At.readInner (Z : Sizes E cap) {l : Nat} {g : G B K Unit (l + 1)} {a : Nat} (A : At E cap Inv P (l + 1) g a) (hI : Inv h) {i : Nat} (hi : i < g.kids.length) :
    nodeAt E g.vec i h = .ok (raw g.kids[i], h) := by
  obtain ⟨g', rfl, H⟩ := A.mem hI
  have hi' : i < g'.kids.length := by simpa using hi
  have H1 : Has h [vecC E.node cap g'.vec (g'.kids.map (cell (l + 1)))] := Has.left (ds := chunksL E cap (l + 1) g'.kids) H
  obtain ⟨_, _, e0, rfl, rfl, _⟩ := (nodeAt_sim Z H1 i).of_ok (a := g'.kids[i]) (by simp [index, hi'])
  refine e0.trans ?_
  simp [strip, raw]

theorem At.leafPos {g : G B K Unit 0} {a : Nat} (A : At E cap Inv P 0 g a) {i : Nat} (hi : i < g.kids.length) : P[a + i]? = some (g.vec, i) := by
  rw [A.pos i (by simpa [places] using hi), places, List.getElem?_map, List.getElem?_range hi]; rfl

end Reading

/-- What a client does, in memory and on values. -/
structure StepSim (Inv : Heap (Cell B K V) → Prop) (P : List Place) (R : σ → τ → Heap (Cell B K V) → Prop) (step : σ → K × Place → TM B K V σ) (stepv : τ → K × Nat → τ) : Prop where
  inv : ∀ {s t h}, R s t h → Inv h
  sim : ∀ {s t h k a p}, R s t h → P[a]? = some p → ∃ s' h', step s (k, p) h = .ok (s', h') ∧ R s' (stepv t (k, a)) h'

/-! ### Unordered iteration -/

section Unordered

variable {R : σ → τ → Heap (Cell B K V) → Prop} {step : σ → K × Place → TM B K V σ} {stepv : τ → K × Nat → τ}
variable (W : StepSim Inv P R step stepv) (Z : Sizes E cap) (borrow : K → Q) (f : SpatialFilter B Q)
include W Z

theorem mutLeaf_ok {g : G B K Unit 0} {a : Nat} (A : At E cap Inv P 0 g a) : ∀ (n i : Nat) (s : σ) (t : τ) (h : Heap (Cell B K V)), i + n = g.kids.length → R s t h →
    ∃ s' h', mutLeaf E borrow f step g.vec n i s h = .ok (s', h') ∧
      R s' ((((g.kids.drop i).zipIdx (a + i)).map (fun e => (e.1.1, e.2)) |>.filter fun e => f.testKey (borrow e.1)).foldl stepv t) h'
  | 0, i, s, t, h, hi, hR => by
    rw [List.drop_eq_nil_of_le (by omega)]
    exact ⟨s, h, rfl, hR⟩
  | n + 1, i, s, t, h, hi, hR => by
    have hlt : i < g.kids.length := by omega
    obtain ⟨v, e0⟩ := A.readLeaf Z (W.inv hR) hlt
    rw [mutLeaf, bind_ok e0]
    have e1 : (lift (Cell.entry (g.kids[i].1, v) : Cell B K V).asEntry : TM B K V (K × V)) h = .ok ((g.kids[i].1, v), h) := rfl
    rw [bind_ok e1, List.drop_eq_getElem_cons hlt, List.zipIdx_cons, List.map_cons, List.filter_cons]
    by_cases hk : f.testKey (borrow g.kids[i].1) = true
    · obtain ⟨s₁, h₁, e2, hR₁⟩ := W.sim (k := g.kids[i].1) hR (A.leafPos hlt)
      simp only [if_pos hk]
      rw [bind_ok e2, List.foldl_cons, Nat.add_assoc]
      exact mutLeaf_ok A n (i + 1) _ _ _ (by omega) hR₁
    · simp only [if_neg hk]
      rw [bind_ok (show (pure s : TM B K V σ) h = .ok (s, h) from rfl), Nat.add_assoc]
      exact mutLeaf_ok A n (i + 1) _ _ _ (by omega) hR

omit W in
theorem mutInner_ok (hinv : ∀ {s t h}, R s t h → Inv h) {l : Nat} {g : G B K Unit (l + 1)} {b : Nat} (A : At E cap Inv P (l + 1) g b) {rec : RNode B → σ → TM B K V σ}
    (hrec : ∀ (c : G B K Unit l) (a : Nat) (s : σ) (t : τ) (h : Heap (Cell B K V)), At E cap Inv P l c a → R s t h → ∃ s' h', rec (raw c) s h = .ok (s', h') ∧
      R s' ((((node l c).addressed a).matching f.testBounds fun e => f.testKey (borrow e.1)).foldl stepv t) h') :
    ∀ (n i a : Nat) (s : σ) (t : τ) (h : Heap (Cell B K V)), i + n = g.kids.length → AtL E cap Inv P l (g.kids.drop i) a → R s t h →
    ∃ s' h', mutInner E f rec g.vec n i s h = .ok (s', h') ∧
      R s' ((matchingList f.testBounds (fun e => f.testKey (borrow e.1)) (addressedList a ((g.kids.drop i).map (node l)))).foldl stepv t) h'
  | 0, i, a, s, t, h, hi, _, hR => by
    rw [List.drop_eq_nil_of_le (by omega)]
    exact ⟨s, h, rfl, hR⟩
  | n + 1, i, a, s, t, h, hi, hL, hR => by
    have hlt : i < g.kids.length := by omega
    rw [mutInner, bind_ok (A.readInner Z (hinv hR) hlt)]
    rw [List.drop_eq_getElem_cons hlt] at hL ⊢
    obtain ⟨hc, hL⟩ := hL
    rw [List.map_cons, addressedList, matchingList, List.foldl_append]
    have hb : ((node l g.kids[i]).addressed a).bounds = (raw g.kids[i]).bounds := by cases l <;> rfl
    rw [hb]
    by_cases ht : f.testBounds (raw g.kids[i]).bounds = true
    · obtain ⟨s₁, h₁, e2, hR₁⟩ := hrec g.kids[i] a s t h hc hR
      simp only [if_pos ht]
      rw [bind_ok e2]
      exact mutInner_ok hinv A hrec n (i + 1) _ _ _ _ (by omega) hL hR₁
    · simp only [if_neg ht]
      rw [bind_ok (show (pure s : TM B K V σ) h = .ok (s, h) from rfl)]
      exact mutInner_ok hinv A hrec n (i + 1) _ _ _ _ (by omega) hL hR

theorem mutNode_ok : ∀ (l : Nat) (g : G B K Unit l) (a : Nat) (s : σ) (t : τ) (h : Heap (Cell B K V)), At E cap Inv P l g a → R s t h →
    ∃ s' h', mutNode E borrow f step l (raw g) s h = .ok (s', h') ∧
      R s' ((((node l g).addressed a).matching f.testBounds fun e => f.testKey (borrow e.1)).foldl stepv t) h'
  | 0, g, a, s, t, h, A, hR => by
    rw [mutNode, A.len (W.inv hR)]
    have := mutLeaf_ok W Z borrow f A g.kids.length 0 s t h (by omega) hR
    rw [List.drop_zero, Nat.add_zero] at this
    exact this
  | l + 1, g, a, s, t, h, A, hR => by
    rw [mutNode, A.len (W.inv hR)]
    have := mutInner_ok (R := R) Z borrow f W.inv (g := g) A (rec := mutNode E borrow f step l) (stepv := stepv) (fun c a s t h => mutNode_ok l c a s t h) g.kids.length 0 a s t h (by omega)
      (by rw [List.drop_zero]; exact A.kids) hR
    rw [List.drop_zero] at this
    exact this

end Unordered

/-! ### Sorted iteration -/

/-- An item of the ghost queue: a node and the address of its first value, or a key with the address and the place of the value. -/
inductive GItemMut (B K : Type) where
  | node (l : Nat) (g : G B K Unit l) (a : Nat)
  | entry (k : K) (a : Nat) (p : Place)

namespace GItemMut

/-- The item in memory. -/
def raw : GItemMut B K → RawItemMut B
  | .node _ g _ => .node (Raw.raw g)
  | .entry _ _ p => .entry p

/-- The item of the value-level model. -/
def val : GItemMut B K → SortedItem B K Nat
  | .node l g a => .node ((Raw.node l g).addressed a)
  | .entry k a _ => .entry (k, a)

/-- The score has the level of the item, and the item belongs to the tree. -/
def Good (E : TEnv) (cap : Nat) (Inv : Heap (Cell B K V) → Prop) (P : List Place) (x : Score S × GItemMut B K) : Prop :=
  match x.2 with
  | .node l g a => x.1.level = l + 1 ∧ At E cap Inv P l g a
  | .entry k a p => x.1.level = 0 ∧ P[a]? = some p ∧ ∀ {h}, Inv h → ∃ v : V, readEntry E p h = .ok ((k, v), h)

end GItemMut

/-- The number of items below the items. -/
def mutWeight (xs : List (Score S × GItemMut B K)) : Nat := (xs.map fun x => x.2.val.weight).sum

theorem mutWeight_perm {xs ys : List (Score S × GItemMut B K)} (h : xs.Perm ys) : mutWeight xs = mutWeight ys :=
  (h.map _).sum_nat

theorem mutWeight_cons (s : Score S) (x : GItemMut B K) (xs : List (Score S × GItemMut B K)) :
    mutWeight ((s, x) :: xs) = x.val.weight + mutWeight xs := by
  simp [mutWeight]

section

variable [LE S] {h : Heap (Cell B K V)} (u : UniformHeap (Score S)) {r : Ranking B K (Option S)}

/-- The outcome of a loop that fills the queue. -/
def PushMutPost (E : TEnv) (cap : Nat) (Inv : Heap (Cell B K V) → Prop) (P : List Place) (h : Heap (Cell B K V)) (u : UniformHeap (Score S)) (w : Nat) (gq : (u.heap (GItemMut B K)).H)
    (vq : Res (u.heap (SortedItem B K Nat)).H) (rq : Res ((u.heap (RawItemMut B)).H × Heap (Cell B K V))) : Prop :=
  match vq with
  | .ok vq => ∃ gq', vq = u.map GItemMut.val gq' ∧ rq = .ok (u.map GItemMut.raw gq', h) ∧
      (∀ x ∈ (u.heap _).items gq', GItemMut.Good E cap Inv P x) ∧ mutWeight ((u.heap _).items gq') ≤ mutWeight ((u.heap _).items gq) + w
  | .error e => rq = .error e ∧ UserPanic e

variable {u}

theorem queueMut_push {gq : (u.heap (GItemMut B K)).H} (hg : ∀ x ∈ (u.heap _).items gq, GItemMut.Good E cap Inv P x) {x : Score S × GItemMut B K}
    (hx : GItemMut.Good E cap Inv P x) : (∀ y ∈ (u.heap _).items ((u.heap _).push x gq), GItemMut.Good E cap Inv P y) ∧
    mutWeight ((u.heap _).items ((u.heap _).push x gq)) = x.2.val.weight + mutWeight ((u.heap _).items gq) := by
  have hp := (u.heap _).items_push x gq
  refine ⟨fun y hy => ?_, ?_⟩
  · rcases List.mem_cons.1 (hp.mem_iff.1 hy) with rfl | hy
    · exact hx
    · exact hg y hy
  · rw [mutWeight_perm hp]; exact mutWeight_cons _ _ _

theorem PushMutPost.mono {w w' : Nat} {gq gq' : (u.heap (GItemMut B K)).H} {vq : Res (u.heap (SortedItem B K Nat)).H}
    {rq : Res ((u.heap (RawItemMut B)).H × Heap (Cell B K V))} (H : PushMutPost E cap Inv P h u w gq vq rq)
    (hw : mutWeight ((u.heap _).items gq) + w ≤ mutWeight ((u.heap _).items gq') + w') : PushMutPost E cap Inv P h u w' gq' vq rq := by
  cases vq with
  | error e => exact H
  | ok q => obtain ⟨g, a, b, c, d⟩ := H; exact ⟨g, a, b, c, by omega⟩

theorem pushEntriesMut_sim (Z : Sizes E cap) (hr : Calm r) {g : G B K Unit 0} {a : Nat} (A : At E cap Inv P 0 g a) (hI : Inv h) :
    ∀ (n i : Nat) (gq : (u.heap (GItemMut B K)).H), i + n = g.kids.length → (∀ x ∈ (u.heap _).items gq, GItemMut.Good E cap Inv P x) →
    PushMutPost E cap Inv P h u n gq (FilterSortedIter.pushEntries (u.heap _) r (((g.kids.drop i).zipIdx (a + i)).map fun e => (e.1.1, e.2)) (u.map GItemMut.val gq))
      (SortedMut.pushEntries E (u.heap _) r g.vec n i (u.map GItemMut.raw gq) h)
  | 0, i, gq, hi, hg => by
    rw [List.drop_eq_nil_of_le (by omega)]
    exact ⟨gq, rfl, rfl, hg, by omega⟩
  | n + 1, i, gq, hi, hg => by
    have hlt : i < g.kids.length := by omega
    obtain ⟨v, e0⟩ := A.readLeaf Z hI hlt
    rw [SortedMut.pushEntries, bind_ok e0]
    have e1 : (lift (Cell.entry (g.kids[i].1, v) : Cell B K V).asEntry : TM B K V (K × V)) h = .ok ((g.kids[i].1, v), h) := rfl
    rw [bind_ok e1, List.drop_eq_getElem_cons hlt, List.zipIdx_cons, List.map_cons, pushEntries_cons]
    cases hm : r.rankKey g.kids[i].1 with
    | error e => exact ⟨bind_err rfl, hr.2 _ _ hm⟩
    | ok o =>
      rw [ok_bind, bind_ok rfl, Nat.add_assoc]
      cases o with
      | none => exact (pushEntriesMut_sim Z hr A hI n (i + 1) gq (by omega) hg).mono (by omega)
      | some m =>
        obtain ⟨h1, h2⟩ := queueMut_push (E := E) (cap := cap) (Inv := Inv) (P := P) (u := u) hg (x := (⟨m, 0⟩, .entry g.kids[i].1 (a + i) (g.vec, i))) ⟨rfl, A.leafPos hlt, fun hI => by
          obtain ⟨v, e0⟩ := A.readLeaf Z hI hlt
          exact ⟨v, by rw [readEntry, bind_ok e0]; rfl⟩⟩
        have ih := pushEntriesMut_sim Z hr A hI n (i + 1) _ (by omega) h1
        rw [u.map_push, u.map_push] at ih
        refine ih.mono ?_
        rw [h2, GItemMut.val, SortedItem.weight]
        omega

theorem pushNodesMut_sim (Z : Sizes E cap) (hr : Calm r) {l : Nat} {g : G B K Unit (l + 1)} {b : Nat} (A : At E cap Inv P (l + 1) g b) (hI : Inv h) :
    ∀ (n i a : Nat) (gq : (u.heap (GItemMut B K)).H), i + n = g.kids.length → AtL E cap Inv P l (g.kids.drop i) a → (∀ x ∈ (u.heap _).items gq, GItemMut.Good E cap Inv P x) →
    PushMutPost E cap Inv P h u (weightList (addressedList a ((g.kids.drop i).map (node l)))) gq
      (FilterSortedIter.pushNodes (u.heap _) r (l + 1) (addressedList a ((g.kids.drop i).map (node l))) (u.map GItemMut.val gq))
      (SortedMut.pushNodes E (u.heap _) r (l + 1) g.vec n i (u.map GItemMut.raw gq) h)
  | 0, i, a, gq, hi, _, hg => by
    rw [List.drop_eq_nil_of_le (by omega)]
    exact ⟨gq, rfl, rfl, hg, by omega⟩
  | n + 1, i, a, gq, hi, hL, hg => by
    have hlt : i < g.kids.length := by omega
    rw [SortedMut.pushNodes, bind_ok (A.readInner Z hI hlt)]
    rw [List.drop_eq_getElem_cons hlt] at hL ⊢
    obtain ⟨hc, hL⟩ := hL
    have hb : ((node l g.kids[i]).addressed a).bounds = (raw g.kids[i]).bounds := by cases l <;> rfl
    rw [List.map_cons, addressedList, pushNodes_cons, hb]
    cases hm : r.boundsMin (raw g.kids[i]).bounds with
    | error e => exact ⟨bind_err rfl, hr.1 _ _ hm⟩
    | ok o =>
      rw [ok_bind, bind_ok rfl]
      cases o with
      | none => exact (pushNodesMut_sim Z hr A hI n (i + 1) _ gq (by omega) hL hg).mono (by rw [weightList]; omega)
      | some m =>
        obtain ⟨h1, h2⟩ := queueMut_push (E := E) (cap := cap) (Inv := Inv) (P := P) (u := u) hg (x := (⟨m, l + 1⟩, .node l g.kids[i] a)) ⟨rfl, hc⟩
        have ih := pushNodesMut_sim Z hr A hI n (i + 1) _ _ (by omega) hL h1
        rw [u.map_push, u.map_push] at ih
        refine ih.mono ?_
        rw [h2, GItemMut.val, SortedItem.weight, weightList]
        omega

/-- The outcome of `next`. -/
def NextMutSim (E : TEnv) (cap : Nat) (Inv : Heap (Cell B K V) → Prop) (P : List Place) (h : Heap (Cell B K V)) (u : UniformHeap (Score S)) (gq : (u.heap (GItemMut B K)).H)
    (vq : Res (Option (K × Nat) × (u.heap (SortedItem B K Nat)).H)) (rq : Res ((Option (K × Place) × (u.heap (RawItemMut B)).H) × Heap (Cell B K V))) : Prop :=
  match vq with
  | .ok (o, vq) => ∃ gq' o', vq = u.map GItemMut.val gq' ∧ rq = .ok ((o', u.map GItemMut.raw gq'), h) ∧
      (match o, o' with
        | none, none => True
        | some (k, a), some (k', p) => k' = k ∧ P[a]? = some p
        | _, _ => False) ∧
      (∀ x ∈ (u.heap _).items gq', GItemMut.Good E cap Inv P x) ∧ mutWeight ((u.heap _).items gq') ≤ mutWeight ((u.heap _).items gq)
  | .error e => rq = .error e ∧ UserPanic e

theorem NextMutSim.mono {gq gq' : (u.heap (GItemMut B K)).H} {vq : Res (Option (K × Nat) × (u.heap (SortedItem B K Nat)).H)}
    {rq : Res ((Option (K × Place) × (u.heap (RawItemMut B)).H) × Heap (Cell B K V))} (H : NextMutSim E cap Inv P h u gq vq rq)
    (hw : mutWeight ((u.heap _).items gq) ≤ mutWeight ((u.heap _).items gq')) : NextMutSim E cap Inv P h u gq' vq rq := by
  cases vq with
  | error e => exact H
  | ok q => obtain ⟨g, o, a, b, m, c, d⟩ := H; exact ⟨g, o, a, b, m, c, by omega⟩

theorem nextLoopMut_sim (Z : Sizes E cap) (hr : Calm r) (hI : Inv h) : ∀ (fuel fuel' : Nat) (gq : (u.heap (GItemMut B K)).H),
    (∀ x ∈ (u.heap _).items gq, GItemMut.Good E cap Inv P x) → mutWeight ((u.heap _).items gq) < fuel → mutWeight ((u.heap _).items gq) < fuel' →
    NextMutSim E cap Inv P h u gq (FilterSortedIter.nextLoop (u.heap _) r fuel (u.map GItemMut.val gq)) (SortedMut.nextLoop E (u.heap _) r fuel' (u.map GItemMut.raw gq) h)
  | 0, _, _, _, hf, _ => by omega
  | _ + 1, 0, _, _, _, hf => by omega
  | fuel + 1, fuel' + 1, gq, hg, hf, hf' => by
    rw [FilterSortedIter.nextLoop, SortedMut.nextLoop, u.map_pop, u.map_pop]
    cases hpop : (u.heap (GItemMut B K)).pop gq with
    | none => exact ⟨gq, none, rfl, rfl, trivial, hg, by omega⟩
    | some x =>
      obtain ⟨⟨⟨m, level⟩, item⟩, gq₁⟩ := x
      obtain ⟨hperm, _⟩ := (u.heap _).pop_some hpop
      have hx := hg _ (hperm.mem_iff.2 List.mem_cons_self)
      have hg₁ : ∀ x ∈ (u.heap _).items gq₁, GItemMut.Good E cap Inv P x := fun x hx => hg x (hperm.mem_iff.2 (List.mem_cons_of_mem _ hx))
      have hw := mutWeight_perm hperm
      rw [mutWeight_cons] at hw
      cases item with
      | entry k a p =>
        obtain ⟨hl, hp, hread⟩ := hx
        obtain rfl : level = 0 := hl
        obtain ⟨v, e0⟩ := hread hI
        refine ⟨gq₁, some (k, p), rfl, ?_, ⟨rfl, hp⟩, hg₁, by omega⟩
        show ((readEntry E p : TM B K V (K × V)) >>= fun e => pure (some (e.1, p), u.map GItemMut.raw gq₁)) h = _
        rw [bind_ok e0]; rfl
      | node l g a =>
        obtain ⟨hl, A⟩ := hx
        obtain rfl : level = l + 1 := hl
        have hlen := A.len hI
        cases l with
        | zero =>
          have P' := pushEntriesMut_sim (u := u) Z hr A hI g.kids.length 0 gq₁ (by omega) hg₁
          rw [List.drop_zero, Nat.add_zero] at P'
          show NextMutSim E cap Inv P h u gq (FilterSortedIter.pushEntries (u.heap _) r ((g.kids.zipIdx a).map fun e => (e.1.1, e.2)) (u.map GItemMut.val gq₁) >>=
              fun q => FilterSortedIter.nextLoop (u.heap _) r fuel q)
            ((SortedMut.pushEntries E (u.heap _) r (raw g).vec (raw g).vec.len 0 (u.map GItemMut.raw gq₁) >>= fun q => SortedMut.nextLoop E (u.heap _) r fuel' q) h)
          rw [hlen]
          have hwn : (GItemMut.node 0 g a : GItemMut B K).val.weight = 1 + g.kids.length := by
            show 1 + (List.map _ (g.kids.zipIdx a)).length = _
            simp
          rw [hwn] at hw
          generalize FilterSortedIter.pushEntries (u.heap _) r ((g.kids.zipIdx a).map fun e => (e.1.1, e.2)) (u.map GItemMut.val gq₁) = vq at P'
          cases vq with
          | error e => exact ⟨bind_err P'.1, P'.2⟩
          | ok q =>
            obtain ⟨gq₂, rfl, e2, hg₂, hw₂⟩ := P'
            show NextMutSim E cap Inv P h u gq _ _
            rw [ok_bind]
            refine (bind_ok (f := fun q => SortedMut.nextLoop E (u.heap _) r fuel' q) e2).symm ▸ ?_
            exact (nextLoopMut_sim Z hr hI fuel fuel' gq₂ hg₂ (by omega) (by omega)).mono (by omega)
        | succ l =>
          have P' := pushNodesMut_sim (u := u) Z hr A hI g.kids.length 0 a gq₁ (by omega) (by rw [List.drop_zero]; exact A.kids) hg₁
          rw [List.drop_zero] at P'
          show NextMutSim E cap Inv P h u gq (FilterSortedIter.pushNodes (u.heap _) r (l + 1) (addressedList a (g.kids.map (node l))) (u.map GItemMut.val gq₁) >>=
              fun q => FilterSortedIter.nextLoop (u.heap _) r fuel q)
            ((SortedMut.pushNodes E (u.heap _) r (l + 1) (raw g).vec (raw g).vec.len 0 (u.map GItemMut.raw gq₁) >>= fun q => SortedMut.nextLoop E (u.heap _) r fuel' q) h)
          rw [hlen]
          have hwn : (GItemMut.node (l + 1) g a : GItemMut B K).val.weight = 1 + weightList (addressedList a (g.kids.map (node l))) := rfl
          rw [hwn] at hw
          generalize FilterSortedIter.pushNodes (u.heap _) r (l + 1) (addressedList a (g.kids.map (node l))) (u.map GItemMut.val gq₁) = vq at P'
          cases vq with
          | error e => exact ⟨bind_err P'.1, P'.2⟩
          | ok q =>
            obtain ⟨gq₂, rfl, e2, hg₂, hw₂⟩ := P'
            show NextMutSim E cap Inv P h u gq _ _
            rw [ok_bind]
            refine (bind_ok (f := fun q => SortedMut.nextLoop E (u.heap _) r fuel' q) e2).symm ▸ ?_
            exact (nextLoopMut_sim Z hr hI fuel fuel' gq₂ hg₂ (by omega) (by omega)).mono (by omega)

theorem takeLoopMut_sim {R : σ → τ → Heap (Cell B K V) → Prop} {step : σ → K × Place → TM B K V σ} {stepv : τ → K × Nat → τ} (W : StepSim Inv P R step stepv)
    (Z : Sizes E cap) (hr : Calm r) {fuel fuel' : Nat} : ∀ (k : Nat) (gq : (u.heap (GItemMut B K)).H) (s : σ) (t : τ) (h : Heap (Cell B K V)), R s t h →
    (∀ x ∈ (u.heap _).items gq, GItemMut.Good E cap Inv P x) → mutWeight ((u.heap _).items gq) < fuel → mutWeight ((u.heap _).items gq) < fuel' →
    match FilterSortedIter.takeLoop (u.heap _) r fuel k (u.map GItemMut.val gq) with
    | .ok es => ∃ s' h', SortedMut.takeLoop E (u.heap _) r step fuel' k (u.map GItemMut.raw gq) s h = .ok (s', h') ∧ R s' (es.foldl stepv t) h'
    | .error e => SortedMut.takeLoop E (u.heap _) r step fuel' k (u.map GItemMut.raw gq) s h = .error e ∧ UserPanic e
  | 0, _, s, t, h, hR, _, _, _ => ⟨s, h, rfl, hR⟩
  | k + 1, gq, s, t, h, hR, hg, hf, hf' => by
    have N := nextLoopMut_sim (u := u) Z hr (W.inv hR) fuel fuel' gq hg hf hf'
    rw [FilterSortedIter.takeLoop, SortedMut.takeLoop]
    generalize FilterSortedIter.nextLoop (u.heap _) r fuel (u.map GItemMut.val gq) = vq at N
    cases vq with
    | error e => exact ⟨bind_err N.1, N.2⟩
    | ok q =>
      obtain ⟨o, q⟩ := q
      obtain ⟨gq₂, o', rfl, e2, ho, hg₂, hw₂⟩ := N
      rw [ok_bind, bind_ok e2]
      cases o with
      | none =>
        cases o' with
        | none => exact ⟨s, h, rfl, hR⟩
        | some x => exact ho.elim
      | some x =>
        cases o' with
        | none => exact ho.elim
        | some y =>
          obtain ⟨k', a⟩ := x
          obtain ⟨k'', p⟩ := y
          obtain ⟨rfl, hp⟩ := ho
          obtain ⟨s₁, h₁, e3, hR₁⟩ := W.sim (k := k'') hR hp
          have ih := takeLoopMut_sim (fuel := fuel) (fuel' := fuel') W Z hr k gq₂ s₁ _ h₁ hR₁ hg₂ (by omega) (by omega)
          dsimp only
          rw [bind_ok e3]
          generalize FilterSortedIter.takeLoop (u.heap _) r fuel k (u.map GItemMut.val gq₂) = vs at ih
          cases vs with
          | error e => exact ih
          | ok es => exact ih

end

end RTree.Raw
