import Verif.Proofs.Ghost
import Verif.Proofs.Tree
/-!
# Insertion in memory
-/

namespace RTree.Raw

variable {B K V Q : Type}

theorem Sim.map_left {α β γ δ : Type} {f : γ → δ} {x : Res γ} {y : Res (β × Heap α)} {R : δ → β → Heap α → Prop}
    (s : Sim x y fun a => R (f a)) : Sim (f <$> x) y R := by
  cases x with
  | ok a => exact s
  | error e => cases e <;> exact s

theorem Sim.of_map {α β γ δ : Type} {f : γ → δ} {x : Res γ} {y : Res (β × Heap α)} {R : δ → β → Heap α → Prop}
    (s : Sim (f <$> x) y R) : Sim x y fun a => R (f a) := by
  cases x with
  | ok a => exact s
  | error e => cases e <;> exact s

theorem Sim.and {α β γ : Type} {x : Res γ} {y : Res (β × Heap α)} {R : γ → β → Heap α → Prop} {F : Panic → Prop} {P : γ → Prop}
    (s : Sim x y R) (p : Sat x F P) : Sim x y fun a b h' => P a ∧ R a b h' := by
  cases x with
  | ok a => obtain ⟨b, h', h1, h2⟩ := s; exact ⟨b, h', h1, p, h2⟩
  | error e => cases e <;> exact s

section Bounds

variable [Bounded K B]

/-- The bounds of an item. -/
def bI : (l : Nat) → Item B K V l → B
  | 0, e => Bounded.bounds e.1
  | _ + 1, g => g.bounds

theorem cell_bounds : ∀ l : Nat, (Cell.bounds ∘ cell l : Item B K V l → B) = bI l
  | 0 => rfl
  | _ + 1 => rfl

omit [Bounded K B] in
theorem node_bounds' : ∀ (l : Nat) (g : G B K V l), (node l g).bounds = g.bounds
  | 0, _ => rfl
  | _ + 1, _ => rfl

theorem node_bounds (l : Nat) : (Node.bounds ∘ node l : Item B K V (l + 1) → B) = bI (l + 1) := funext (node_bounds' l)

end Bounds

/-- The value-level entry to insert. -/
def absE : (l : Nat) → Item B K V l → NodeEntry B K V
  | 0, e => .leaf e.1 e.2
  | l + 1, g => .inner l (node l g)

/-- The entry to insert, in memory. -/
def rawE : (l : Nat) → Item B K V l → REntry B K V
  | 0, e => .leaf e.1 e.2
  | l + 1, g => .inner l (raw g)

theorem absE_target : ∀ (l : Nat) (x : Item B K V l), (absE l x).targetLevel = l
  | 0, _ => rfl
  | _ + 1, _ => rfl

theorem rawE_target : ∀ (l : Nat) (x : Item B K V l), (rawE l x).targetLevel = l
  | 0, _ => rfl
  | _ + 1, _ => rfl

theorem absE_bounds [Bounded K B] : ∀ (l : Nat) (x : Item B K V l), (absE l x).bounds = bI l x
  | 0, _ => rfl
  | l + 1, g => node_bounds' l g

theorem rawE_bounds [Bounded K B] : ∀ (l : Nat) (x : Item B K V l), (rawE l x).bounds = bI l x
  | 0, _ => rfl
  | _ + 1, _ => rfl

variable {E : TEnv} {cap : Nat} {h : Heap (Cell B K V)}

/-! ### Reading children -/

theorem mapM_asNode {I : Type} (f : I → RNode B) (l : List I) :
    (l.map fun x => (Cell.node (f x) : Cell B K V)).mapM Cell.asNode = .ok (l.map f) := by
  induction l with
  | nil => rfl
  | cons a l ih =>
    rw [List.map_cons, List.mapM_cons, ih]; rfl

theorem mapM_asEntry (l : List (K × V)) :
    (l.map fun x => (Cell.entry x : Cell B K V)).mapM Cell.asEntry = .ok l := by
  induction l with
  | nil => rfl
  | cons a l ih =>
    rw [List.map_cons, List.mapM_cons, ih]; rfl

theorem nodes_ok (S : Sizes E cap) {l : Nat} {v : FCVec} {kids : List (Item B K V (l + 1))}
    (H : Has h [vecC E.node cap v (kids.map (cell (l + 1)))]) : nodes E v h = .ok (kids.map raw, h) := by
  rw [nodes, bind_ok (FCVec.slice_ok H.owns S.node)]
  have : kids.map (cell (l + 1)) = kids.map fun g => (Cell.node (raw g) : Cell B K V) := rfl
  rw [this, mapM_asNode]; rfl

theorem entries_ok (S : Sizes E cap) {v : FCVec} {kids : List (K × V)}
    (H : Has h [vecC E.entry cap v (kids.map (cell (B := B) 0))]) : entries E v h = .ok (kids, h) := by
  rw [entries, bind_ok (FCVec.slice_ok H.owns S.entry)]
  have : kids.map (cell (B := B) 0) = kids.map fun g => (Cell.entry g : Cell B K V) := rfl
  rw [this, mapM_asEntry]; rfl

theorem nodeAt_sim (S : Sizes E cap) {l : Nat} {v : FCVec} {kids : List (Item B K V (l + 1))}
    (H : Has h [vecC E.node cap v (kids.map (cell (l + 1)))]) (i : Nat) :
    Sim (index kids i) (nodeAt E v i h) fun g r h' => raw g = r ∧ h = h' ∧ ∃ hi : i < kids.length, g = kids[i] := by
  rw [nodeAt]
  have := FCVec.get_ok H.owns S.node i
  rw [index_map] at this
  by_cases hi : i < kids.length
  · have hx : index kids i = .ok kids[i] := by simp [index, hi]
    rw [hx] at this ⊢
    rw [bind_ok this]
    exact .ok ⟨rfl, rfl, hi, rfl⟩
  · have hx : index kids i = .error .indexOutOfBounds := by simp [index, hi]
    rw [hx] at this ⊢
    rw [bind_err this]
    exact .err _

theorem putNode_tr (S : Sizes E cap) {l : Nat} {v : FCVec} {kids : List (Item B K V (l + 1))}
    (H : Has h [vecC E.node cap v (kids.map (cell (l + 1)))]) {i : Nat} (hi : i < kids.length) (g : G B K V l) :
    ∃ h', putNode E v i (raw g) h = .ok ((), h') ∧
      Tr h [vecC E.node cap v (kids.map (cell (l + 1)))] h' [vecC E.node cap v ((kids.set i g).map (cell (l + 1)))] := by
  obtain ⟨h', h1, t⟩ := FCVec.set_tr H S.node (i := i) (by simpa using hi) (.node (raw g))
  refine ⟨h', ?_, ?_⟩
  · rw [putNode, bind_ok h1]; rfl
  · rw [List.map_set]; exact t

/-! ### Splitting -/

section

variable [Bounds B] [Volume B] [Bounded K B] {a : Alloc}

theorem split_ghost (S : Sizes E cap) (m l : Nat) {v : FCVec} {kids : List (Item B K V l)}
    (H : Has h [vecC (RTree.slotEnv E l) cap v (kids.map (cell l))]) (x : Item B K V l) :
    Sim (RTree.split (bI l) m cap kids x) (Raw.split (RTree.slotEnv E l) Cell.bounds m cap v (cell l x) h) fun r s h' =>
      (r.group1 ++ r.group2).Perm (x :: kids) ∧ s.bounds1 = r.bounds1 ∧ s.bounds2 = r.bounds2 ∧
      Tr h [vecC (RTree.slotEnv E l) cap v (kids.map (cell l))] h'
        [vecC (RTree.slotEnv E l) cap s.values (r.group1.map (cell l)), vecC (RTree.slotEnv E l) cap s.group2 (r.group2.map (cell l))] := by
  have hsim := split_sim (bf := Cell.bounds) (minChildren := m) (S.size l) (S.max l) (S.pos l) H (cell l x)
  rw [split_map, cell_bounds] at hsim
  have hcap : kids.length ≤ cap := by simpa using H.owns.fits
  let _ : VolumeLaws B := trivialVolumeLaws
  have hsat := sat_split (g := False) (bf := bI (B := B) l) (minC := m) (values := kids) (overflow := x) hcap (fun h => h.elim) (fun h => h.elim)
  refine (hsim.of_map.and hsat).mono ?_
  rintro r s h' ⟨hp, h1, h2, t⟩
  exact ⟨hp.1, h1, h2, t⟩

/-- What insertion into a node leaves behind. -/
def InsRel (E : TEnv) (cap : Nat) (h₀ : Heap (Cell B K V)) (cs₀ : List (Chunk (Cell B K V))) (l : Nat) (es : List (K × V))
    (r : Node B K V × Option (Nat × Node B K V)) (s : RNode B × Option (Nat × RNode B)) (h' : Heap (Cell B K V)) : Prop :=
  ∃ (g : G B K V l) (o : Option (G B K V l)), r = (node l g, o.map fun g => (l, node l g)) ∧ s = (raw g, o.map fun g => (l, raw g)) ∧
    Tr h₀ cs₀ h' (chunks E cap l g ++ o.elim [] (chunks E cap l)) ∧ (ents l g ++ o.elim [] (ents l)).Perm es

omit [Bounds B] [Volume B] [Bounded K B] in
theorem chunks_two (E : TEnv) (cap l : Nat) (v w : FCVec) (b₁ b₂ : B) {g1 g2 ks : List (Item B K V l)} (hp : (g1 ++ g2).Perm ks) :
    (vecC (RTree.slotEnv E l) cap v (g1.map (cell l)) :: vecC (RTree.slotEnv E l) cap w (g2.map (cell l)) :: chunksL E cap l ks).Perm
      (chunks E cap l ⟨b₁, v, g1⟩ ++ chunks E cap l ⟨b₂, w, g2⟩) := by
  have h1 : (chunksL E cap l g1 ++ chunksL E cap l g2).Perm (chunksL E cap l ks) := by
    rw [← List.flatMap_append]; exact hp.flatMap_right _
  perms [h1]

theorem pushG_full (S : Sizes E a.maxChildren) (l : Nat) (g : G B K V l) (x : Item B K V l)
    (H : Has h (chunks E a.maxChildren l g ++ chunksI E a.maxChildren l x)) (o : Cell B K V) (ho : o = cell l x) :
    Sim ((do
        let r ← RTree.split (bI l) a.minChildren a.maxChildren g.kids x
        pure (r.bounds1, r.group1, r.bounds2, r.group2)) : Res _)
      ((do
        let r ← Raw.split (RTree.slotEnv E l) Cell.bounds a.minChildren a.maxChildren g.vec o
        pure (⟨r.bounds1, r.values⟩, some (l, ⟨r.bounds2, r.group2⟩)) : TM B K V (RNode B × Option (Nat × RNode B))) h)
      fun r s h' => ∃ v w, s = (⟨r.1, v⟩, some (l, ⟨r.2.2.1, w⟩)) ∧
        Tr h (chunks E a.maxChildren l g ++ chunksI E a.maxChildren l x) h'
          (chunks E a.maxChildren l ⟨r.1, v, r.2.1⟩ ++ chunks E a.maxChildren l ⟨r.2.2.1, w, r.2.2.2⟩) ∧
        (r.2.1.flatMap (entsI l) ++ r.2.2.2.flatMap (entsI l)).Perm (ents l g ++ entsI l x) := by
  subst ho
  have H1 : Has h ([vecC (RTree.slotEnv E l) a.maxChildren g.vec (g.kids.map (cell l))] ++
    (chunksL E a.maxChildren l g.kids ++ chunksI E a.maxChildren l x)) := H
  refine .bind (split_ghost S a.minChildren l H1.left x) ?_
  rintro r s h' ⟨hp, hb1, hb2, t⟩
  refine .ok ⟨s.values, s.group2, by rw [← hb1, ← hb2], ?_, ?_⟩
  · refine (t.frame H1).perm_right ?_
    refine List.Perm.trans ?_ (chunks_two E a.maxChildren l _ _ r.bounds1 r.bounds2 hp)
    perms
  · have := hp.flatMap_right (entsI l)
    rw [List.flatMap_append, List.flatMap_cons] at this
    exact this.trans List.perm_append_comm

omit [Bounds B] [Volume B] [Bounded K B] in
theorem push_room (S : Sizes E cap) (l : Nat) (g : G B K V l) (x : Item B K V l)
    (H : Has h (chunks E cap l g ++ chunksI E cap l x)) :
    ∃ v h', FCVec.tryPush (RTree.slotEnv E l) cap g.vec (cell l x) h = .ok ((v, if g.kids.length = cap then some (cell l x) else none), h') ∧
      (g.kids.length = cap → Tr h (chunks E cap l g ++ chunksI E cap l x) h' (chunks E cap l ⟨g.bounds, v, g.kids⟩ ++ chunksI E cap l x)) ∧
      (g.kids.length ≠ cap → ∀ b : B, Tr h (chunks E cap l g ++ chunksI E cap l x) h' (chunks E cap l ⟨b, v, g.kids ++ [x]⟩) ∧
        (ents l ⟨b, v, g.kids ++ [x]⟩).Perm (ents l g ++ entsI l x)) := by
  have H1 : Has h ([vecC (RTree.slotEnv E l) cap g.vec (g.kids.map (cell l))] ++ (chunksL E cap l g.kids ++ chunksI E cap l x)) := H
  obtain ⟨v, h', h1, t⟩ := FCVec.tryPush_tr H1.left (S.size l) (cell l x)
  have t := t.frame H1
  refine ⟨v, h', ?_, ?_, ?_⟩
  · rw [h1, Vec.tryPush, List.length_map]; split <;> rfl
  · intro hl
    rw [Vec.tryPush, List.length_map, if_pos hl] at t
    exact t
  · intro hl b
    rw [Vec.tryPush, List.length_map, if_neg hl] at t
    refine ⟨?_, by rw [ents, List.flatMap_append]; simp⟩
    have : chunks E cap l (⟨b, v, g.kids ++ [x]⟩ : G B K V l) =
        [vecC (RTree.slotEnv E l) cap v (g.kids.map (cell l) ++ [cell l x])] ++ (chunksL E cap l g.kids ++ chunksI E cap l x) := by
      simp [chunks]
    rw [this]; exact t

theorem selfInsert_sim (S : Sizes E a.maxChildren) (l : Nat) (g : G B K V l) (x : Item B K V l)
    (H : Has h (chunks E a.maxChildren l g ++ chunksI E a.maxChildren l x)) :
    Sim (RTree.selfInsert a l (node l g) (absE l x)) (Raw.selfInsert E a l (raw g) (rawE l x) h)
      (InsRel E a.maxChildren h (chunks E a.maxChildren l g ++ chunksI E a.maxChildren l x) l (ents l g ++ entsI l x)) := by
  obtain ⟨v, h', hp, hfull, hroom⟩ := push_room S l g x H
  by_cases hl : g.kids.length = a.maxChildren
  · have t := hfull hl
    have key := pushG_full S l ⟨g.bounds, v, g.kids⟩ x t.has _ rfl
    rw [if_pos hl] at hp
    cases l with
    | zero =>
      simp only [RTree.selfInsert, node, Node.leafChildren, absE, ok_bind, Vec.tryPush, hl, if_true, Raw.selfInsert, rawE, pushEntry]
      refine .step hp ?_
      have e1 : (RTree.split (entryBounds (B := B)) a.minChildren a.maxChildren g.kids (x.1, x.2)) =
        RTree.split (bI 0) a.minChildren a.maxChildren g.kids x := rfl
      rw [e1]
      cases hx : RTree.split (bI (B := B) 0) a.minChildren a.maxChildren g.kids x with
      | error e =>
        simp only [hx, error_bind] at key ⊢
        cases e <;> exact key
      | ok r =>
        simp only [hx, ok_bind, pure_eq_ok] at key ⊢
        obtain ⟨s, h'', h1, v1, w, rfl, t', hpe⟩ := key
        refine ⟨_, h'', h1, ⟨r.bounds1, v1, r.group1⟩, some ⟨r.bounds2, w, r.group2⟩, rfl, rfl, t.trans t', hpe⟩
    | succ l =>
      have hc : cell (l + 1) x = (.node (raw x) : Cell B K V) := rfl
      simp only [RTree.selfInsert, node, Node.innerChildren, absE, ok_bind, Vec.tryPush, hl, if_true, Raw.selfInsert, rawE, pushNode,
        List.length_map, ne_eq, not_true_eq_false, if_false, pure_eq_ok]
      refine .step (panicIf_neg (by simp)) ?_
      refine .step hp ?_
      simp only [hc]
      refine .step (b := raw x) rfl ?_
      rw [split_map, node_bounds]
      cases hx : RTree.split (bI (B := B) (l + 1)) a.minChildren a.maxChildren g.kids x with
      | error e =>
        simp only [hx, error_bind, map_error] at key ⊢
        cases e <;> exact key
      | ok r =>
        simp only [hx, ok_bind, pure_eq_ok, map_ok] at key ⊢
        obtain ⟨s, h'', h1, v1, w, rfl, t', hpe⟩ := key
        refine ⟨_, h'', h1, ⟨r.bounds1, v1, r.group1⟩, some ⟨r.bounds2, w, r.group2⟩, rfl, rfl, t.trans t', hpe⟩
  · rw [if_neg hl] at hp
    cases l with
    | zero =>
      simp only [RTree.selfInsert, node, Node.leafChildren, absE, ok_bind, Vec.tryPush, hl, if_false, Raw.selfInsert, rawE, pushEntry]
      refine .step hp ?_
      obtain ⟨t, hpe⟩ := hroom hl (Bounds.union g.bounds (Bounded.bounds x.1))
      exact .ok ⟨_, none, rfl, rfl, by simpa using t, by simpa using hpe⟩
    | succ l =>
      simp only [RTree.selfInsert, node, Node.innerChildren, absE, ok_bind, Vec.tryPush, hl, if_false, Raw.selfInsert, rawE, pushNode,
        List.length_map, ne_eq, not_true_eq_false, pure_eq_ok]
      refine .step (panicIf_neg (by simp)) ?_
      refine .step hp ?_
      obtain ⟨t, hpe⟩ := hroom hl (Bounds.union g.bounds x.bounds)
      refine .ok ⟨_, none, ?_, rfl, by simpa using t, by simpa using hpe⟩
      rw [NodeEntry.bounds, node_bounds']
      simp [Node.bounds, node, List.map_append]

omit [Bounds B] [Volume B] [Bounded K B] in
theorem map_node_bounds (l : Nat) (kids : List (Item B K V (l + 1))) :
    (kids.map (node l)).map Node.bounds = (kids.map raw).map RNode.bounds := by
  rw [List.map_map, List.map_map]
  exact List.map_congr_left fun g _ => node_bounds' l g

omit [Bounds B] [Volume B] [Bounded K B] in
theorem set_node (l : Nat) (kids : List (Item B K V (l + 1))) (i : Nat) (g : G B K V l) :
    (kids.map (node l)).set i (node l g) = (kids.set i g).map (node l) := by
  rw [List.map_set]

omit [Bounds B] [Volume B] [Bounded K B] in
/-- Looking at one child: the rest stays as it is. -/
theorem kid_perm (E : TEnv) (cap l : Nat) (g : G B K V (l + 1)) {i : Nat} (hi : i < g.kids.length) (cs : List (Chunk (Cell B K V))) :
    (chunks E cap (l + 1) g ++ cs).Perm ((chunks E cap l g.kids[i] ++ cs) ++
      (vecC E.node cap g.vec (g.kids.map (cell (l + 1))) :: chunksL E cap (l + 1) (g.kids.eraseIdx i))) := by
  have h1 := flatMap_get (chunksI E cap (l + 1)) hi
  rw [chunksI_succ] at h1
  have e : RTree.slotEnv E (l + 1) = E.node := rfl
  simp only [chunks, e] at h1 ⊢
  perms [h1]

omit [Bounds B] [Volume B] [Bounded K B] in
/-- Putting a changed child back. -/
theorem put_kid (S : Sizes E cap) {l : Nat} {h₀ : Heap (Cell B K V)} {cs₀ cs : List (Chunk (Cell B K V))} {g : G B K V (l + 1)} {i : Nat}
    (hi : i < g.kids.length) (g' : G B K V l)
    (t : Tr h₀ cs₀ h ((chunks E cap l g' ++ cs) ++
      (vecC E.node cap g.vec (g.kids.map (cell (l + 1))) :: chunksL E cap (l + 1) (g.kids.eraseIdx i)))) :
    ∃ h', putNode E g.vec i (raw g') h = .ok ((), h') ∧
      ∀ b : B, Tr h₀ cs₀ h' (chunks E cap (l + 1) ⟨b, g.vec, g.kids.set i g'⟩ ++ cs) := by
  have hp : ((chunks E cap l g' ++ cs) ++
      (vecC E.node cap g.vec (g.kids.map (cell (l + 1))) :: chunksL E cap (l + 1) (g.kids.eraseIdx i))).Perm
      ([vecC E.node cap g.vec (g.kids.map (cell (l + 1)))] ++ (chunks E cap l g' ++ cs ++ chunksL E cap (l + 1) (g.kids.eraseIdx i))) := by
    perms
  obtain ⟨h', h1, t'⟩ := putNode_tr S (t.sub hp) hi g'
  refine ⟨h', h1, fun b => (t.app hp t').perm_right ?_⟩
  have h2 := flatMap_set (chunksI E cap (l + 1)) hi g'
  rw [chunksI_succ] at h2
  have e : RTree.slotEnv E (l + 1) = E.node := rfl
  simp only [chunks, e] at h2 ⊢
  perms [h2]

omit [Bounds B] [Volume B] [Bounded K B] in
theorem Has.vec {l : Nat} {g : G B K V l} {cs : List (Chunk (Cell B K V))} (H : Has h (chunks E cap l g ++ cs)) :
    Has h [vecC (RTree.slotEnv E l) cap g.vec (g.kids.map (cell l))] :=
  Has.left (ds := chunksL E cap l g.kids ++ cs) H

omit [Bounds B] [Volume B] [Bounded K B] in
theorem ents_set {l : Nat} {g : G B K V (l + 1)} {i : Nat} (hi : i < g.kids.length) {g' : G B K V l} {es fs : List (K × V)}
    (hp : (ents l g' ++ es).Perm (ents l g.kids[i] ++ fs)) (b : B) :
    (ents (l + 1) ⟨b, g.vec, g.kids.set i g'⟩ ++ es).Perm (ents (l + 1) g ++ fs) := by
  have h1 : (ents (l + 1) (⟨b, g.vec, g.kids.set i g'⟩ : G B K V (l + 1))).Perm (ents l g' ++ (g.kids.eraseIdx i).flatMap (entsI (l + 1))) :=
    flatMap_set (entsI (l + 1)) hi g'
  have h2 : (ents (l + 1) g).Perm (ents l g.kids[i] ++ (g.kids.eraseIdx i).flatMap (entsI (l + 1))) := flatMap_get (entsI (l + 1)) hi
  refine (h1.append_right es).trans (List.Perm.trans ?_ (h2.append_right fs).symm)
  perms [hp]

theorem insertNode_sim (S : Sizes E a.maxChildren) {m : Nat} (x : Item B K V m) : ∀ (l : Nat) (g : G B K V l) {h : Heap (Cell B K V)},
    Has h (chunks E a.maxChildren l g ++ chunksI E a.maxChildren m x) →
    Sim (RTree.insertNode a l (node l g) (absE m x)) (Raw.insertNode E a (rawE m x) l (raw g) h)
      (InsRel E a.maxChildren h (chunks E a.maxChildren l g ++ chunksI E a.maxChildren m x) l (ents l g ++ entsI m x)) := by
  intro l
  induction l with
  | zero =>
    intro g h H
    rw [RTree.insertNode, Raw.insertNode, absE_target, rawE_target]
    by_cases hm : m = 0
    · subst hm
      simp only [ne_eq, not_true_eq_false, if_false]
      exact selfInsert_sim S 0 g x H
    · rw [if_pos hm, if_pos hm]
      exact .err _
  | succ l ih =>
    intro g h H
    rw [RTree.insertNode, Raw.insertNode, absE_target, rawE_target]
    by_cases hm : m = l + 1
    · subst hm
      simp only [ne_eq, not_true_eq_false, if_false]
      exact selfInsert_sim S (l + 1) g x H
    · rw [if_pos hm, if_pos hm, absE_bounds, rawE_bounds]
      simp only [node, Node.innerChildren, ok_bind, Node.bounds]
      refine .step (nodes_ok S H.vec) ?_
      rw [map_node_bounds, ← bind_assoc]
      refine .bind (.lift _ _) ?_
      rintro i _ _ ⟨rfl, rfl⟩
      rw [index_map, map_eq_pure_bind, bind_assoc]
      refine .bind (nodeAt_sim S H.vec i) ?_
      rintro _ _ _ ⟨rfl, rfl, hi, rfl⟩
      rw [pure_eq_ok, ok_bind]
      have hp := kid_perm E a.maxChildren l g hi (chunksI E a.maxChildren m x)
      have t0 := Tr.refl H
      refine .bind (ih g.kids[i] (t0.sub hp)) ?_
      rintro ⟨n', sib⟩ ⟨r', rsib⟩ h₁ ⟨g', o, hr, hs, t, hpe⟩
      obtain ⟨rfl, rfl⟩ := Prod.mk.inj hr
      obtain ⟨rfl, rfl⟩ := Prod.mk.inj hs
      obtain ⟨h₂, hput, t2⟩ := put_kid S hi g' (t0.app hp t)
      refine .step hput ?_
      simp only [set_node]
      cases o with
      | none =>
        exact .ok ⟨⟨Bounds.union g.bounds (bI m x), g.vec, g.kids.set i g'⟩, none, rfl, rfl, t2 _, ents_set hi hpe _⟩
      | some sg =>
        simp only [Option.map_some, raw]
        have t2 := t2 (Bounds.unionAll (((g.kids.set i g').map raw).map RNode.bounds))
        refine .step (nodes_ok S t2.has.vec) ?_
        have := selfInsert_sim S (l + 1) ⟨Bounds.unionAll (((g.kids.set i g').map raw).map RNode.bounds), g.vec, g.kids.set i g'⟩ sg t2.has
        simp only [map_node_bounds]
        refine this.mono ?_
        rintro _ _ h₃ ⟨g₃, o₃, rfl, rfl, t3, hpe3⟩
        exact ⟨g₃, o₃, rfl, rfl, t2.trans t3, hpe3.trans (ents_set hi hpe _)⟩

end

end RTree.Raw
