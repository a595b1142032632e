import Verif.Proofs.RawTree
/-!
# The operations of whole trees in memory
-/

namespace RTree.Raw

variable {B K V Q : Type} {E : TEnv} {h : Heap (Cell B K V)}

/-- A tree with the contents of its nodes. -/
structure GTree (B K V : Type) where
  alloc : Alloc
  level : Nat
  root : G B K V level

namespace GTree

/-- The value-level tree. -/
def abs (t : GTree B K V) : Tree B K V := ⟨t.alloc, t.level, node t.level t.root⟩

/-- The tree in memory. -/
def rawT (t : GTree B K V) : RTree B := ⟨t.alloc, t.level, raw t.root⟩

/-- The blocks of a tree. -/
def own (E : TEnv) (t : GTree B K V) : List (Chunk (Cell B K V)) := chunks E t.alloc.maxChildren t.level t.root

/-- The entries of a tree. -/
def es (t : GTree B K V) : List (K × V) := ents t.level t.root

theorem entries_abs (t : GTree B K V) : t.abs.entries = t.es := ents_node t.level t.root

end GTree

/-- The tree left behind. -/
def TreeRel (E : TEnv) (a : Alloc) (h₀ : Heap (Cell B K V)) (cs₀ : List (Chunk (Cell B K V))) (es : List (K × V))
    (r : Tree B K V) (s : RTree B) (h' : Heap (Cell B K V)) : Prop :=
  ∃ t : GTree B K V, r = t.abs ∧ s = t.rawT ∧ t.alloc = a ∧ Tr h₀ cs₀ h' (t.own E) ∧ t.es.Perm es

section

variable [Bounds B]

theorem new_tr (c : Config) (S : Sizes E c.maxChildren) (h : Heap (Cell B K V)) :
    ∃ (t : GTree B K V) (h' : Heap (Cell B K V)), RTree.new E c h = .ok (t.rawT, h') ∧ t.abs = Tree.new c ∧ t.es = [] ∧ Tr h [] h' (t.own E) := by
  obtain ⟨v, h', h1, t⟩ := FCVec.new_tr (E := E.entry) (cap := c.maxChildren) h S.entryMax (.inl (Nat.mul_pos S.cap S.entry))
  refine ⟨⟨⟨c.minChildren, c.maxChildren⟩, 0, ⟨Bounds.empty, v, []⟩⟩, h', ?_, rfl, rfl, t⟩
  rw [RTree.new, bind_ok h1]; rfl

theorem branch_sim {a : Alloc} (S : Sizes E a.maxChildren) (l : Nat) (g o : G B K V l)
    (H : Has h (chunks E a.maxChildren l g ++ chunks E a.maxChildren l o)) :
    Sim (Tree.branch ⟨a, l, node l g⟩ (l, node l o)) (RTree.branch E ⟨a, l, raw g⟩ (l, raw o) h)
      (TreeRel E a h (chunks E a.maxChildren l g ++ chunks E a.maxChildren l o) (ents l g ++ ents l o)) := by
  simp only [Tree.branch, RTree.branch, ne_eq, not_true_eq_false, if_false, pure_eq_ok, node_bounds']
  refine .step (panicIf_neg (by simp)) ?_
  obtain ⟨v, h₁, h1, t1⟩ := FCVec.new_tr (E := E.node) (cap := a.maxChildren) h S.nodeMax (.inl (Nat.mul_pos S.cap S.node))
  refine .step h1 ?_
  have t1 := t1.frame (ds := chunks E a.maxChildren l g ++ chunks E a.maxChildren l o) H
  have t1' : Tr h (chunks E a.maxChildren l g ++ chunks E a.maxChildren l o) h₁
    ([vecC (RTree.slotEnv E (l + 1)) a.maxChildren v (([] : List (Item B K V (l + 1))).map (cell (l + 1)))] ++
      (chunks E a.maxChildren l g ++ chunks E a.maxChildren l o)) := t1
  have hpm := push_map (node (B := B) (K := K) (V := V) l) a.maxChildren [] g
  rw [List.map_nil] at hpm
  rw [hpm, map_eq_pure_bind, bind_assoc]
  refine .bind (push_ghost (l := l + 1) S t1'.has.left g) ?_
  rintro _ v₂ h₂ ⟨rfl, t2⟩
  have t2 := t1'.app (.refl _) t2
  rw [pure_eq_ok, ok_bind, push_map, map_eq_pure_bind, bind_assoc]
  refine .bind (push_ghost (l := l + 1) S t2.has.left o) ?_
  rintro _ v₃ h₃ ⟨rfl, t3⟩
  have t3 := t2.app (.refl _) t3
  rw [pure_eq_ok, ok_bind]
  refine .ok ⟨⟨a, l + 1, ⟨Bounds.union g.bounds o.bounds, v₃, [g, o]⟩⟩, rfl, rfl, rfl, ?_, ?_⟩
  · refine t3.perm_right ?_
    have e : chunksL E a.maxChildren (l + 1) [g, o] = chunks E a.maxChildren l g ++ (chunks E a.maxChildren l o ++ []) := rfl
    show List.Perm _ (vecC (RTree.slotEnv E (l + 1)) a.maxChildren v₃ _ :: chunksL E a.maxChildren (l + 1) [g, o])
    rw [e]
    simp
  · show (ents l g ++ (ents l o ++ [])).Perm _
    simp

omit [Bounds B] in
theorem tryUnbranch_sim (t : GTree B K V) (S : Sizes E t.alloc.maxChildren) (H : Has h (t.own E)) :
    Sim (Tree.tryUnbranch t.abs) (RTree.tryUnbranch E t.rawT h) fun r s h' => s.2 = [] ∧ TreeRel E t.alloc h (t.own E) t.es r s.1 h' := by
  obtain ⟨a, level, g⟩ := t
  cases level with
  | zero =>
    simp only [Tree.tryUnbranch, GTree.abs, RTree.tryUnbranch, GTree.rawT, node, Node.leafChildren, ok_bind]
    exact .ok ⟨rfl, ⟨a, 0, g⟩, rfl, rfl, rfl, .refl H, .refl _⟩
  | succ l =>
    have H' : Has h (chunks E a.maxChildren (l + 1) g ++ []) := by rw [List.append_nil]; exact H
    have hlen : (raw g).vec.len = g.kids.length := by
      have := H'.vec.owns.len
      simpa [raw] using this
    simp only [Tree.tryUnbranch, GTree.abs, node, Node.innerChildren, ok_bind, List.length_map]
    change Sim _ ((if (raw g).vec.len = 1 then (FCVec.swapRemove E.node (raw g).vec 0 >>= fun p : FCVec × Cell B K V =>
      lift p.2.asNode >>= fun root => RTree.drop E ⟨a, l + 1, ⟨(raw g).bounds, p.1⟩⟩ >>= fun dropped =>
        pure ((⟨a, l, root⟩ : RTree B), dropped)) else pure (⟨a, l + 1, raw g⟩, [])) h) _
    rw [hlen]
    by_cases h1 : g.kids.length = 1
    · rw [if_pos h1, if_pos h1, swapRemove_map, map_eq_pure_bind, bind_assoc]
      obtain ⟨c, hc⟩ := List.length_eq_one_iff.1 h1
      refine .bind (swapRemove_ghost S H'.vec 0) ?_
      rintro ⟨c', rest⟩ ⟨v', cc⟩ h₁ ⟨hperm, rfl, t⟩
      have hrest : rest = [] := by
        have := hperm.length_eq
        rw [h1, List.length_cons] at this
        exact List.length_eq_zero_iff.1 (by simp only at this ⊢; omega)
      subst hrest
      have t' := t.frame (ds := chunksL E a.maxChildren (l + 1) g.kids) H
      have hp' : ([vecC (RTree.slotEnv E (l + 1)) a.maxChildren v' (([] : List (Item B K V (l + 1))).map (cell (l + 1)))] ++
          chunksL E a.maxChildren (l + 1) g.kids).Perm
          (chunks E a.maxChildren (l + 1) ⟨g.bounds, v', []⟩ ++ chunks E a.maxChildren l c') := by
        refine List.Perm.cons _ ?_
        have := hperm.flatMap_right (chunksI E a.maxChildren (l + 1))
        exact this.trans (by rw [List.flatMap_cons]; exact List.Perm.of_eq (List.append_nil _))
      obtain ⟨ds, h₂, h2, hds, t2⟩ := dropNode_tr S (l + 1) ⟨g.bounds, v', []⟩ (t'.sub hp')
      have hds : ds = [] := List.Perm.eq_nil hds
      subst hds
      rw [pure_eq_ok, ok_bind]
      refine .step (b := raw c') rfl ?_
      refine .step (y := RTree.drop E _) h2 ?_
      refine .ok ⟨rfl, ⟨a, l, c'⟩, rfl, rfl, rfl, t'.app hp' t2, ?_⟩
      have := (hperm.flatMap_right (entsI (l + 1))).symm
      exact (List.Perm.of_eq (List.append_nil _).symm).trans this
    · rw [if_neg h1, if_neg h1]
      exact .ok ⟨rfl, ⟨a, l + 1, g⟩, rfl, rfl, rfl, .refl H, .refl _⟩

end

section

variable [Bounds B] [Volume B] [Bounded K B]

theorem insertEntry_sim (t : GTree B K V) (S : Sizes E t.alloc.maxChildren) {m : Nat} (x : Item B K V m)
    (H : Has h (t.own E ++ chunksI E t.alloc.maxChildren m x)) :
    Sim (Tree.insertEntry t.abs (absE m x)) (RTree.insertEntry E t.rawT (rawE m x) h)
      (TreeRel E t.alloc h (t.own E ++ chunksI E t.alloc.maxChildren m x) (t.es ++ entsI m x)) := by
  obtain ⟨a, l, g⟩ := t
  rw [Tree.insertEntry, RTree.insertEntry]
  refine .bind (insertNode_sim S x l g H) ?_
  rintro ⟨n, sib⟩ ⟨r, rsib⟩ h₁ ⟨g', o, hr, hs, t, hpe⟩
  obtain ⟨rfl, rfl⟩ := Prod.mk.inj hr
  obtain ⟨rfl, rfl⟩ := Prod.mk.inj hs
  cases o with
  | none => exact .ok ⟨⟨a, l, g'⟩, rfl, rfl, rfl, t.perm_right (.of_eq (List.append_nil _)), by rw [← List.append_nil (GTree.es _)]; exact hpe⟩
  | some s =>
    refine (branch_sim S l g' s t.has).mono ?_
    rintro _ _ h₂ ⟨t', rfl, rfl, ha, t2, hpe2⟩
    exact ⟨t', rfl, rfl, ha, t.trans t2, hpe2.trans hpe⟩

theorem insert_sim (t : GTree B K V) (S : Sizes E t.alloc.maxChildren) (k : K) (v : V) (H : Has h (t.own E)) :
    Sim (Tree.insert t.abs k v) (RTree.insert E t.rawT k v h) (TreeRel E t.alloc h (t.own E) ((k, v) :: t.es)) := by
  have hx : chunksI (B := B) E t.alloc.maxChildren 0 (k, v) = [] := rfl
  have := insertEntry_sim t S (m := 0) (k, v) (h := h) (by rw [hx, List.append_nil]; exact H)
  refine this.mono ?_
  rintro _ _ h' ⟨t', rfl, rfl, ha, tr, hp⟩
  rw [hx, List.append_nil] at tr
  exact ⟨t', rfl, rfl, ha, tr, hp.trans List.perm_append_comm⟩

theorem insertUnique_sim [BEq K] (t : GTree B K V) (S : Sizes E t.alloc.maxChildren) (k : K) (v : V) (H : Has h (t.own E)) :
    Sim (Tree.insertUnique t.abs k v) (RTree.insertUnique E t.rawT k v h) fun r s h' => r.2 = s.2 ∧
      ∃ t' : GTree B K V, r.1 = t'.abs ∧ s.1 = t'.rawT ∧ t'.alloc = t.alloc ∧ Tr h (t.own E) h' (t'.own E) ∧ UAcc k v r.2 t.es t'.es := by
  obtain ⟨a, l, g⟩ := t
  rw [Tree.insertUnique, RTree.insertUnique]
  refine .bind (insertUniqueNode_sim S k v l g H) ?_
  rintro ⟨n, old₁, sib⟩ ⟨r, old₂, rsib⟩ h₁ ⟨g', old, o, hr, hs, t, hacc⟩
  simp only [Prod.mk.injEq] at hr hs
  obtain ⟨rfl, rfl, rfl⟩ := hr
  obtain ⟨rfl, rfl, rfl⟩ := hs
  cases o with
  | none => exact .ok ⟨rfl, ⟨a, l, g'⟩, rfl, rfl, rfl, t.perm_right (.of_eq (List.append_nil _)), by rw [← List.append_nil (GTree.es ⟨a, l, g'⟩)]; exact hacc⟩
  | some s =>
    simp only [Option.map_some]
    refine .bind (branch_sim S l g' s t.has) ?_
    rintro _ _ h₂ ⟨t', rfl, rfl, ha, t2, hpe2⟩
    refine .ok ⟨rfl, t', rfl, rfl, ha, t.trans t2, ?_⟩
    exact ⟨((hpe2.map _).append_right _).trans hacc.1, ((hpe2.map _).append_right _).trans hacc.2⟩

omit [Bounds B] [Volume B] [Bounded K B] in
theorem slotEntry_cell : ∀ (l : Nat) (x : Item B K V l), RTree.slotEntry l (cell l x) = .ok (rawE l x)
  | 0, _ => rfl
  | _ + 1, _ => rfl

omit [Bounds B] [Volume B] [Bounded K B] in
theorem slotEntries_abs : ∀ s : GSlot B K V, Tree.slotEntries s.1 (absSlot s) = .ok (s.2.2.map (absE s.1))
  | ⟨0, s⟩ => rfl
  | ⟨l + 1, s⟩ => by
    simp only [Tree.slotEntries, absSlot, List.map_map]
    rfl

theorem reinsertLoop_sim (a : Alloc) (S : Sizes E a.maxChildren) (l : Nat) : ∀ (kids : List (Item B K V l)) (it : IntoIter) (t : GTree B K V)
    {h : Heap (Cell B K V)}, t.alloc = a →
    Has h (iterC (RTree.slotEnv E l) a.maxChildren it (kids.map (cell l)) :: (t.own E ++ chunksL E a.maxChildren l kids)) →
    Sim ((kids.map (absE l)).foldlM Tree.insertEntry t.abs) (RTree.reinsertLoop E (RTree.slotEnv E l) l (kids.length + 1) it t.rawT h)
      fun r s h' => s.2 = [] ∧ TreeRel E a h (iterC (RTree.slotEnv E l) a.maxChildren it (kids.map (cell l)) :: (t.own E ++ chunksL E a.maxChildren l kids))
        (t.es ++ kids.flatMap (entsI l)) r s.1 h' := by
  intro kids
  induction kids with
  | nil =>
    intro it t h ha H
    rw [RTree.reinsertLoop]
    obtain ⟨it', h1, t1⟩ := IntoIter.next_tr (Has.left (ds := t.own E ++ chunksL E a.maxChildren l []) H) (S.size l)
    have t1 := t1.frame (ds := t.own E ++ chunksL E a.maxChildren l []) H
    refine .step h1 ?_
    obtain ⟨h₂, h2, t2⟩ := IntoIter.drop_tr (it := it') (l := ([] : List (Cell B K V))) (by simpa using t1.has.left) (S.size l)
    have t2 := t1.app (.refl _) t2
    refine .step h2 (.ok ⟨rfl, t, rfl, rfl, ha, ?_, by simp⟩)
    simpa using t2
  | cons x kids ih =>
    intro it t h ha H
    rw [List.length_cons, RTree.reinsertLoop, List.map_cons, List.foldlM_cons]
    obtain ⟨it', h1, t1⟩ := IntoIter.next_tr (Has.left (ds := t.own E ++ chunksL E a.maxChildren l (x :: kids)) H) (S.size l)
    have t1 := t1.frame (ds := t.own E ++ chunksL E a.maxChildren l (x :: kids)) H
    refine .step h1 ?_
    simp only [List.map_cons, List.head?_cons, List.tail_cons] at t1 ⊢
    refine .step (b := rawE l x) (by rw [slotEntry_cell]; rfl) ?_
    subst ha
    have hp : ([iterC (RTree.slotEnv E l) t.alloc.maxChildren it' (kids.map (cell l))] ++ (t.own E ++ chunksL E t.alloc.maxChildren l (x :: kids))).Perm
        ((t.own E ++ chunksI E t.alloc.maxChildren l x) ++
          (iterC (RTree.slotEnv E l) t.alloc.maxChildren it' (kids.map (cell l)) :: chunksL E t.alloc.maxChildren l kids)) := by perms
    refine .bind (insertEntry_sim t S x (t1.sub hp)) ?_
    rintro _ _ h₂ ⟨t', rfl, rfl, ha, t2, hpe⟩
    have t2 := t1.app hp t2
    have hp2 : (t'.own E ++ (iterC (RTree.slotEnv E l) t.alloc.maxChildren it' (kids.map (cell l)) :: chunksL E t.alloc.maxChildren l kids)).Perm
        (iterC (RTree.slotEnv E l) t.alloc.maxChildren it' (kids.map (cell l)) :: (t'.own E ++ chunksL E t.alloc.maxChildren l kids)) := by perms
    refine (ih it' t' ha (t2.has.perm hp2)).mono ?_
    rintro _ ⟨s, ds⟩ h₃ ⟨hd, t₃, rfl, hs, ha', t3, hpe3⟩
    refine ⟨hd, t₃, rfl, hs, ha', ?_, ?_⟩
    · have := (t2.perm_right hp2).trans t3
      simpa using this
    · refine hpe3.trans ?_
      rw [List.flatMap_cons, ← List.append_assoc]
      exact hpe.append_right _

theorem reinsert_sim (a : Alloc) (S : Sizes E a.maxChildren) : ∀ (sl : GSlots B K V) (j : Nat) (t : GTree B K V) {h : Heap (Cell B K V)},
    t.alloc = a → (∀ (i : Nat) (s : GSlot B K V), sl[i]? = some (some s) → s.1 = j + i) → Has h (t.own E ++ slotsC E a.maxChildren sl) →
    Sim (Tree.reinsert t.abs ((absSlots sl).zipIdx j)) (RTree.reinsert E ((rawSlots sl).zipIdx j) t.rawT h)
      fun r s h' => s.2 = [] ∧ TreeRel E a h (t.own E ++ slotsC E a.maxChildren sl) (t.es ++ slotsE sl) r s.1 h' := by
  intro sl
  induction sl with
  | nil =>
    intro j t h ha _ H
    exact .ok ⟨rfl, t, rfl, rfl, ha, by simpa [slotsC] using Tr.refl H, by simp [slotsE]⟩
  | cons o sl ih =>
    intro j t h ha hlev H
    have hlev' : ∀ (i : Nat) (s : GSlot B K V), sl[i]? = some (some s) → s.1 = j + 1 + i := by
      intro i s hi
      have := hlev (i + 1) s (by simpa using hi)
      omega
    cases o with
    | none =>
      have := ih (j + 1) t ha hlev' H
      simp only [absSlots, rawSlots, List.map_cons, List.zipIdx_cons, Option.map_none, Tree.reinsert, RTree.reinsert] at this ⊢
      exact this
    | some s =>
      obtain ⟨l, v, kids⟩ := s
      obtain rfl : l = j := by simpa using hlev 0 _ rfl
      have ha' := ha
      subst ha
      simp only [absSlots, rawSlots, List.map_cons, List.zipIdx_cons, Option.map_some, Tree.reinsert, RTree.reinsert]
      have hab := slotEntries_abs (⟨l, v, kids⟩ : GSlot B K V)
      simp only at hab
      rw [hab, ok_bind]
      have e : slotsC E t.alloc.maxChildren (some ⟨l, v, kids⟩ :: sl) =
        (vecC (RTree.slotEnv E l) t.alloc.maxChildren v (kids.map (cell l)) :: chunksL E t.alloc.maxChildren l kids) ++ slotsC E t.alloc.maxChildren sl := rfl
      have ee : slotsE (some ⟨l, v, kids⟩ :: sl) = kids.flatMap (entsI l) ++ slotsE sl := rfl
      have hp : (t.own E ++ slotsC E t.alloc.maxChildren (some ⟨l, v, kids⟩ :: sl)).Perm
        ([vecC (RTree.slotEnv E l) t.alloc.maxChildren v (kids.map (cell l))] ++ (t.own E ++ chunksL E t.alloc.maxChildren l kids ++
          slotsC E t.alloc.maxChildren sl)) := by
        rw [e]; perms
      have t0 := Tr.refl H
      have Hv := t0.sub hp
      have hlen : v.len = kids.length := by
        have := Hv.owns.len
        simpa using this
      obtain ⟨it, h1, t1⟩ := IntoIter.new_tr Hv
      have t1 := t0.app hp t1
      refine .step h1 ?_
      rw [hlen]
      have hp2 : ([iterC (RTree.slotEnv E l) t.alloc.maxChildren it (kids.map (cell l))] ++ (t.own E ++ chunksL E t.alloc.maxChildren l kids ++
          slotsC E t.alloc.maxChildren sl)).Perm ((iterC (RTree.slotEnv E l) t.alloc.maxChildren it (kids.map (cell l)) ::
            (t.own E ++ chunksL E t.alloc.maxChildren l kids)) ++ slotsC E t.alloc.maxChildren sl) := .refl _
      refine .bind (reinsertLoop_sim t.alloc S l kids it t ha' (t1.sub hp2)) ?_
      rintro _ ⟨s, ds⟩ h₂ ⟨hd, t₂, rfl, hs, ha₂, t2, hpe2⟩
      simp only at hd hs
      subst hd hs
      have t2 := t1.app hp2 t2
      have hih := ih (l + 1) t₂ ha₂ hlev' t2.has
      simp only [absSlots, rawSlots] at hih
      simp only
      cases hx : Tree.reinsert t₂.abs ((sl.map fun o => o.map absSlot).zipIdx (l + 1)) with
      | error p =>
        rw [hx] at hih
        cases p <;> first | trivial | exact bind_err hih
      | ok r =>
        rw [hx] at hih
        obtain ⟨⟨s, ds⟩, h₃, h3, hd, t₃, rfl, hs, ha₃, t3, hpe3⟩ := hih
        simp only at hd hs
        subst hd hs
        rw [bind_ok h3]
        refine .ok ⟨rfl, t₃, rfl, rfl, ha₃, t2.trans t3, ?_⟩
        refine hpe3.trans ?_
        rw [ee, ← List.append_assoc]
        exact hpe2.append_right _

theorem remove_sim [Bounded Q B] [BEq Q] (t : GTree B K V) (S : Sizes E t.alloc.maxChildren) (borrow : K → Q) (q : Q) (H : Has h (t.own E)) :
    Sim (Tree.remove borrow t.abs q) (RTree.remove E borrow t.rawT q h) fun r s h' => r.2 = s.2.1.map (·.2) ∧ s.2.2 = [] ∧
      ∃ t' : GTree B K V, r.1 = t'.abs ∧ s.1 = t'.rawT ∧ t'.alloc = t.alloc ∧ Tr h (t.own E) h' (t'.own E) ∧ t.es.Perm (s.2.1.toList ++ t'.es) := by
  obtain ⟨a, l, g⟩ := t
  rw [Tree.remove, RTree.remove]
  refine .bind (removeNode_sim S borrow q l l g H) ?_
  rintro ⟨n, v, sl₀⟩ ⟨r, rfound, rsl⟩ h₁ ⟨g', found, sl, hr, hs, ok, hnone, t1, hpe⟩
  simp only [Prod.mk.injEq] at hr hs
  obtain ⟨rfl, rfl, rfl⟩ := hr
  obtain ⟨rfl, rfl, rfl⟩ := hs
  cases rfound with
  | none =>
    obtain rfl := hnone rfl
    rw [slotsC_none, List.append_nil] at t1
    rw [slotsE_none, List.append_nil] at hpe
    exact .ok ⟨rfl, rfl, ⟨a, l, g'⟩, rfl, rfl, rfl, t1, hpe⟩
  | some e =>
    simp only [Option.map_some]
    refine .bind (tryUnbranch_sim ⟨a, l, g'⟩ S t1.has.left) ?_
    rintro _ ⟨s, ds⟩ h₂ ⟨hd, t₂, rfl, hs, ha₂, t2, hpe2⟩
    simp only at hd hs
    subst hd hs
    have t2 := t1.app (.refl _) t2
    simp only
    refine .bind (reinsert_sim a S sl 0 t₂ ha₂ (by simpa using ok.at_level) t2.has) ?_
    rintro _ ⟨s, ds⟩ h₃ ⟨hd, t₃, rfl, hs, ha₃, t3, hpe3⟩
    simp only at hd hs
    subst hd hs
    refine .ok ⟨rfl, rfl, t₃, rfl, rfl, ha₃, t2.trans t3, ?_⟩
    refine hpe.trans ?_
    rw [List.append_assoc]
    exact ((hpe2.append_right _).symm.trans hpe3.symm).append_left _

end

/-! ### Everything else -/

theorem drop_tr (t : GTree B K V) (S : Sizes E t.alloc.maxChildren) (H : Has h (t.own E)) :
    ∃ es h', RTree.drop E t.rawT h = .ok (es, h') ∧ es.Perm t.es ∧ Tr h (t.own E) h' [] :=
  dropNode_tr S t.level t.root H

theorem clone_sim (t : GTree B K V) (S : Sizes E t.alloc.maxChildren) (H : Has h (t.own E)) :
    Sim (Tree.clone t.abs) (RTree.clone E t.rawT h) fun r s h' => ∃ t' : GTree B K V, r = t'.abs ∧ s = t'.rawT ∧ t'.alloc = t.alloc ∧
      Tr h (t.own E) h' (t'.own E ++ t.own E) ∧ t'.es = t.es := by
  rw [Tree.clone, RTree.clone]
  refine .bind (cloneNode_sim S t.level t.root H) ?_
  rintro _ _ h' ⟨g', rfl, rfl, tr, he⟩
  exact .ok ⟨⟨t.alloc, t.level, g'⟩, rfl, rfl, rfl, tr, he⟩

theorem len_sim (t : GTree B K V) (S : Sizes E t.alloc.maxChildren) (H : Has h (t.own E)) :
    Sim (Tree.len t.abs) (RTree.len E t.rawT h) fun r s h' => r = s ∧ h = h' :=
  lenNode_sim S t.level t.root H

theorem isEmpty_eq (t : GTree B K V) (H : Has h (t.own E)) : Tree.isEmpty t.abs = .ok (RTree.isEmpty t.rawT) := by
  obtain ⟨a, l, g⟩ := t
  have hlen : (raw g).vec.len = g.kids.length := by
    have := (H.holds _ List.mem_cons_self : Owns _ _ _ _ _).len
    simpa [raw] using this
  have e : RTree.isEmpty (GTree.rawT ⟨a, l, g⟩) = g.kids.isEmpty := by
    have : RTree.isEmpty (GTree.rawT ⟨a, l, g⟩) = ((raw g).vec.len == 0) := rfl
    rw [this, hlen]
    cases g.kids <;> rfl
  rw [e]
  cases l with
  | zero => rfl
  | succ l =>
    have : (g.kids.map (node l)).isEmpty = g.kids.isEmpty := by cases g.kids <;> rfl
    rw [← this]
    rfl

section

variable [Bounds B] [Bounded Q B] [BEq Q]

theorem get_sim (t : GTree B K V) (S : Sizes E t.alloc.maxChildren) (borrow : K → Q) (q : Q) (H : Has h (t.own E)) :
    Sim (Tree.get borrow t.abs q) (RTree.get E borrow t.rawT q h) fun r s h' => r = s ∧ h = h' := by
  rw [Tree.get, RTree.get]
  have key := find_sim S borrow q t.level t.root H
  have e : getNode borrow q t.abs.level t.abs.root = _ := getNode_eq_getMutNode borrow q t.level (node t.level t.root)
  rw [e]
  cases hx : getMutNode borrow q t.level (node t.level t.root) with
  | error p =>
    rw [hx] at key
    cases p <;> first | trivial | exact bind_err key
  | ok o =>
    rw [hx] at key
    obtain ⟨s, h', h1, rfl, h2⟩ := key
    refine .step h1 ?_
    cases o with
    | none =>
      cases s with
      | none => exact .ok ⟨rfl, rfl⟩
      | some p => exact h2.elim
    | some vb =>
      cases s with
      | none => exact h2.elim
      | some p =>
        obtain ⟨k, hk⟩ := place_read S H h2
        refine .step hk (.ok ⟨rfl, rfl⟩)

theorem setValue_sim (t : GTree B K V) (S : Sizes E t.alloc.maxChildren) (borrow : K → Q) (q : Q) (v : V) (H : Has h (t.own E)) :
    Sim (Tree.getMut borrow t.abs q) (RTree.setValue E borrow t.rawT q v h) fun r s h' =>
      ∃ t' : GTree B K V, t'.rawT = t.rawT ∧ t'.alloc = t.alloc ∧ Tr h (t.own E) h' (t'.own E) ∧
        match r with
        | some (old, back) => s = some old ∧ back v = t'.abs ∧ (t'.es.map (·.1)).Perm (t.es.map (·.1)) ∧
            (old :: t'.es.map (·.2)).Perm (v :: t.es.map (·.2))
        | none => s = none ∧ t' = t := by
  rw [Tree.getMut, RTree.setValue]
  have key := find_sim S borrow q t.level t.root H
  refine .bind key ?_
  rintro o s _ ⟨rfl, h2⟩
  cases o with
  | none =>
    cases s with
    | none => exact .ok ⟨t, rfl, rfl, .refl H, rfl, rfl⟩
    | some p => exact h2.elim
  | some vb =>
    cases s with
    | none => exact h2.elim
    | some p =>
      obtain ⟨h', _, _, h1, ⟨g', hb, hr, rfl, rfl⟩, tr, hk, hv⟩ := place_write S H h2 v
      refine .step h1 (.ok ⟨⟨t.alloc, t.level, g'⟩, by rw [GTree.rawT, GTree.rawT]; simp only [hr], rfl, tr, rfl, ?_, hk, hv⟩)
      simp only [hb]; rfl

end

end RTree.Raw
