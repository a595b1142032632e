import Verif.Proofs.RawLookup
/-!
# Removal in memory
-/

namespace RTree.Raw

variable {B K V Q : Type} {E : TEnv} {cap : Nat} {h : Heap (Cell B K V)}

theorem swapRemove_ghost (S : Sizes E cap) {l : Nat} {v : FCVec} {kids : List (Item B K V l)}
    (H : Has h [vecC (RTree.slotEnv E l) cap v (kids.map (cell l))]) (i : Nat) :
    Sim (Vec.swapRemove kids i) (FCVec.swapRemove (RTree.slotEnv E l) v i h) fun r s h' =>
      kids.Perm (r.1 :: r.2) ∧ s.2 = cell l r.1 ∧
        Tr h [vecC (RTree.slotEnv E l) cap v (kids.map (cell l))] h' [vecC (RTree.slotEnv E l) cap s.1 (r.2.map (cell l))] := by
  have key := FCVec.swapRemove_sim H (S.size l) i
  rw [swapRemove_map] at key
  have key := key.of_map
  cases hx : Vec.swapRemove kids i with
  | error e => rw [hx] at key; cases e <;> exact key
  | ok r =>
    rw [hx] at key
    obtain ⟨s, h', h1, h2, t⟩ := key
    exact ⟨s, h', h1, swapRemove_perm hx, h2, t⟩

/-! ### The children waiting for reinsertion -/

/-- The detached children of a node of some level. -/
abbrev GSlot (B K V : Type) := (l : Nat) × (FCVec × List (Item B K V l))

/-- The detached children at the value level. -/
def absSlot : GSlot B K V → NodeChildren B K V
  | ⟨0, s⟩ => .leaf s.2
  | ⟨l + 1, s⟩ => .inner (s.2.map (node l))

/-- The blocks of detached children. -/
def slotC (E : TEnv) (cap : Nat) (s : GSlot B K V) : List (Chunk (Cell B K V)) :=
  vecC (RTree.slotEnv E s.1) cap s.2.1 (s.2.2.map (cell s.1)) :: chunksL E cap s.1 s.2.2

/-- The entries of detached children. -/
def slotE (s : GSlot B K V) : List (K × V) := s.2.2.flatMap (entsI s.1)

/-- The array of detached children. -/
abbrev GSlots (B K V : Type) := List (Option (GSlot B K V))

/-- The array at the value level. -/
def absSlots (sl : GSlots B K V) : Reinsert B K V := sl.map fun o => o.map absSlot

/-- The array in memory. -/
def rawSlots (sl : GSlots B K V) : RSlots := sl.map fun o => o.map fun s => s.2.1

/-- All blocks of the array. -/
def slotsC (E : TEnv) (cap : Nat) (sl : GSlots B K V) : List (Chunk (Cell B K V)) := sl.flatMap fun o => o.elim [] (slotC E cap)

/-- All entries of the array. -/
def slotsE (sl : GSlots B K V) : List (K × V) := sl.flatMap fun o => o.elim [] slotE

/-- The index is the level; from `l` on there is nothing. -/
structure SlotsOk (n l : Nat) (sl : GSlots B K V) : Prop where
  len : sl.length = n
  at_level : ∀ (i : Nat) (s : GSlot B K V), sl[i]? = some (some s) → s.1 = i
  above : ∀ i : Nat, l ≤ i → i < sl.length → sl[i]? = some none

theorem absSlots_none (n : Nat) : absSlots (List.replicate n none : GSlots B K V) = List.replicate n none := by simp [absSlots]
theorem rawSlots_none (n : Nat) : rawSlots (List.replicate n none : GSlots B K V) = List.replicate n none := by simp [rawSlots]
theorem slotsC_none (n : Nat) : slotsC E cap (List.replicate n none : GSlots B K V) = [] := by
  rw [slotsC, List.flatMap_eq_nil_iff]
  intro o ho
  rw [List.eq_of_mem_replicate ho]; rfl
theorem slotsE_none (n : Nat) : slotsE (List.replicate n none : GSlots B K V) = [] := by
  rw [slotsE, List.flatMap_eq_nil_iff]
  intro o ho
  rw [List.eq_of_mem_replicate ho]; rfl

theorem SlotsOk.none (n l : Nat) : SlotsOk n l (List.replicate n none : GSlots B K V) := by
  refine ⟨by simp, ?_, ?_⟩
  · intro i s hi
    have := List.mem_of_getElem? hi
    rw [List.mem_replicate] at this
    cases this.2
  · intro i _ hi
    have hi : i < n := by simpa using hi
    simp [hi]

theorem SlotsOk.mono {n l l' : Nat} {sl : GSlots B K V} (h : SlotsOk n l sl) (hl : l ≤ l') : SlotsOk n l' sl :=
  ⟨h.len, h.at_level, fun i hi hi' => h.above i (by omega) hi'⟩

theorem onUnderfull_sim {n l : Nat} {sl : GSlots B K V} (ok : SlotsOk n l sl) (g : G B K V l) :
    Sim (RTree.onUnderfull l (absSlot ⟨l, g.vec, g.kids⟩) (absSlots sl)) (lift (onUnderfull l g.vec (rawSlots sl)) h) fun r s h' =>
      h = h' ∧ ∃ sl' : GSlots B K V, r = absSlots sl' ∧ s = rawSlots sl' ∧ SlotsOk n (l + 1) sl' ∧
        (slotsC E cap sl').Perm (chunks E cap l g ++ slotsC E cap sl) ∧ (slotsE sl').Perm (ents l g ++ slotsE sl) := by
  have h1 : (absSlots sl).length = sl.length := by simp [absSlots]
  have h2 : (rawSlots sl).length = sl.length := by simp [rawSlots]
  rw [RTree.onUnderfull, onUnderfull, h1, h2]
  by_cases hl : l < sl.length
  · simp only [hl, if_true]
    have hn := ok.above l (Nat.le_refl _) hl
    have hnone : sl[l] = none := by rw [List.getElem?_eq_getElem hl] at hn; exact Option.some.inj hn
    refine .ok ⟨rfl, sl.set l (some ⟨l, g.vec, g.kids⟩), by simp [absSlots, List.map_set], by simp [rawSlots, List.map_set], ⟨?_, ?_, ?_⟩, ?_, ?_⟩
    · simp [ok.len]
    · intro i s hi
      by_cases hil : l = i
      · subst hil
        rw [List.getElem?_set_self hl] at hi
        cases hi; rfl
      · rw [List.getElem?_set_ne hil] at hi
        exact ok.at_level i s hi
    · intro i hi hi'
      rw [List.getElem?_set_ne (by omega)]
      exact ok.above i (by omega) (by simpa using hi')
    · have e1 := flatMap_set (fun o : Option (GSlot B K V) => o.elim [] (slotC E cap)) hl (some ⟨l, g.vec, g.kids⟩)
      have e2 := flatMap_get (fun o : Option (GSlot B K V) => o.elim [] (slotC E cap)) hl
      rw [hnone] at e2
      exact e1.trans (e2.symm.append_left _)
    · have e1 := flatMap_set (fun o : Option (GSlot B K V) => o.elim [] slotE) hl (some ⟨l, g.vec, g.kids⟩)
      have e2 := flatMap_get (fun o : Option (GSlot B K V) => o.elim [] slotE) hl
      rw [hnone] at e2
      exact e1.trans (e2.symm.append_left _)
  · simp only [hl, if_false]
    exact .err _

theorem shallowLen_node : ∀ (l : Nat) (g : G B K V l), shallowLen l (node l g) = .ok g.kids.length
  | 0, _ => rfl
  | l + 1, g => by simp [shallowLen, node, Node.innerChildren, ok_bind, pure_eq_ok]

theorem nodeChildren_node : ∀ (l : Nat) (g : G B K V l), nodeChildren l (node l g) = .ok (absSlot ⟨l, g.vec, g.kids⟩)
  | 0, _ => rfl
  | _ + 1, _ => rfl

/-- What removal below a node leaves behind. -/
def RemRel (E : TEnv) (cap n : Nat) (h₀ : Heap (Cell B K V)) (l : Nat) (g₀ : G B K V l) (r : Node B K V × Option V × Reinsert B K V)
    (s : RNode B × Option (K × V) × RSlots) (h' : Heap (Cell B K V)) : Prop :=
  ∃ (g : G B K V l) (found : Option (K × V)) (sl : GSlots B K V), r = (node l g, found.map (·.2), absSlots sl) ∧ s = (raw g, found, rawSlots sl) ∧
    SlotsOk n l sl ∧ (found = none → sl = List.replicate n none) ∧
    Tr h₀ (chunks E cap l g₀) h' (chunks E cap l g ++ slotsC E cap sl) ∧ (ents l g₀).Perm (found.toList ++ ents l g ++ slotsE sl)

/-- The same for a list of children. -/
def RemLoopRel (E : TEnv) (cap n : Nat) (h₀ : Heap (Cell B K V)) (l : Nat) (v₀ : FCVec) (kids₀ : List (Item B K V (l + 1)))
    (r : List (Node B K V) × Option V × Reinsert B K V) (s : FCVec × Option (K × V) × RSlots) (h' : Heap (Cell B K V)) : Prop :=
  ∃ (v : FCVec) (kids : List (Item B K V (l + 1))) (found : Option (K × V)) (sl : GSlots B K V),
    r = (kids.map (node l), found.map (·.2), absSlots sl) ∧ s = (v, found, rawSlots sl) ∧
    SlotsOk n (l + 1) sl ∧ (found = none → sl = List.replicate n none) ∧
    (∀ b₀ b : B, Tr h₀ (chunks E cap (l + 1) ⟨b₀, v₀, kids₀⟩) h' (chunks E cap (l + 1) ⟨b, v, kids⟩ ++ slotsC E cap sl)) ∧
    (kids₀.flatMap (entsI (l + 1))).Perm (found.toList ++ kids.flatMap (entsI (l + 1)) ++ slotsE sl)

section

variable [Bounds B] [Bounded K B] [Bounded Q B] [BEq Q] {a : Alloc}

omit [Bounded K B] [BEq Q] in
theorem removeLoop_sim (S : Sizes E a.maxChildren) {n l : Nat} {q : Q}
    {rec : Node B K V → Reinsert B K V → Res (Node B K V × Option V × Reinsert B K V)}
    {rrec : RNode B → RSlots → TM B K V (RNode B × Option (K × V) × RSlots)}
    (hrec : ∀ (g : G B K V l) {h : Heap (Cell B K V)}, Has h (chunks E a.maxChildren l g) →
      Sim (rec (node l g) (List.replicate n none)) (rrec (raw g) (List.replicate n none) h) (RemRel E a.maxChildren n h l g)) (b : B) :
    ∀ (i : Nat) {h : Heap (Cell B K V)} (v : FCVec) (kids : List (Item B K V (l + 1))),
    Has h (chunks E a.maxChildren (l + 1) ⟨b, v, kids⟩) →
    Sim (RTree.removeLoop a l q rec i (kids.map (node l)) (List.replicate n none))
      (Raw.removeLoop E a l q rrec i v (List.replicate n none) h) (RemLoopRel E a.maxChildren n h l v kids) := by
  intro i
  induction i with
  | zero =>
    intro h v kids H
    refine .ok ⟨v, kids, none, List.replicate n none, by simp [absSlots_none], by simp [rawSlots_none], .none _ _, fun _ => rfl, ?_, ?_⟩
    · intro b₀ b
      rw [slotsC_none, List.append_nil]
      exact Tr.refl H
    · simp [slotsE_none]
  | succ i ih =>
    intro h v kids H
    have H' : Has h (chunks E a.maxChildren (l + 1) (⟨b, v, kids⟩ : G B K V (l + 1)) ++ []) := by simpa using H
    rw [RTree.removeLoop, Raw.removeLoop, index_map, map_eq_pure_bind, bind_assoc]
    refine .bind (nodeAt_sim S H'.vec i) ?_
    rintro _ _ _ ⟨rfl, rfl, hi, rfl⟩
    simp only [pure_eq_ok, ok_bind, node_bounds']
    have hb : (raw kids[i]).bounds = kids[i].bounds := rfl
    rw [hb]
    by_cases hint : Bounds.intersects kids[i].bounds (Bounded.bounds q) = true
    · rw [if_pos hint, if_pos hint]
      have hp := kid_perm E a.maxChildren l ⟨b, v, kids⟩ hi []
      have t0 := Tr.refl H'
      refine .bind (hrec kids[i] (by simpa using t0.sub hp)) ?_
      rintro ⟨n', v', r'⟩ ⟨rn, rfound, rsl⟩ h₁ ⟨g, found, sl, hr, hs, ok, hnone, t, hpe⟩
      simp only [Prod.mk.injEq] at hr hs
      obtain ⟨rfl, rfl, rfl⟩ := hr
      obtain ⟨rfl, rfl, rfl⟩ := hs
      obtain ⟨h₂, hput, t2⟩ := put_kid S (g := ⟨b, v, kids⟩) hi g (t0.app hp (by simpa using t))
      refine .step hput ?_
      simp only [set_node]
      have hpe' : (kids.flatMap (entsI (l + 1))).Perm (rfound.toList ++ (kids.set i g).flatMap (entsI (l + 1)) ++ slotsE sl) := by
        have e1 : ((kids.set i g).flatMap (entsI (l + 1))).Perm (ents l g ++ (kids.eraseIdx i).flatMap (entsI (l + 1))) :=
          flatMap_set (entsI (l + 1)) hi g
        have e2 : (kids.flatMap (entsI (l + 1))).Perm (ents l kids[i] ++ (kids.eraseIdx i).flatMap (entsI (l + 1))) :=
          flatMap_get (entsI (l + 1)) hi
        refine e2.trans (List.Perm.trans ?_ ((e1.symm.append_left _).append_right _))
        perms [hpe]
      cases rfound with
      | none =>
        obtain rfl := hnone rfl
        simp only [Option.map_none, absSlots_none, rawSlots_none]
        rw [slotsC_none] at t2
        have t2 : Tr h (chunks E a.maxChildren (l + 1) ⟨b, v, kids⟩) h₂ (chunks E a.maxChildren (l + 1) ⟨b, v, kids.set i g⟩) := by
          simpa using t2 b
        refine (ih v (kids.set i g) t2.has).mono ?_
        rintro _ _ h₃ ⟨v₃, kids₃, found₃, sl₃, rfl, rfl, ok₃, hn₃, t₃, hpe₃⟩
        refine ⟨v₃, kids₃, found₃, sl₃, rfl, rfl, ok₃, hn₃, fun b₀ b₁ => t2.trans (t₃ b b₁), ?_⟩
        rw [slotsE_none] at hpe'
        have : (kids.flatMap (entsI (l + 1))).Perm ((kids.set i g).flatMap (entsI (l + 1))) := by simpa using hpe'
        exact this.trans hpe₃
      | some e =>
        simp only [Option.map_some, shallowLen_node, ok_bind]
        have hlen : (raw g).vec.len = g.kids.length := by
          have H2 := t.has.left
          have := (H2.holds _ List.mem_cons_self : Owns _ _ _ _ _).len
          simpa [raw] using this
        rw [hlen]
        by_cases hmin : g.kids.length < a.minChildren
        · rw [if_pos hmin, if_pos hmin]
          have t2' : Tr h (chunks E a.maxChildren (l + 1) ⟨b, v, kids⟩) h₂
              ([vecC (RTree.slotEnv E (l + 1)) a.maxChildren v ((kids.set i g).map (cell (l + 1)))] ++
                (chunksL E a.maxChildren (l + 1) (kids.set i g) ++ slotsC E a.maxChildren sl)) := by
            simpa using t2 b
          rw [swapRemove_map, map_eq_pure_bind, bind_assoc]
          refine .bind (swapRemove_ghost S t2'.has.left i) ?_
          rintro ⟨c, rest⟩ ⟨v₃, cc⟩ h₃ ⟨hperm, rfl, t3⟩
          simp only [pure_eq_ok, ok_bind, nodeChildren_node]
          refine .step (b := raw c) rfl ?_
          have hunder := onUnderfull_sim (E := E) (cap := a.maxChildren) (h := h₃) ok c
          refine .bind hunder ?_
          rintro _ _ _ ⟨rfl, sl', rfl, rfl, ok', hc', he'⟩
          refine .ok ⟨v₃, rest, some e, sl', rfl, rfl, ok', by simp, ?_, ?_⟩
          · intro b₀ b₁
            have := t2'.app (.refl _) t3
            refine this.perm_right ?_
            have hk := hperm.flatMap_right (chunksI E a.maxChildren (l + 1))
            rw [List.flatMap_cons, chunksI_succ] at hk
            have hc'' := hc'
            perms [hk, hc'']
          · have hk := hperm.flatMap_right (entsI (l + 1))
            have hk : ((kids.set i g).flatMap (entsI (l + 1))).Perm (ents l c ++ rest.flatMap (entsI (l + 1))) := hk
            refine hpe'.trans ?_
            perms [hk, he']
        · rw [if_neg hmin, if_neg hmin]
          refine .ok ⟨v, kids.set i g, some e, sl, rfl, rfl, ok.mono (by omega), by simp, ?_, hpe'⟩
          intro b₀ b₁
          simpa using t2 b₁
    · rw [if_neg hint, if_neg hint]
      exact ih v kids H

theorem removeNode_sim (S : Sizes E a.maxChildren) (borrow : K → Q) (q : Q) (n : Nat) : ∀ (l : Nat) (g : G B K V l) {h : Heap (Cell B K V)},
    Has h (chunks E a.maxChildren l g) →
    Sim (RTree.removeNode a borrow q l (node l g) (List.replicate n none)) (Raw.removeNode E a borrow q l (raw g) (List.replicate n none) h)
      (RemRel E a.maxChildren n h l g) := by
  intro l
  induction l with
  | zero =>
    intro g h H
    have H' : Has h (chunks E a.maxChildren 0 g ++ []) := by simpa using H
    simp only [RTree.removeNode, node, Node.leafChildren, ok_bind, Raw.removeNode, raw]
    refine .step (entries_ok S H'.vec) ?_
    cases hf : g.kids.findIdx? (fun e => borrow e.1 == q) with
    | none =>
      refine .ok ⟨g, none, List.replicate n none, by simp [absSlots_none, node], by simp [rawSlots_none, raw], .none _ _, fun _ => rfl, ?_, ?_⟩
      · rw [slotsC_none, List.append_nil]; exact .refl H
      · simp [slotsE_none]
    | some i =>
      simp only
      refine .bind (swapRemove_ghost S H'.vec i) ?_
      rintro ⟨e, rest⟩ ⟨v₃, cc⟩ h₃ ⟨hperm, rfl, t3⟩
      simp only
      refine .step (b := e) rfl ?_
      have H3 : Has h₃ [vecC E.entry a.maxChildren v₃ (rest.map (cell (B := B) 0))] := t3.has
      refine .step (entries_ok S H3) ?_
      refine .ok ⟨⟨Bounds.unionAll (rest.map entryBounds), v₃, rest⟩, some e, List.replicate n none, by simp [absSlots_none, node],
        by simp [rawSlots_none, raw], .none _ _, fun _ => rfl, ?_, ?_⟩
      · rw [slotsC_none, List.append_nil]
        have e0 : ∀ k : List (K × V), (chunksL (B := B) E a.maxChildren 0 k) = [] := by
          intro k
          show k.flatMap (fun _ => []) = []
          simp
        have t3 : Tr h [vecC E.entry a.maxChildren g.vec (g.kids.map (cell (B := B) 0))] h₃ _ := t3
        show Tr h (vecC E.entry a.maxChildren g.vec (g.kids.map (cell (B := B) 0)) :: chunksL E a.maxChildren 0 g.kids) h₃
          (vecC E.entry a.maxChildren v₃ (rest.map (cell (B := B) 0)) :: chunksL E a.maxChildren 0 rest)
        rw [e0, e0]; exact t3
      · rw [slotsE_none, List.append_nil]
        exact hperm.flatMap_right (entsI (B := B) 0)
  | succ l ih =>
    intro g h H
    have hin : (node (l + 1) g).innerChildren = .ok (g.kids.map (node l)) := rfl
    have hlen : g.vec.len = g.kids.length := by
      have := (H.holds _ List.mem_cons_self : Owns _ _ _ _ _).len
      simpa using this
    rw [RTree.removeNode, Raw.removeNode, hin, ok_bind, List.length_map]
    have hv : (raw g).vec = g.vec := rfl
    rw [hv, hlen]
    refine .bind (removeLoop_sim S (q := q) (fun g h H => ih g H) g.bounds g.kids.length g.vec g.kids H) ?_
    rintro ⟨cs, fv, sl₀⟩ ⟨v, rfound, rsl⟩ h₁ ⟨v', kids, found, sl, hr, hs, ok, hnone, t, hpe⟩
    simp only [Prod.mk.injEq] at hr hs
    obtain ⟨rfl, rfl, rfl⟩ := hr
    obtain ⟨rfl, rfl, rfl⟩ := hs
    cases rfound with
    | none =>
      obtain rfl := hnone rfl
      refine .ok ⟨⟨g.bounds, v, kids⟩, none, List.replicate n none, rfl, rfl, .none _ _, fun _ => rfl, t _ _, ?_⟩
      simpa using hpe
    | some e =>
      have t' := t g.bounds (Bounds.unionAll ((kids.map raw).map RNode.bounds))
      simp only [Option.map_some]
      refine .step (nodes_ok S t'.has.vec) ?_
      rw [map_node_bounds]
      exact .ok ⟨⟨Bounds.unionAll ((kids.map raw).map RNode.bounds), v, kids⟩, some e, sl, rfl, rfl, ok, by simp, t', hpe⟩

end

end RTree.Raw
