import Verif.Proofs.RawRemove
/-!
# The operations of trees in memory
-/

namespace RTree.Raw

variable {B K V Q : Type} {E : TEnv} {cap : Nat} {h : Heap (Cell B K V)}

theorem bind_assoc' {α β γ δ : Type} (x : M α β) (f : β → M α γ) (g : γ → M α δ) : (x >>= f) >>= g = x >>= fun b => f b >>= g := by
  funext h
  simp only [bind_apply]
  cases x h <;> rfl

theorem push_ghost (S : Sizes E cap) {l : Nat} {v : FCVec} {kids : List (Item B K V l)}
    (H : Has h [vecC (RTree.slotEnv E l) cap v (kids.map (cell l))]) (x : Item B K V l) :
    Sim (Vec.push cap kids x) (FCVec.push (RTree.slotEnv E l) cap v (cell l x) h) fun r v' h' =>
      r = kids ++ [x] ∧
        Tr h [vecC (RTree.slotEnv E l) cap v (kids.map (cell l))] h' [vecC (RTree.slotEnv E l) cap v' (r.map (cell l))] := by
  have key := FCVec.push_sim H (S.size l) (cell l x)
  rw [push_map] at key
  have key := key.of_map
  cases hx : Vec.push cap kids x with
  | error e => rw [hx] at key; cases e <;> exact key
  | ok r =>
    rw [hx] at key
    obtain ⟨s, h', h1, t⟩ := key
    refine ⟨s, h', h1, ?_, t⟩
    rw [Vec.push] at hx
    split at hx
    · cases hx
    · cases hx; rfl

/-! ### Drop -/

section Drop

variable {a : Alloc}

theorem dropNode_tr (S : Sizes E a.maxChildren) : ∀ (l : Nat) (g : G B K V l) {h : Heap (Cell B K V)}, Has h (chunks E a.maxChildren l g) →
    ∃ es h', dropNode E a l (raw g) h = .ok (es, h') ∧ es.Perm (ents l g) ∧ Tr h (chunks E a.maxChildren l g) h' [] := by
  intro l
  induction l with
  | zero =>
    intro g h H
    have H' : Has h ([vecC E.entry a.maxChildren g.vec (g.kids.map (cell (B := B) 0))] ++ chunksL E a.maxChildren 0 g.kids) := H
    obtain ⟨h', h1, t⟩ := FCVec.drop_tr H'.left S.entry
    refine ⟨g.kids.reverse, h', ?_, ?_, ?_⟩
    · rw [dropNode]
      have hv : (raw g).vec = g.vec := rfl
      rw [hv, bind_ok h1, ← List.map_reverse]
      have : g.kids.reverse.map (cell (B := B) 0) = g.kids.reverse.map fun x => (Cell.entry x : Cell B K V) := rfl
      rw [this, mapM_asEntry]; rfl
    · refine (List.reverse_perm _).trans ?_
      show g.kids.Perm (g.kids.flatMap fun e => [e])
      simp
    · have t := t.frame H'
      have e0 : (chunksL (B := B) E a.maxChildren 0 g.kids) = [] := by
        show g.kids.flatMap (fun _ => []) = []
        simp
      rw [e0] at t
      show Tr h (vecC E.entry a.maxChildren g.vec (g.kids.map (cell (B := B) 0)) :: chunksL E a.maxChildren 0 g.kids) h' []
      rw [e0]
      simpa using t
  | succ l ih =>
    intro g h H
    have H' : Has h ([vecC E.node a.maxChildren g.vec (g.kids.map (cell (l + 1)))] ++ chunksL E a.maxChildren (l + 1) g.kids) := H
    have hloop : ∀ (kids : List (Item B K V (l + 1))) (acc : List (K × V)) {h : Heap (Cell B K V)}, Has h (chunksL E a.maxChildren (l + 1) kids) →
        ∃ es h', ((kids.map raw).foldlM (fun acc c => do pure (acc ++ (← dropNode E a l c))) acc : TM B K V _) h = .ok (acc ++ es, h') ∧
          es.Perm (kids.flatMap (entsI (l + 1))) ∧ Tr h (chunksL E a.maxChildren (l + 1) kids) h' [] := by
      intro kids
      induction kids with
      | nil =>
        intro acc h H
        exact ⟨[], h, by simp, .refl _, .refl H⟩
      | cons c kids ihk =>
        intro acc h H
        have H : Has h (chunks E a.maxChildren l c ++ chunksL E a.maxChildren (l + 1) kids) := H
        obtain ⟨es, h', h1, hp, t⟩ := ih c H.left
        have t := t.frame H
        obtain ⟨es', h'', h2, hp', t'⟩ := ihk (acc ++ es) t.has
        refine ⟨es ++ es', h'', ?_, ?_, ?_⟩
        · rw [List.map_cons, List.foldlM_cons, bind_ok (b := acc ++ es) (h' := h'), h2, List.append_assoc]
          rw [bind_ok h1]; rfl
        · exact hp.append hp'
        · exact t.trans t'
    have hp0 : ([vecC E.node a.maxChildren g.vec (g.kids.map (cell (l + 1)))] ++ chunksL E a.maxChildren (l + 1) g.kids).Perm
      (chunksL E a.maxChildren (l + 1) g.kids ++ [vecC E.node a.maxChildren g.vec (g.kids.map (cell (l + 1)))]) := List.perm_append_comm
    obtain ⟨es, h₁, h1, hp, t⟩ := hloop g.kids [] H'.right
    have t := (Tr.refl H').app hp0 t
    obtain ⟨h₂, h2, t2⟩ := FCVec.drop_tr (by simpa using t.has) S.node
    refine ⟨es, h₂, ?_, hp, ?_⟩
    · have hv : (raw g).vec = g.vec := rfl
      rw [dropNode, hv, bind_ok (nodes_ok S H'.left), bind_ok h1, bind_ok h2]; rfl
    · exact t.trans (by simpa using t2)

end Drop

/-! ### Clone -/

section Clone

variable {a : Alloc}

theorem Vec.clone_ok {α : Type} {l : List α} {cap : Nat} (hl : l.length ≤ cap) : RTree.Vec.clone cap l = .ok l := by
  have key : ∀ (r acc : List α), acc.length + r.length ≤ cap → r.foldlM (fun acc a => RTree.Vec.push cap acc a) acc = .ok (acc ++ r) := by
    intro r
    induction r with
    | nil => intro acc _; simp [pure_eq_ok]
    | cons x r ih =>
      intro acc hlen
      rw [List.length_cons] at hlen
      rw [List.foldlM_cons, RTree.Vec.push, if_neg (by omega), ok_bind, ih _ (by simp; omega)]
      simp
  rw [RTree.Vec.clone, if_neg (by omega), key l [] (by simpa using hl)]; rfl

theorem cloneNode_sim (S : Sizes E a.maxChildren) : ∀ (l : Nat) (g : G B K V l) {h : Heap (Cell B K V)}, Has h (chunks E a.maxChildren l g) →
    Sim (RTree.cloneNode a l (node l g)) (Raw.cloneNode E a l (raw g) h) fun r s h' => ∃ g' : G B K V l, r = node l g' ∧ s = raw g' ∧
      Tr h (chunks E a.maxChildren l g) h' (chunks E a.maxChildren l g' ++ chunks E a.maxChildren l g) ∧ ents l g' = ents l g := by
  intro l
  induction l with
  | zero =>
    intro g h H
    have H' : Has h ([vecC E.entry a.maxChildren g.vec (g.kids.map (cell (B := B) 0))] ++ chunksL E a.maxChildren 0 g.kids) := H
    have hfit : g.kids.length ≤ a.maxChildren := by simpa using H'.left.owns.fits
    simp only [RTree.cloneNode, node, Node.leafChildren, ok_bind, Node.bounds, Vec.clone_ok hfit, Raw.cloneNode, raw]
    obtain ⟨v', h', h1, t⟩ := FCVec.clone_tr (cap' := a.maxChildren) H'.left S.entry id (by simpa using hfit) S.entryMax
      (.inl (Nat.mul_pos S.cap S.entry))
    refine .step h1 (.ok ⟨⟨g.bounds, v', g.kids⟩, rfl, rfl, ?_, rfl⟩)
    have t := t.frame H'
    rw [List.map_id] at t
    have e0 : (chunksL (B := B) E a.maxChildren 0 g.kids) = [] := by
      show g.kids.flatMap (fun _ => []) = []
      simp
    show Tr h (vecC E.entry a.maxChildren g.vec (g.kids.map (cell (B := B) 0)) :: chunksL E a.maxChildren 0 g.kids) h'
      (vecC E.entry a.maxChildren v' (g.kids.map (cell (B := B) 0)) :: chunksL E a.maxChildren 0 g.kids ++
        vecC E.entry a.maxChildren g.vec (g.kids.map (cell (B := B) 0)) :: chunksL E a.maxChildren 0 g.kids)
    rw [e0] at t ⊢
    simpa using t
  | succ l ih =>
    intro g h H
    have H' : Has h ([vecC E.node a.maxChildren g.vec (g.kids.map (cell (l + 1)))] ++ chunksL E a.maxChildren (l + 1) g.kids) := H
    simp only [RTree.cloneNode, node, Node.innerChildren, ok_bind, Node.bounds, Raw.cloneNode]
    obtain ⟨v, h₁, h1, t1⟩ := FCVec.new_tr (E := E.node) (cap := a.maxChildren) h S.nodeMax (.inl (Nat.mul_pos S.cap S.node))
    refine .step h1 ?_
    have t1 := t1.frame (ds := [vecC E.node a.maxChildren g.vec (g.kids.map (cell (l + 1)))] ++ chunksL E a.maxChildren (l + 1) g.kids) H'
    have hv : (raw g).vec = g.vec := rfl
    rw [hv]
    have hp1 : ([vecC E.node a.maxChildren v ([] : List (Cell B K V))] ++ ([vecC E.node a.maxChildren g.vec (g.kids.map (cell (l + 1)))] ++
        chunksL E a.maxChildren (l + 1) g.kids)).Perm ([vecC E.node a.maxChildren g.vec (g.kids.map (cell (l + 1)))] ++
        (vecC E.node a.maxChildren v ([] : List (Cell B K V)) :: chunksL E a.maxChildren (l + 1) g.kids)) := by perms
    refine .step (nodes_ok S (t1.sub hp1)) ?_
    have hloop : ∀ (kids : List (Item B K V (l + 1))) (acc : List (Item B K V (l + 1))) (v : FCVec) {h : Heap (Cell B K V)},
        Has h (chunksL E a.maxChildren (l + 1) kids ++ [vecC E.node a.maxChildren v (acc.map (cell (l + 1)))]) →
        Sim ((kids.map (node l)).foldlM (fun acc c => do Vec.push a.maxChildren acc (← RTree.cloneNode a l c)) (acc.map (node l)))
          (((kids.map raw).foldlM (fun v c => do
            let c ← Raw.cloneNode E a l c
            v.push E.node a.maxChildren (.node c)) v : TM B K V FCVec) h)
          fun r v' h' => ∃ kids' : List (Item B K V (l + 1)), r = (acc ++ kids').map (node l) ∧
            Tr h (chunksL E a.maxChildren (l + 1) kids ++ [vecC E.node a.maxChildren v (acc.map (cell (l + 1)))]) h'
              (vecC E.node a.maxChildren v' ((acc ++ kids').map (cell (l + 1))) :: (chunksL E a.maxChildren (l + 1) kids' ++
                chunksL E a.maxChildren (l + 1) kids)) ∧
            kids'.flatMap (entsI (l + 1)) = kids.flatMap (entsI (l + 1)) := by
      intro kids
      induction kids with
      | nil =>
        intro acc v h H
        exact .ok ⟨[], by simp, by simpa using Tr.refl H, rfl⟩
      | cons c kids ihk =>
        intro acc v h H
        have H : Has h (chunks E a.maxChildren l c ++ (chunksL E a.maxChildren (l + 1) kids ++
          [vecC E.node a.maxChildren v (acc.map (cell (l + 1)))])) := by
          have e : chunksL E a.maxChildren (l + 1) (c :: kids) = chunks E a.maxChildren l c ++ chunksL E a.maxChildren (l + 1) kids := rfl
          rw [e, List.append_assoc] at H
          exact H
        rw [List.map_cons, List.map_cons, List.foldlM_cons, List.foldlM_cons, bind_assoc, bind_assoc']
        refine .bind (ih c H.left) ?_
        rintro _ _ h₁ ⟨c', rfl, rfl, t, he⟩
        have t := t.frame H
        have hp : (chunks E a.maxChildren l c' ++ chunks E a.maxChildren l c ++ (chunksL E a.maxChildren (l + 1) kids ++
          [vecC E.node a.maxChildren v (acc.map (cell (l + 1)))])).Perm ([vecC E.node a.maxChildren v (acc.map (cell (l + 1)))] ++
            (chunks E a.maxChildren l c' ++ chunks E a.maxChildren l c ++ chunksL E a.maxChildren (l + 1) kids)) := by perms
        rw [push_map, map_eq_pure_bind, bind_assoc]
        refine .bind (push_ghost (l := l + 1) S (t.sub hp) c') ?_
        rintro _ v₂ h₂ ⟨rfl, t2⟩
        have t2 := t.app hp t2
        rw [pure_eq_ok, ok_bind]
        have hp2 : ([vecC E.node a.maxChildren v₂ ((acc ++ [c']).map (cell (l + 1)))] ++
            (chunks E a.maxChildren l c' ++ chunks E a.maxChildren l c ++ chunksL E a.maxChildren (l + 1) kids)).Perm
            ((chunksL E a.maxChildren (l + 1) kids ++ [vecC E.node a.maxChildren v₂ ((acc ++ [c']).map (cell (l + 1)))]) ++
              (chunks E a.maxChildren l c' ++ chunks E a.maxChildren l c)) := by perms
        refine (ihk (acc ++ [c']) v₂ (t2.sub hp2)).mono ?_
        rintro _ v₃ h₃ ⟨kids', rfl, t3, he'⟩
        have t3 := t2.app hp2 t3
        refine ⟨c' :: kids', by simp, ?_, ?_⟩
        · have e : ∀ (c : Item B K V (l + 1)) kids, chunksL E a.maxChildren (l + 1) (c :: kids) =
            chunks E a.maxChildren l c ++ chunksL E a.maxChildren (l + 1) kids := fun _ _ => rfl
          rw [e, e, List.append_assoc]
          have e2 : (acc ++ [c']) ++ kids' = acc ++ c' :: kids' := by simp
          rw [e2] at t3
          refine t3.perm_right ?_
          perms
        · rw [List.flatMap_cons, List.flatMap_cons, he']
          congr 1
    have hp2 : ([vecC E.node a.maxChildren v ([] : List (Cell B K V))] ++ ([vecC E.node a.maxChildren g.vec (g.kids.map (cell (l + 1)))] ++
        chunksL E a.maxChildren (l + 1) g.kids)).Perm ((chunksL E a.maxChildren (l + 1) g.kids ++
          [vecC E.node a.maxChildren v ([] : List (Cell B K V))]) ++ [vecC E.node a.maxChildren g.vec (g.kids.map (cell (l + 1)))]) := by perms
    refine .bind (hloop g.kids [] v (t1.sub hp2)) ?_
    rintro _ v' h' ⟨kids', rfl, t2, he⟩
    have t2 := t1.app hp2 t2
    refine .ok ⟨⟨g.bounds, v', kids'⟩, rfl, rfl, ?_, he⟩
    refine t2.perm_right ?_
    have e : RTree.slotEnv E (l + 1) = E.node := rfl
    simp only [chunks, e, List.nil_append]
    perms

end Clone

/-! ### Length -/

theorem lenNode_sim (S : Sizes E cap) : ∀ (l : Nat) (g : G B K V l), Has h (chunks E cap l g) →
    Sim (RTree.lenNode l (node l g)) (Raw.lenNode E l (raw g) h) fun r s h' => r = s ∧ h = h' := by
  intro l
  induction l with
  | zero =>
    intro g H
    have hlen : (raw g).vec.len = g.kids.length := by
      have := (H.holds _ List.mem_cons_self : Owns _ _ _ _ _).len
      simpa [raw] using this
    simp only [RTree.lenNode, node, Node.leafChildren, ok_bind, Raw.lenNode, hlen]
    exact .ok ⟨rfl, rfl⟩
  | succ l ih =>
    intro g H
    have H' : Has h ([vecC E.node cap g.vec (g.kids.map (cell (l + 1)))] ++ chunksL E cap (l + 1) g.kids) := H
    simp only [RTree.lenNode, node, Node.innerChildren, ok_bind, Raw.lenNode]
    refine .step (nodes_ok S H'.left) ?_
    have hk := H'.right
    generalize g.kids = kids at hk
    suffices ∀ n : Nat, Sim ((kids.map (node l)).foldlM (fun size c => do pure (size + (← RTree.lenNode l c))) n)
        (((kids.map raw).foldlM (fun size c => do pure (size + (← Raw.lenNode E l c))) n : TM B K V Nat) h) fun r s h' => r = s ∧ h = h' from this 0
    induction kids with
    | nil => intro n; exact .ok ⟨rfl, rfl⟩
    | cons c kids ihk =>
      intro n
      have hk : Has h (chunks E cap l c ++ chunksL E cap (l + 1) kids) := hk
      rw [List.map_cons, List.map_cons, List.foldlM_cons, List.foldlM_cons, bind_assoc, bind_assoc']
      refine .bind (ih c hk.left) ?_
      rintro m _ _ ⟨rfl, rfl⟩
      exact ihk hk.right _

end RTree.Raw
