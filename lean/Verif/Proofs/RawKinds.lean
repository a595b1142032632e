import Verif.Proofs.RawSession
import Verif.Proofs.CallsJoin
/-!
# Iterators in memory and iterators that are values do the same
-/

namespace RTree.Raw

variable {E : Env}

section Tree

variable {B K V Q : Type}

theorem nextsOf_tree (code : Nat → Option (SpatialFilter B Q)) (borrow : K → Q) (m : Nat) :
    nextsOf (Calls.TreeIter.next (V := V) code borrow) m = Calls.TreeIter.nexts code borrow m := by
  induction m with
  | zero => rfl
  | succ m ih => unfold nextsOf Calls.TreeIter.nexts; rw [ih]

/-- Iterators of a tree. -/
def treeMirror (hs : 0 < E.size) (room : Nat → Nat) (borrow : K → Q) :
    Mirror E (treeKind (B := B) (V := V) E room borrow) (RTree.TreeIter B K V) where
  ok t := Shape t.level t.root ∧ (t.level + 1) * E.size ≤ E.maxBytes ∧ room (t.level + 1) = t.level + 1
  stack s := s
  box b := b
  agree _ _ := True
  pstart code t s := ∃ s₀, Calls.TreeIter.newFilter code t.level t.root s₀ 0 = (.ok (), s, 1)
  pnext code := Calls.TreeIter.next code borrow
  start_none := by
    intro code t h _ hc
    have : Calls.ask code h 0 = (.error .user, h, 1) := by rw [Calls.ask, hc]
    exact Calls.bind_error' this
  start_some := by
    rintro code t f h ⟨hsh, hm, hr⟩ hc
    have ha : Calls.ask code h 0 = (.ok f, h, 1) := by rw [Calls.ask, hc]
    have ha' : Calls.ask code ([] : RTree.TreeIter B K V) 0 = (.ok f, [], 1) := by rw [Calls.ask, hc]
    show ∃ it s h', (∃ s₀, _) ∧ True ∧ TreeIter.newFilter E room code t.level t.root h 0 = (.ok it, h', 1) ∧ _
    cases hb : f.testBounds t.root.bounds with
    | false =>
      refine ⟨BoxStack.emptyBox, RTree.TreeIter.newEmpty, h, ⟨[], ?_⟩, trivial, ?_, .inl ⟨rfl, rfl, rfl⟩⟩
      · rw [Calls.TreeIter.newFilter, Calls.bind_ok' ha', hb]; rfl
      · rw [TreeIter.newFilter, Calls.bind_ok' ha, hb]; rfl
    | true =>
      obtain ⟨s, h1⟩ : ∃ s, RTree.TreeIter.new t.level t.root = .ok s := by
        obtain ⟨es, css, h1, _⟩ := RTree.TreeIter.new_spec hsh (fun _ => true) (fun _ => true)
        exact ⟨_, h1⟩
      obtain ⟨es, css, rfl, h3, h4⟩ := TreeIter.new_at hs hr hm h1 h 1
      refine ⟨_, _, _, ⟨[], ?_⟩, trivial, ?_, .inr ⟨es, css, by rw [h3], rfl, by rw [h3]; exact hm, rfl⟩⟩
      · rw [Calls.TreeIter.newFilter, Calls.bind_ok' ha', hb]
        show (Calls.own (RTree.TreeIter.new t.level t.root) >>= Calls.put) _ 1 = _
        rw [h1]; rfl
      · rw [TreeIter.newFilter, Calls.bind_ok' ha, hb]
        exact h4
  next_empty := by
    intro it s code h n _ hb hst
    subst hb hst
    exact ⟨[], trivial, rfl, by unfold Calls.TreeIter.next; rw [Calls.self_bind]; unfold Calls.TreeIter.nextLoop; rw [Calls.self_bind]; rfl, TreeIter.next_empty code borrow h n⟩
  next_at := by
    intro it s k leaf inners code h n _ hb hst hk
    subst hb hst
    obtain ⟨es', css', r, n', h1, h2, h3⟩ := TreeIter.next_at hs code borrow hk n leaf inners
    exact ⟨r, _, n', es', css', h1, rfl, trivial, h2, h3⟩
  drop_eq _ := rfl
  good := by
    rintro code t s m outs s' n' p ⟨hsh, _⟩ ⟨s₀, h1⟩ h2
    rw [nextsOf_tree] at h2
    exact (Calls.sublist_of_shape hsh code borrow h1 h2).2 p

end Tree

section Join

variable {B0 B1 K0 K1 V0 V1 Q0 Q1 : Type}

theorem nextsOf_join (code : Nat → Option (JoinFilter B0 B1 Q0 Q1)) (borrow0 : K0 → Q0) (borrow1 : K1 → Q1) (m : Nat) :
    nextsOf (Calls.JoinIter.next (V0 := V0) (V1 := V1) code borrow0 borrow1) m = Calls.JoinIter.nexts code borrow0 borrow1 m := by
  induction m with
  | zero => rfl
  | succ m ih => unfold nextsOf Calls.JoinIter.nexts; rw [ih]

/-- Joins of two trees. -/
def joinMirror (hs : 0 < E.size) (room : Nat → Nat) (borrow0 : K0 → Q0) (borrow1 : K1 → Q1) :
    Mirror E (joinKind (B0 := B0) (B1 := B1) (V0 := V0) (V1 := V1) E room borrow0 borrow1) (RTree.JoinIter B0 B1 K0 K1 V0 V1) where
  ok t := Shape t.1.level t.1.root ∧ Shape t.2.level t.2.root ∧ (max t.1.level t.2.level + 1) * E.size ≤ E.maxBytes ∧
    room (max t.1.level t.2.level + 1) = max t.1.level t.2.level + 1
  stack s := s.stack
  box it := it.stack
  agree it s := it.padding0 = s.padding0 ∧ it.padding1 = s.padding1
  pstart code t s := ∃ s₀, Calls.JoinIter.new code t.1.root t.1.level t.2.root t.2.level s₀ 0 = (.ok (), s, 1)
  pnext code := Calls.JoinIter.next code borrow0 borrow1
  start_none := by
    intro code t h _ hc
    have : Calls.ask code h 0 = (.error .user, h, 1) := by rw [Calls.ask, hc]
    exact Calls.bind_error' this
  start_some := by
    rintro code ⟨t0, t1⟩ f h ⟨h0, h1, hm, hr⟩ hc
    dsimp only at h0 h1 hm hr
    have ha : Calls.ask code h 0 = (.ok f, h, 1) := by rw [Calls.ask, hc]
    have ha' : Calls.ask code (⟨[], 0, 0⟩ : RTree.JoinIter B0 B1 K0 K1 V0 V1) 0 = (.ok f, ⟨[], 0, 0⟩, 1) := by rw [Calls.ask, hc]
    show ∃ it s h', (∃ s₀, _) ∧ _ ∧ JoinIter.new E room code t0.root t0.level t1.root t1.level h 0 = (.ok it, h', 1) ∧ _
    cases hb : f.testBounds t0.root.bounds t1.root.bounds with
    | false =>
      refine ⟨⟨BoxStack.emptyBox, 0, 0⟩, ⟨IterStack.emptyBox, 0, 0⟩, h, ⟨⟨[], 0, 0⟩, ?_⟩, ⟨rfl, rfl⟩, ?_, .inl ⟨rfl, rfl, rfl⟩⟩
      · dsimp only
        rw [Calls.JoinIter.new, Calls.bind_ok' ha', hb]; rfl
      · rw [JoinIter.new, Calls.bind_ok' ha, hb]; rfl
    | true =>
      obtain ⟨lf, its, g1, -⟩ := Calls.JoinIter.start_of_shape h0 h1
      have hnb := BoxStack.newBox_at (E := E) (leaf := (.new [] [] : ProductIter (K0 × V0) (K1 × V1)))
        (inners := List.replicate (max t0.level t1.level) (.new [] [] : ProductIter (Node B0 K0 V0) (Node B1 K1 V1))) (h := h) hs (by simpa using hm)
        (room := room) (by simpa using hr)
      have hk : (gapped E h).length < (gapped E h ++ [none]).length := by simp
      have hh : gapped E h ++ [some ⟨((List.replicate (max t0.level t1.level) (.new [] [] : ProductIter (Node B0 K0 V0) (Node B1 K1 V1))).length + 1) * E.size,
          (IterStack.newBox (.new [] [] : ProductIter (K0 × V0) (K1 × V1))
            (List.replicate (max t0.level t1.level) (.new [] [] : ProductIter (Node B0 K0 V0) (Node B1 K1 V1)))).map some⟩] =
          holding E (gapped E h ++ [none]) (gapped E h).length (IterStack.newBox (.new [] [] : ProductIter (K0 × V0) (K1 × V1))
            (List.replicate (max t0.level t1.level) (.new [] [] : ProductIter (Node B0 K0 V0) (Node B1 K1 V1)))) := by
        rw [holding, IterStack.length_newBox, List.set_append_right _ _ (Nat.le_refl _)]
        simp
      rw [hh] at hnb
      rcases JoinIter.startJoin_at hs hk (.new [] []) (List.replicate (max t0.level t1.level) (.new [] [])) t0.root t0.level t1.root t1.level (by rw [List.length_replicate]; exact Nat.lt_succ_self _) 1 with
        ⟨e, g2, _⟩ | ⟨lf', its', g2, g3, g4⟩
      · rw [g1] at g2; cases g2
      · rw [List.length_replicate] at g2 g4
        rw [List.length_replicate] at hnb
        refine ⟨⟨⟨some ⟨(gapped E h).length, 0⟩, max t0.level t1.level + 1⟩, max t0.level t1.level - t0.level, max t0.level t1.level - t1.level⟩,
          ⟨IterStack.newBox lf' its', max t0.level t1.level - t0.level, max t0.level t1.level - t1.level⟩, _, ⟨⟨[], 0, 0⟩, ?_⟩, ⟨rfl, rfl⟩, ?_,
          .inr ⟨lf', its', by rw [g2], rfl, by rw [g2]; exact hm, rfl⟩⟩
        · dsimp only
          rw [Calls.JoinIter.new, Calls.bind_ok' ha', hb]
          dsimp only
          show ((Calls.put _ >>= fun _ => Calls.own _ >>= fun stack => Calls.put _ : Calls.M _ _) _ 1 : _ × _ × _) = _
          rw [Calls.put_bind, g3, Calls.own_bind]; rfl
        · rw [JoinIter.new, Calls.bind_ok' ha, hb]
          dsimp only
          show ((onHeap _ >>= fun _ => _ : Calls.M _ _) _ 1 : _ × _ × _) = _
          rw [onHeap_bind hnb, Calls.bind_ok' g4]
          rfl
  next_empty := by
    rintro ⟨b, p0, p1⟩ ⟨s, q0, q1⟩ code h n ⟨rfl, rfl⟩ hb hst
    dsimp only at hb hst
    subst hb hst
    exact ⟨⟨[], p0, p1⟩, ⟨rfl, rfl⟩, rfl, by unfold Calls.JoinIter.next; rw [Calls.self_bind]; unfold Calls.JoinIter.nextLoop; rw [Calls.self_bind]; rfl,
      JoinIter.next_empty code borrow0 borrow1 h p0 p1 n⟩
  next_at := by
    rintro ⟨b, p0, p1⟩ ⟨s, q0, q1⟩ k leaf inners code h n ⟨rfl, rfl⟩ hb hst hk
    dsimp only at hb hst
    subst hb hst
    obtain ⟨lf', its', r, n', h1, h2, h3⟩ := JoinIter.next_at hs code borrow0 borrow1 hk p0 p1 n leaf inners
    exact ⟨r, _, n', lf', its', h1, rfl, ⟨rfl, rfl⟩, h2, h3⟩
  drop_eq _ := rfl
  good := by
    rintro code ⟨t0, t1⟩ s m outs s' n' p ⟨h0, h1, _⟩ ⟨s₀, g1⟩ g2
    dsimp only at h0 h1 g1
    rw [nextsOf_join] at g2
    have key := Calls.join_of_shape h0 h1 code borrow0 borrow1 s₀
    cases hc : code 0 with
    | none => rw [hc] at key; rw [key] at g1; cases g1
    | some f =>
      rw [hc] at key
      obtain ⟨s₁, g3, g4⟩ := key
      rw [g3] at g1
      cases g1
      obtain ⟨outs', s'', n'', g5, -, g6⟩ := g4 m
      rw [g2] at g5
      cases g5
      exact g6.no_own p

end Join

end RTree.Raw
