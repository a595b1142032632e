import Verif.Proofs.Destructors
/-!
# Sessions with panicking destructors
-/

namespace RTree.Raw

open Forest

variable {B K V Q : Type} {E : TEnv} {bomb : Nat → Bool}

/-- Dropping a tree. -/
theorem destroy_at (t : GTree B K V) (S : Sizes E t.alloc.maxChildren) {h : Heap (Cell B K V)} (H : Has h (t.own E)) :
    ∃ (h' : Heap (Cell B K V)) (bs : List Nat), t.rawT.destroy E bomb ⟨h, []⟩ = (outcome (dropPairs bomb 0 t.abs.root.dropOrder).2.1, ⟨h', destructors (dropPairs bomb 0 t.abs.root.dropOrder).1⟩) ∧
      Tr h (t.own E) h' (bs.map leakC) ∧ bs.length = t.abs.root.kept (quiet (dropPairs bomb 0 t.abs.root.dropOrder)) := by
  obtain ⟨h', bs, h1, h2, h3⟩ := destroyNode_at (bomb := bomb) S t.level t.root [] 0 H
  have e : t.abs.root.dropOrder = orderOf t.level t.root := orderOf_node t.level t.root
  rw [e]
  refine ⟨h', bs, h1, h2, ?_⟩
  rw [Nat.zero_add] at h3
  exact h3

theorem dropOrder_perm (t : GTree B K V) : t.abs.root.dropOrder.Perm t.es := by
  have e : t.abs.root.dropOrder = orderOf t.level t.root := orderOf_node t.level t.root
  rw [e]
  exact orderOf_perm t.level t.root

variable [Bounds B] [Volume B] [Bounded K B] [BEq K] [Bounded Q B] [BEq Q]

/-- What is known after a session. -/
structure SessRel (E : TEnv) (h : Heap (Cell B K V)) (gs : Forest B K V) (lk : List Nat) (f : List (Option (Tree B K V))) (outs : List (DOut K V))
    (rf : List (Option (RTree B))) (evs : List (DEvent K V)) (h' : Heap (Cell B K V)) (gs' : Forest B K V) (lk' : List Nat) : Prop where
  abs : f = absF gs'
  raw : rf = rawF gs'
  shown : evs.map DEvent.shown = outs.map DOut.shown
  tr : Tr h (own E gs ++ lk.map leakC) h' (own E gs' ++ lk'.map leakC)
  kept : lk'.length = lk.length + (outs.map DOut.kept).sum
  keys : (outs.flatMap DOut.keys ++ (es gs).map (·.1)).Perm (evs.flatMap DEvent.keys ++ (outs.flatMap DOut.lost).map (·.1) ++ (es gs').map (·.1))
  values : (outs.flatMap DOut.values ++ (es gs).map (·.2)).Perm (evs.flatMap DEvent.values ++ (outs.flatMap DOut.lost).map (·.2) ++ (es gs').map (·.2))

omit [Volume B] [Bounded K B] [BEq K] [Bounds B] in
theorem chain {X : Type} {g g' d d' l l' a b c : List X} (h1 : (g ++ a).Perm (d ++ l ++ b)) (h2 : (g' ++ b).Perm (d' ++ l' ++ c)) :
    (g ++ g' ++ a).Perm (d ++ d' ++ (l ++ l') ++ c) := by
  perms [h1, h2]

/-- One step before a session. -/
theorem SessRel.cons {h h₁ h₂ : Heap (Cell B K V)} {gs gs₁ gs₂ : Forest B K V} {lk lk₁ lk₂ : List Nat} {f : List (Option (Tree B K V))}
    {outs : List (DOut K V)} {rf : List (Option (RTree B))} {evs : List (DEvent K V)} {o : DOut K V} {ev : DEvent K V}
    (tr : Tr h (own E gs ++ lk.map leakC) h₁ (own E gs₁ ++ lk₁.map leakC)) (shown : ev.shown = o.shown)
    (kept : lk₁.length = lk.length + o.kept)
    (keys : (o.keys ++ (es gs).map (·.1)).Perm (ev.keys ++ o.lost.map (·.1) ++ (es gs₁).map (·.1)))
    (values : (o.values ++ (es gs).map (·.2)).Perm (ev.values ++ o.lost.map (·.2) ++ (es gs₁).map (·.2)))
    (r : SessRel E h₁ gs₁ lk₁ f outs rf evs h₂ gs₂ lk₂) : SessRel E h gs lk f (o :: outs) rf (ev :: evs) h₂ gs₂ lk₂ := by
  refine ⟨r.abs, r.raw, ?_, tr.trans r.tr, ?_, ?_, ?_⟩
  · rw [List.map_cons, List.map_cons, shown, r.shown]
  · rw [r.kept, kept, List.map_cons, List.sum_cons]; omega
  · rw [List.flatMap_cons, List.flatMap_cons, List.flatMap_cons, List.map_append]
    exact chain keys r.keys
  · rw [List.flatMap_cons, List.flatMap_cons, List.flatMap_cons, List.map_append]
    exact chain values r.values

/-- A drop and what comes before the rest of the session. -/
theorem drop_step {h : Heap (Cell B K V)} {gs : Forest B K V} {lk : List Nat} (hg : Good E gs) (H : Has h (own E gs ++ lk.map leakC)) {i : Nat} {t : GTree B K V}
    (hi : gs[i]? = some (some t)) : ∃ (h' : Heap (Cell B K V)) (bs : List Nat),
      t.rawT.destroy E bomb ⟨h, []⟩ = (outcome (dropPairs bomb 0 t.abs.root.dropOrder).2.1, ⟨h', destructors (dropPairs bomb 0 t.abs.root.dropOrder).1⟩) ∧
      Tr h (own E gs ++ lk.map leakC) h' (own E (gs.set i none) ++ (bs ++ lk).map leakC) ∧ bs.length = t.abs.root.kept (quiet (dropPairs bomb 0 t.abs.root.dropOrder)) := by
  obtain ⟨S, _⟩ := hg t (List.mem_of_getElem? hi)
  obtain ⟨h', bs, h1, h2, h3⟩ := destroy_at (bomb := bomb) t S (H.left.perm (own_get hi)).left
  refine ⟨h', bs, h1, ?_, h3⟩
  have hp : (own E gs ++ lk.map (leakC (B := B) (K := K) (V := V))).Perm (t.own E ++ (own E (gs.eraseIdx i) ++ lk.map leakC)) := by
    rw [← List.append_assoc]
    exact (own_get hi).append_right _
  refine ((Tr.refl H).app hp h2).perm_right ?_
  rw [List.map_append]
  have := own_set (E := E) (List.getElem?_eq_some_iff.1 hi).1 none
  simp only [Option.elim_none, List.nil_append] at this
  have := this.symm
  perms [this]

theorem drop_accounts (t : GTree B K V) {gs : Forest B K V} {i : Nat} (hi : gs[i]? = some (some t)) {X : Type} (f : K × V → X) :
    ([] ++ (es gs).map f).Perm ((dropPairs bomb 0 t.abs.root.dropOrder).1.map f ++ (dropPairs bomb 0 t.abs.root.dropOrder).2.2.map f ++ (es (gs.set i none)).map f) := by
  refine acct f hi none ?_
  rw [← List.map_append, dropPairs_split]
  simpa using ((dropOrder_perm t).map f).symm

theorem specSession_none {borrow : K → Q} {f : List (Option (Tree B K V))} {i : Nat} {bomb : Nat → Bool} {cs : List (DCmd K V Q)} (hi : ∀ t, f[i]? ≠ some (some t)) :
    specSession borrow f (.drop i bomb :: cs) = (specSession borrow f cs >>= fun r => pure (r.1, .dropped [] .finished [] 0 :: r.2)) := by
  rw [specSession]
  split
  next t he => exact absurd he (hi t)
  next => rfl

theorem session_none {borrow : K → Q} {f : List (Option (RTree B))} {i : Nat} {bomb : Nat → Bool} {cs : List (DCmd K V Q)} {h : Heap (Cell B K V)}
    (hi : ∀ t, f[i]? ≠ some (some t)) :
    session E borrow f (.drop i bomb :: cs) h = (session E borrow f cs h >>= fun r => pure (r.1, .dropped [] .finished :: r.2.1, r.2.2)) := by
  rw [session]
  split
  next t he => exact absurd he (hi t)
  next => rfl

theorem session_sim (borrow : K → Q) : ∀ (cmds : List (DCmd K V Q)) {gs : Forest B K V} {lk : List Nat} {h : Heap (Cell B K V)}, Good E gs → Has h (own E gs ++ lk.map leakC) →
    (∀ c, DCmd.cmd (Cmd.new c) ∈ cmds → Sizes E c.maxChildren) →
    match specSession borrow (absF gs) cmds with
    | .ok (f, outs) => ∃ rf evs h' gs' lk', session E borrow (rawF gs) cmds h = .ok (rf, evs, h') ∧ SessRel E h gs lk f outs rf evs h' gs' lk'
    | .error e => session E borrow (rawF gs) cmds h = .error e ∧ UserPanic e
  | [], gs, lk, h, hg, H, _ => ⟨_, _, _, gs, lk, rfl, rfl, rfl, rfl, .refl H, by simp, by simp, by simp⟩
  | .cmd cmd :: cmds, gs, lk, h, hg, H, hS => by
    have h1 := cmd_sim borrow hg H.left cmd (fun c hc => hS c (by rw [hc]; exact List.mem_cons_self))
    rw [specSession, session]
    cases hx : cmd.spec borrow (absF gs) with
    | error e =>
      have hu := spec_err borrow (f := absF gs) (by
        intro t ht
        simp only [absF, List.mem_map, Option.map_eq_some_iff] at ht
        obtain ⟨_, ho, t', rfl, rfl⟩ := ht
        exact (hg t' ho).2) cmd hx
      rw [hx] at h1
      refine ⟨?_, hu⟩
      rcases hu with rfl | rfl | rfl | rfl <;> (rw [show Cmd.raw E borrow (rawF gs) cmd h = _ from h1])
    | ok r =>
      rw [hx] at h1
      obtain ⟨s, h₁, e1, gs₁, st⟩ := h1
      obtain ⟨f₁, o⟩ := r
      obtain ⟨rf₁, ev⟩ := s
      obtain rfl : f₁ = absF gs₁ := st.abs
      obtain rfl : rf₁ = rawF gs₁ := st.raw
      have tr := st.tr.frame H
      have ih := session_sim borrow cmds st.good tr.has (fun c hc => hS c (List.mem_cons_of_mem _ hc))
      rw [ok_bind, e1]
      simp only
      cases hy : specSession borrow (absF gs₁) cmds with
      | error e =>
        rw [hy] at ih
        rw [ih.1]
        exact ⟨rfl, ih.2⟩
      | ok r =>
        obtain ⟨f, outs⟩ := r
        rw [hy] at ih
        obtain ⟨rf, evs, h₂, gs₂, lk₂, e2, pr⟩ := ih
        rw [e2]
        refine ⟨rf, .event ev :: evs, h₂, gs₂, lk₂, rfl, pr.cons tr ?_ rfl ?_ ?_⟩
        · exact congrArg Sum.inl st.reply
        · have := st.keys
          simpa [DOut.keys, DOut.lost, DEvent.keys] using this
        · have := st.values
          simpa [DOut.values, DOut.lost, DEvent.values] using this
  | .drop i bomb :: cmds, gs, lk, h, hg, H, hS => by
    by_cases hi : ∃ t, gs[i]? = some (some t)
    · rw [specSession, session]
      obtain ⟨t, hi⟩ := hi
      have i1 : (absF gs)[i]? = some (some t.abs) := by simp [absF, hi]
      have i2 : (rawF gs)[i]? = some (some t.rawT) := by simp [rawF, hi]
      obtain ⟨h₁, bs, e1, tr, n1⟩ := drop_step (bomb := bomb) hg H hi
      have ih := session_sim borrow cmds (hg.set_none i) tr.has (fun c hc => hS c (List.mem_cons_of_mem _ hc))
      have ka := drop_accounts (bomb := bomb) t hi (·.1)
      have va := drop_accounts (bomb := bomb) t hi (·.2)
      have s1 := absF_set gs i none
      have s2 := rawF_set gs i none
      rw [Option.map_none] at s1 s2
      simp only [i1, i2, e1, s1, s2]
      generalize hd : dropPairs bomb 0 t.abs.root.dropOrder = r at ka va n1
      obtain ⟨ds, e, lost⟩ := r
      rw [quiet] at n1
      have l1 : (bs ++ lk).length = lk.length + bs.length := by rw [List.length_append]; omega
      cases e with
      | aborted =>
        refine ⟨_, _, _, gs.set i none, bs ++ lk, rfl, SessRel.cons (outs := []) (evs := []) tr rfl (l1.trans (congrArg _ n1)) ?_ ?_
          ⟨rfl, rfl, rfl, .refl tr.has, by simp, by simp, by simp⟩⟩
        · simpa [DOut.keys, DOut.lost, DEvent.keys, destructors_keys] using ka
        · simpa [DOut.values, DOut.lost, DEvent.values, destructors_values] using va
      | finished =>
        simp only [outcome]
        cases hy : specSession borrow (absF (gs.set i none)) cmds with
        | error e =>
          rw [hy] at ih
          rw [ih.1]
          exact ⟨rfl, ih.2⟩
        | ok r =>
          obtain ⟨f, outs⟩ := r
          rw [hy] at ih
          obtain ⟨rf, evs, h₂, gs₂, lk₂, e2, pr⟩ := ih
          rw [e2]
          refine ⟨rf, _ :: evs, h₂, gs₂, lk₂, rfl, pr.cons tr rfl (l1.trans (congrArg _ n1)) ?_ ?_⟩
          · simpa [DOut.keys, DOut.lost, DEvent.keys, destructors_keys] using ka
          · simpa [DOut.values, DOut.lost, DEvent.values, destructors_values] using va
      | panicked =>
        simp only [outcome]
        cases hy : specSession borrow (absF (gs.set i none)) cmds with
        | error e =>
          rw [hy] at ih
          rw [ih.1]
          exact ⟨rfl, ih.2⟩
        | ok r =>
          obtain ⟨f, outs⟩ := r
          rw [hy] at ih
          obtain ⟨rf, evs, h₂, gs₂, lk₂, e2, pr⟩ := ih
          rw [e2]
          refine ⟨rf, _ :: evs, h₂, gs₂, lk₂, rfl, pr.cons tr rfl (l1.trans (congrArg _ n1)) ?_ ?_⟩
          · simpa [DOut.keys, DOut.lost, DEvent.keys, destructors_keys] using ka
          · simpa [DOut.values, DOut.lost, DEvent.values, destructors_values] using va
    · have i1 : ∀ t, (absF gs)[i]? ≠ some (some t) := by
        intro t ht
        simp only [absF, List.getElem?_map, Option.map_eq_some_iff] at ht
        obtain ⟨o, ho, t', rfl, _⟩ := ht
        exact hi ⟨t', ho⟩
      have i2 : ∀ t, (rawF gs)[i]? ≠ some (some t) := by
        intro t ht
        simp only [rawF, List.getElem?_map, Option.map_eq_some_iff] at ht
        obtain ⟨o, ho, t', rfl, _⟩ := ht
        exact hi ⟨t', ho⟩
      rw [specSession_none i1, session_none i2]
      have ih := session_sim borrow cmds hg H (fun c hc => hS c (List.mem_cons_of_mem _ hc))
      cases hy : specSession borrow (absF gs) cmds with
      | error e =>
        rw [hy] at ih
        rw [ih.1]
        exact ⟨rfl, ih.2⟩
      | ok r =>
        obtain ⟨f, outs⟩ := r
        rw [hy] at ih
        obtain ⟨rf, evs, h₂, gs₂, lk₂, e2, pr⟩ := ih
        rw [e2]
        exact ⟨rf, _ :: evs, h₂, gs₂, lk₂, rfl, pr.cons (.refl H) rfl rfl (.refl _) (.refl _)⟩

end RTree.Raw
