import Verif.Proofs.Forest
/-!
# Programs that start with trees of any shape

Whatever the trees look like to begin with, a program in memory does what it does on values.
-/

namespace RTree.Raw

open Forest

variable {B K V Q : Type} {E : TEnv} {cap : Nat} {h h' : Heap (Cell B K V)} {borrow : K → Q} [Bounds B] [Volume B] [Bounded K B] [BEq K]

/-- The vectors of the trees fit into memory. -/
def Sized (E : TEnv) (gs : Forest B K V) : Prop := ∀ t, some t ∈ gs → Sizes E t.alloc.maxChildren

omit [Bounds B] [Volume B] [Bounded K B] [BEq K] in
theorem Sized.set {gs : Forest B K V} (hg : Sized E gs) (i : Nat) {o : Option (GTree B K V)} (S : ∀ t, o = some t → Sizes E t.alloc.maxChildren) : Sized E (gs.set i o) := by
  intro t' ht'
  rcases List.mem_or_eq_of_mem_set ht' with h | h
  · exact hg t' h
  · exact S t' h.symm

omit [Bounds B] [Volume B] [Bounded K B] [BEq K] in
theorem Sized.append {gs : Forest B K V} (hg : Sized E gs) {t : GTree B K V} (S : Sizes E t.alloc.maxChildren) : Sized E (gs ++ [some t]) := by
  intro t' ht'
  rcases List.mem_append.1 ht' with h | h
  · exact hg t' h
  · simp at h; subst h; exact S

/-- One command. -/
structure AnyStep (E : TEnv) (h : Heap (Cell B K V)) (gs : Forest B K V) (r : List (Option (Tree B K V)) × Reply V × List K × List V)
    (s : List (Option (RTree B)) × Event K V) (h' : Heap (Cell B K V)) (gs' : Forest B K V) : Prop where
  abs : r.1 = absF gs'
  raw : s.1 = rawF gs'
  reply : s.2.reply = r.2.1
  sized : Sized E gs'
  tr : Tr h (own E gs) h' (own E gs')

omit [Bounds B] [Volume B] [Bounded K B] [BEq K] in
theorem withTree_any {gs : Forest B K V} (hg : Sized E gs) (H : Has h (own E gs)) (i : Nat)
    {x : Tree B K V → Res (List (Option (Tree B K V)) × Reply V × List K × List V)}
    {y : RTree B → TM B K V (List (Option (RTree B)) × Event K V)}
    (key : ∀ t, gs[i]? = some (some t) → Sizes E t.alloc.maxChildren → Has h (t.own E) →
      Sim (x t.abs) (y t.rawT h) fun r s h' => ∃ gs', AnyStep E h gs r s h' gs') :
    Sim (withTree (absF gs) i (.none, [], []) x) (withTree (rawF gs) i ⟨.none, [], []⟩ y h) fun r s h' => ∃ gs', AnyStep E h gs r s h' gs' := by
  by_cases hi : ∃ t, gs[i]? = some (some t)
  · obtain ⟨t, hi⟩ := hi
    have h1 : (absF gs)[i]? = some (some t.abs) := by simp [absF, hi]
    have h2 : (rawF gs)[i]? = some (some t.rawT) := by simp [rawF, hi]
    rw [withTree_some h1, withTree_some h2]
    exact key t hi (hg t (List.mem_of_getElem? hi)) (H.perm (own_get hi)).left
  · have h1 : ∀ t, (absF gs)[i]? ≠ some (some t) := by
      intro t ht
      simp only [absF, List.getElem?_map, Option.map_eq_some_iff] at ht
      obtain ⟨o, ho, t', rfl, _⟩ := ht
      exact hi ⟨t', ho⟩
    have h2 : ∀ t, (rawF gs)[i]? ≠ some (some t) := by
      intro t ht
      simp only [rawF, List.getElem?_map, Option.map_eq_some_iff] at ht
      obtain ⟨o, ho, t', rfl, _⟩ := ht
      exact hi ⟨t', ho⟩
    rw [withTree_none h1, withTree_none h2]
    exact .ok ⟨gs, rfl, rfl, rfl, hg, .refl H⟩

variable [Bounded Q B] [BEq Q]

theorem cmd_any (borrow : K → Q) {gs : Forest B K V} (hg : Sized E gs) (H : Has h (own E gs)) (cmd : Cmd K V Q)
    (hS : ∀ c, cmd = .new c → Sizes E c.maxChildren) :
    Sim (Cmd.spec borrow (absF gs) cmd) (Cmd.raw E borrow (rawF gs) cmd h) fun r s h' => ∃ gs', AnyStep E h gs r s h' gs' := by
  have put : ∀ {t' : GTree B K V} {n : Nat} (i : Nat), Sizes E n → t'.alloc.maxChildren = n → Sized E (gs.set i (some t')) := by
    intro t' n i S ha
    refine hg.set i fun t ht => ?_
    cases ht; rw [ha]; exact S
  cases cmd with
  | new c =>
    obtain ⟨t, h', h1, ht, hes, tr⟩ := new_tr c (hS c rfl) h
    have ha : t.alloc = ⟨c.minChildren, c.maxChildren⟩ := congrArg Tree.alloc ht
    rw [Cmd.raw, Cmd.spec]
    refine .step h1 (.ok ⟨gs ++ [some t], ?_, rawF_append gs t, rfl, ?_, ?_⟩)
    · rw [← ht]; exact absF_append gs t
    · exact hg.append (by rw [ha]; exact hS c rfl)
    · rw [own_append]
      exact (tr.frame (cs := []) (ds := own E gs) H).perm_right List.perm_append_comm
  | insert i k v =>
    refine withTree_any hg H i fun t hi S Ht => .bind (insert_sim t S k v Ht).also ?_
    rintro _ _ h' ⟨hx, t', rfl, rfl, ha, tr, hp⟩
    exact .ok ⟨gs.set i (some t'), absF_set gs i (some t'), rawF_set gs i (some t'), rfl, put i S (by rw [ha]), own_step H hi tr⟩
  | insertUnique i k v =>
    refine withTree_any hg H i fun t hi S Ht => .bind (insertUnique_sim t S k v Ht).also ?_
    rintro ⟨_, old⟩ ⟨_, old'⟩ h' ⟨hx, he, t', h1, h2, ha, tr, hk, hv⟩
    simp only at he h1 h2 hk hv
    subst he h1 h2
    exact .ok ⟨gs.set i (some t'), absF_set gs i (some t'), rawF_set gs i (some t'), rfl, put i S (by rw [ha]), own_step H hi tr⟩
  | remove i q =>
    refine withTree_any hg H i fun t hi S Ht => .bind (remove_sim t S borrow q Ht).also ?_
    rintro ⟨_, old⟩ ⟨_, found, ds⟩ h' ⟨hx, he, hd, t', h1, h2, ha, tr, hp⟩
    simp only at he h1 h2 hd hp
    subst he h1 h2 hd
    exact .ok ⟨gs.set i (some t'), absF_set gs i (some t'), rawF_set gs i (some t'), rfl, put i S (by rw [ha]), own_step H hi tr⟩
  | get i q =>
    refine withTree_any hg H i fun t hi S Ht => .bind (get_sim t S borrow q Ht) ?_
    rintro _ _ _ ⟨rfl, rfl⟩
    exact .ok ⟨gs, rfl, rfl, rfl, hg, .refl H⟩
  | replace i q v =>
    refine withTree_any hg H i fun t hi S Ht => .bind (setValue_sim t S borrow q v Ht).also ?_
    rintro (_ | ⟨old, back⟩) r h' ⟨hx, t', h1, ha, tr, h2⟩
    · obtain ⟨rfl, rfl⟩ := h2
      refine .ok ⟨gs, rfl, rfl, rfl, hg, ?_⟩
      exact ((Tr.refl H).app (own_get hi) tr).perm_right (own_get hi).symm
    · obtain ⟨rfl, hb, hk, hv⟩ := h2
      refine .ok ⟨gs.set i (some t'), by rw [← absF_set, Option.map_some, ← hb], ?_, rfl, put i S (by rw [ha]), own_step H hi tr⟩
      rw [← rawF_set, Option.map_some, h1, rawF]
      obtain ⟨hl, he⟩ := List.getElem?_eq_some_iff.1 hi
      refine (List.ext_getElem? fun j => ?_).symm
      rw [List.getElem?_set]
      split
      next hj => subst hj; rw [List.getElem?_map, hi, if_pos (by simpa using hl)]; rfl
      next => rfl
  | len i =>
    refine withTree_any hg H i fun t hi S Ht => .bind (len_sim t S Ht) ?_
    rintro _ _ _ ⟨rfl, rfl⟩
    exact .ok ⟨gs, rfl, rfl, rfl, hg, .refl H⟩
  | isEmpty i =>
    refine withTree_any hg H i fun t hi S Ht => ?_
    rw [isEmpty_eq t Ht]
    exact .ok ⟨gs, rfl, rfl, rfl, hg, .refl H⟩
  | clone i =>
    refine withTree_any hg H i fun t hi S Ht => .bind (clone_sim t S Ht).also ?_
    rintro _ _ h' ⟨hx, t', rfl, rfl, ha, tr, he⟩
    refine .ok ⟨gs ++ [some t'], absF_append gs t', rawF_append gs t', rfl, hg.append (by rw [ha]; exact S), ?_⟩
    rw [own_append]
    refine ((Tr.refl H).app (own_get hi) tr).perm_right ?_
    rw [List.append_assoc]
    exact ((own_get hi).symm.append_left _).trans List.perm_append_comm
  | drop i =>
    refine withTree_any hg H i fun t hi S Ht => ?_
    obtain ⟨ds, h', h1, hp, tr⟩ := drop_tr t S Ht
    refine .step h1 (.ok ⟨gs.set i none, absF_set gs i none, rawF_set gs i none, rfl, hg.set i fun _ h => (by cases h), ?_⟩)
    exact ((Tr.refl H).app (own_get hi) tr).perm_right (own_set (List.getElem?_eq_some_iff.1 hi).1 none).symm

/-- A program that comes to an end on values does the same in memory. -/
theorem program_any (borrow : K → Q) : ∀ (cmds : List (Cmd K V Q)) {gs : Forest B K V} {h : Heap (Cell B K V)}, Sized E gs → Has h (own E gs) →
    (∀ c, Cmd.new c ∈ cmds → Sizes E c.maxChildren) → ∀ {f outs}, specProgram borrow (absF gs) cmds = .ok (f, outs) →
    ∃ s h' gs', program E borrow (rawF gs) cmds h = .ok (s, h') ∧ f = absF gs' ∧ s.1 = rawF gs' ∧ s.2.map Event.reply = outs.map (·.1) ∧ Sized E gs' ∧ Has h' (own E gs')
  | [], gs, h, hg, H, _, _, _, e => by cases e; exact ⟨_, _, gs, rfl, rfl, rfl, rfl, hg, H⟩
  | cmd :: cmds, gs, h, hg, H, hS, f, outs, e => by
    have h1 := cmd_any borrow hg H cmd (fun c hc => hS c (by rw [hc]; exact List.mem_cons_self))
    rw [specProgram] at e
    cases hx : cmd.spec borrow (absF gs) with
    | error e' => rw [hx] at e; cases e
    | ok r =>
      rw [hx] at h1 e
      obtain ⟨s, h₁, e1, gs₁, st⟩ := h1
      obtain ⟨f₁, o⟩ := r
      obtain ⟨rf₁, ev⟩ := s
      obtain rfl : f₁ = absF gs₁ := st.abs
      obtain rfl : rf₁ = rawF gs₁ := st.raw
      rw [ok_bind] at e
      simp only at e
      cases hy : specProgram borrow (absF gs₁) cmds with
      | error e' => rw [hy] at e; cases e
      | ok r =>
        rw [hy] at e
        cases e
        obtain ⟨⟨rf, evs⟩, h₂, gs₂, e2, p1, p2, p3, p4, p5⟩ := program_any borrow cmds st.sized st.tr.has (fun c hc => hS c (List.mem_cons_of_mem _ hc)) hy
        refine ⟨(rf, ev :: evs), h₂, gs₂, by rw [program, bind_ok e1]; simp only; rw [bind_ok e2]; rfl, p1, p2, ?_, p4, p5⟩
        rw [List.map_cons, List.map_cons, ← p3, st.reply]

end RTree.Raw
