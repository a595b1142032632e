import Verif.Programs
import Verif.Proofs.RawOps
import Verif.Props.Structure
/-!
# Programs in memory follow programs on values
-/

namespace RTree.Raw

variable {B K V Q : Type} {E : TEnv} {h : Heap (Cell B K V)}

/-- The variables with the contents of the nodes. -/
abbrev Forest (B K V : Type) := List (Option (GTree B K V))

namespace Forest

/-- The variables in memory. -/
def rawF (gs : Forest B K V) : List (Option (RTree B)) := gs.map fun o => o.map GTree.rawT
/-- The variables on values. -/
def absF (gs : Forest B K V) : List (Option (Tree B K V)) := gs.map fun o => o.map GTree.abs
/-- The blocks of the trees. -/
def own (E : TEnv) (gs : Forest B K V) : List (Chunk (Cell B K V)) := gs.flatMap fun o => o.elim [] (GTree.own E)
/-- The entries of the trees. -/
def es (gs : Forest B K V) : List (K × V) := gs.flatMap fun o => o.elim [] GTree.es

theorem remaining_abs [Bounds B] [Volume B] [Bounded K B] [BEq K] (gs : Forest B K V) : remaining gs.absF = gs.es := by
  rw [remaining, absF, es, List.flatMap_map]
  congr 1
  funext o
  cases o with
  | none => rfl
  | some t => exact t.entries_abs

theorem own_get {gs : Forest B K V} {i : Nat} {t : GTree B K V} (hi : gs[i]? = some (some t)) :
    (gs.own E).Perm (t.own E ++ (own E (gs.eraseIdx i))) := by
  obtain ⟨hl, he⟩ := List.getElem?_eq_some_iff.1 hi
  have := flatMap_get (fun o : Option (GTree B K V) => o.elim [] (GTree.own E)) hl
  rw [he] at this
  exact this

theorem own_set {gs : Forest B K V} {i : Nat} (hl : i < gs.length) (o : Option (GTree B K V)) :
    (own E (gs.set i o)).Perm (o.elim [] (GTree.own E) ++ (own E (gs.eraseIdx i))) :=
  flatMap_set (fun o : Option (GTree B K V) => o.elim [] (GTree.own E)) hl o

theorem es_get {gs : Forest B K V} {i : Nat} {t : GTree B K V} (hi : gs[i]? = some (some t)) :
    (gs.es).Perm (t.es ++ (es (gs.eraseIdx i))) := by
  obtain ⟨hl, he⟩ := List.getElem?_eq_some_iff.1 hi
  have := flatMap_get (fun o : Option (GTree B K V) => o.elim [] GTree.es) hl
  rw [he] at this
  exact this

theorem es_set {gs : Forest B K V} {i : Nat} (hl : i < gs.length) (o : Option (GTree B K V)) :
    (es (gs.set i o)).Perm (o.elim [] GTree.es ++ (es (gs.eraseIdx i))) :=
  flatMap_set (fun o : Option (GTree B K V) => o.elim [] GTree.es) hl o

theorem own_append (gs : Forest B K V) (t : GTree B K V) : own E (gs ++ [some t]) = own E gs ++ t.own E := by
  simp [own]

theorem es_append (gs : Forest B K V) (t : GTree B K V) : es (gs ++ [some t]) = es gs ++ t.es := by
  simp [es]

theorem rawF_set (gs : Forest B K V) (i : Nat) (o : Option (GTree B K V)) : (rawF gs).set i (o.map GTree.rawT) = rawF (gs.set i o) := by
  rw [rawF, rawF, List.map_set]

theorem absF_set (gs : Forest B K V) (i : Nat) (o : Option (GTree B K V)) : (absF gs).set i (o.map GTree.abs) = absF (gs.set i o) := by
  rw [absF, absF, List.map_set]

theorem rawF_append (gs : Forest B K V) (t : GTree B K V) : rawF gs ++ [some t.rawT] = rawF (gs ++ [some t]) := by simp [rawF]
theorem absF_append (gs : Forest B K V) (t : GTree B K V) : absF gs ++ [some t.abs] = absF (gs ++ [some t]) := by simp [absF]

end Forest

open Forest

section

variable [Bounds B] [Volume B] [Bounded K B] [BEq K]

/-- What holds of all trees between commands. -/
def Good (E : TEnv) (gs : Forest B K V) : Prop :=
  ∀ t, some t ∈ gs → Sizes E t.alloc.maxChildren ∧ ∃ c, Reachable c (fun _ => True) t.abs

theorem Good.set {gs : Forest B K V} (hg : Good E gs) (i : Nat) {t : GTree B K V} (S : Sizes E t.alloc.maxChildren) {c : Config}
    (hr : Reachable c (fun _ => True) t.abs) : Good E (gs.set i (some t)) := by
  intro t' ht'
  rcases List.mem_or_eq_of_mem_set ht' with h | h
  · exact hg t' h
  · cases h; exact ⟨S, c, hr⟩

theorem Good.set_none {gs : Forest B K V} (hg : Good E gs) (i : Nat) : Good E (gs.set i none) := by
  intro t' ht'
  rcases List.mem_or_eq_of_mem_set ht' with h | h
  · exact hg t' h
  · cases h

theorem Good.append {gs : Forest B K V} (hg : Good E gs) {t : GTree B K V} (S : Sizes E t.alloc.maxChildren) {c : Config}
    (hr : Reachable c (fun _ => True) t.abs) : Good E (gs ++ [some t]) := by
  intro t' ht'
  rcases List.mem_append.1 ht' with h | h
  · exact hg t' h
  · simp at h; subst h; exact ⟨S, c, hr⟩

/-- One command: the memory it leaves, and the accounts. -/
structure StepRel (E : TEnv) (h : Heap (Cell B K V)) (gs : Forest B K V) (r : List (Option (Tree B K V)) × Reply V × List K × List V)
    (s : List (Option (RTree B)) × Event K V) (h' : Heap (Cell B K V)) (gs' : Forest B K V) : Prop where
  abs : r.1 = absF gs'
  raw : s.1 = rawF gs'
  reply : s.2.reply = r.2.1
  good : Good E gs'
  tr : Tr h (own E gs) h' (own E gs')
  keys : (r.2.2.1 ++ (es gs).map (·.1)).Perm (s.2.keys ++ (es gs').map (·.1))
  values : (r.2.2.2 ++ (es gs).map (·.2)).Perm (s.2.reply.returned ++ s.2.values ++ (es gs').map (·.2))

omit [Volume B] [Bounded K B] [BEq K] [Bounds B] in
theorem withTree_some {m : Type → Type} [Monad m] {T R : Type} {f : List (Option T)} {i : Nat} {d : R} {t : T}
    {g : T → m (List (Option T) × R)} (hi : f[i]? = some (some t)) : withTree f i d g = g t := by
  rw [withTree, hi]

omit [Volume B] [Bounded K B] [BEq K] [Bounds B] in
theorem withTree_none {m : Type → Type} [Monad m] {T R : Type} {f : List (Option T)} {i : Nat} {d : R}
    {g : T → m (List (Option T) × R)} (hi : ∀ t, f[i]? ≠ some (some t)) : withTree f i d g = pure (f, d) := by
  rw [withTree]
  split
  next t he => exact absurd he (hi t)
  next => rfl

/-- A command on a variable: either it holds no tree and nothing happens, or the tree is there. -/
theorem withTree_sim {gs : Forest B K V} (hg : Good E gs) (H : Has h (own E gs)) (i : Nat)
    {x : Tree B K V → Res (List (Option (Tree B K V)) × Reply V × List K × List V)}
    {y : RTree B → TM B K V (List (Option (RTree B)) × Event K V)}
    (key : ∀ t c, gs[i]? = some (some t) → Sizes E t.alloc.maxChildren → Reachable c (fun _ => True) t.abs → Has h (t.own E) →
      Sim (x t.abs) (y t.rawT h) fun r s h' => ∃ gs', StepRel E h gs r s h' gs') :
    Sim (withTree (absF gs) i (.none, [], []) x) (withTree (rawF gs) i ⟨.none, [], []⟩ y h) fun r s h' => ∃ gs', StepRel E h gs r s h' gs' := by
  by_cases hi : ∃ t, gs[i]? = some (some t)
  · obtain ⟨t, hi⟩ := hi
    have h1 : (absF gs)[i]? = some (some t.abs) := by simp [absF, hi]
    have h2 : (rawF gs)[i]? = some (some t.rawT) := by simp [rawF, hi]
    rw [withTree_some h1, withTree_some h2]
    obtain ⟨S, c, hr⟩ := hg t (List.mem_of_getElem? hi)
    exact key t c hi S hr (H.perm (own_get hi)).left
  · have h1 : ∀ t, (absF gs)[i]? ≠ some (some t) := by
      intro t ht
      simp only [absF, List.getElem?_map, Option.map_eq_some_iff] at ht
      obtain ⟨o, ho, t', rfl, _⟩ := ht
      exact hi ⟨t', ho⟩
    have h2 : ∀ t, (rawF gs)[i]? ≠ some (some t) := by
      intro t ht
      simp only [rawF, List.getElem?_map, Option.map_eq_some_iff] at ht
      obtain ⟨o, ho, t', rfl, _⟩ := ht
      exact hi ⟨t', ho⟩
    rw [withTree_none h1, withTree_none h2]
    exact .ok ⟨gs, rfl, rfl, rfl, hg, .refl H, .refl _, .refl _⟩

omit [Volume B] [Bounded K B] [BEq K] [Bounds B] in
theorem own_step {gs : Forest B K V} {i : Nat} {t t' : GTree B K V} {h' : Heap (Cell B K V)} (H : Has h (own E gs)) (hi : gs[i]? = some (some t))
    (tr : Tr h (t.own E) h' (t'.own E)) : Tr h (own E gs) h' (own E (gs.set i (some t'))) :=
  ((Tr.refl H).app (own_get hi) tr).perm_right (own_set (List.getElem?_eq_some_iff.1 hi).1 (some t')).symm

omit [Volume B] [Bounded K B] [BEq K] [Bounds B] in
theorem acct {X : Type} (f : K × V → X) {gs : Forest B K V} {i : Nat} {t : GTree B K V} (hi : gs[i]? = some (some t)) (o : Option (GTree B K V))
    {g d : List X} (hp : (g ++ t.es.map f).Perm (d ++ (o.elim [] GTree.es).map f)) :
    (g ++ (es gs).map f).Perm (d ++ (es (gs.set i o)).map f) := by
  have h1 := (es_get hi).map f
  have h2 := (es_set (List.getElem?_eq_some_iff.1 hi).1 o).map f
  rw [List.map_append] at h1 h2
  refine ((h1.append_left g).trans ?_).trans (h2.append_left d).symm
  rw [← List.append_assoc, ← List.append_assoc]
  exact hp.append_right _

omit [Volume B] [Bounded K B] [BEq K] [Bounds B] in
theorem Sim.also {β γ : Type} {x : Res γ} {y : Res (β × Heap (Cell B K V))} {R : γ → β → Heap (Cell B K V) → Prop} (s : Sim x y R) :
    Sim x y fun a b h' => x = .ok a ∧ R a b h' := by
  cases x with
  | error e => cases e <;> exact s
  | ok a => obtain ⟨b, h', h1, h2⟩ := s; exact ⟨b, h', h1, rfl, h2⟩

variable [Bounded Q B] [BEq Q]

theorem cmd_sim (borrow : K → Q) {gs : Forest B K V} (hg : Good E gs) (H : Has h (own E gs)) (cmd : Cmd K V Q)
    (hS : ∀ c, cmd = .new c → Sizes E c.maxChildren) :
    Sim (Cmd.spec borrow (absF gs) cmd) (Cmd.raw E borrow (rawF gs) cmd h) fun r s h' => ∃ gs', StepRel E h gs r s h' gs' := by
  cases cmd with
  | new c =>
    obtain ⟨t, h', h1, ht, hes, tr⟩ := new_tr c (hS c rfl) h
    have ha : t.alloc = ⟨c.minChildren, c.maxChildren⟩ := congrArg Tree.alloc ht
    rw [Cmd.raw, Cmd.spec]
    refine .step h1 (.ok ⟨gs ++ [some t], ?_, rawF_append gs t, rfl, ?_, ?_, ?_, ?_⟩)
    · rw [← ht]; exact absF_append gs t
    · exact hg.append (by rw [ha]; exact hS c rfl) (c := c) (by rw [ht]; exact .new)
    · rw [own_append]
      exact (tr.frame (cs := []) (ds := own E gs) H).perm_right List.perm_append_comm
    · rw [es_append, hes]; simp
    · rw [es_append, hes]; simp [Reply.returned]
  | insert i k v =>
    refine withTree_sim hg H i fun t c hi S hr Ht => .bind (insert_sim t S k v Ht).also ?_
    rintro _ _ h' ⟨hx, t', rfl, rfl, ha, tr, hp⟩
    refine .ok ⟨gs.set i (some t'), absF_set gs i (some t'), rawF_set gs i (some t'), rfl,
      hg.set i (by rw [ha]; exact S) (.insert hr trivial hx), own_step H hi tr, ?_, ?_⟩
    · have := (hp.map (Prod.fst)).symm
      exact acct (·.1) hi (some t') this
    · have := (hp.map (Prod.snd)).symm
      exact acct (·.2) hi (some t') this
  | insertUnique i k v =>
    refine withTree_sim hg H i fun t c hi S hr Ht => .bind (insertUnique_sim t S k v Ht).also ?_
    rintro ⟨_, old⟩ ⟨_, old'⟩ h' ⟨hx, he, t', h1, h2, ha, tr, hk, hv⟩
    simp only at he h1 h2 hk hv
    subst he h1 h2
    refine .ok ⟨gs.set i (some t'), absF_set gs i (some t'), rawF_set gs i (some t'), rfl,
      hg.set i (by rw [ha]; exact S) (.insertUnique hr trivial hx), own_step H hi tr, ?_, ?_⟩
    · exact acct (·.1) hi (some t') (hk.symm.trans List.perm_append_comm)
    · refine acct (·.2) hi (some t') ?_
      simp only [Reply.returned, List.append_nil]
      exact hv.symm.trans List.perm_append_comm
  | remove i q =>
    refine withTree_sim hg H i fun t c hi S hr Ht => .bind (remove_sim t S borrow q Ht).also ?_
    rintro ⟨_, old⟩ ⟨_, found, ds⟩ h' ⟨hx, he, hd, t', h1, h2, ha, tr, hp⟩
    simp only at he h1 h2 hd hp
    subst he h1 h2 hd
    refine .ok ⟨gs.set i (some t'), absF_set gs i (some t'), rawF_set gs i (some t'), rfl,
      hg.set i (by rw [ha]; exact S) (.remove borrow hr hx), own_step H hi tr, ?_, ?_⟩
    · refine acct (·.1) hi (some t') ?_
      have := hp.map (·.1)
      simpa [droppedEntries] using this
    · refine acct (·.2) hi (some t') ?_
      have := hp.map (·.2)
      cases found <;> simpa [droppedEntries, Reply.returned] using this
  | get i q =>
    refine withTree_sim hg H i fun t c hi S hr Ht => .bind (get_sim t S borrow q Ht) ?_
    rintro _ _ _ ⟨rfl, rfl⟩
    exact .ok ⟨gs, rfl, rfl, rfl, hg, .refl H, .refl _, .refl _⟩
  | replace i q v =>
    refine withTree_sim hg H i fun t c hi S hr Ht => .bind (setValue_sim t S borrow q v Ht).also ?_
    rintro (_ | ⟨old, back⟩) r h' ⟨hx, t', h1, ha, tr, h2⟩
    · obtain ⟨rfl, rfl⟩ := h2
      refine .ok ⟨gs, rfl, rfl, rfl, hg, ?_, .refl _, .refl _⟩
      exact ((Tr.refl H).app (own_get hi) tr).perm_right (own_get hi).symm
    · obtain ⟨rfl, hb, hk, hv⟩ := h2
      refine .ok ⟨gs.set i (some t'), by rw [← absF_set, Option.map_some, ← hb], ?_, rfl, ?_, own_step H hi tr, ?_, ?_⟩
      · rw [← rawF_set, Option.map_some, h1, rawF]
        obtain ⟨hl, he⟩ := List.getElem?_eq_some_iff.1 hi
        refine (List.ext_getElem? fun j => ?_).symm
        rw [List.getElem?_set]
        split
        next hj => subst hj; rw [List.getElem?_map, hi, if_pos (by simpa using hl)]; rfl
        next => rfl
      · exact hg.set i (by rw [ha]; exact S) (by rw [← hb]; exact .getMut borrow v hr hx)
      · exact acct (·.1) hi (some t') (hk.symm)
      · exact acct (·.2) hi (some t') hv.symm
  | len i =>
    refine withTree_sim hg H i fun t c hi S hr Ht => .bind (len_sim t S Ht) ?_
    rintro _ _ _ ⟨rfl, rfl⟩
    exact .ok ⟨gs, rfl, rfl, rfl, hg, .refl H, .refl _, .refl _⟩
  | isEmpty i =>
    refine withTree_sim hg H i fun t c hi S hr Ht => ?_
    rw [isEmpty_eq t Ht]
    exact .ok ⟨gs, rfl, rfl, rfl, hg, .refl H, .refl _, .refl _⟩
  | clone i =>
    refine withTree_sim hg H i fun t c hi S hr Ht => .bind (clone_sim t S Ht).also ?_
    rintro _ _ h' ⟨hx, t', rfl, rfl, ha, tr, he⟩
    refine .ok ⟨gs ++ [some t'], absF_append gs t', rawF_append gs t', rfl, hg.append (by rw [ha]; exact S) (.clone hr hx), ?_, ?_, ?_⟩
    · rw [own_append]
      refine ((Tr.refl H).app (own_get hi) tr).perm_right ?_
      rw [List.append_assoc]
      exact ((own_get hi).symm.append_left _).trans List.perm_append_comm
    · rw [es_append, he, List.map_append, t.entries_abs]; exact List.perm_append_comm
    · rw [es_append, he, List.map_append, t.entries_abs]; exact List.perm_append_comm
  | drop i =>
    refine withTree_sim hg H i fun t c hi S hr Ht => ?_
    obtain ⟨ds, h', h1, hp, tr⟩ := drop_tr t S Ht
    refine .step h1 (.ok ⟨gs.set i none, absF_set gs i none, rawF_set gs i none, rfl, hg.set_none i, ?_, ?_, ?_⟩)
    · exact ((Tr.refl H).app (own_get hi) tr).perm_right (own_set (List.getElem?_eq_some_iff.1 hi).1 none).symm
    · exact acct (·.1) hi none (by simpa using (hp.map _).symm)
    · exact acct (·.2) hi none (by simpa [Reply.returned] using (hp.map _).symm)

omit [Volume B] [Bounded K B] [BEq K] [Bounds B] [Bounded Q B] [BEq Q] in
theorem withTree_err {f : List (Option (Tree B K V))} {i : Nat} {R : Type} {d : R} {x : Tree B K V → Res (List (Option (Tree B K V)) × R)} {e : Panic}
    (h : withTree f i d x = .error e) : ∃ t, some t ∈ f ∧ x t = .error e := by
  by_cases hi : ∃ t, f[i]? = some (some t)
  · obtain ⟨t, hi⟩ := hi
    rw [withTree_some hi] at h
    exact ⟨t, List.mem_of_getElem? hi, h⟩
  · rw [withTree_none (fun t ht => hi ⟨t, ht⟩)] at h
    cases h

omit [Volume B] [Bounded K B] [BEq K] [Bounds B] in
theorem bind_error {α β : Type} {x : Res α} {f : α → Res β} {e : Panic} (h : x >>= f = .error e) (hf : ∀ a e, f a ≠ .error e) : x = .error e := by
  cases x with
  | ok a => exact absurd h (hf a e)
  | error e' => rw [error_bind] at h; cases h; rfl

/-- The only panics are the documented ones. -/
theorem spec_err (borrow : K → Q) {f : List (Option (Tree B K V))} (hf : ∀ t, some t ∈ f → ∃ c, Reachable c (fun _ => True) t) (cmd : Cmd K V Q)
    {e : Panic} (he : cmd.spec borrow f = .error e) : UserPanic e := by
  cases cmd with
  | new c => cases he
  | insert i k v =>
    obtain ⟨t, ht, h⟩ := withTree_err he
    obtain ⟨c, hr⟩ := hf t ht
    exact (C20_no_ub hr).1 k v e (bind_error h fun _ _ h => by cases h)
  | insertUnique i k v =>
    obtain ⟨t, ht, h⟩ := withTree_err he
    obtain ⟨c, hr⟩ := hf t ht
    exact (C20_no_ub hr).2.1 k v e (bind_error h fun _ _ h => by cases h)
  | remove i q =>
    obtain ⟨t, ht, h⟩ := withTree_err he
    obtain ⟨c, hr⟩ := hf t ht
    exact (C20_no_ub hr).2.2.1 Q borrow q e (bind_error h fun _ _ h => by cases h)
  | get i q =>
    obtain ⟨t, ht, h⟩ := withTree_err he
    obtain ⟨c, hr⟩ := hf t ht
    obtain ⟨⟨r, h1⟩, _⟩ := (C20_no_ub hr).2.2.2.1 Q borrow q
    have := bind_error h fun _ _ h => by cases h
    rw [h1] at this; cases this
  | replace i q v =>
    obtain ⟨t, ht, h⟩ := withTree_err he
    obtain ⟨c, hr⟩ := hf t ht
    obtain ⟨_, r, h1⟩ := (C20_no_ub hr).2.2.2.1 Q borrow q
    have := bind_error h fun o _ h => by cases o <;> cases h
    rw [h1] at this; cases this
  | len i =>
    obtain ⟨t, ht, h⟩ := withTree_err he
    obtain ⟨c, hr⟩ := hf t ht
    obtain ⟨r, h1⟩ := (C20_no_ub hr).2.2.2.2.2.2.2.1
    have := bind_error h fun _ _ h => by cases h
    rw [h1] at this; cases this
  | isEmpty i =>
    obtain ⟨t, ht, h⟩ := withTree_err he
    obtain ⟨c, hr⟩ := hf t ht
    obtain ⟨r, h1⟩ := (C20_no_ub hr).2.2.2.2.2.2.2.2.1
    have := bind_error h fun _ _ h => by cases h
    rw [h1] at this; cases this
  | clone i =>
    obtain ⟨t, ht, h⟩ := withTree_err he
    obtain ⟨c, hr⟩ := hf t ht
    obtain ⟨r, h1⟩ := (C20_no_ub hr).2.2.2.2.2.2.2.2.2
    have := bind_error h fun _ _ h => by cases h
    rw [h1] at this; cases this
  | drop i =>
    obtain ⟨t, ht, h⟩ := withTree_err he
    cases h

/-- What is known after a program. -/
structure ProgRel (E : TEnv) (h : Heap (Cell B K V)) (gs : Forest B K V) (f : List (Option (Tree B K V)))
    (outs : List (Reply V × List K × List V)) (s : List (Option (RTree B)) × List (Event K V)) (h' : Heap (Cell B K V)) (gs' : Forest B K V) : Prop where
  abs : f = absF gs'
  raw : s.1 = rawF gs'
  reply : s.2.map Event.reply = outs.map (·.1)
  good : Good E gs'
  tr : Tr h (own E gs) h' (own E gs')
  keys : (outs.flatMap (·.2.1) ++ (es gs).map (·.1)).Perm (s.2.flatMap Event.keys ++ (es gs').map (·.1))
  values : (outs.flatMap (·.2.2) ++ (es gs).map (·.2)).Perm
    ((s.2.flatMap fun e => e.reply.returned ++ e.values) ++ (es gs').map (·.2))

theorem program_sim (borrow : K → Q) : ∀ (cmds : List (Cmd K V Q)) {gs : Forest B K V} {h : Heap (Cell B K V)}, Good E gs → Has h (own E gs) →
    (∀ c, Cmd.new c ∈ cmds → Sizes E c.maxChildren) →
    match specProgram borrow (absF gs) cmds with
    | .ok (f, outs) => ∃ s h' gs', program E borrow (rawF gs) cmds h = .ok (s, h') ∧ ProgRel E h gs f outs s h' gs'
    | .error e => program E borrow (rawF gs) cmds h = .error e ∧ UserPanic e
  | [], gs, h, hg, H, _ => ⟨_, _, gs, rfl, rfl, rfl, rfl, hg, .refl H, .refl _, .refl _⟩
  | cmd :: cmds, gs, h, hg, H, hS => by
    have h1 := cmd_sim borrow hg H cmd (fun c hc => hS c (by rw [hc]; exact List.mem_cons_self))
    rw [specProgram, program]
    cases hx : cmd.spec borrow (absF gs) with
    | error e =>
      have hu := spec_err borrow (f := absF gs) (by
        intro t ht
        simp only [absF, List.mem_map, Option.map_eq_some_iff] at ht
        obtain ⟨_, ho, t', rfl, rfl⟩ := ht
        exact (hg t' ho).2) cmd hx
      rw [hx] at h1
      refine ⟨?_, hu⟩
      rcases hu with rfl | rfl | rfl | rfl <;> exact bind_err h1
    | ok r =>
      rw [hx] at h1
      obtain ⟨s, h₁, e1, gs₁, st⟩ := h1
      obtain ⟨f₁, o⟩ := r
      obtain ⟨rf₁, ev⟩ := s
      obtain rfl : f₁ = absF gs₁ := st.abs
      obtain rfl : rf₁ = rawF gs₁ := st.raw
      have ih := program_sim borrow cmds st.good st.tr.has (fun c hc => hS c (List.mem_cons_of_mem _ hc))
      rw [ok_bind, bind_ok e1]
      simp only
      cases hy : specProgram borrow (absF gs₁) cmds with
      | error e =>
        rw [hy] at ih
        exact ⟨bind_err ih.1, ih.2⟩
      | ok r =>
        obtain ⟨f, outs⟩ := r
        rw [hy] at ih
        obtain ⟨⟨rf, evs⟩, h₂, gs₂, e2, pr⟩ := ih
        refine ⟨(rf, ev :: evs), h₂, gs₂, by rw [bind_ok e2]; rfl, pr.abs, pr.raw, ?_, pr.good, st.tr.trans pr.tr, ?_, ?_⟩
        · rw [List.map_cons, List.map_cons, st.reply, ← pr.reply]
        · rw [List.flatMap_cons, List.flatMap_cons]
          have hk1 := st.keys
          have hk2 := pr.keys
          simp only at hk1 hk2 ⊢
          exact chain hk1 hk2
        · rw [List.flatMap_cons, List.flatMap_cons]
          have hk1 := st.values
          have hk2 := pr.values
          simp only at hk1 hk2 ⊢
          exact chain hk1 hk2
where
  chain {X : Type} {g g' d d' a b c : List X} (h1 : (g ++ a).Perm (d ++ b)) (h2 : (g' ++ b).Perm (d' ++ c)) :
      (g ++ g' ++ a).Perm (d ++ d' ++ c) := by
    perms [h1, h2]

end

/-! ### Counting blocks -/

theorem length_filter_isSome {α : Type} {h : List (Option α)} {bs : List Nat} (hn : bs.Nodup) (hb : ∀ b ∈ bs, ∃ x, h[b]? = some (some x))
    (hd : ∀ b, b < h.length → b ∉ bs → h[b]? = some none) : (h.filter Option.isSome).length = bs.length := by
  classical
  have e : h = (List.range h.length).map fun b => (h[b]?).join := by
    refine List.ext_getElem? fun i => ?_
    rw [List.getElem?_map]
    by_cases hi : i < h.length
    · rw [List.getElem?_range hi, Option.map_some, List.getElem?_eq_getElem hi]; rfl
    · rw [List.getElem?_eq_none (by omega), List.getElem?_eq_none (by simpa using hi)]; rfl
  rw [e, List.filter_map, List.length_map]
  refine List.Perm.length_eq ?_
  rw [List.perm_ext_iff_of_nodup (List.nodup_range.filter _) hn]
  intro b
  simp only [List.mem_filter, List.mem_range, Function.comp]
  constructor
  · rintro ⟨hl, hs⟩
    refine Classical.byContradiction fun hc => ?_
    rw [hd b hl hc] at hs
    cases hs
  · intro hm
    obtain ⟨x, hx⟩ := hb b hm
    exact ⟨(List.getElem?_eq_some_iff.1 hx).1, by rw [hx]; rfl⟩

theorem chunksI_vec (E : TEnv) (cap : Nat) : ∀ (l : Nat) (x : Item B K V l), ∀ c ∈ chunksI (B := B) E cap l x,
    ∃ e v cells, c = vecC e cap v cells
  | 0, _ => fun c hc => by cases hc
  | l + 1, g => by
    intro c hc
    rw [chunksI, List.mem_cons] at hc
    rcases hc with rfl | hc
    · exact ⟨_, _, _, rfl⟩
    · obtain ⟨x, _, hx⟩ := List.mem_flatMap.1 hc
      exact chunksI_vec E cap l x c hx

theorem fps_length (E : TEnv) (cap : Nat) : ∀ (l : Nat) (g : G B K V l), (fps (chunks E cap l g)).length = (node l g).descendants.length + 1
  | 0, g => by
    have : chunksL (B := B) E cap 0 g.kids = [] := by
      rw [chunksL, List.flatMap_eq_nil_iff]
      intro x _; rfl
    rw [chunks, this, node, Node.descendants]
    rfl
  | l + 1, g => by
    rw [chunks, node, Node.descendants, fps_cons, List.length_append]
    have : (fps (chunksL E cap (l + 1) g.kids)).length = (descendantsList (g.kids.map (node l))).length := by
      induction g.kids with
      | nil => rfl
      | cons c cs ih =>
        rw [chunksL, List.flatMap_cons, fps_append, List.length_append, List.map_cons, descendantsList, List.length_cons, List.length_append, ih]
        have := fps_length E cap l c
        rw [chunksI_succ, this]
        omega
    rw [this]
    show 1 + _ = _
    omega

namespace Forest

theorem own_live {gs : Forest B K V} (H : Has h (own E gs)) : ∀ b ∈ fps (own E gs), ∃ x, h[b]? = some (some x) := by
  intro b hb
  obtain ⟨c, hc, hb⟩ := mem_fps.1 hb
  have hh := H.holds c hc
  obtain ⟨o, _, hc⟩ := List.mem_flatMap.1 hc
  cases o with
  | none => cases hc
  | some t =>
    obtain ⟨e, v, cells, rfl⟩ := chunksI_vec E t.alloc.maxChildren (t.level + 1) t.root c hc
    obtain ⟨s, ⟨h1, _⟩, _⟩ := Owns.mem hh
    obtain rfl : b = _ := by simpa [vecC] using hb
    exact ⟨_, h1⟩

theorem fps_nodes [Bounds B] [Volume B] [Bounded K B] [BEq K] (E : TEnv) (gs : Forest B K V) : (fps (own E gs)).length = (remainingNodes (absF gs)).length := by
  induction gs with
  | nil => rfl
  | cons o gs ih =>
    have e1 : own E (o :: gs) = o.elim [] (GTree.own E) ++ own E gs := rfl
    have e2 : remainingNodes (absF (o :: gs)) = (o.map GTree.abs).elim [] Tree.nodes ++ remainingNodes (absF gs) := rfl
    rw [e1, e2, fps_append, List.length_append, List.length_append, ih]
    cases o with
    | none => rfl
    | some t =>
      have := fps_length E t.alloc.maxChildren t.level t.root
      show (fps (chunks E t.alloc.maxChildren t.level t.root)).length + _ = _
      rw [this]; rfl

/-- Starting from an empty memory, the blocks that are alive are those of the nodes of the trees. -/
theorem liveBlocks_eq [Bounds B] [Volume B] [Bounded K B] [BEq K] {gs : Forest B K V} (t : Tr [] [] h (own E gs)) : liveBlocks h = (remainingNodes (absF gs)).length := by
  rw [← fps_nodes E]
  exact length_filter_isSome t.has.nodup (own_live t.has) fun b hb hn => t.step.dead b hb hn (.inr (Nat.zero_le _))

end Forest

end RTree.Raw
