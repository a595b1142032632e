import Verif.History
import Verif.Proofs.Wide
/-! Reachable trees satisfy the invariant. -/

namespace RTree

variable {B K V Q : Type} [Bounds B] [Volume B] [Bounded K B] [BEq K]

theorem reachable_treeOk [VolumeLaws B] {rel : B → List B → Prop} (L : AggLaws rel) {g : Prop} {c : Config}
    {P : K → Prop} (hg : g → Alloc.Good ⟨c.minChildren, c.maxChildren⟩) (hP : g → ∀ k, P k → VolumeLaws.volOk (Bounded.bounds k : B))
    (habs : ∀ k k' : K, (k' == k) = true → ∀ b bs, rel b bs → (Bounded.bounds k' : B) ∈ bs →
      rel (Bounds.union b (Bounded.bounds k)) bs)
    (hw : g → 2 ≤ c.minChildren → ∀ t : Tree B K V, Reachable c P t → 1 ≤ t.level → 2 ≤ t.root.fanout)
    {t : Tree B K V} (h : Reachable c P t) :
    TreeOk rel g t ∧ t.alloc = ⟨c.minChildren, c.maxChildren⟩ := by
  induction h with
  | new => exact ⟨treeOk_new L c hg, rfl⟩
  | insert _ hk he ih =>
    have := (sat_insert L ih.1 _ _ (fun h => hP h _ hk) fun _ => fanout_of_insert ih.1 he).of_ok he
    exact ⟨this.1, this.2.1.trans ih.2⟩
  | insertUnique _ hk he ih =>
    have := (sat_insertUnique L ih.1 (complete := False) _ _ (fun h => h.elim) (fun h => h.elim)
      (habs _) (fun h => hP h _ hk) fun _ => fanout_of_insertUnique ih.1 he).of_ok he
    exact ⟨this.1, this.2.1.trans ih.2⟩
  | remove borrow hr he ih =>
    have := (sat_remove L ih.1 (complete := False) (fun h => h.elim) (fun h => h.elim)
      fun h hm => hw h (by rw [ih.2] at hm; exact hm) _ hr).of_ok he
    exact ⟨this.1, this.2.1.trans ih.2⟩
  | getMut borrow v' _ he ih =>
    obtain ⟨x, k, y, _, _, _, hb⟩ :=
      (sat_getMut ih.1 (complete := False) (fun h => h.elim) (fun h => h.elim)).of_ok he
    have := hb v'
    exact ⟨this.1, this.2.1.trans ih.2⟩
  | modifyAt a g _ ih =>
    exact ⟨treeOk_of_erase (Tree.erase_modifyAt a g _) ih.1, ih.2⟩
  | clone _ he ih =>
    rename_i t t' _
    have : t.clone = .ok t := by
      unfold Tree.clone; rw [cloneNode_spec ih.1.ok]; rfl
    rw [this] at he
    obtain rfl : t = t' := by simpa using he
    exact ih

theorem Reachable.mono {c : Config} {P P' : K → Prop} (hP : ∀ k, P k → P' k) {t : Tree B K V}
    (h : Reachable c P t) : Reachable c P' t := by
  induction h with
  | new => exact .new
  | insert _ hk he ih => exact .insert ih (hP _ hk) he
  | insertUnique _ hk he ih => exact .insertUnique ih (hP _ hk) he
  | remove borrow _ he ih => exact .remove borrow ih he
  | getMut borrow v' _ he ih => exact .getMut borrow v' ih he
  | modifyAt a g _ ih => exact .modifyAt a g ih
  | clone _ he ih => exact .clone ih he

/-- The relation that says nothing about bounds. -/
def AnyRel (_ : B) (_ : List B) : Prop := True

omit [Volume B] in
theorem anyLaws : AggLaws (AnyRel (B := B)) := by constructor <;> intros <;> trivial

variable {c : Config} {P : K → Prop} {t : Tree B K V}

/-- Structure without any assumption on the trait implementations. -/
theorem Reachable.treeOk_any (h : Reachable c P t) :
    @TreeOk B K V _ _ trivialVolumeLaws _ AnyRel False t ∧ t.alloc = ⟨c.minChildren, c.maxChildren⟩ :=
  letI : VolumeLaws B := trivialVolumeLaws
  reachable_treeOk anyLaws (fun h => h.elim) (fun h => h.elim) (fun _ _ _ _ _ _ _ => trivial) (fun h => h.elim) h

/-- With `min_children ≥ 2` and `max_children ≥ 2` every inner level has a node with two children. -/
theorem Reachable.wide (hm : 2 ≤ c.minChildren) (hM : 2 ≤ c.maxChildren) (h : Reachable c P t) : WideTree t := by
  let _ : VolumeLaws B := trivialVolumeLaws
  induction h with
  | new => intro j h1 h2; simp only [Tree.new] at h2; omega
  | insert hr _ he ih =>
    rename_i t t' _ _ _
    intro j h1 h2
    have hM' : 2 ≤ t.alloc.maxChildren := by rw [hr.treeOk_any.2]; exact hM
    rcases Nat.lt_or_ge t.level j with hlt | hge
    · exact insertEntry_wide he hM' (.inr (.inr ⟨hlt, h2⟩))
    · exact insertEntry_wide he hM' (.inl (ih j h1 hge))
  | insertUnique hr _ he ih =>
    rename_i t t' k v o _
    have hM' : 2 ≤ t.alloc.maxChildren := by rw [hr.treeOk_any.2]; exact hM
    unfold Tree.insertUnique at he
    obtain ⟨⟨root, old, sib⟩, hi, he⟩ := bind_eq_ok.1 he
    have hw := fun j hj => insertUniqueNode_wide (j := j) hi hM' hj
    intro j h1 h2
    cases sib with
    | none =>
      simp only [pure_eq_ok, Except.ok.injEq, Prod.mk.injEq] at he
      obtain ⟨rfl, -⟩ := he
      exact hw j (ih j h1 h2)
    | some s =>
      obtain ⟨t1, hb, he⟩ := bind_eq_ok.1 he
      simp only [pure_eq_ok, Except.ok.injEq, Prod.mk.injEq] at he
      obtain ⟨rfl, -⟩ := he
      obtain ⟨hl, _, hself, hk⟩ := branch_wide hb
      simp only at hl
      rcases Nat.lt_or_ge t.level j with hlt | hge
      · have : j = t1.level := by omega
        rw [this]; exact hself
      · exact hk j (hw j (ih j h1 hge))
  | remove borrow hr he ih =>
    have hal := hr.treeOk_any.2
    exact remove_wide anyLaws (by rw [hal]; exact hM) (by rw [hal]; exact hm) hr.treeOk_any.1 ih he
  | getMut borrow v' hr he ih =>
    unfold Tree.getMut at he
    obtain ⟨f, hf, he⟩ := bind_eq_ok.1 he
    cases f with
    | none => simp at he
    | some vb =>
      simp only [pure_eq_ok, Except.ok.injEq, Option.some.injEq, Prod.mk.injEq] at he
      obtain ⟨rfl, rfl⟩ := he
      exact fun j h1 h2 => getMutNode_wide hf v' (ih j h1 h2)
  | modifyAt a g hr ih =>
    rename_i t
    have he : (t.modifyAt a g).root.erase = t.root.erase :=
      congrArg (fun u : Tree B K Unit => u.root) (Tree.erase_modifyAt a g t)
    intro j h1 h2
    have := wide_erase.2 (ih j h1 h2)
    rw [← he] at this
    exact wide_erase.1 this
  | clone hr he ih =>
    rename_i t t'
    have : t.clone = .ok t := by
      unfold Tree.clone; rw [cloneNode_spec hr.treeOk_any.1.ok]; rfl
    rw [this] at he
    obtain rfl : t = t' := by simpa using he
    exact ih

theorem Reachable.shape (h : Reachable c P t) : Shape t.level t.root :=
  letI : VolumeLaws B := trivialVolumeLaws
  h.treeOk_any.1.ok.shape

theorem Reachable.treeOk_covers [Enclosure B] (h : Reachable c P t) :
    @TreeOk B K V _ _ trivialVolumeLaws _ Covers False t :=
  letI : VolumeLaws B := trivialVolumeLaws
  (reachable_treeOk coversLaws (fun h => h.elim) (fun h => h.elim)
    (fun _ _ _ _ _ hb _ x hx => Enclosure.le_trans (hb x hx) (Enclosure.le_union_left _ _)) (fun h => h.elim) h).1

theorem Reachable.treeOk_isUnion [ExactBounds B] [LawfulKey K B] (h : Reachable c P t) :
    @TreeOk B K V _ _ trivialVolumeLaws _ IsUnion False t :=
  letI : VolumeLaws B := trivialVolumeLaws
  (reachable_treeOk isUnionLaws (fun h => h.elim) (fun h => h.elim)
    (fun k k' hk b bs hb hm => by
      rw [← LawfulKey.bounds_eq hk]
      exact isUnionLaws.absorb hb hm) (fun h => h.elim) h).1

theorem Reachable.treeOk_weak [VolumeLaws B] (hs : Alloc.Good ⟨c.minChildren, c.maxChildren⟩)
    (hP : ∀ k, P k → VolumeLaws.volOk (Bounded.bounds k : B)) (h : Reachable c P t) :
    TreeOk AnyRel True t :=
  (reachable_treeOk anyLaws (fun _ => hs) (fun _ => hP) (fun _ _ _ _ _ _ _ => trivial)
    (fun _ hm _ ht => (ht.wide hm hs.2).root) h).1

theorem Config.Sound.good {c : Config} (h : c.Sound) : Alloc.Good ⟨c.minChildren, c.maxChildren⟩ := by
  simp only [Config.Sound] at h
  simp only [Alloc.Good]
  omega

theorem Config.Sound.two_le {c : Config} (h : c.Sound) : 2 ≤ c.minChildren := by
  simp only [Config.Sound] at h
  omega

theorem Config.Sound.safe {c : Config} (h : c.Sound) : c.Safe := by
  simp only [Config.Sound] at h
  simp only [Config.Safe]
  omega

theorem Config.Safe.good {c : Config} (h : c.Safe) : Alloc.Good ⟨c.minChildren, c.maxChildren⟩ := by
  simp only [Config.Safe] at h
  simp only [Alloc.Good]
  omega

theorem Reachable.treeOk_safe [VolumeLaws B] (hs : c.Safe)
    (hP : ∀ k, P k → VolumeLaws.volOk (Bounded.bounds k : B)) (h : Reachable c P t) :
    TreeOk AnyRel True t ∧ (1 ≤ t.level → 2 ≤ t.root.fanout) :=
  ⟨h.treeOk_weak hs.good hP, (h.wide hs.1 hs.2).root⟩

theorem Reachable.treeOk_sound [VolumeLaws B] (hs : c.Sound)
    (hP : ∀ k, P k → VolumeLaws.volOk (Bounded.bounds k : B)) (h : Reachable c P t) :
    TreeOk AnyRel True t ∧ (1 ≤ t.level → 2 ≤ t.root.fanout) := h.treeOk_safe hs.safe hP

theorem Reachable.writeAll (u : K → V → V) (refs : List (K × Nat)) (h : Reachable c P t) :
    Reachable c P (t.writeAll u refs) := by
  induction refs generalizing t with
  | nil => exact h
  | cons r refs ih => exact ih (.modifyAt _ _ h)

theorem Reachable.step (h : Reachable c P t) {op : Op B K V} {t' : Tree B K V}
    (hop : ∀ k, op.inserts = some k → P k) (hs : op.step t = .ok t') : Reachable c P t' := by
  have keep : ∀ {α : Type} {x : Res α}, (do let _ ← x; pure t) = (.ok t' : Res _) → t' = t := by
    intro α x hx
    cases x with
    | ok a => simpa using hx.symm
    | error e => simp at hx
  have fst : ∀ {x : Res (Tree B K V × Option V)}, (do pure (← x).1) = (.ok t' : Res _) → ∃ r, x = .ok (t', r) := by
    intro x hx
    cases x with
    | ok a => exact ⟨a.2, by simp at hx; simp [← hx]⟩
    | error e => simp at hx
  cases op with
  | insert k v => exact .insert h (hop k rfl) hs
  | insertUnique k v => obtain ⟨r, hr⟩ := fst hs; exact .insertUnique h (hop k rfl) hr
  | remove k => obtain ⟨r, hr⟩ := fst hs; exact .remove id h hr
  | get k => rw [keep hs]; exact h
  | len => rw [keep hs]; exact h
  | isEmpty => rw [keep hs]; exact h
  | iter => rw [keep hs]; exact h
  | filterIter f => rw [keep hs]; exact h
  | clone => exact .clone h hs
  | set k v =>
    simp only [Op.step] at hs
    cases hg : t.getMut id k with
    | error e => simp [hg] at hs
    | ok r =>
      cases r with
      | none =>
        have : t' = t := by simpa [hg] using hs.symm
        rw [this]; exact h
      | some vb =>
        have : t' = vb.2 v := by simpa [hg] using hs.symm
        rw [this]; exact .getMut id v h hg
  | filterIterMut f u =>
    simp only [Op.step] at hs
    cases hg : t.filterIterMut id f with
    | error e => simp [hg] at hs
    | ok r =>
      have : t' = t.writeAll u r := by simpa [hg] using hs.symm
      rw [this]; exact h.writeAll u r

theorem Reachable.run (h : Reachable c P t) {ops : List (Op B K V)} {t' : Tree B K V}
    (hop : ∀ op ∈ ops, ∀ k, op.inserts = some k → P k) (hs : run t ops = .ok t') : Reachable c P t' := by
  induction ops generalizing t with
  | nil =>
    obtain rfl : t = t' := by simpa [RTree.run] using hs
    exact h
  | cons op ops ih =>
    simp only [RTree.run, List.foldlM_cons] at hs
    cases h1 : op.step t with
    | error e => simp [h1] at hs
    | ok t1 =>
      simp only [h1, ok_bind] at hs
      exact ih (h.step (hop op (by simp)) h1) (fun op' h' => hop op' (by simp [h'])) hs

theorem Reachable.iter_eq (h : Reachable c P t) : t.iter = .ok t.entries := by
  rw [Tree.iter_of_shape h.shape, Node.matching_true]; rfl

theorem Reachable.addressed_shape (h : Reachable c P t) : Shape t.addressed.level t.addressed.root :=
  letI : VolumeLaws B := trivialVolumeLaws
  (treeOk_of_erase t.erase_addressed h.treeOk_any.1).ok.shape

/-- Every key of a reachable tree was inserted. -/
theorem Reachable.keys (h : Reachable c P t) : ∀ e ∈ t.entries, P e.1 := by
  let _ : VolumeLaws B := trivialVolumeLaws
  induction h with
  | new => intro e he; simp [Tree.entries, Tree.new] at he
  | insert hr hk hi ih =>
    have := ((sat_insert anyLaws hr.treeOk_any.1 _ _ (fun h => h.elim) (fun h => h.elim)).of_ok hi).2.2
    intro e he
    rcases List.mem_cons.1 (this.mem_iff.1 he) with rfl | he
    · exact hk
    · exact ih e he
  | insertUnique hr hk hi ih =>
    rename_i t t' k v r
    have := ((sat_insertUnique anyLaws hr.treeOk_any.1 (complete := False) _ _ (fun h => h.elim) (fun h => h.elim)
      (fun _ _ _ _ _ _ => trivial) (fun h => h.elim) (fun h => h.elim)).of_ok hi).2.2
    intro e he
    cases r with
    | none =>
      rcases List.mem_cons.1 (this.1.mem_iff.1 he) with rfl | he
      · exact hk
      · exact ih e he
    | some old =>
      obtain ⟨x, k', y, h1, _, _, h4⟩ := this
      rw [h1] at ih
      simp only [h4, List.mem_append, List.mem_cons] at he
      rcases he with he | rfl | he
      · exact ih e (by simp [he])
      · exact ih (k', old) (by simp)
      · exact ih e (by simp [he])
  | remove borrow hr hi ih =>
    rename_i t t' Q _ _ q r
    have := ((sat_remove anyLaws hr.treeOk_any.1 (complete := False) (fun h => h.elim) (fun h => h.elim) (fun h => h.elim)).of_ok hi).2.2
    intro e he
    cases r with
    | none => have h1 : t' = t := this.1; rw [h1] at he; exact ih e he
    | some v =>
      obtain ⟨k, _, hp⟩ := this
      exact ih e (hp.mem_iff.1 (List.mem_cons_of_mem _ he))
  | getMut borrow v' hr hi ih =>
    obtain ⟨x, k, y, h1, _, _, hb⟩ :=
      (sat_getMut hr.treeOk_any.1 (complete := False) (fun h => h.elim) (fun h => h.elim)).of_ok hi
    rw [h1] at ih
    have hb := (hb v').2.2.2
    intro e he
    rw [hb] at he
    simp only [List.mem_append, List.mem_cons] at he
    rcases he with he | rfl | he
    · exact ih e (by simp [he])
    · have := ih _ (List.mem_append_right _ List.mem_cons_self)
      exact this
    · exact ih e (by simp [he])
  | modifyAt a g hr ih =>
    rename_i t
    have h1 : (t.modifyAt a g).root.erase.entries = t.root.erase.entries :=
      congrArg (fun u : Tree B K Unit => u.root.entries) (Tree.erase_modifyAt a g t)
    rw [Node.entries_erase, Node.entries_erase] at h1
    intro e he
    have : (e.1, ()) ∈ t.root.entries.map fun e => (e.1, ()) := by
      rw [← h1]; exact List.mem_map.2 ⟨e, he, rfl⟩
    obtain ⟨e', he', h2⟩ := List.mem_map.1 this
    have : e'.1 = e.1 := (Prod.mk.inj h2).1
    rw [← this]; exact ih e' he'
  | clone hr he ih =>
    rename_i t t'
    have : t.clone = .ok t := by
      unfold Tree.clone; rw [cloneNode_spec hr.treeOk_any.1.ok]; rfl
    rw [this] at he
    obtain rfl : t = t' := by simpa using he
    exact ih

end RTree
