import Verif.Props.Structure
/-! Unsafe configurations: histories that end in a panic. -/

namespace RTree

variable {B K V Q : Type} [Bounds B] [Volume B] [Bounded K B]

section

variable [VolumeLaws B] {rel : B → List B → Prop} {a : Alloc} {g : Prop}

theorem length_entriesList_le {cs : List (Node B K V)} {m : Nat} (h : ∀ c ∈ cs, c.entries.length ≤ m) :
    (entriesList cs).length ≤ cs.length * m := by
  induction cs with
  | nil => simp
  | cons c cs ih =>
    have h1 := h c (by simp)
    have h2 := ih fun c hc => h c (by simp [hc])
    simp only [entriesList_cons, List.length_append, List.length_cons, Nat.succ_mul]
    omega

theorem length_le_entriesList {cs : List (Node B K V)} (h : ∀ c ∈ cs, 1 ≤ c.entries.length) :
    cs.length ≤ (entriesList cs).length := by
  induction cs with
  | nil => simp
  | cons c cs ih =>
    have h1 := h c (by simp)
    have h2 := ih fun c hc => h c (by simp [hc])
    simp only [entriesList_cons, List.length_append, List.length_cons]
    omega

theorem Ok.entries_le {l : Nat} {n : Node B K V} (h : Ok rel a g l n) :
    n.entries.length ≤ a.maxChildren ^ (l + 1) := by
  induction l generalizing n with
  | zero => obtain ⟨b, es, rfl, _, hl, _⟩ := h.leaf; simpa using hl
  | succ l ih =>
    obtain ⟨b, cs, rfl, _, hl, hcs⟩ := h.inner
    have h1 := length_entriesList_le fun c hc => ih (hcs c hc).1
    rw [entries_inner, Nat.pow_succ, Nat.mul_comm]
    exact Nat.le_trans h1 (Nat.mul_le_mul_right _ hl)

theorem Ok.fanout_le_entries {l : Nat} {n : Node B K V} (h : Ok rel a g l n) (hm : 1 ≤ a.minChildren) :
    n.fanout ≤ n.entries.length := by
  induction l generalizing n with
  | zero => obtain ⟨b, es, rfl, _⟩ := h.leaf; simp [Node.fanout]
  | succ l ih =>
    obtain ⟨b, cs, rfl, _, _, hcs⟩ := h.inner
    rw [entries_inner]
    exact length_le_entriesList fun c hc => Nat.le_trans ((hcs c hc).2.2 hm) (ih (hcs c hc).1)

theorem reinsert_nothing {t : Tree B K V} {l : List (Option (NodeChildren B K V) × Nat)}
    (h : ∀ ch j, (some ch, j) ∈ l → SlotOk rel a g j ch ∧ ch.fanout < 1) : t.reinsert l = .ok t := by
  induction l with
  | nil => rfl
  | cons x l ih =>
    obtain ⟨o, j⟩ := x
    have ih := ih fun ch j hm => h ch j (by simp [hm])
    cases o with
    | none => exact ih
    | some ch =>
      obtain ⟨h1, h2⟩ := h ch j (by simp)
      obtain ⟨es, he, _, _, hl⟩ := h1.entries
      have : es = [] := List.length_eq_zero_iff.1 (by omega)
      subst this
      simp only [Tree.reinsert, he, ok_bind, List.foldlM_nil, pure_eq_ok]
      exact ih

/-- With `min_children ≤ 1` nothing is ever reinserted. -/
theorem remove_inv (L : AggLaws rel) [Bounded Q B] [BEq Q] {borrow : K → Q} {q : Q} {t t' : Tree B K V} {v : V}
    (ht : TreeOk rel False t) (hm : t.alloc.minChildren ≤ 1) (h : t.remove borrow q = .ok (t', some v)) :
    ∃ root slots, removeNode t.alloc borrow q t.level t.root (List.replicate t.level none) = .ok (root, some v, slots) ∧
      Ok rel t.alloc False t.level root ∧ ({ t with root := root } : Tree B K V).tryUnbranch = .ok t' := by
  unfold Tree.remove at h
  obtain ⟨⟨root, w, slots⟩, h1, h⟩ := bind_eq_ok.1 h
  have hpost := (sat_removeNode L (complete := False) (borrow := borrow) (q := q) (fun h => h.elim)
    (fun h => h.elim) (fun h => h.elim) t.level t.root (List.replicate t.level none) ht.ok
    (fun j hj => by simp [hj])).of_ok h1
  cases w with
  | none => simp at h
  | some w =>
    obtain ⟨hok, -, -, -, hlen, -, hslot⟩ := hpost
    have hll : slots.length = t.level := by simpa using hlen
    simp only at h
    obtain ⟨t1, h2, h⟩ := bind_eq_ok.1 h
    obtain ⟨t2, h3, h⟩ := bind_eq_ok.1 h
    simp only [pure_eq_ok, Except.ok.injEq, Prod.mk.injEq, Option.some.injEq] at h
    obtain ⟨rfl, rfl⟩ := h
    refine ⟨root, slots, h1, hok, ?_⟩
    rw [reinsert_nothing (rel := rel) (a := t.alloc) (g := False)] at h3
    · simp only [Except.ok.injEq] at h3; rw [h2, h3]
    · intro ch j hmem
      rw [List.mem_zipIdx_iff_getElem?] at hmem
      have hj : j < slots.length := by
        rcases Nat.lt_or_ge j slots.length with h' | h'
        · exact h'
        · simp [List.getElem?_eq_none h'] at hmem
      obtain ⟨ha, hb⟩ := hslot j ch (by omega) hmem
      exact ⟨ha, by omega⟩

/-- The children after a removal hold entries of one child each; with `min_children = 0` none disappears. -/
theorem removeNode_children (L : AggLaws rel) [Bounded Q B] [BEq Q] {borrow : K → Q} {q : Q} {l : Nat}
    {n n' : Node B K V} {r' : Reinsert B K V} {v : V} {k : Nat} (hk : l + 1 ≤ k) (hok : Ok rel a False (l + 1) n)
    (h : removeNode a borrow q (l + 1) n (List.replicate k none) = .ok (n', some v, r')) :
    (∀ c' ∈ n'.childNodes, ∃ c ∈ n.childNodes, ∀ e ∈ c'.entries, e ∈ c.entries) ∧
      (a.minChildren = 0 → n'.fanout = n.fanout) := by
  obtain ⟨b, cs, rfl, _, _, hcs⟩ := hok.inner
  simp only [removeNode, Node.innerChildren, ok_bind] at h
  obtain ⟨⟨cs', o, r2⟩, hl, h⟩ := bind_eq_ok.1 h
  cases o with
  | none => simp at h
  | some w =>
  simp only [pure_eq_ok, Except.ok.injEq, Prod.mk.injEq, Option.some.injEq] at h
  obtain ⟨rfl, rfl, rfl⟩ := h
  have hrep : slotsEntries (List.replicate k none : Reinsert B K V) = [] := by
    simp [slotsEntries, List.flatMap_replicate]
  have hpost : ∀ c ∈ cs, Sat (removeNode a borrow q l c (List.replicate k none)) _ _ := fun c hc =>
    sat_removeNode (complete := False) (borrow := borrow) (q := q) L (fun h => h.elim) (fun h => h.elim)
      (fun h => h.elim) l c (List.replicate k none) (hcs c hc).1 fun j hj => by rw [List.getElem?_replicate, if_pos (by omega)]
  obtain ⟨i, hi, c', r1, hrec, hcase⟩ := removeLoop_some (fun c hc c' r' he => by
    have := (hpost c hc).of_ok he
    exact ⟨this.1, this.2.1⟩) hl
  obtain ⟨-, -, -, ⟨k0, -, hp⟩, -⟩ := (hpost _ (List.getElem_mem hi)).of_ok hrec
  rw [hrep, List.append_nil] at hp
  have hsub : ∀ e ∈ c'.entries, e ∈ cs[i].entries := fun e he => hp.mem_iff.1 (by simp [he])
  simp only [Node.childNodes]
  rcases hcase with ⟨_, rfl, rfl⟩ | ⟨hlt, ⟨x, y, hxy, hp'⟩, -⟩
  · refine ⟨fun c hc => ?_, fun _ => by simp [Node.fanout]⟩
    rcases List.mem_or_eq_of_mem_set hc with hc | rfl
    · exact ⟨c, hc, fun _ he => he⟩
    · exact ⟨_, List.getElem_mem hi, hsub⟩
  · refine ⟨fun c hc => ⟨c, ?_, fun _ he => he⟩, fun h0 => by omega⟩
    rw [hxy]
    have := hp'.mem_iff.1 hc
    simp at this ⊢
    rcases this with h | h <;> simp [h]

end

/-! ### trees on which no history panics -/

/-- No sequence of insertions and removals panics on the tree. -/
def Calm [BEq K] (t : Tree B K V) : Prop :=
  ∀ ops : List (Op B K V), (∀ op ∈ ops, (∃ k w, op = .insert k w) ∨ ∃ k, op = .remove k) → ∃ t', run t ops = .ok t'

theorem Calm.step [BEq K] {t : Tree B K V} (h : Calm t) (op : Op B K V)
    (ho : (∃ k w, op = .insert k w) ∨ ∃ k, op = .remove k) : ∃ t', op.step t = .ok t' ∧ Calm t' := by
  obtain ⟨t', h'⟩ := h [op] (by simpa using ho)
  have e : op.step t = .ok t' := by
    simp only [run, List.foldlM_cons, List.foldlM_nil] at h'
    obtain ⟨t1, h1, h2⟩ := bind_eq_ok.1 h'
    simp only [pure_eq_ok, Except.ok.injEq] at h2
    rw [h1, h2]
  refine ⟨t', e, fun ops hops => ?_⟩
  obtain ⟨t2, h2⟩ := h (op :: ops) fun o hm => by
    rcases List.mem_cons.1 hm with rfl | hm
    · exact ho
    · exact hops o hm
  simp only [run, List.foldlM_cons, e, ok_bind] at h2
  exact ⟨t2, h2⟩

theorem Calm.remove [BEq K] {t : Tree B K V} (h : Calm t) (k : K) : ∃ t' r, t.remove id k = .ok (t', r) ∧ Calm t' := by
  obtain ⟨t', h1, h2⟩ := h.step (.remove k) (.inr ⟨k, rfl⟩)
  simp only [Op.step] at h1
  obtain ⟨⟨t1, r⟩, h3, h4⟩ := bind_eq_ok.1 h1
  simp only [pure_eq_ok, Except.ok.injEq] at h4
  subst h4
  exact ⟨t1, r, h3, h2⟩

theorem Calm.insert [BEq K] {t : Tree B K V} (h : Calm t) (k : K) (v : V) : ∃ t', t.insert k v = .ok t' ∧ Calm t' :=
  h.step (.insert k v) (.inl ⟨k, v, rfl⟩)

section

variable [BEq K] [LawfulBEq K] [LawfulKey K B] {c : Config} {t : Tree B K V}

/-- Inserting keys into a new tree. -/
theorem Calm.grow (hM : 2 ≤ c.maxChildren) (h : Calm (Tree.new c : Tree B K V)) (v : V) (ks : List K) :
    ∃ t : Tree B K V, Reachable c (fun _ => True) t ∧ Calm t ∧ WideTree t ∧ (t.entries.map Prod.fst).Perm ks := by
  let _ : VolumeLaws B := trivialVolumeLaws
  induction ks with
  | nil =>
    refine ⟨_, .new, h, ?_, by simp [Tree.new, Tree.entries]⟩
    intro j h1 h2; simp only [Tree.new] at h2; omega
  | cons k ks ih =>
    obtain ⟨t, hr, hc, hw, hp⟩ := ih
    obtain ⟨t', hi, hc'⟩ := hc.insert k v
    have hr' : Reachable c (fun _ => True) t' := .insert hr trivial hi
    refine ⟨t', hr', hc', ?_, ?_⟩
    · have hM' : 2 ≤ t.alloc.maxChildren := by rw [hr.treeOk_any.2]; exact hM
      intro j h1 h2
      rcases Nat.lt_or_ge t.level j with hlt | hge
      · exact insertEntry_wide hi hM' (.inr (.inr ⟨hlt, h2⟩))
      · exact insertEntry_wide hi hM' (.inl (hw j h1 hge))
    · have := ((sat_insert anyLaws hr.treeOk_any.1 k v (fun h => h.elim) (fun h => h.elim)).of_ok hi).2.2
      exact (this.map Prod.fst).trans (hp.cons k)

/-- Removing a key that is there. -/
theorem Calm.take [LawfulBounds B] {k : K} (hc : Calm t) (hr : Reachable c (fun _ => True) t)
    (hv : LawfulBounds.valid (Bounded.bounds k : B)) (hk : k ∈ t.entries.map Prod.fst) :
    ∃ t' v, t.remove id k = .ok (t', some v) ∧ Calm t' ∧ Reachable c (fun _ => True) t' ∧
      t.entries.Perm ((k, v) :: t'.entries) := by
  obtain ⟨t', r, h1, hc'⟩ := hc.remove k
  have hr' : Reachable c (fun _ => True) t' := .remove id hr h1
  obtain ⟨es, es', e1, e2, hp⟩ := C04_remove_one hr (borrow := id) (fun _ => rfl) hv h1
  obtain rfl : t.entries = es := by simpa [hr.iter_eq] using e1
  obtain rfl : t'.entries = es' := by simpa [hr'.iter_eq] using e2
  cases r with
  | none =>
    obtain ⟨e, he, rfl⟩ := List.mem_map.1 hk
    have := hp.2 e he
    simp at this
  | some v =>
    obtain ⟨k', hk', hp⟩ := hp
    obtain rfl : k' = k := by simpa using hk'
    exact ⟨t', v, h1, hc', hr', hp⟩

/-- With `min_children = 0` a tree can be emptied that keeps an inner root with two children. -/
theorem Calm.hollow [LawfulBounds B] (hm : c.minChildren = 0) {ks : List K}
    (hv : ∀ k : K, LawfulBounds.valid (Bounded.bounds k : B)) (hc : Calm t) (hr : Reachable c (fun _ => True) t)
    (hl : 1 ≤ t.level) (hf : 2 ≤ t.root.fanout) (hp : (t.entries.map Prod.fst).Perm ks) :
    ∃ t' : Tree B K V, Calm t' ∧ Reachable c (fun _ => True) t' ∧ 1 ≤ t'.level ∧ 2 ≤ t'.root.fanout ∧ t'.entries = [] := by
  let _ : VolumeLaws B := trivialVolumeLaws
  induction ks generalizing t with
  | nil => exact ⟨t, hc, hr, hl, hf, by simpa using hp⟩
  | cons k ks ih =>
    obtain ⟨t', v, h1, hc', hr', hp'⟩ := hc.take hr (hv k) (hp.mem_iff.2 (by simp))
    have hal := hr.treeOk_any.2
    obtain ⟨root, slots, h2, hok, h3⟩ := remove_inv anyLaws hr.treeOk_any.1 (by rw [hal]; simp only; omega) h1
    have hkeys : (t'.entries.map Prod.fst).Perm ks := by
      have := (hp'.map Prod.fst).symm.trans hp
      exact this.cons_inv
    have key : t'.level = t.level ∧ t'.root.fanout = t.root.fanout := by
      obtain ⟨al, level, root0⟩ := t
      simp only at hal hok h2 h3 hl hf ⊢
      cases level with
      | zero => omega
      | succ l =>
        have hfan := (removeNode_children anyLaws (Nat.le_refl _) hr.treeOk_any.1.ok h2).2 (by rw [hal]; exact hm)
        obtain ⟨b, cs, rfl, -⟩ := hok.inner
        simp only [Tree.tryUnbranch, Node.innerChildren, ok_bind] at h3
        rw [if_neg] at h3
        · simp only [pure_eq_ok, Except.ok.injEq] at h3
          subst h3
          exact ⟨rfl, hfan⟩
        · have e : (Node.inner b cs : Node B K V).fanout = cs.length := rfl
          rw [e] at hfan
          simp only at hfan
          omega
    exact ih hc' hr' (by omega) (by omega) hkeys

/-- An insertion into a tree whose root has two children with bounds that have no volume panics. -/
theorem insert_no_volume {k : K} {v : V} (hs : Shape t.level t.root) (hl : 1 ≤ t.level) (hf : 2 ≤ t.root.fanout)
    (hb : ∀ n ∈ t.root.childNodes, (Volume.volume n.bounds : Option (Volume.Vol B)) = none) : ¬ ∃ t', t.insert k v = .ok t' := by
  rintro ⟨t', h⟩
  obtain ⟨al, level, root⟩ := t
  cases level with
  | zero => simp at hl
  | succ l =>
    cases root with
    | leaf => simp [Shape] at hs
    | inner b cs =>
    simp only [Node.fanout] at hf
    match cs, hf with
    | c1 :: c2 :: cs, _ =>
      have h1 := hb c1 (by simp [Node.childNodes])
      simp only [Tree.insert, Tree.insertEntry] at h
      obtain ⟨p, h, -⟩ := bind_eq_ok.1 h
      unfold insertNode at h
      rw [if_pos (by simp [NodeEntry.targetLevel])] at h
      simp only [Node.innerChildren, ok_bind] at h
      obtain ⟨o, h, -⟩ := bind_eq_ok.1 h
      unfold select at h
      obtain ⟨o, h, -⟩ := bind_eq_ok.1 h
      simp only [List.map_cons, List.zipIdx_cons, minBy, List.foldlM_cons] at h
      obtain ⟨o, h, -⟩ := bind_eq_ok.1 h
      obtain ⟨o, h, -⟩ := bind_eq_ok.1 h
      obtain ⟨o, h, -⟩ := bind_eq_ok.1 h
      unfold selectCmp at h
      obtain ⟨o, h, -⟩ := bind_eq_ok.1 h
      unfold volumeIncrease at h
      obtain ⟨o, -, h⟩ := bind_eq_ok.1 h
      obtain ⟨o, h, -⟩ := bind_eq_ok.1 h
      rw [h1] at h
      simp [arith] at h

/-- With `min_children = 1` two entries below different children of the root can be isolated. -/
theorem Calm.isolate [LawfulBounds B] (hm : c.minChildren = 1) {ks : List K}
    (hv : ∀ k : K, LawfulBounds.valid (Bounded.bounds k : B)) (hc : Calm t) (hr : Reachable c (fun _ => True) t)
    (hl : 2 ≤ t.level) {e1 e2 : K × V} (hsep : ∀ n ∈ t.root.childNodes, ¬ (e1 ∈ n.entries ∧ e2 ∈ n.entries))
    (hp : (t.entries.map Prod.fst).Perm (ks ++ [e1.1, e2.1])) (hnd : (ks ++ [e1.1, e2.1]).Nodup)
    (he1 : e1 ∈ t.entries) (he2 : e2 ∈ t.entries) :
    ∃ t' : Tree B K V, Calm t' ∧ Reachable c (fun _ => True) t' ∧ 2 ≤ t'.level ∧ t'.entries.Perm [e1, e2] := by
  let _ : VolumeLaws B := trivialVolumeLaws
  induction ks generalizing t with
  | nil =>
    refine ⟨t, hc, hr, hl, ?_⟩
    have hne : e1 ≠ e2 := by
      rintro rfl
      simp at hnd
    have hlen : t.entries.length = 2 := by simpa using hp.length_eq
    have hnd' : t.entries.Nodup := by
      have := (hp.nodup_iff.2 hnd)
      exact List.Nodup.of_map _ this
    match t.entries, hlen, hnd', he1, he2 with
    | [x, y], _, hn, h1, h2 =>
      simp only [List.mem_cons, List.not_mem_nil, or_false] at h1 h2
      rcases h1 with rfl | rfl <;> rcases h2 with rfl | rfl
      · exact absurd rfl hne
      · exact List.Perm.refl _
      · exact List.Perm.swap _ _ _
      · exact absurd rfl hne
  | cons k ks ih =>
    obtain ⟨t', v, h1, hc', hr', hp'⟩ := hc.take hr (hv k) (hp.mem_iff.2 (by simp))
    have hal := hr.treeOk_any.2
    obtain ⟨root, slots, h2, hok, h3⟩ := remove_inv anyLaws hr.treeOk_any.1 (by rw [hal]; simp only; omega) h1
    have hkeys : (t'.entries.map Prod.fst).Perm (ks ++ [e1.1, e2.1]) := by
      have := (hp'.map Prod.fst).symm.trans hp
      exact this.cons_inv
    simp only [List.cons_append, List.nodup_cons] at hnd
    have hstay : ∀ e ∈ t.entries, e.1 ≠ k → e ∈ t'.entries := by
      intro e he hek
      rcases List.mem_cons.1 (hp'.mem_iff.1 he) with rfl | h
      · exact absurd rfl hek
      · exact h
    have h1' := hstay e1 he1 (fun h => hnd.1 (by simp [← h]))
    have h2' := hstay e2 he2 (fun h => hnd.1 (by simp [← h]))
    have key : t'.level = t.level ∧ ∀ n ∈ t'.root.childNodes, ¬ (e1 ∈ n.entries ∧ e2 ∈ n.entries) := by
      have hent := ((sat_tryUnbranch (t := { t with root := root }) (rel := AnyRel) hok
        (fun h => h.elim) (fun h => h.elim)).of_ok h3).2.2.2
      obtain ⟨al, level, root0⟩ := t
      simp only at hal hok h2 h3 hl hsep hent ⊢
      cases level with
      | zero => omega
      | succ l =>
        have hch := (removeNode_children anyLaws (Nat.le_refl _) hr.treeOk_any.1.ok h2).1
        have hsep' : ∀ n ∈ root.childNodes, ¬ (e1 ∈ n.entries ∧ e2 ∈ n.entries) := by
          rintro n hn ⟨ha, hb⟩
          obtain ⟨n0, hn0, hsub⟩ := hch n hn
          exact hsep n0 hn0 ⟨hsub _ ha, hsub _ hb⟩
        obtain ⟨b, cs, rfl, -⟩ := hok.inner
        simp only [Tree.tryUnbranch, Node.innerChildren, ok_bind] at h3
        rw [if_neg] at h3
        · simp only [pure_eq_ok, Except.ok.injEq] at h3
          subst h3
          exact ⟨rfl, hsep'⟩
        · intro hone
          obtain ⟨n, rfl⟩ := List.length_eq_one_iff.1 hone
          rw [hent] at h1' h2'
          simp only [Tree.entries, entries_inner, entriesList_cons, entriesList_nil, List.append_nil] at h1' h2'
          exact hsep' n (by simp [Node.childNodes]) ⟨h1', h2'⟩
    exact ih hc' hr' (by omega) key.2 hkeys hnd.2 h1' h2'

/-- With `min_children = 1`: a tree with an empty inner root. -/
theorem Calm.empty_root [LawfulBounds B] (hm : c.minChildren = 1)
    (hv : ∀ k : K, LawfulBounds.valid (Bounded.bounds k : B)) (hc : Calm t) (hr : Reachable c (fun _ => True) t)
    (hl : 2 ≤ t.level) {e1 e2 : K × V} (hp : t.entries.Perm [e1, e2]) : False := by
  let _ : VolumeLaws B := trivialVolumeLaws
  -- the second entry leaves a chain
  obtain ⟨t1, v1, h1, hc1, hr1, hp1⟩ := hc.take hr (hv e2.1) (List.mem_map.2 ⟨e2, hp.mem_iff.2 (by simp), rfl⟩)
  have hal := hr.treeOk_any.2
  obtain ⟨root, slots, -, hok, h3⟩ := remove_inv anyLaws hr.treeOk_any.1 (by rw [hal]; simp only; omega) h1
  have hlen1 : t1.entries.length = 1 := by
    have := (hp1.symm.trans hp).length_eq
    simpa using this
  have hlev1 : 1 ≤ t1.level := by
    have := ((sat_tryUnbranch (t := { t with root := root }) (rel := AnyRel) hok
      (fun h => h.elim) (fun h => h.elim)).of_ok h3).2.2.1
    simp only at this; omega
  obtain ⟨e, he⟩ := List.length_eq_one_iff.1 hlen1
  -- the last entry leaves an empty inner root, unless the root was already a leaf
  obtain ⟨t2, v2, h1', hc2, hr2, hp2⟩ := hc1.take hr1 (hv e.1) (by rw [he]; simp)
  have hal1 := hr1.treeOk_any.2
  obtain ⟨root1, slots1, -, hok1, h3'⟩ := remove_inv anyLaws hr1.treeOk_any.1 (by rw [hal1]; simp only; omega) h1'
  have hent2 : t2.entries = [] := by
    rw [he] at hp2
    have := hp2.length_eq
    simp only [List.length_cons, List.length_nil] at this
    exact List.length_eq_zero_iff.1 (by omega)
  have hent := ((sat_tryUnbranch (t := { t1 with root := root1 }) (rel := AnyRel) hok1
      (fun h => h.elim) (fun h => h.elim)).of_ok h3').2.2.2
  have hfan : root1.fanout = 0 := by
    have h0 := hok1.fanout_le_entries (by rw [hal1]; simp only; omega)
    rw [hent2] at hent
    simp only [Tree.entries] at hent
    rw [← hent] at h0
    simpa using h0
  have key : 1 ≤ t2.level ∧ t2.root.fanout = 0 := by
    obtain ⟨al, level, root0⟩ := t1
    simp only at hok1 h3' hlev1
    cases level with
    | zero => omega
    | succ l =>
      obtain ⟨b, cs, rfl, -⟩ := hok1.inner
      have e : (Node.inner b cs : Node B K V).fanout = cs.length := rfl
      simp only [Tree.tryUnbranch, Node.innerChildren, ok_bind] at h3'
      rw [if_neg (by omega)] at h3'
      simp only [pure_eq_ok, Except.ok.injEq] at h3'
      subst h3'
      exact ⟨by simp, hfan⟩
  obtain ⟨t3, h4, -⟩ := hc2.insert e1.1 e1.2
  rw [insert_empty_inner hr2.treeOk_any.1 key.1 key.2] at h4
  simp at h4

end

/-! ### height and number of entries -/

open Classical in
/-- The number of inner levels at which there is a wide node. -/
noncomputable def wideLevels (L l : Nat) (n : Node B K V) : Nat :=
  (List.range L).countP fun j => decide (Wide l (j + 1) n)

omit [Bounds B] [Volume B] [Bounded K B] in
theorem countP_or_le {α : Type} (xs : List α) (p q r : α → Bool) (h : ∀ x ∈ xs, p x = true → q x = true ∨ r x = true) :
    xs.countP p ≤ xs.countP q + xs.countP r := by
  induction xs with
  | nil => simp
  | cons x xs ih =>
    have ih := ih fun y hy => h y (by simp [hy])
    have hx := h x (by simp)
    simp only [List.countP_cons]
    cases hp : p x
    · simp only [Bool.false_eq_true, if_false]; split <;> split <;> omega
    · rcases hx hp with hq | hq <;> simp only [hq, if_true] <;> split <;> omega

omit [Bounds B] [Volume B] [Bounded K B] in
theorem wideLevels_children (L l : Nat) (cs : List (Node B K V)) (hne : cs ≠ [])
    (h : ∀ c ∈ cs, 1 + wideLevels L l c ≤ c.entries.length) (b : B) :
    1 + wideLevels L (l + 1) (.inner b cs : Node B K V) ≤ (entriesList cs).length := by
  classical
  -- the levels at which some child is wide
  have key : ∀ cs : List (Node B K V), (∀ c ∈ cs, 1 + wideLevels L l c ≤ c.entries.length) →
      cs.length + (List.range L).countP (fun j => decide (∃ c ∈ cs, Wide l (j + 1) c)) ≤ (entriesList cs).length := by
    intro cs
    induction cs with
    | nil => intro _; simp
    | cons c cs ih =>
      intro h
      have h1 := h c (by simp)
      have h2 := ih fun c hc => h c (by simp [hc])
      have h3 := countP_or_le (List.range L) (fun j => decide (∃ c' ∈ c :: cs, Wide l (j + 1) c'))
        (fun j => decide (Wide l (j + 1) c)) (fun j => decide (∃ c' ∈ cs, Wide l (j + 1) c')) (by
          intro j _ hj
          obtain ⟨c', hc', hw⟩ := of_decide_eq_true hj
          rcases List.mem_cons.1 hc' with rfl | hc'
          · exact .inl (decide_eq_true hw)
          · exact .inr (decide_eq_true ⟨c', hc', hw⟩))
      unfold wideLevels at h1
      simp only [entriesList_cons, List.length_append, List.length_cons]
      omega
  have h1 := key cs h
  have hsplit : wideLevels L (l + 1) (.inner b cs : Node B K V) ≤
      (List.range L).countP (fun j => decide (j = l ∧ 2 ≤ cs.length)) +
        (List.range L).countP (fun j => decide (∃ c ∈ cs, Wide l (j + 1) c)) := by
    refine countP_or_le _ _ _ _ fun j _ hj => ?_
    rcases of_decide_eq_true hj with ⟨h1, h2⟩ | hj
    · exact .inl (decide_eq_true ⟨by omega, h2⟩)
    · exact .inr (decide_eq_true hj)
  have hone : (List.range L).countP (fun j => decide (j = l ∧ 2 ≤ cs.length)) ≤ if 2 ≤ cs.length then 1 else 0 := by
    split
    · rename_i h2
      have : (List.range L).countP (fun j => decide (j = l ∧ 2 ≤ cs.length)) = (List.range L).count l := by
        unfold List.count
        congr 1
        funext j
        by_cases hj : j = l <;> simp [hj, h2]
      rw [this]
      exact List.nodup_iff_count.1 List.nodup_range l
    · rename_i h2
      simp [h2]
  have hlen : 1 ≤ cs.length := List.length_pos_iff.2 hne
  split at hone <;> omega

theorem Ok.wideLevels_lt [VolumeLaws B] {rel : B → List B → Prop} {a : Alloc} {g : Prop} (L : Nat) {l : Nat}
    {n : Node B K V} (h : Ok rel a g l n) (hm : 1 ≤ a.minChildren) (hf : 1 ≤ n.fanout) :
    1 + wideLevels L l n ≤ n.entries.length := by
  classical
  induction l generalizing n with
  | zero =>
    have h1 := h.fanout_le_entries hm
    have : wideLevels L 0 n = 0 := by
      unfold wideLevels
      rw [List.countP_eq_zero]
      intro j _ hj
      have := (of_decide_eq_true hj).le
      omega
    omega
  | succ l ih =>
    obtain ⟨b, cs, rfl, _, _, hcs⟩ := h.inner
    rw [entries_inner]
    refine wideLevels_children L l cs ?_ (fun c hc => ih (hcs c hc).1 ((hcs c hc).2.2 hm)) b
    rintro rfl
    simp [Node.fanout] at hf

theorem WideTree.level_lt [VolumeLaws B] {rel : B → List B → Prop} {g : Prop} {t : Tree B K V} (h : WideTree t)
    (ht : Ok rel t.alloc g t.level t.root) (hm : 1 ≤ t.alloc.minChildren) (hl : 1 ≤ t.level) :
    t.level < t.entries.length := by
  classical
  have h1 := ht.wideLevels_lt t.level hm (by have := h.root hl; omega)
  have h2 : wideLevels t.level t.level t.root = t.level := by
    unfold wideLevels
    rw [List.countP_eq_length.2, List.length_range]
    intro j hj
    exact decide_eq_true (h (j + 1) (by omega) (by have := List.mem_range.1 hj; omega))
  unfold Tree.entries
  omega

end RTree
