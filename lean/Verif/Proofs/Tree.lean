import Verif.Proofs.Remove
import Verif.Proofs.Lookup
/-! Tree-level preservation of the invariant. -/

namespace RTree

variable {B K V Q : Type}

section

variable [Bounds B] [Volume B] [VolumeLaws B] [Bounded K B]
open VolumeLaws (volOk)

/-- The invariant of a tree. -/
structure TreeOk (rel : B → List B → Prop) (g : Prop) (t : Tree B K V) : Prop where
  ok : Ok rel t.alloc g t.level t.root
  sound : g → t.alloc.Good
  root : g → 2 ≤ t.alloc.minChildren → 1 ≤ t.level → 1 ≤ t.root.fanout

variable {rel : B → List B → Prop} {g : Prop}

theorem treeOk_new (L : AggLaws rel) (c : Config) (hg : g → Alloc.Good ⟨c.minChildren, c.maxChildren⟩) :
    TreeOk rel g (Tree.new c : Tree B K V) where
  ok := ok_leaf.2 ⟨L.empty, by simp, by simp⟩
  sound := hg
  root := by simp [Tree.new]

theorem sat_branch (L : AggLaws rel) {t : Tree B K V} {s : Nat × Node B K V}
    (hsound : g → t.alloc.Good)
    (hl : s.1 = t.level) (hr : ChildOk rel t.alloc g t.level t.root)
    (hs : ChildOk rel t.alloc g t.level s.2) :
    Sat (t.branch s) (Allowed g) fun t' => TreeOk rel g t' ∧ t'.alloc = t.alloc ∧
      t'.level = t.level + 1 ∧ t'.entries = t.root.entries ++ s.2.entries ∧ 2 ≤ t'.root.fanout := by
  unfold Tree.branch
  rw [if_neg (by simpa using hl)]
  simp only []
  by_cases hcap : 2 ≤ t.alloc.maxChildren
  · have h1 : Vec.push t.alloc.maxChildren [] t.root = .ok [t.root] := by
      unfold Vec.push; rw [if_neg (by simp; omega)]; rfl
    have h2 : Vec.push t.alloc.maxChildren [t.root] s.2 = .ok [t.root, s.2] := by
      unfold Vec.push; rw [if_neg (by simp; omega)]; rfl
    simp only [h1, h2, ok_bind]
    refine ⟨⟨ok_inner.2 ⟨?_, by simpa using hcap, ?_⟩, hsound, fun _ _ _ => by simp [Node.fanout]⟩, rfl, rfl,
      by simp [Tree.entries], by simp [Node.fanout]⟩
    · have := L.union hr.1.agg hs.1.agg
      simpa using this
    · intro c hc
      simp at hc
      rcases hc with rfl | rfl
      · exact hr
      · exact hs
  · have hE : Allowed g .vectorFull := ⟨fun h => by have := (hsound h).facts; omega, by simp [UserPanic]⟩
    have hx : ∀ (l : List (Node B K V)) x, Sat (Vec.push t.alloc.maxChildren l x) (Allowed g)
        fun l' => l'.length = l.length + 1 ∧ l.length < t.alloc.maxChildren ∨ t.alloc.maxChildren < l.length := by
      intro l x
      unfold Vec.push
      split
      · exact hE
      · simp; omega
    refine Sat.bind (hx _ _) fun l1 h1 => ?_
    simp at h1
    have : t.alloc.maxChildren = 1 := by omega
    unfold Vec.push
    rw [if_pos (by omega)]
    exact hE

theorem sat_insertEntry (L : AggLaws rel) {t : Tree B K V} {e : NodeEntry B K V} (ht : TreeOk rel g t)
    (he : EntryOk rel t.alloc g e) (hl : e.targetLevel ≤ t.level)
    (hf : g → e.targetLevel < t.level → 1 ≤ t.root.fanout) :
    Sat (t.insertEntry e) (Allowed g) fun t' => TreeOk rel g t' ∧ t'.alloc = t.alloc ∧
      t.level ≤ t'.level ∧ t'.entries.Perm (e.entries ++ t.entries) ∧ 1 ≤ t'.root.fanout := by
  unfold Tree.insertEntry
  refine Sat.bind (sat_insertNode L ht.sound ht.ok he hl hf) ?_
  rintro ⟨root, sib⟩ h
  cases sib with
  | none =>
    obtain ⟨h1, h2, _, h4, h5⟩ := h
    exact ⟨⟨h1, ht.sound, fun hg hm hlv => by have := ht.root hg hm hlv; simp only at *; omega⟩, rfl,
      Nat.le_refl _, h2, h5⟩
  | some s =>
    obtain ⟨l', s⟩ := s
    obtain ⟨rfl, h1, h2, h3, _, _⟩ := h
    refine Sat.mono (sat_branch L (t := { t with root := root }) (s := (t.level, s)) ht.sound rfl h1 h2) ?_
    rintro t' ⟨h4, h5, h6, h7, h8⟩
    exact ⟨h4, h5, by simp only at h6; omega, by rw [h7]; exact h3, by omega⟩

theorem sat_insertEntries (L : AggLaws rel) {t : Tree B K V} {es : List (NodeEntry B K V)} {j : Nat}
    (ht : TreeOk rel g t) (he : ∀ e ∈ es, EntryOk rel t.alloc g e ∧ e.targetLevel = j) (hl : j ≤ t.level)
    (hf : g → es ≠ [] → j < t.level → 1 ≤ t.root.fanout) :
    Sat (es.foldlM Tree.insertEntry t) (Allowed g) fun t' => TreeOk rel g t' ∧ t'.alloc = t.alloc ∧
      t.level ≤ t'.level ∧ t'.entries.Perm (es.flatMap NodeEntry.entries ++ t.entries) := by
  induction es generalizing t with
  | nil => exact ⟨ht, rfl, Nat.le_refl _, by simp⟩
  | cons e es ih =>
    rw [List.foldlM_cons]
    have h0 := he e (by simp)
    refine Sat.bind (sat_insertEntry L ht h0.1 (by omega) fun h hlt => hf h (by simp) (by omega)) ?_
    rintro t1 ⟨h1, h2, h3, h4, hf1⟩
    refine Sat.mono (ih h1 (fun e' he' => by rw [h2]; exact he e' (by simp [he'])) (by omega) fun _ _ _ => hf1) ?_
    rintro t2 ⟨h5, h6, h7, h8⟩
    refine ⟨h5, by rw [h6, h2], by omega, ?_⟩
    refine (h8.trans (h4.append_left _)).trans ?_
    simp only [List.flatMap_cons, ← List.append_assoc]
    exact List.perm_append_comm.append_right _

theorem SlotOk.entries {a : Alloc} {j : Nat} {ch : NodeChildren B K V} (h : SlotOk rel a g j ch) :
    ∃ es, Tree.slotEntries j ch = .ok es ∧ es.flatMap NodeEntry.entries = ch.entries ∧
      (∀ e ∈ es, EntryOk rel a g e ∧ e.targetLevel = j) ∧ es.length = ch.fanout := by
  cases j <;> cases ch <;> simp [SlotOk] at h
  · rename_i es
    refine ⟨_, rfl, ?_, ?_, by simp [NodeChildren.fanout]⟩
    · simp [NodeChildren.entries, List.flatMap_map, NodeEntry.entries]
    · simp only [List.mem_map]; rintro _ ⟨e, he, rfl⟩
      exact ⟨h e.1 e.2 he, rfl⟩
  · rename_i j cs
    refine ⟨_, rfl, ?_, ?_, by simp [NodeChildren.fanout]⟩
    · simp [NodeChildren.entries, List.flatMap_map, NodeEntry.entries, entriesList_eq]
    · simp only [List.mem_map]; rintro _ ⟨c, hc, rfl⟩
      exact ⟨h c hc, rfl⟩

theorem sat_reinsert (L : AggLaws rel) {t : Tree B K V} {l : List (Option (NodeChildren B K V) × Nat)}
    (ht : TreeOk rel g t)
    (hl : ∀ ch j, (some ch, j) ∈ l → (SlotOk rel t.alloc g j ch ∧ ch.fanout < t.alloc.minChildren) ∧ j ≤ t.level) :
    Sat (t.reinsert l) (Allowed g) fun t' => TreeOk rel g t' ∧ t'.alloc = t.alloc ∧
      t'.entries.Perm (slotsEntries (l.map (·.1)) ++ t.entries) := by
  induction l generalizing t with
  | nil => exact ⟨ht, rfl, by simp [slotsEntries]⟩
  | cons x l ih =>
    obtain ⟨s, j⟩ := x
    cases s with
    | none =>
      refine Sat.mono (ih ht fun ch j h => hl ch j (by simp [h])) ?_
      rintro t' ⟨h1, h2, h3⟩
      exact ⟨h1, h2, by simpa [slotsEntries] using h3⟩
    | some ch =>
      obtain ⟨hs, hj⟩ := hl ch j (by simp)
      obtain ⟨es, hes, hesE, hesOk, hesl⟩ := hs.1.entries
      simp only [Tree.reinsert, hes, ok_bind]
      refine Sat.bind (sat_insertEntries L ht hesOk hj fun h hne hlt => ?_) ?_
      · have h1 : 0 < es.length := List.length_pos_iff.2 hne
        have := ht.root h (by omega) (by omega)
        omega
      rintro t1 ⟨h1, h2, h3, h4⟩
      refine Sat.mono (ih h1 fun ch' j' h => ?_) ?_
      · obtain ⟨ha, hb⟩ := hl ch' j' (by simp [h])
        exact ⟨by rw [h2]; exact ha, by omega⟩
      · rintro t2 ⟨h5, h6, h7⟩
        refine ⟨h5, by rw [h6, h2], ?_⟩
        refine (h7.trans (h4.append_left _)).trans ?_
        rw [hesE]
        simp only [slotsEntries, List.map_cons, List.flatMap_cons, ← List.append_assoc]
        exact List.perm_append_comm.append_right _

theorem sat_tryUnbranch {t : Tree B K V} (hok : Ok rel t.alloc g t.level t.root)
    (hsound : g → t.alloc.Good)
    (hf : g → 2 ≤ t.alloc.minChildren → 1 ≤ t.level → 1 ≤ t.root.fanout) :
    Sat t.tryUnbranch (Allowed g) fun t' => TreeOk rel g t' ∧ t'.alloc = t.alloc ∧
      t.level ≤ t'.level + 1 ∧ t'.entries = t.entries := by
  obtain ⟨a, level, root⟩ := t
  cases level with
  | zero =>
    obtain ⟨b, es, rfl, _⟩ := hok.leaf
    exact ⟨⟨hok, hsound, by simp⟩, rfl, by simp, rfl⟩
  | succ l =>
    have hok' := hok
    obtain ⟨b, cs, hroot, hrel, hlen, hcs⟩ := hok.inner
    simp only at hroot; subst hroot
    simp only [Tree.tryUnbranch, Node.innerChildren, ok_bind]
    split
    · rename_i h1
      obtain ⟨c, rfl⟩ := List.length_eq_one_iff.1 h1
      have : Vec.swapRemove [c] 0 = .ok (c, []) := rfl
      simp only [this, ok_bind]
      have hc := hcs c (by simp)
      exact ⟨⟨hc.1, hsound, fun h hm _ => by have := hc.2.1 h; have := (hsound h).facts; simp only at *; omega⟩, rfl,
        by simp, by simp [Tree.entries]⟩
    · rename_i h1
      refine ⟨⟨hok', hsound, fun h hm hl => ?_⟩, rfl, by simp, rfl⟩
      have := hf h hm hl
      simp only [Node.fanout] at *; omega

theorem sat_insert (L : AggLaws rel) {t : Tree B K V} (ht : TreeOk rel g t) (k : K) (v : V)
    (hk : g → volOk (Bounded.bounds k : B)) (hf : g → 1 ≤ t.level → 1 ≤ t.root.fanout) :
    Sat (t.insert k v) (Allowed g) fun t' => TreeOk rel g t' ∧ t'.alloc = t.alloc ∧
      t'.entries.Perm ((k, v) :: t.entries) := by
  refine Sat.mono (sat_insertEntry L ht (e := .leaf k v) hk (Nat.zero_le _) hf) ?_
  rintro t' ⟨h1, h2, _, h3, _⟩
  exact ⟨h1, h2, h3⟩

theorem insert_empty_inner {t : Tree B K V} (ht : TreeOk rel g t) (hl : 1 ≤ t.level) (hf : t.root.fanout = 0)
    (k : K) (v : V) : t.insert k v = .error .unwrapNone := by
  obtain ⟨a, level, root⟩ := t
  cases level with
  | zero => simp at hl
  | succ l =>
    obtain ⟨b, cs, hr, _⟩ := ht.ok.inner
    simp only at hr; subst hr
    simp only [Node.fanout, List.length_eq_zero_iff] at hf; subst hf
    rfl

theorem insertUnique_empty_inner [BEq K] {t : Tree B K V} (ht : TreeOk rel g t) (hl : 1 ≤ t.level)
    (hf : t.root.fanout = 0) (k : K) (v : V) : t.insertUnique k v = .error .unwrapNone := by
  obtain ⟨a, level, root⟩ := t
  cases level with
  | zero => simp at hl
  | succ l =>
    obtain ⟨b, cs, hr, _⟩ := ht.ok.inner
    simp only at hr; subst hr
    simp only [Node.fanout, List.length_eq_zero_iff] at hf; subst hf
    rfl

/-- A tree into which something was inserted did not have an empty inner root. -/
theorem fanout_of_insert {t t' : Tree B K V} (ht : TreeOk rel g t) {k : K} {v : V} (h : t.insert k v = .ok t') :
    1 ≤ t.level → 1 ≤ t.root.fanout := by
  intro hl
  rcases Nat.eq_zero_or_pos t.root.fanout with h0 | h0
  · rw [insert_empty_inner ht hl h0] at h; simp at h
  · exact h0

theorem fanout_of_insertUnique [BEq K] {t : Tree B K V} (ht : TreeOk rel g t) {k : K} {v : V} {r}
    (h : t.insertUnique k v = .ok r) : 1 ≤ t.level → 1 ≤ t.root.fanout := by
  intro hl
  rcases Nat.eq_zero_or_pos t.root.fanout with h0 | h0
  · rw [insertUnique_empty_inner ht hl h0] at h; simp at h
  · exact h0

/-- Post-condition of `insert_unique` on a tree. -/
def TreeUniquePost [BEq K] (complete : Prop) (k : K) (v : V) (es es' : List (K × V)) : Option V → Prop
  | none => es'.Perm ((k, v) :: es) ∧ (complete → ∀ e ∈ es, (e.1 == k) = false)
  | some old => ∃ x k' y, es = x ++ (k', old) :: y ∧ (k' == k) = true ∧
      (complete → ∀ e ∈ x, (e.1 == k) = false) ∧ es' = x ++ (k', v) :: y

theorem sat_insertUnique (L : AggLaws rel) [BEq K] {t : Tree B K V} (ht : TreeOk rel g t) {complete : Prop}
    (k : K) (v : V)
    (hprune : complete → ∀ b bs, rel b bs → (Bounded.bounds k : B) ∈ bs →
      Bounds.contains b (Bounded.bounds k) = true)
    (hbq : complete → ∀ k' : K, (k' == k) = true → (Bounded.bounds k' : B) = Bounded.bounds k)
    (habs : ∀ k' : K, (k' == k) = true → ∀ b bs, rel b bs → (Bounded.bounds k' : B) ∈ bs →
      rel (Bounds.union b (Bounded.bounds k)) bs)
    (hk : g → volOk (Bounded.bounds k : B)) (hf : g → 1 ≤ t.level → 1 ≤ t.root.fanout) :
    Sat (t.insertUnique k v) (Allowed g) fun r => TreeOk rel g r.1 ∧ r.1.alloc = t.alloc ∧
      TreeUniquePost complete k v t.entries r.1.entries r.2 := by
  unfold Tree.insertUnique
  refine Sat.bind (sat_insertUniqueNode L ht.sound hprune hbq habs hk t.level t.root ht.ok hf) ?_
  rintro ⟨root, old, sib⟩ h
  cases old with
  | some old =>
    obtain ⟨rfl, h1, h2, _, hx⟩ := h
    refine ⟨⟨h1, ht.sound, fun hg hm hl => by have := ht.root hg hm hl; simp only at *; omega⟩, rfl, hx⟩
  | none =>
    obtain ⟨hp, hno⟩ := h
    cases sib with
    | none =>
      obtain ⟨h1, h2, _, h4, _⟩ := hp
      exact ⟨⟨h1, ht.sound, fun hg hm hlv => by have := ht.root hg hm hlv; simp only at *; omega⟩, rfl, h2, hno⟩
    | some s =>
      obtain ⟨l', s⟩ := s
      obtain ⟨rfl, h1, h2, h3, _, _⟩ := hp
      simp only
      refine Sat.bind (sat_branch L (t := { t with root := root }) (s := (t.level, s)) ht.sound rfl h1 h2) ?_
      rintro t' ⟨h4, h5, h6, h7, _⟩
      refine ⟨h4, h5, ?_, hno⟩
      simp only [h7]; exact h3

/-- Post-condition of `remove` on a tree. -/
def TreeRemovePost [BEq Q] (complete : Prop) (borrow : K → Q) (q : Q) (t t' : Tree B K V) : Option V → Prop
  | none => t' = t ∧ (complete → ∀ e ∈ t.entries, (borrow e.1 == q) = false)
  | some v => ∃ k, (borrow k == q) = true ∧ ((k, v) :: t'.entries).Perm t.entries

theorem sat_remove (L : AggLaws rel) [Bounded Q B] [BEq Q] {t : Tree B K V} (ht : TreeOk rel g t)
    {complete : Prop} {borrow : K → Q} {q : Q}
    (hprune : complete → ∀ b bs, rel b bs → (Bounded.bounds q : B) ∈ bs →
      Bounds.intersects b (Bounded.bounds q) = true)
    (hbq : complete → ∀ k : K, (borrow k == q) = true → (Bounded.bounds k : B) = Bounded.bounds q)
    (htwo : g → 2 ≤ t.alloc.minChildren → 1 ≤ t.level → 2 ≤ t.root.fanout) :
    Sat (t.remove borrow q) (Allowed g) fun r => TreeOk rel g r.1 ∧ r.1.alloc = t.alloc ∧
      TreeRemovePost complete borrow q t r.1 r.2 := by
  unfold Tree.remove
  refine Sat.bind (sat_removeNode L ht.sound hprune hbq t.level t.root (List.replicate t.level none) ht.ok ?_) ?_
  · intro j hj; simp [hj]
  rintro ⟨root, v, slots⟩ h
  cases v with
  | none =>
    obtain ⟨rfl, rfl, hno⟩ := h
    exact ⟨ht, rfl, rfl, hno⟩
  | some v =>
    obtain ⟨hok, hfan, hvol, ⟨k, hk, hperm⟩, hlen, hge, hslot⟩ := h
    simp only
    refine Sat.bind (sat_tryUnbranch (t := { t with root := root }) (rel := rel) hok ht.sound fun h hm hl => by
      have := htwo h hm hl; simp only at *; omega) ?_
    rintro t1 ⟨h1, h2, h3, h4⟩
    simp only at h2 h3
    have hll : slots.length = t.level := by simpa using hlen
    refine Sat.bind (sat_reinsert L h1 (l := slots.zipIdx) ?_) ?_
    · intro ch j hm
      rw [List.mem_zipIdx_iff_getElem?] at hm
      have hj : j < slots.length := by
        rcases Nat.lt_or_ge j slots.length with h' | h'
        · exact h'
        · simp [List.getElem?_eq_none h'] at hm
      exact ⟨by rw [h2]; exact hslot j ch (by omega) hm, by omega⟩
    · rintro t2 ⟨h5, h6, h7⟩
      refine ⟨h5, by rw [h6, h2], k, hk, ?_⟩
      have hmap : slots.zipIdx.map (·.1) = slots := by simp
      rw [hmap, h4] at h7
      have hrep : slotsEntries (List.replicate t.level none : Reinsert B K V) = [] := by
        simp [slotsEntries, List.flatMap_replicate]
      rw [hrep, List.append_nil] at hperm
      simp only [Tree.entries] at *
      refine ((h7.trans List.perm_append_comm).cons _).trans ?_
      simpa using hperm

/-- Post-condition of `get_mut` on a tree. -/
def TreeGetMutPost [BEq Q] (rel : B → List B → Prop) (g : Prop) (complete : Prop) (borrow : K → Q) (q : Q)
    (t : Tree B K V) : Option (V × (V → Tree B K V)) → Prop
  | none => complete → ∀ e ∈ t.entries, (borrow e.1 == q) = false
  | some (v, back) => ∃ x k y, t.entries = x ++ (k, v) :: y ∧ (borrow k == q) = true ∧
      (complete → ∀ e ∈ x, (borrow e.1 == q) = false) ∧
      ∀ v', TreeOk rel g (back v') ∧ (back v').alloc = t.alloc ∧ (back v').level = t.level ∧
        (back v').entries = x ++ (k, v') :: y

theorem sat_getMut [Bounded Q B] [BEq Q] {t : Tree B K V} (ht : TreeOk rel g t)
    {complete : Prop} {borrow : K → Q} {q : Q}
    (hprune : complete → ∀ b bs, rel b bs → (Bounded.bounds q : B) ∈ bs →
      Bounds.contains b (Bounded.bounds q) = true)
    (hbq : complete → ∀ k : K, (borrow k == q) = true → (Bounded.bounds k : B) = Bounded.bounds q) :
    Sat (t.getMut borrow q) (fun _ => False) (TreeGetMutPost rel g complete borrow q t) := by
  unfold Tree.getMut
  refine Sat.bind (sat_getMutNode hprune hbq t.level t.root ht.ok) ?_
  intro r hr
  cases r with
  | none => exact hr
  | some vb =>
    obtain ⟨v, back⟩ := vb
    obtain ⟨x, k, y, hx, hk, hno, hb⟩ := hr
    refine ⟨x, k, y, hx, hk, hno, fun v' => ?_⟩
    obtain ⟨h1, h2, h3, h4⟩ := hb v'
    exact ⟨⟨h1, ht.sound, fun h hm hl => by simp only [h4]; exact ht.root h hm hl⟩, rfl, rfl, h2⟩

theorem cloneNode_spec {a : Alloc} {l : Nat} {n : Node B K V} (h : Ok rel a g l n) :
    cloneNode a l n = .ok n := by
  induction l generalizing n with
  | zero =>
    obtain ⟨b, es, rfl, _, hlen, _⟩ := h.leaf
    simp only [cloneNode, Node.leafChildren, ok_bind, Vec.clone_spec _ _ hlen]; rfl
  | succ l ih =>
    obtain ⟨b, cs, rfl, _, hlen, hcs⟩ := h.inner
    have key : ∀ (cs acc : List (Node B K V)), (∀ c ∈ cs, ChildOk rel a g l c) →
        acc.length + cs.length ≤ a.maxChildren →
        cs.foldlM (fun acc c => do Vec.push a.maxChildren acc (← cloneNode a l c)) acc = .ok (acc ++ cs) := by
      intro cs
      induction cs with
      | nil => intro acc _ _; simp
      | cons c cs ihc =>
        intro acc hcs hlen
        simp only [List.length_cons] at hlen
        have hp : Vec.push a.maxChildren acc c = .ok (acc ++ [c]) := by
          unfold Vec.push; rw [if_neg (by omega)]
        rw [List.foldlM_cons, ih (hcs c (by simp)).1]
        simp only [ok_bind, hp]
        rw [ihc _ (fun c' h => hcs c' (by simp [h])) (by simp; omega)]
        simp
    simp only [cloneNode, Node.innerChildren, ok_bind]
    rw [key cs [] hcs (by simpa using hlen)]
    rfl

theorem lenNode_spec {a : Alloc} {l : Nat} {n : Node B K V} (h : Ok rel a g l n) :
    lenNode l n = .ok n.entries.length := by
  induction l generalizing n with
  | zero =>
    obtain ⟨b, es, rfl, _⟩ := h.leaf
    simp [lenNode, Node.leafChildren]
  | succ l ih =>
    obtain ⟨b, cs, rfl, _, _, hcs⟩ := h.inner
    have key : ∀ (cs : List (Node B K V)) (n : Nat), (∀ c ∈ cs, ChildOk rel a g l c) →
        cs.foldlM (fun size c => do pure (size + (← lenNode l c))) n = .ok (n + (entriesList cs).length) := by
      intro cs
      induction cs with
      | nil => intro n _; simp
      | cons c cs ihc =>
        intro n hcs
        rw [List.foldlM_cons, ih (hcs c (by simp)).1]
        rw [ok_bind, pure_eq_ok, ok_bind, ihc _ fun c' h => hcs c' (by simp [h])]
        simp; omega
    simp only [lenNode, Node.innerChildren, ok_bind]
    rw [key cs 0 hcs]; simp

end

/-- Volume laws that promise nothing; used where panics are not at issue. -/
@[reducible] def trivialVolumeLaws [Bounds B] [Volume B] : VolumeLaws B where
  volOk _ := False
  union h _ := h
  unionAll {bs} hne h := by
    cases bs with
    | nil => exact hne rfl
    | cons b bs => exact h b (by simp)
  volume h := h.elim
  sub h := h.elim

end RTree
