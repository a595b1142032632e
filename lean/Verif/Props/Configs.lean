import Verif.Proofs.Configs
import Verif.Props.Limits
/-!
# Which configurations are safe (C78)

`RTree::new` takes any `max_children` and `min_children`.  Exactly those with both at least two are safe: no history
panics.  For every other configuration there is a history of insertions and removals that panics.
-/

namespace RTree

/-- Client code: a key type with infinitely many different keys, all with the same bounds (a unit square): nothing
    about the geometry can go wrong. -/
structure Tag where
  tag : Nat
  deriving DecidableEq

instance : Bounded Tag (AABB I32 2) := ⟨fun _ => box 0 0 1 1⟩

instance : LawfulKey Tag (AABB I32 2) where
  bounds_eq _ := rfl

theorem tag_valid (k : Tag) : LawfulBounds.valid (Bounded.bounds k : AABB I32 2) :=
  box_valid (b := box 0 0 1 1) (by decide +kernel)

theorem tag_normal (k : Tag) : Normal (Bounded.bounds k : AABB I32 2) := by
  show Bounds.union Bounds.empty (box 0 0 1 1) = box 0 0 1 1
  decide +kernel

/-- Distinct keys. -/
def tags (n : Nat) : List Tag := (List.range n).map Tag.mk

theorem tags_length (n : Nat) : (tags n).length = n := by simp [tags]

theorem tags_nodup (n : Nat) : (tags n).Nodup := by
  unfold tags
  exact List.Pairwise.map _ (fun a b hab h => hab (Tag.mk.inj h)) List.nodup_range

variable {V : Type} {c : Config}

theorem not_calm_max_zero (hM : c.maxChildren = 0) (v : V) : ¬ Calm (Tree.new c : Tree (AABB I32 2) Tag V) := by
  intro h
  obtain ⟨M, m⟩ := c
  simp only at hM; subst hM
  obtain ⟨t, ht, -⟩ := h.insert ⟨0⟩ v
  exact absurd ht (by intro h; cases h)

theorem not_calm_max_one (hM : c.maxChildren = 1) (v : V) : ¬ Calm (Tree.new c : Tree (AABB I32 2) Tag V) := by
  intro h
  obtain ⟨M, m⟩ := c
  simp only at hM; subst hM
  obtain ⟨t, ht, hc⟩ := h.insert ⟨0⟩ v
  obtain ⟨t', ht', -⟩ := hc.insert ⟨1⟩ v
  have e : (Tree.new ⟨1, m⟩ : Tree (AABB I32 2) Tag V).insert ⟨0⟩ v =
      .ok ⟨⟨m, 1⟩, 0, .leaf (Bounds.union Bounds.empty (box 0 0 1 1)) [(⟨0⟩, v)]⟩ := rfl
  rw [e] at ht
  simp only [Except.ok.injEq] at ht
  subst ht
  unfold Tree.insert Tree.insertEntry at ht'
  obtain ⟨⟨root, sib⟩, h1, h2⟩ := bind_eq_ok.1 ht'
  unfold insertNode at h1
  rw [if_neg (by simp [NodeEntry.targetLevel])] at h1
  simp only [selfInsert, Node.leafChildren, ok_bind, Vec.tryPush] at h1
  simp only [List.length_singleton, if_true] at h1
  obtain ⟨r, -, h1⟩ := bind_eq_ok.1 h1
  simp only [pure_eq_ok, Except.ok.injEq, Prod.mk.injEq] at h1
  obtain ⟨rfl, rfl⟩ := h1
  simp only [Tree.branch] at h2
  rw [if_neg (by simp)] at h2
  simp [Vec.push] at h2

theorem not_calm_min_zero (hM : 2 ≤ c.maxChildren) (hm : c.minChildren = 0) (v : V) :
    ¬ Calm (Tree.new c : Tree (AABB I32 2) Tag V) := by
  intro h
  let _ : VolumeLaws (AABB I32 2) := trivialVolumeLaws
  obtain ⟨t, hr, hc, hw, hp⟩ := h.grow hM v (tags (c.maxChildren + 1))
  have hl : 1 ≤ t.level := by
    rcases Nat.eq_zero_or_pos t.level with h0 | h0
    · have h1 := hr.treeOk_any.1.ok.entries_le
      rw [hr.treeOk_any.2, h0] at h1
      have h2 := hp.length_eq
      rw [tags_length, List.length_map] at h2
      simp only [Tree.entries, Nat.zero_add, Nat.pow_one] at h1 h2
      omega
    · exact h0
  obtain ⟨t', hc', hr', hl', hf', he'⟩ := hc.hollow hm tag_valid hr hl (hw.root hl) hp
  refine insert_no_volume (k := (⟨0⟩ : Tag)) (v := v) hr'.shape hl' hf' (fun n hn => ?_)
    ⟨_, (hc'.insert ⟨0⟩ v).choose_spec.1⟩
  have hb : n.bounds = Bounds.empty := by
    have hok := hr'.treeOk_isUnion.ok
    obtain ⟨a, level, root⟩ := t'
    cases level with
    | zero => simp at hl'
    | succ l =>
      obtain ⟨b, cs, hroot, -, -, hcs⟩ := hok.inner
      simp only at hroot; subst hroot
      have hne : n.entries = [] := by
        refine List.eq_nil_iff_forall_not_mem.2 fun e hmem => ?_
        have : e ∈ entriesList cs := mem_entriesList.2 ⟨n, hn, hmem⟩
        simp only [Tree.entries, entries_inner] at he'
        rw [he'] at this
        simp at this
      have := (hcs n hn).1.agg
      rw [hne] at this
      rw [this (by simp)]
      exact unionAll_nil
  rw [hb]
  decide +kernel

theorem not_calm_min_one (hM : 2 ≤ c.maxChildren) (hm : c.minChildren = 1) (v : V) :
    ¬ Calm (Tree.new c : Tree (AABB I32 2) Tag V) := by
  intro h
  let _ : VolumeLaws (AABB I32 2) := trivialVolumeLaws
  obtain ⟨t, hr, hc, hw, hp⟩ := h.grow hM v (tags (c.maxChildren ^ 2 + 1))
  have hal := hr.treeOk_any.2
  have hl : 2 ≤ t.level := by
    rcases Nat.lt_or_ge t.level 2 with h0 | h0
    · have h1 := hr.treeOk_any.1.ok.entries_le
      rw [hal] at h1
      have h2 := hp.length_eq
      rw [tags_length, List.length_map] at h2
      have h3 : c.maxChildren ^ (t.level + 1) ≤ c.maxChildren ^ 2 := Nat.pow_le_pow_right (by omega) (by omega)
      simp only [Tree.entries] at h1 h2
      omega
    · exact h0
  have hf := hw.root (by omega)
  -- two entries below different children of the root
  have hnd : (t.entries.map Prod.fst).Nodup := hp.nodup_iff.2 (tags_nodup _)
  have key : ∃ e1 e2, e1 ∈ t.entries ∧ e2 ∈ t.entries ∧ e1.1 ≠ e2.1 ∧
      ∀ n ∈ t.root.childNodes, ¬ (e1 ∈ n.entries ∧ e2 ∈ n.entries) := by
    have hok := hr.treeOk_any.1.ok
    obtain ⟨a, level, root⟩ := t
    simp only at hal hok hl hf hnd
    cases level with
    | zero => omega
    | succ l =>
      obtain ⟨b, cs, rfl, -, -, hcs⟩ := hok.inner
      simp only [Node.fanout] at hf
      match cs, hf, hcs, hnd with
      | n1 :: n2 :: cs, _, hcs, hnd =>
        have ne : ∀ n ∈ n1 :: n2 :: cs, ∃ e, e ∈ n.entries := by
          intro n hn
          have h1 := (hcs n hn).2.2 (by rw [hal]; simp only; omega)
          have h2 := (hcs n hn).1.fanout_le_entries (by rw [hal]; simp only; omega)
          exact List.exists_mem_of_ne_nil _ (by intro h0; rw [h0] at h2; simp at h2; omega)
        obtain ⟨e1, h1⟩ := ne n1 (by simp)
        obtain ⟨e2, h2⟩ := ne n2 (by simp)
        simp only [Tree.entries, entries_inner, entriesList_cons, List.map_append] at hnd
        have hd := List.nodup_append.1 hnd
        have hd2 := List.nodup_append.1 hd.2.1
        refine ⟨e1, e2, by simp [Tree.entries, h1], by simp [Tree.entries, h2], ?_, ?_⟩
        · exact hd.2.2 _ (List.mem_map_of_mem h1) _ (List.mem_append_left _ (List.mem_map_of_mem h2))
        · rintro n hn ⟨a1, a2⟩
          simp only [Node.childNodes, List.mem_cons] at hn
          rcases hn with rfl | rfl | hn
          · exact hd.2.2 _ (List.mem_map_of_mem a2) _ (List.mem_append_left _ (List.mem_map_of_mem h2)) rfl
          · exact hd.2.2 _ (List.mem_map_of_mem h1) _ (List.mem_append_left _ (List.mem_map_of_mem a1)) rfl
          · exact hd.2.2 _ (List.mem_map_of_mem h1) _ (List.mem_append_right _ (List.mem_map_of_mem
              (mem_entriesList.2 ⟨n, hn, a1⟩))) rfl
  obtain ⟨e1, e2, m1, m2, hne, hsep⟩ := key
  have hks : ∃ ks, (t.entries.map Prod.fst).Perm (ks ++ [e1.1, e2.1]) := by
    have k1 : e1.1 ∈ t.entries.map Prod.fst := List.mem_map_of_mem m1
    have k2 : e2.1 ∈ (t.entries.map Prod.fst).erase e1.1 :=
      (List.mem_erase_of_ne fun h => hne h.symm).2 (List.mem_map_of_mem m2)
    refine ⟨((t.entries.map Prod.fst).erase e1.1).erase e2.1, ?_⟩
    refine (List.perm_cons_erase k1).trans (((List.perm_cons_erase k2).cons _).trans ?_)
    exact List.perm_append_comm (l₁ := [e1.1, e2.1])
  obtain ⟨ks, hks⟩ := hks
  obtain ⟨t', hc', hr', hl', hp'⟩ := hc.isolate hm tag_valid hr hl hsep hks (hks.nodup_iff.1 hnd) m1 m2
  exact hc'.empty_root hm tag_valid hr' hl' hp'

/-- C78: with `min_children ≥ 2` and `max_children ≥ 2` no history panics (`C02_no_panic` says so for all key types whose
    volumes can be computed). -/
theorem C78_safe (hs : c.Safe) (ops : List (Op (AABB I32 2) Tag V)) : ∃ t, run (Tree.new c) ops = .ok t := by
  let _ : VolumeLaws (AABB I32 2) := sampleLaws
  exact C02_no_panic hs fun op _ k _ => show (box 0 0 1 1).InWindow (i32 (-1000)) (i32 1000) from
    (show SampleKey (box 0 0 1 1) by decide +kernel).1

/-- C78: for every other configuration some history of insertions and removals panics, although all keys have the same small
    square as their bounds. -/
theorem C78_only_safe (hs : ¬ c.Safe) (v : V) :
    ∃ (ops : List (Op (AABB I32 2) Tag V)) (p : Panic),
      (∀ op ∈ ops, (∃ k w, op = .insert k w) ∨ ∃ k, op = .remove k) ∧ run (Tree.new c) ops = .error p := by
  have h : ¬ Calm (Tree.new c : Tree (AABB I32 2) Tag V) := by
    rcases Nat.lt_or_ge c.maxChildren 2 with hM | hM
    · rcases Nat.eq_zero_or_pos c.maxChildren with h0 | h0
      · exact not_calm_max_zero h0 v
      · exact not_calm_max_one (by omega) v
    · unfold Config.Safe at hs
      rcases Nat.eq_zero_or_pos c.minChildren with h0 | h0
      · exact not_calm_min_zero hM h0 v
      · exact not_calm_min_one hM (by omega) v
  unfold Calm at h
  obtain ⟨ops, ho⟩ := Classical.not_forall.1 h
  obtain ⟨hb, ho⟩ := Classical.not_imp.1 ho
  cases hr : run (Tree.new c : Tree (AABB I32 2) Tag V) ops with
  | ok t => exact absurd ⟨t, hr⟩ ho
  | error p => exact ⟨ops, p, hb, hr⟩

/-- C78: exactly the configurations with `min_children ≥ 2` and `max_children ≥ 2` are safe. -/
theorem C78_safe_iff : c.Safe ↔ ∀ ops : List (Op (AABB I32 2) Tag Unit), ∃ t, run (Tree.new c) ops = .ok t := by
  refine ⟨fun h => C78_safe h, fun h => Classical.byContradiction fun hs => ?_⟩
  obtain ⟨ops, p, -, ho⟩ := C78_only_safe hs ()
  obtain ⟨t, ht⟩ := h ops
  rw [ho] at ht
  cases ht

example : Config.Safe ⟨2, 3⟩ ∧ Config.Safe ⟨4, 4⟩ ∧ ¬ Config.Safe ⟨4, 1⟩ ∧ ¬ Config.Safe ⟨1, 4⟩ := by
  unfold Config.Safe; decide

end RTree
