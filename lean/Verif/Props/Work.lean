import Verif.Proofs.WorkTree
import Verif.Props.Configs
import Mathlib.Data.Nat.Log
/-!
# How often the operations call user code (C82)

`Work.Tree.insert t k v 0` is `insert` of the model with the calls of user code counted (`Verif/Model/Work.lean`): it ends with `.ok (t', j)` if `insert` returned
the tree `t'` after `j` calls.  The theorems say that it computes the same as `insert`, and bound `j`.
-/

namespace RTree

variable {B K V Q : Type} [Bounds B] [Volume B] [Bounded K B] [BEq K]
variable {c : Config} {P : K → Prop} {t t' : Tree B K V}

/-- The nodes of the tree a search enters: the root, and every node whose bounds and those of all nodes above it, the root excepted, satisfy `p`. -/
def Tree.entered (p : B → Bool) (t : Tree B K V) : Nat := Work.touched p t.root

mutual

theorem touched_le_descendants (p : B → Bool) : ∀ n : Node B K V, Work.touched p n ≤ n.descendants.length + 1
  | .leaf _ _ => by rw [Work.touched]; omega
  | .inner _ cs => by
    have := touchedList_le_descendants p cs
    rw [Work.touched, Node.descendants]
    omega

theorem touchedList_le_descendants (p : B → Bool) : ∀ cs : List (Node B K V), Work.touchedList p cs ≤ (descendantsList cs).length
  | [] => by rw [Work.touchedList]; omega
  | c :: cs => by
    have h1 := touched_le_descendants p c
    have h2 := touchedList_le_descendants p cs
    rw [Work.touchedList, descendantsList, List.length_cons, List.length_append]
    split <;> omega

end

/-- A search enters no node twice: at most as many as the tree has. -/
theorem entered_le (p : B → Bool) (t : Tree B K V) : t.entered p ≤ t.nodes.length := by
  have := touched_le_descendants p t.root
  unfold Tree.entered Tree.nodes
  rw [List.length_cons]
  exact this

/-- C82: an insertion calls user code at most `6 M² + 16 M + 4` times for each level of the tree, and once more if the root is split; `M` is `max_children`.
    Whatever user code answers. -/
theorem C82_insert (h : Reachable c P t) (k : K) (v : V) :
    (∀ t', t.insert k v = .ok t' → ∃ j, Work.Tree.insert t k v 0 = .ok (t', j) ∧
      j ≤ (t.level + 1) * (6 * (c.maxChildren * c.maxChildren) + 16 * c.maxChildren + 4) + 1) ∧
    ∀ e, t.insert k v = .error e → Work.Tree.insert t k v 0 = .error e := by
  let _ : VolumeLaws B := trivialVolumeLaws
  have hd := Work.Tree.does_insert k v h.treeOk_any.1.ok
  rw [h.treeOk_any.2] at hd
  refine ⟨fun t' ht => ?_, fun e he => hd.error e he 0⟩
  obtain ⟨j, hj, e⟩ := hd.ok t' ht 0
  exact ⟨j, by rw [e, Nat.zero_add], hj⟩

/-- The level of a tree is at most the logarithm of its size. -/
theorem level_le_log [VolumeLaws B] (h2 : 2 ≤ c.minChildren) (hm : 2 * c.minChildren ≤ c.maxChildren)
    (hP : ∀ k, P k → VolumeLaws.volOk (Bounded.bounds k : B)) (h : Reachable c P t) {n : Nat} (hn : t.len = .ok n) : t.level ≤ Nat.log c.minChildren n := by
  rcases Nat.eq_zero_or_pos t.level with h0 | h1
  · omega
  · have := C24_log_height h2 hm hP h h1 hn
    exact Nat.le_log_of_pow_le (by omega) (by omega)

/-- C82: an insertion into a tree of `n` entries calls user code at most `(log n + 1) (6 M² + 16 M + 4) + 1` times, the logarithm to base `min_children`, if
    `2 min_children ≤ max_children`. -/
theorem C82_insert_log [VolumeLaws B] (h2 : 2 ≤ c.minChildren) (hm : 2 * c.minChildren ≤ c.maxChildren)
    (hP : ∀ k, P k → VolumeLaws.volOk (Bounded.bounds k : B)) (h : Reachable c P t) {n : Nat} (hn : t.len = .ok n) {k : K} (hk : P k) (v : V) :
    ∃ t' j, t.insert k v = .ok t' ∧ Work.Tree.insert t k v 0 = .ok (t', j) ∧
      j ≤ (Nat.log c.minChildren n + 1) * (6 * (c.maxChildren * c.maxChildren) + 16 * c.maxChildren + 4) + 1 := by
  obtain ⟨t', ht⟩ := (C02_no_panic_calls ⟨h2, by omega⟩ hP h).1 k v hk
  obtain ⟨j, hw, hj⟩ := (C82_insert h k v).1 t' ht
  refine ⟨t', j, ht, hw, Nat.le_trans hj (Nat.add_le_add_right (Nat.mul_le_mul_right _ ?_) _)⟩
  have := level_le_log h2 hm hP h hn
  omega

/-- C82: a lookup calls user code at most `2 M` times in every node it enters; it enters the root and those nodes whose bounds, and those of the nodes above,
    contain the bounds of the key. -/
theorem C82_get [Bounded Q B] [BEq Q] (h : Reachable c P t) (borrow : K → Q) (q : Q) :
    (∀ r, t.get borrow q = .ok r → ∃ j, Work.Tree.get borrow t q 0 = .ok (r, j) ∧
      j ≤ 2 * (c.maxChildren * t.entered fun b => Bounds.contains b (Bounded.bounds q))) ∧
    ∀ e, t.get borrow q = .error e → Work.Tree.get borrow t q 0 = .error e := by
  let _ : VolumeLaws B := trivialVolumeLaws
  have hd := Work.Tree.does_get borrow q h.treeOk_any.1.ok
  rw [h.treeOk_any.2] at hd
  refine ⟨fun r hr => ?_, fun e he => hd.error e he 0⟩
  obtain ⟨j, hj, e⟩ := hd.ok r hr 0
  exact ⟨j, by rw [e, Nat.zero_add], hj⟩

/-- C82 for `get_mut`. -/
theorem C82_get_mut [Bounded Q B] [BEq Q] (h : Reachable c P t) (borrow : K → Q) (q : Q) :
    (∀ r, t.getMut borrow q = .ok r → ∃ j, Work.Tree.getMut borrow t q 0 = .ok (r, j) ∧
      j ≤ 2 * (c.maxChildren * t.entered fun b => Bounds.contains b (Bounded.bounds q))) ∧
    ∀ e, t.getMut borrow q = .error e → Work.Tree.getMut borrow t q 0 = .error e := by
  let _ : VolumeLaws B := trivialVolumeLaws
  have hd := Work.Tree.does_getMut borrow q h.treeOk_any.1.ok
  rw [h.treeOk_any.2] at hd
  refine ⟨fun r hr => ?_, fun e he => hd.error e he 0⟩
  obtain ⟨j, hj, e⟩ := hd.ok r hr 0
  exact ⟨j, by rw [e, Nat.zero_add], hj⟩

/-- C82: `insert_unique` calls user code at most `6 M² + 19 M + 5` times for each level, and what a lookup calls. -/
theorem C82_insert_unique (h : Reachable c P t) (k : K) (v : V) :
    (∀ r, t.insertUnique k v = .ok r → ∃ j, Work.Tree.insertUnique t k v 0 = .ok (r, j) ∧
      j ≤ (t.level + 1) * (6 * (c.maxChildren * c.maxChildren) + 19 * c.maxChildren + 5) +
        2 * (c.maxChildren * t.entered fun b => Bounds.contains b (Bounded.bounds k)) + 1) ∧
    ∀ e, t.insertUnique k v = .error e → Work.Tree.insertUnique t k v 0 = .error e := by
  let _ : VolumeLaws B := trivialVolumeLaws
  have hd := Work.Tree.does_insertUnique k v h.treeOk_any.1.ok
  rw [h.treeOk_any.2] at hd
  refine ⟨fun r hr => ?_, fun e he => hd.error e he 0⟩
  obtain ⟨j, hj, e⟩ := hd.ok r hr 0
  have hc : Work.uniqueCost c.maxChildren = 6 * (c.maxChildren * c.maxChildren) + 19 * c.maxChildren + 5 := by
    unfold Work.uniqueCost Work.levelCost; omega
  rw [hc] at hj
  exact ⟨j, by rw [e, Nat.zero_add], hj⟩

/-- C82: a removal calls user code at most `5 M + 1` times in every node it enters - the root, and those nodes whose bounds, and those of the nodes above, intersect
    the bounds of the key - and then reinserts less than `m` entries or nodes per level, with the calls of an insertion into a tree of the final height each; `m` is
    `min_children`. -/
theorem C82_remove [Bounded Q B] [BEq Q] (h : Reachable c P t) (borrow : K → Q) (q : Q) :
    (∀ t' r, t.remove borrow q = .ok (t', r) → ∃ j, Work.Tree.remove borrow t q 0 = .ok ((t', r), j) ∧
      j ≤ (5 * c.maxChildren + 1) * (t.entered fun b => Bounds.intersects b (Bounded.bounds q)) +
        t.level * ((c.minChildren - 1) * ((t'.level + 1) * (6 * (c.maxChildren * c.maxChildren) + 16 * c.maxChildren + 4) + 1))) ∧
    ∀ e, t.remove borrow q = .error e → Work.Tree.remove borrow t q 0 = .error e := by
  let _ : VolumeLaws B := trivialVolumeLaws
  have hd := Work.Tree.does_remove anyLaws borrow q h.treeOk_any.1
  rw [h.treeOk_any.2] at hd
  refine ⟨fun t' r hr => ?_, fun e he => hd.error e he 0⟩
  obtain ⟨j, hj, e⟩ := hd.ok (t', r) hr 0
  exact ⟨j, by rw [e, Nat.zero_add], hj⟩

/-- A removal adds no entries. -/
theorem removed_length [Bounded Q B] [BEq Q] (h : Reachable c P t) {borrow : K → Q} {q : Q} {r : Option V} (ht : t.remove borrow q = .ok (t', r)) :
    t'.entries.length ≤ t.entries.length := by
  let _ : VolumeLaws B := trivialVolumeLaws
  have hp := Work.sat_ok (sat_remove anyLaws h.treeOk_any.1 (complete := False) (borrow := borrow) (q := q) (fun h => h.elim) (fun h => h.elim) fun h => h.elim) ht
  cases r with
  | none =>
    have : t' = t := hp.2.2.1
    rw [this]
  | some v =>
    obtain ⟨k, -, hp⟩ := hp.2.2
    have := hp.length_eq
    rw [List.length_cons] at this
    dsimp only at this
    omega

/-- C82: a removal from a tree of `n` entries enters nodes at `5 M + 1` calls each, and reinserts with at most
    `log n (m - 1) ((log n + 1) (6 M² + 16 M + 4) + 1)` calls, the logarithm to base `min_children`. -/
theorem C82_remove_log [VolumeLaws B] [Bounded Q B] [BEq Q] (h2 : 2 ≤ c.minChildren) (hm : 2 * c.minChildren ≤ c.maxChildren)
    (hP : ∀ k, P k → VolumeLaws.volOk (Bounded.bounds k : B)) (h : Reachable c P t) {n : Nat} (hn : t.len = .ok n) (borrow : K → Q) (q : Q) :
    ∃ t' r j, t.remove borrow q = .ok (t', r) ∧ Work.Tree.remove borrow t q 0 = .ok ((t', r), j) ∧
      j ≤ (5 * c.maxChildren + 1) * (t.entered fun b => Bounds.intersects b (Bounded.bounds q)) +
        Nat.log c.minChildren n * ((c.minChildren - 1) *
          ((Nat.log c.minChildren n + 1) * (6 * (c.maxChildren * c.maxChildren) + 16 * c.maxChildren + 4) + 1)) := by
  obtain ⟨⟨t', r⟩, ht⟩ := ((C02_no_panic_calls ⟨h2, by omega⟩ hP h).2.2.1 Q borrow q).1
  obtain ⟨j, hw, hj⟩ := (C82_remove h borrow q).1 t' r ht
  have h' : Reachable c P t' := .remove borrow h ht
  have hlen : t'.entries.length ≤ n := by
    have h0 := C08_len h h.iter_eq
    rw [hn] at h0
    cases h0
    exact removed_length h ht
  have hl := level_le_log h2 hm hP h hn
  have hl' := Nat.le_trans (level_le_log h2 hm hP h' (C08_len h' h'.iter_eq)) (Nat.log_mono_right hlen)
  refine ⟨t', r, j, ht, hw, Nat.le_trans hj (Nat.add_le_add_left (Nat.mul_le_mul hl (Nat.mul_le_mul_left _ ?_)) _)⟩
  exact Nat.add_le_add_right (Nat.mul_le_mul_right _ (by omega)) _

/-! ## Lookups can be linear -/

section Linear

variable [LawfulBounds B] [Bounded Q B] [BEq Q]

omit [LawfulBounds B] [Bounded Q B] [Volume B] [Bounded K B] [BEq K] [Bounds B] in
theorem findEntry_calls {borrow : K → Q} {q : Q} : ∀ (es : List (K × V)) (k : Nat), (∀ e ∈ es, (borrow e.1 == q) = false) →
    Work.findEntry borrow q es k = .ok (none, k + 2 * es.length)
  | [], _, _ => rfl
  | e :: es, k, h => by
    have h0 := h e List.mem_cons_self
    have ih := findEntry_calls es (k + 2) fun e he => h e (List.mem_cons_of_mem _ he)
    rw [Work.findEntry]
    show (if (borrow e.1 == q) = true then (pure (some e.2) : Work.W (Option V)) else Work.findEntry borrow q es) (k + 2) = _
    rw [h0, List.length_cons]
    refine ih.trans ?_
    rw [show k + 2 + 2 * es.length = k + 2 * (es.length + 1) by omega]

omit [LawfulBounds B] [Volume B] [Bounded K B] [BEq K] [BEq Q] in
theorem getChildren_calls {q : Q} {rec : Node B K V → Work.W (Option V)} : ∀ (cs : List (Node B K V)) (k : Nat),
    (∀ c ∈ cs, Bounds.contains c.bounds (Bounded.bounds q : B) = false → c.entries = []) →
    (∀ c ∈ cs, ∀ k, ∃ j, rec c k = .ok (none, k + j) ∧ 2 * c.entries.length ≤ j) →
    ∃ j, Work.getChildren q rec cs k = .ok (none, k + j) ∧ 2 * (entriesList cs).length ≤ j
  | [], k, _, _ => ⟨0, rfl, by simp [entriesList]⟩
  | c :: cs, k, hc, hr => by
    have ih := fun k => getChildren_calls (rec := rec) cs k (fun d hd => hc d (List.mem_cons_of_mem _ hd)) fun d hd => hr d (List.mem_cons_of_mem _ hd)
    have hlen : (entriesList (c :: cs)).length = c.entries.length + (entriesList cs).length := by rw [entriesList, List.length_append]
    rw [hlen]
    have hstep : Work.getChildren q rec (c :: cs) k = (if Bounds.contains c.bounds (Bounded.bounds q : B) = true then (do
        match ← rec c with
        | some v => pure (some v)
        | none => Work.getChildren q rec cs : Work.W (Option V)) else Work.getChildren q rec cs) (k + 1 + 1) := rfl
    rw [hstep]
    cases hb : Bounds.contains c.bounds (Bounded.bounds q : B)
    · obtain ⟨j, hj, hle⟩ := ih (k + 1 + 1)
      rw [hc c List.mem_cons_self hb]
      exact ⟨2 + j, by rw [if_neg (by simp), hj]; congr 2; omega, by simp only [List.length_nil]; omega⟩
    · obtain ⟨i, hi, hile⟩ := hr c List.mem_cons_self (k + 1 + 1)
      obtain ⟨j, hj, hle⟩ := ih (k + 1 + 1 + i)
      refine ⟨2 + i + j, ?_, by omega⟩
      rw [if_pos rfl, Work.bind_of_ok hi]
      refine hj.trans ?_
      congr 2
      omega

omit [BEq K] in
theorem getNode_calls [VolumeLaws B] {a : Alloc} {borrow : K → Q} {q : Q} (hq : LawfulBounds.valid (Bounded.bounds q : B)) : ∀ (l : Nat) (n : Node B K V) (k : Nat),
    Ok Covers a False l n → (∀ e ∈ n.entries, (borrow e.1 == q) = false ∧ Enclosure.le (Bounded.bounds q : B) (Bounded.bounds e.1)) →
    ∃ j, Work.getNode borrow q l n k = .ok (none, k + j) ∧ 2 * n.entries.length ≤ j
  | 0, n, k, h, he => by
    obtain ⟨b, es, rfl, -⟩ := h.leaf
    rw [entries_leaf] at he ⊢
    exact ⟨2 * es.length, findEntry_calls es k fun e h => (he e h).1, Nat.le_refl _⟩
  | l + 1, n, k, h, he => by
    obtain ⟨b, cs, rfl, -, -, hcs⟩ := h.inner
    rw [entries_inner] at he ⊢
    have hsub : ∀ c ∈ cs, ∀ e ∈ c.entries, e ∈ entriesList cs := fun c hc e he => by
      rw [entriesList_eq]
      exact List.mem_flatMap.2 ⟨c, hc, he⟩
    refine getChildren_calls cs k (fun c hc hb => ?_) fun c hc k => getNode_calls hq l c k (hcs c hc).1 fun e hm => he e (hsub c hc e hm)
    cases hes : c.entries with
    | nil => rfl
    | cons e es =>
      have hm : e ∈ c.entries := by rw [hes]; exact List.mem_cons_self
      have h1 := (hcs c hc).1.agg (entryBounds e) (List.mem_map.2 ⟨e, hm, rfl⟩)
      have h2 := (he e (hsub c hc e hm)).2
      have := LawfulBounds.contains_of_le hq (Enclosure.le_trans h2 h1)
      rw [hb] at this
      cases this

/-- C82, the limit of the bound for lookups: if the bounds of all `n` keys enclose those of a key that is not there, looking for it calls user code at least `2 n` times:
    no bound by the height of the tree is possible. -/
theorem C82_get_linear (h : Reachable c P t) {borrow : K → Q} {q : Q} (hq : LawfulBounds.valid (Bounded.bounds q : B)) {es : List (K × V)} (hes : t.iter = .ok es)
    (habs : ∀ e ∈ es, (borrow e.1 == q) = false ∧ Enclosure.le (Bounded.bounds q : B) (Bounded.bounds e.1)) :
    ∃ j, Work.Tree.get borrow t q 0 = .ok (none, j) ∧ 2 * es.length ≤ j := by
  let _ : VolumeLaws B := trivialVolumeLaws
  obtain rfl : t.entries = es := by simpa [h.iter_eq] using hes
  obtain ⟨j, hj, hle⟩ := getNode_calls (borrow := borrow) hq t.level t.root 0 h.treeOk_covers.ok habs
  exact ⟨j, by rw [← Nat.zero_add j]; exact hj, hle⟩

end Linear

/-- C82, the limit of the bound for lookups, reached: for every safe configuration and every `n` there is a tree of `n` entries with different keys in which looking for
    an absent key calls user code at least `2 n` times. -/
theorem C82_get_linear_reached (hs : c.Safe) (n : Nat) (v : V) :
    ∃ (t : Tree (AABB I32 2) Tag V) (q : Tag) (j : Nat), Reachable c (fun _ => True) t ∧ t.len = .ok n ∧
      Work.Tree.get id t q 0 = .ok (none, j) ∧ 2 * n ≤ j := by
  have hcalm : Calm (Tree.new c : Tree (AABB I32 2) Tag V) := fun ops _ => C78_safe hs ops
  obtain ⟨t, hr, -, -, hp⟩ := hcalm.grow hs.2 v (tags n)
  have hlen : t.entries.length = n := by
    have := hp.length_eq
    rw [List.length_map, tags_length] at this
    exact this
  obtain ⟨j, hj, hle⟩ := C82_get_linear (Q := Tag) hr (borrow := id) (q := ⟨n⟩) (tag_valid _) hr.iter_eq (fun e he => by
    refine ⟨?_, Enclosure.le_refl _⟩
    have hm : e.1 ∈ tags n := hp.mem_iff.1 (List.mem_map.2 ⟨e, he, rfl⟩)
    unfold tags at hm
    obtain ⟨i, hi, hei⟩ := List.mem_map.1 hm
    rw [List.mem_range] at hi
    rw [← hei]
    refine beq_eq_false_iff_ne.2 fun h => ?_
    have := Tag.mk.inj h
    omega)
  refine ⟨t, ⟨n⟩, j, hr, ?_, hj, by rw [hlen] at hle; exact hle⟩
  rw [C08_len hr hr.iter_eq, hlen]

/-! ## Examples -/

example : (Work.Tree.insert sampleTree (box 3 3 4 4) 77 0).toOption.map (·.2) = some 21 := by decide +kernel

/-- The bound of `C82_insert_log` for the sample tree of nine entries. -/
example : ∃ t' j, sampleTree.insert (box 3 3 4 4) 77 = .ok t' ∧ Work.Tree.insert sampleTree (box 3 3 4 4) 77 0 = .ok (t', j) ∧
    j ≤ (Nat.log 2 9 + 1) * (6 * (4 * 4) + 16 * 4 + 4) + 1 := by
  let _ := sampleLaws
  exact C82_insert_log (c := cfg42) (by decide) (by decide) (P := SampleKey) (fun k hk => hk.1) sample_reachable (C08_len sample_reachable sample_iter)
    (k := box 3 3 4 4) (by decide +kernel) 77

example : (Work.Tree.get id sampleTree (box 9 9 12 12) 0).toOption.map (·.2) = some 14 ∧
    (sampleTree.entered fun b => Bounds.contains b (box 9 9 12 12)) = 3 ∧
    (Work.Tree.get id sampleTree (box 9 9 12 12) 0).toOption.map (·.1) = some (some 8) := by decide +kernel

example : (Work.Tree.insertUnique sampleTree (box 9 9 12 12) 77 0).toOption.map (·.1.2) = some (some 8) := by decide +kernel

example : (Work.Tree.remove id sampleTree (box 0 0 1 1) 0).toOption.map (·.2) = some 25 ∧
    (sampleTree.entered fun b => Bounds.intersects b (box 0 0 1 1)) = 2 := by decide +kernel

/-- The bound of `C82_remove_log` for the sample tree. -/
example : ∃ t' r j, sampleTree.remove id (box 0 0 1 1) = .ok (t', r) ∧ Work.Tree.remove id sampleTree (box 0 0 1 1) 0 = .ok ((t', r), j) ∧
    j ≤ (5 * 4 + 1) * (sampleTree.entered fun b => Bounds.intersects b (box 0 0 1 1)) +
      Nat.log 2 9 * ((2 - 1) * ((Nat.log 2 9 + 1) * (6 * (4 * 4) + 16 * 4 + 4) + 1)) := by
  let _ := sampleLaws
  exact C82_remove_log (c := cfg42) (by decide) (by decide) (P := SampleKey) (fun k hk => hk.1) sample_reachable (C08_len sample_reachable sample_iter) id _

/-- A lookup among five equal boxes: a point of them that is not there. -/
example : ∃ j, Work.Tree.get id equalTree (box 0 0 1 0) 0 = .ok (none, j) ∧ 2 * equalTree.entries.length ≤ j :=
  C82_get_linear equal_reachable (box_valid (by decide +kernel)) equal_reachable.iter_eq (fun e he => by
    have h : ∀ e ∈ equalTree.entries, e.1 = box 0 0 1 1 := by decide +kernel
    rw [h e he]
    refine ⟨by decide +kernel, ?_⟩
    show AABB.Le (box 0 0 1 0) (box 0 0 1 1)
    unfold AABB.Le
    decide +kernel)

end RTree
