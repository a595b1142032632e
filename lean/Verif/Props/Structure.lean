import Verif.Props.Map
/-!
# Panics and the structure of trees (C02, C19, C20, C21, C24, C31)
-/

namespace RTree

variable {B K V Q : Type} [Bounds B] [Volume B] [Bounded K B] [BEq K]
variable {c : Config} {P : K → Prop} {t t' : Tree B K V}

/-! ## C02: no panics under a safe configuration -/

section NoPanic

variable [VolumeLaws B]

private theorem ok_of_sat {α : Type} {x : Res α} {p : α → Prop} (h : Sat x (Allowed True) p) : ∃ a, x = .ok a := by
  obtain ⟨a, ha, _⟩ := h.exists_ok fun e he => he.1 trivial
  exact ⟨a, ha⟩

/-- C02: in a tree with `min_children ≥ 2` and `max_children ≥ 2` whose keys have computable volumes, no call panics: whatever the filter,
    the lookup key and the borrowed key type, and without any assumption on `Eq`, `union`, `contains`, `intersects`. -/
theorem C02_no_panic_calls (hs : c.Safe) (hP : ∀ k, P k → VolumeLaws.volOk (Bounded.bounds k : B))
    (h : Reachable c P t) :
    (∀ k v, P k → ∃ r, t.insert k v = .ok r) ∧ (∀ k v, P k → ∃ r, t.insertUnique k v = .ok r) ∧
    (∀ (Q : Type) [Bounded Q B] [BEq Q] (borrow : K → Q) (q : Q),
      (∃ r, t.remove borrow q = .ok r) ∧ (∃ r, t.get borrow q = .ok r) ∧ ∃ r, t.getMut borrow q = .ok r) ∧
    (∀ (Q : Type) (borrow : K → Q) (f : SpatialFilter B Q),
      (∃ r, t.filterIter borrow f = .ok r) ∧ ∃ r, t.filterIterMut borrow f = .ok r) ∧
    (∃ r, t.iter = .ok r) ∧ (∃ r, t.iterMut = .ok r) ∧ (∃ r, t.len = .ok r) ∧ (∃ r, t.isEmpty = .ok r) ∧
    ∃ r, t.clone = .ok r := by
  obtain ⟨ht, hroot⟩ := h.treeOk_safe hs hP
  have hf : True → 1 ≤ t.level → 1 ≤ t.root.fanout := fun _ hl => by have := hroot hl; omega
  refine ⟨fun k v hk => ok_of_sat (sat_insert anyLaws ht k v (fun _ => hP k hk) hf), fun k v hk => ?_, ?_, ?_,
    ⟨_, h.iter_eq⟩, ⟨_, C28_iter_mut h h.iter_eq⟩, ⟨_, C08_len h h.iter_eq⟩, ⟨_, C08_is_empty h ?_ h.iter_eq⟩,
    ⟨_, C25_clone h⟩⟩
  · exact ok_of_sat (sat_insertUnique anyLaws ht (complete := False) k v (fun h => h.elim) (fun h => h.elim)
      (fun _ _ _ _ _ _ => trivial) (fun _ => hP k hk) hf)
  · intro Q _ _ borrow q
    have hg := (sat_getMut ht (complete := False) (borrow := borrow) (q := q) (fun h => h.elim)
      (fun h => h.elim)).exists_ok fun _ h => h
    have hgn := (sat_getMutNode (complete := False) (borrow := borrow) (q := q) (fun h => h.elim)
      (fun h => h.elim) t.level t.root ht.ok).exists_ok fun _ h => h
    refine ⟨ok_of_sat (sat_remove anyLaws ht (complete := False) (fun h => h.elim) (fun h => h.elim)
      fun _ _ => hroot), ?_, ?_⟩
    · obtain ⟨r, hr, _⟩ := hgn
      refine ⟨r.map (·.1), ?_⟩
      unfold Tree.get
      rw [getNode_eq_getMutNode, hr]; rfl
    · obtain ⟨r, hr, _⟩ := hg; exact ⟨r, hr⟩
  · intro Q borrow f
    obtain ⟨r, hr, _⟩ := C11_filter_iter_sound h borrow f h.iter_eq
    obtain ⟨r', hr', _⟩ := C28_no_alias h borrow f
    exact ⟨⟨r, hr⟩, r', hr'⟩
  · have := hs.1; omega

/-- C02: every sequence of calls on a new tree with `min_children ≥ 2` and `max_children ≥ 2` runs to its end. -/
theorem C02_no_panic (hs : c.Safe) {ops : List (Op B K V)}
    (hP : ∀ op ∈ ops, ∀ k, op.inserts = some k → VolumeLaws.volOk (Bounded.bounds k : B)) :
    ∃ t, run (Tree.new c) ops = .ok t := by
  let P' : K → Prop := fun k => VolumeLaws.volOk (Bounded.bounds k : B)
  have key : ∀ (ops : List (Op B K V)) (t : Tree B K V), Reachable c P' t →
      (∀ op ∈ ops, ∀ k, op.inserts = some k → P' k) → ∃ t', run t ops = .ok t' := by
    intro ops
    induction ops with
    | nil => intro t _ _; exact ⟨t, rfl⟩
    | cons op ops ih =>
      intro t ht hops
      have hcalls := C02_no_panic_calls hs (P := P') (fun _ h => h) ht
      obtain ⟨c1, c2, c3, c4, ⟨c5, e5⟩, _, ⟨c6, e6⟩, ⟨c7, e7⟩, ⟨c8, e8⟩⟩ := hcalls
      have hstep : ∃ t1, op.step t = .ok t1 := by
        cases op with
        | insert k v => exact c1 k v (hops _ List.mem_cons_self k rfl)
        | insertUnique k v =>
          obtain ⟨r, hr⟩ := c2 k v (hops _ List.mem_cons_self k rfl); exact ⟨r.1, by simp only [Op.step, hr]; rfl⟩
        | remove k => obtain ⟨⟨r, hr⟩, _, _⟩ := c3 K id k; exact ⟨r.1, by simp only [Op.step, hr]; rfl⟩
        | get k => obtain ⟨_, ⟨r, hr⟩, _⟩ := c3 K id k; exact ⟨t, by simp [Op.step, hr]⟩
        | set k v =>
          obtain ⟨_, _, ⟨r, hr⟩⟩ := c3 K id k
          cases r with
          | none => exact ⟨t, by simp [Op.step, hr]⟩
          | some vb => exact ⟨vb.2 v, by simp [Op.step, hr]⟩
        | len => exact ⟨t, by simp [Op.step, e6]⟩
        | isEmpty => exact ⟨t, by simp [Op.step, e7]⟩
        | clone => exact ⟨_, e8⟩
        | iter => exact ⟨t, by simp [Op.step, e5]⟩
        | filterIter f => obtain ⟨⟨r, hr⟩, _⟩ := c4 K id f; exact ⟨t, by simp [Op.step, hr]⟩
        | filterIterMut f u =>
          obtain ⟨_, ⟨r, hr⟩⟩ := c4 K id f; exact ⟨_, by simp [Op.step, hr]; rfl⟩
      obtain ⟨t1, h1⟩ := hstep
      obtain ⟨t2, h2⟩ := ih t1 (ht.step (hops op (by simp)) h1) fun op' h' => hops op' (by simp [h'])
      exact ⟨t2, by simp only [run, List.foldlM_cons, h1, ok_bind]; exact h2⟩
  exact key ops _ .new hP

end NoPanic

/-- C02 for the boxes of the crate: in up to 33 dimensions, with `i32` coordinates of which no two are further apart than
    `i32::MAX`, no history panics. (In more dimensions volumes overflow to infinity, see `C62_high_dimension_refuted`.) -/
theorem C02_no_panic_i32_boxes {D : Nat} (hD : 0 < D) (hD33 : D ≤ 33) (hs : c.Safe) {lo hi : I32} (hw : hi.1 - lo.1 ≤ 2147483647)
    {ops : List (Op (AABB I32 D) (AABB I32 D) V)}
    (hP : ∀ op ∈ ops, ∀ k, op.inserts = some k → k.InWindow lo hi) :
    ∃ t, run (Tree.new c) ops = .ok t := by
  let _ : VolumeLaws (AABB I32 D) := AABB.windowVolumeLaws lo hi (FullRange.minVal_le _) (FullRange.le_maxVal _) hD
    (by omega) (I32.window hw)
  exact C02_no_panic hs hP

/-- C02 for points as keys. -/
theorem C02_no_panic_i32_points {D : Nat} (hD : 0 < D) (hD33 : D ≤ 33) (hs : c.Safe) {lo hi : I32} (hw : hi.1 - lo.1 ≤ 2147483647)
    {ops : List (Op (AABB I32 D) (SVec I32 D) V)}
    (hP : ∀ op ∈ ops, ∀ k, op.inserts = some k → ∀ i, lo ≤ k.get i ∧ k.get i ≤ hi) :
    ∃ t, run (Tree.new c) ops = .ok t := by
  let _ : VolumeLaws (AABB I32 D) := AABB.windowVolumeLaws lo hi (FullRange.minVal_le _) (FullRange.le_maxVal _) hD
    (by omega) (I32.window hw)
  exact C02_no_panic hs fun op h k hk i => ⟨hP op h k hk i, hP op h k hk i⟩

example : cfg42.Safe ∧ ∀ op ∈ sampleOps, ∀ k, op.inserts = some k → k.InWindow (i32 (-1000)) (i32 1000) :=
  ⟨cfg42_sound.safe, fun op h k hk => (sampleOps_keys op h k hk).1⟩

/-! ## C20: uniform height, no undefined behaviour -/

/-- C20: all leaves of a reachable tree are at the depth recorded at the root; for every configuration and every
    implementation of the traits. -/
theorem C20_uniform_height (h : Reachable c P t) : Shape t.level t.root := h.shape

/-- C20: whatever the configuration and the trait implementations, a call on a reachable tree can only fail by one of
    the four documented panics (`unwrap` on `None`, full vector, too few values to split, arithmetic): never by reading
    a node as the wrong kind, an index out of bounds, a level mismatch or an endless loop. -/
theorem C20_no_ub (h : Reachable c P t) :
    (∀ k v e, t.insert k v = .error e → UserPanic e) ∧ (∀ k v e, t.insertUnique k v = .error e → UserPanic e) ∧
    (∀ (Q : Type) [Bounded Q B] [BEq Q] (borrow : K → Q) (q : Q) e, t.remove borrow q = .error e → UserPanic e) ∧
    (∀ (Q : Type) [Bounded Q B] [BEq Q] (borrow : K → Q) (q : Q),
      (∃ r, t.get borrow q = .ok r) ∧ ∃ r, t.getMut borrow q = .ok r) ∧
    (∀ (Q : Type) (borrow : K → Q) (f : SpatialFilter B Q),
      (∃ r, t.filterIter borrow f = .ok r) ∧ ∃ r, t.filterIterMut borrow f = .ok r) ∧
    (∃ r, t.iter = .ok r) ∧ (∃ r, t.iterMut = .ok r) ∧ (∃ r, t.len = .ok r) ∧ (∃ r, t.isEmpty = .ok r) ∧
    ∃ r, t.clone = .ok r := by
  let _ : VolumeLaws B := trivialVolumeLaws
  have ht := h.treeOk_any.1
  have err : ∀ {α : Type} {x : Res α} {p : α → Prop} {e : Panic}, Sat x (Allowed False) p → x = .error e →
      UserPanic e := by
    intro α x p e hx he; subst he; exact hx.2
  refine ⟨fun k v e he => err (sat_insert anyLaws ht k v (fun h => h.elim) fun h => h.elim) he, fun k v e he => ?_, ?_, ?_, ?_,
    ⟨_, h.iter_eq⟩, ⟨_, C28_iter_mut h h.iter_eq⟩, ⟨_, C08_len h h.iter_eq⟩, ?_, ⟨_, C25_clone h⟩⟩
  · exact err (sat_insertUnique anyLaws ht (complete := False) k v (fun h => h.elim) (fun h => h.elim)
      (fun _ _ _ _ _ _ => trivial) (fun h => h.elim) fun h => h.elim) he
  · intro Q _ _ borrow q e he
    exact err (sat_remove anyLaws ht (complete := False) (fun h => h.elim) (fun h => h.elim) fun h => h.elim) he
  · intro Q _ _ borrow q
    obtain ⟨r, hr, _⟩ := (sat_getMut ht (complete := False) (borrow := borrow) (q := q) (fun h => h.elim)
      (fun h => h.elim)).exists_ok fun _ h => h
    obtain ⟨r', hr', _⟩ := (sat_getMutNode (complete := False) (borrow := borrow) (q := q) (fun h => h.elim)
      (fun h => h.elim) t.level t.root ht.ok).exists_ok fun _ h => h
    refine ⟨⟨r'.map (·.1), ?_⟩, r, hr⟩
    unfold Tree.get
    rw [getNode_eq_getMutNode, hr']; rfl
  · intro Q borrow f
    obtain ⟨r, hr, _⟩ := C11_filter_iter_sound h borrow f h.iter_eq
    obtain ⟨r', hr', _⟩ := C28_no_alias h borrow f
    exact ⟨⟨r, hr⟩, r', hr'⟩
  · have hsh := h.shape
    obtain ⟨a, level, root⟩ := t
    cases level with
    | zero =>
      obtain ⟨b, es, hr⟩ := Shape.leaf hsh
      simp only at hr; subst hr
      exact ⟨_, rfl⟩
    | succ l =>
      obtain ⟨b, es, hr, _⟩ := Shape.inner hsh
      simp only at hr; subst hr
      exact ⟨_, rfl⟩

example : Reachable cfg42 SampleKey sampleTree ∧ 0 < sampleTree.level :=
  ⟨sample_reachable, by rw [sample_level]; decide⟩

/-! ## C19: bounds of nodes -/

section

variable [VolumeLaws B] {rel : B → List B → Prop} {a : Alloc} {g : Prop}

theorem Ok.descendants {l : Nat} {n : Node B K V} (h : Ok rel a g l n) {n' : Node B K V}
    (hn : n' ∈ n.descendants) : ∃ l', ChildOk rel a g l' n' := by
  induction l generalizing n with
  | zero => obtain ⟨b, es, rfl, _⟩ := h.leaf; simp [Node.descendants] at hn
  | succ l ih =>
    obtain ⟨b, cs, rfl, _, _, hcs⟩ := h.inner
    simp only [Node.descendants, mem_descendantsList] at hn
    obtain ⟨c, hc, rfl | hn⟩ := hn
    · exact ⟨l, hcs _ hc⟩
    · exact ih (hcs c hc).1 hn

theorem Ok.nodes {t : Tree B K V} (h : Ok rel a g t.level t.root) {n : Node B K V} (hn : n ∈ t.nodes) :
    ∃ l, Ok rel a g l n := by
  rcases List.mem_cons.1 hn with rfl | hn
  · exact ⟨_, h⟩
  · obtain ⟨l, hl⟩ := h.descendants hn; exact ⟨l, hl.1⟩

end

/-- C19: the bounds recorded in every node enclose the bounds of every key below it. -/
theorem C19_bounds_cover [Enclosure B] (h : Reachable c P t) {n : Node B K V} (hn : n ∈ t.nodes) {e : K × V}
    (he : e ∈ n.entries) : Enclosure.le (Bounded.bounds e.1) n.bounds := by
  let _ : VolumeLaws B := trivialVolumeLaws
  obtain ⟨l, hl⟩ := h.treeOk_covers.ok.nodes hn
  exact hl.agg _ (List.mem_map.2 ⟨e, he, rfl⟩)

theorem Ok.entries_descendant [VolumeLaws B] {rel : B → List B → Prop} {a : Alloc} {g : Prop} {l : Nat}
    {m n : Node B K V} (h : Ok rel a g l m) (hn : n ∈ m.descendants) {e : K × V} (he : e ∈ n.entries) :
    e ∈ m.entries := by
  induction l generalizing m with
  | zero => obtain ⟨b, es, rfl, _⟩ := h.leaf; simp [Node.descendants] at hn
  | succ l ih =>
    obtain ⟨b, cs, rfl, _, _, hcs⟩ := h.inner
    simp only [Node.descendants, mem_descendantsList] at hn
    rw [entries_inner]
    obtain ⟨c, hc, rfl | hn⟩ := hn
    · exact mem_entriesList.2 ⟨_, hc, he⟩
    · exact mem_entriesList.2 ⟨c, hc, ih (hcs c hc).1 hn⟩

/-- The keys below any node of a reachable tree have been inserted. -/
theorem Reachable.keys_below (h : Reachable c P t) {n : Node B K V} (hn : n ∈ t.nodes) {e : K × V}
    (he : e ∈ n.entries) : P e.1 := by
  let _ : VolumeLaws B := trivialVolumeLaws
  rcases List.mem_cons.1 hn with rfl | hn
  · exact h.keys e he
  · exact h.keys e (h.treeOk_any.1.ok.entries_descendant hn he)

/-- C19: for bounds with an exact union (such as boxes), the bounds recorded in every node are exactly the union of
    the bounds of its children, and of the bounds of the keys below it; if `empty` is an identity of the union for the
    keys, as `Bounds` demands. -/
theorem C19_bounds_exact [ExactBounds B] [LawfulKey K B] (hP : ∀ k, P k → Normal (Bounded.bounds k : B))
    (h : Reachable c P t) {n : Node B K V} (hn : n ∈ t.nodes) :
    n.bounds = Bounds.unionAll n.childBounds ∧
      n.bounds = Bounds.unionAll (n.entries.map fun e => Bounded.bounds e.1) := by
  let _ : VolumeLaws B := trivialVolumeLaws
  obtain ⟨l, hl⟩ := h.treeOk_isUnion.ok.nodes hn
  have hnorm : ∀ x ∈ n.entries.map (entryBounds : K × V → B), Normal x := fun x hx => by
    obtain ⟨e, he, rfl⟩ := List.mem_map.1 hx
    exact hP _ (h.keys_below hn he)
  refine ⟨?_, hl.agg hnorm⟩
  cases l with
  | zero =>
    obtain ⟨b, es, rfl, hr, _⟩ := hl.leaf
    exact hr (by simpa using hnorm)
  | succ l =>
    obtain ⟨b, cs, rfl, hr, _, hcs⟩ := hl.inner
    have h2 := rel_unionAll_children isUnionLaws hcs
    rw [entries_inner] at hnorm
    exact (hr hnorm).trans (h2 hnorm).symm

/-- C19 for boxes over the integers. -/
theorem C19_box_bounds_exact {N : Type} {D : Nat} [Scalar N] [FullRange N] [BEq (AABB N D)] [LawfulBEq (AABB N D)]
    {t : Tree (AABB N D) (AABB N D) V} {P : AABB N D → Prop}
    (h : Reachable c P t) {n : Node (AABB N D) (AABB N D) V} (hn : n ∈ t.nodes) :
    n.bounds = AABB.unionAll n.childBounds := (C19_bounds_exact (fun _ _ => AABB.normal _) h hn).1

/-- C19 for keys with box bounds over any scalar type, floats included: the bounds are exact if no key lies wholly beyond
    the greatest or least finite value in some coordinate. -/
theorem C19_float_bounds_exact {N : Type} {D : Nat} [Scalar N] {K : Type} [Bounded K (AABB N D)] [BEq K]
    [LawfulKey K (AABB N D)] {t : Tree (AABB N D) K V} {P : K → Prop}
    (hP : ∀ k, P k → ∀ i, (Bounded.bounds k : AABB N D).min.get i ≤ Scalar.maxVal ∧
      Scalar.minVal ≤ (Bounded.bounds k : AABB N D).max.get i)
    (h : Reachable c P t) {n : Node (AABB N D) K V} (hn : n ∈ t.nodes) :
    n.bounds = AABB.unionAll n.childBounds ∧
      n.bounds = AABB.unionAll (n.entries.map fun e => Bounded.bounds e.1) :=
  C19_bounds_exact (fun k hk => AABB.normal_iff.2 (hP k hk)) h hn

example : Reachable cfg42 SampleKey sampleTree ∧ sampleTree.nodes.length = 4 ∧
    sampleTree.root.bounds = box 0 0 12 12 := by
  refine ⟨sample_reachable, ?_, ?_⟩ <;> decide +kernel

/-! ## C21: node sizes -/

/-- C21: no node ever has more than `max_children` children; for every configuration. -/
theorem C21_max_children (h : Reachable c P t) {n : Node B K V} (hn : n ∈ t.nodes) : n.fanout ≤ c.maxChildren := by
  let _ : VolumeLaws B := trivialVolumeLaws
  obtain ⟨l, hl⟩ := h.treeOk_any.1.ok.nodes hn
  have := hl.le
  rw [h.treeOk_any.2] at this
  exact this

/-- Under a safe configuration every node below the root has at least `floor` children, and an inner root has at
    least two. -/
theorem floor_le_fanout [VolumeLaws B] (hs : c.Safe) (hP : ∀ k, P k → VolumeLaws.volOk (Bounded.bounds k : B))
    (h : Reachable c P t) :
    (∀ n ∈ t.root.descendants, Alloc.floor ⟨c.minChildren, c.maxChildren⟩ ≤ n.fanout) ∧
      (1 ≤ t.level → 2 ≤ t.root.fanout) := by
  obtain ⟨ht, hroot⟩ := h.treeOk_safe hs hP
  refine ⟨fun n hn => ?_, hroot⟩
  obtain ⟨l, hl⟩ := ht.ok.descendants hn
  have := (hl.2.1 trivial).1
  rw [h.treeOk_any.2] at this
  exact this

/-- C21: if `2 ≤ min_children` and `2 * min_children ≤ max_children`, every node below the root has at least
    `min_children` children, and an inner root has at least two. -/
theorem C21_min_children [VolumeLaws B] (h2 : 2 ≤ c.minChildren) (hm : 2 * c.minChildren ≤ c.maxChildren)
    (hP : ∀ k, P k → VolumeLaws.volOk (Bounded.bounds k : B)) (h : Reachable c P t) :
    (∀ n ∈ t.root.descendants, c.minChildren ≤ n.fanout) ∧ (1 ≤ t.level → 2 ≤ t.root.fanout) := by
  have := floor_le_fanout ⟨h2, by omega⟩ hP h
  simpa [Alloc.floor, hm] using this

example : let _ := sampleLaws
    (∀ n ∈ sampleTree.root.descendants, 2 ≤ n.fanout) ∧ (1 ≤ sampleTree.level → 2 ≤ sampleTree.root.fanout) :=
  let _ := sampleLaws
  C21_min_children (c := cfg42) (P := SampleKey) (by decide) (by decide) (fun _ hk => hk.1) sample_reachable

/-! ## C24: logarithmic height -/

theorem Ok.pow_le [VolumeLaws B] {rel : B → List B → Prop} {a : Alloc} {l : Nat} {n : Node B K V}
    (h : Ok rel a True l n) : n.fanout * a.floor ^ l ≤ n.entries.length := by
  induction l generalizing n with
  | zero => obtain ⟨b, es, rfl, _⟩ := h.leaf; simp [Node.fanout]
  | succ l ih =>
    obtain ⟨b, cs, rfl, _, _, hcs⟩ := h.inner
    have key : ∀ cs : List (Node B K V), (∀ c ∈ cs, ChildOk rel a True l c) →
        cs.length * a.floor ^ (l + 1) ≤ (entriesList cs).length := by
      intro cs
      induction cs with
      | nil => simp
      | cons c cs ihc =>
        intro hcs
        have hc := hcs c (by simp)
        have h1 := ih hc.1
        have h2 := ihc fun x hx => hcs x (by simp [hx])
        have h3 : a.floor ^ (l + 1) ≤ c.entries.length := by
          refine Nat.le_trans ?_ h1
          rw [Nat.pow_succ, Nat.mul_comm]
          exact Nat.mul_le_mul_right _ (hc.2.1 trivial).1
        simp only [List.length_cons, entriesList_cons, List.length_append, Nat.succ_mul]
        omega
    simpa [Node.fanout] using key cs hcs

/-- C24 for every sound configuration: a tree of height `h ≥ 1` holds at least `2 * floor ^ h` entries, where
    `floor ≥ 2`. -/
theorem C24_log_height_floor [VolumeLaws B] (hs : c.Sound)
    (hP : ∀ k, P k → VolumeLaws.volOk (Bounded.bounds k : B))
    (h : Reachable c P t) (hl : 1 ≤ t.level) {n : Nat} (hn : t.len = .ok n) :
    2 * Alloc.floor ⟨c.minChildren, c.maxChildren⟩ ^ t.level ≤ n := by
  obtain ⟨ht, hroot⟩ := h.treeOk_sound hs hP
  obtain rfl : t.entries.length = n := by
    have := C08_len h h.iter_eq
    rw [this] at hn; simpa using hn
  have h1 := ht.ok.pow_le
  have h2 := hroot hl
  rw [h.treeOk_any.2] at h1
  exact Nat.le_trans (Nat.mul_le_mul_right _ h2) h1

/-- C24: if `2 ≤ min_children` and `2 * min_children ≤ max_children`, a tree of height `h ≥ 1` holds at least
    `2 * min_children ^ h` entries. -/
theorem C24_log_height [VolumeLaws B] (h2 : 2 ≤ c.minChildren) (hm : 2 * c.minChildren ≤ c.maxChildren)
    (hP : ∀ k, P k → VolumeLaws.volOk (Bounded.bounds k : B))
    (h : Reachable c P t) (hl : 1 ≤ t.level) {n : Nat} (hn : t.len = .ok n) :
    2 * c.minChildren ^ t.level ≤ n := by
  have := C24_log_height_floor (.inl ⟨h2, hm⟩) hP h hl hn
  simpa [Alloc.floor, hm] using this

example : 2 * 2 ^ 1 ≤ 9 := by
  let _ := sampleLaws
  have := C24_log_height (c := cfg42) (by decide) (by decide) (P := SampleKey) (fun k hk => hk.1) sample_reachable
    (by rw [sample_level]) (C08_len sample_reachable sample_iter)
  rw [sample_level] at this
  exact this

/-! ## C31: removing everything -/

/-- Removing a list of keys, one after the other. -/
def removeAll (t : Tree B K V) (ks : List K) : Res (Tree B K V) :=
  ks.foldlM (fun t k => do pure (← t.remove id k).1) t

theorem countP_key_perm {es es' : List (K × V)} (h : es.Perm es') (q : K) :
    es.countP (fun e => e.1 == q) = es'.countP (fun e => e.1 == q) := h.countP_eq _

theorem removeAll_spec [LawfulBounds B] [LawfulKey K B] {ks : List K} {es : List (K × V)} (h : Reachable c P t)
    (hes : t.entries = es)
    (hv : ∀ k ∈ ks, LawfulBounds.valid (Bounded.bounds k : B)) (hlen : ks.length = es.length)
    (hcount : ∀ q, ks.countP (· == q) = es.countP fun e => e.1 == q)
    (hr : removeAll t ks = .ok t') : Reachable c P t' ∧ t'.entries = [] := by
  induction ks generalizing t es with
  | nil =>
    simp only [removeAll, List.foldlM_nil, pure_eq_ok, Except.ok.injEq] at hr
    subst hr
    exact ⟨h, by rw [hes]; simpa using hlen.symm⟩
  | cons k ks ih =>
    simp only [removeAll, List.foldlM_cons] at hr
    cases hrm : t.remove id k with
    | error e => simp [hrm] at hr
    | ok tr =>
      obtain ⟨t1, r⟩ := tr
      simp only [hrm, ok_bind, pure_eq_ok] at hr
      have h1 : Reachable c P t1 := .remove id h hrm
      obtain ⟨es0, es1, e0, e1, hp⟩ := C04_remove_one h (borrow := id) (fun _ => rfl) (hv k (by simp)) hrm
      obtain rfl : t.entries = es0 := by simpa [h.iter_eq] using e0
      obtain rfl : t1.entries = es1 := by simpa [h1.iter_eq] using e1
      have hpos : 0 < t.entries.countP fun e => e.1 == k := by
        rw [hes, ← hcount k, List.countP_cons]
        simp [BEq.refl (a := k)]
      cases r with
      | none =>
        exfalso
        rw [List.countP_pos_iff] at hpos
        obtain ⟨e, he, hk⟩ := hpos
        have := hp.2 e he
        simp only [id] at this
        rw [hk] at this; simp at this
      | some v =>
        obtain ⟨k₀, hk₀, hperm⟩ := hp
        simp only [id] at hk₀
        refine ih h1 rfl (fun x hx => hv x (by simp [hx])) ?_ ?_ hr
        · have := hperm.length_eq
          rw [hes] at this
          simp at this hlen
          omega
        · intro q
          have a1 := hcount q
          have a2 := countP_key_perm hperm q
          rw [hes] at a2
          rw [List.countP_cons] at a1
          rw [List.countP_cons] at a2
          have : (k == q) = (k₀ == q) := (BEq.congr_left hk₀).symm
          simp only [this] at a1
          simp only at a2
          omega

/-- C31: removing the keys of all entries, in any order, from a tree leaves it empty; a safe configuration
    guarantees that the removals and later insertions succeed. -/
theorem C31_remove_all [LawfulBounds B] [LawfulKey K B] [VolumeLaws B] (hs : c.Safe)
    (hP : ∀ k, P k → VolumeLaws.volOk (Bounded.bounds k : B)) (h : Reachable c P t) {es : List (K × V)}
    (hes : t.iter = .ok es) {ks : List K} (hks : ks.Perm (es.map Prod.fst))
    (hv : ∀ k ∈ ks, LawfulBounds.valid (Bounded.bounds k : B)) :
    ∃ t', removeAll t ks = .ok t' ∧ t'.iter = .ok [] ∧ t'.len = .ok 0 ∧ t'.isEmpty = .ok true ∧
      ∀ k v, P k → ∃ t'', t'.insert k v = .ok t'' ∧ t''.iter = .ok [(k, v)] := by
  obtain rfl : t.entries = es := by simpa [h.iter_eq] using hes
  have hok : ∃ t', removeAll t ks = .ok t' := by
    clear hks hv hes
    induction ks generalizing t with
    | nil => exact ⟨t, rfl⟩
    | cons k ks ih =>
      obtain ⟨⟨r, hr⟩, _⟩ := (C02_no_panic_calls hs hP h).2.2.1 K id k
      obtain ⟨t1, r⟩ := r
      obtain ⟨t2, h2⟩ := ih (t := t1) (.remove id h hr)
      exact ⟨t2, by simp only [removeAll, List.foldlM_cons, hr, ok_bind, pure_eq_ok]; exact h2⟩
  obtain ⟨t', ht'⟩ := hok
  obtain ⟨h1, h2⟩ := removeAll_spec h rfl hv (by have := hks.length_eq; simpa using this)
    (fun q => by rw [hks.countP_eq, List.countP_map]; rfl) ht'
  have hiter : t'.iter = .ok [] := by rw [h1.iter_eq, h2]
  refine ⟨t', ht', hiter, C08_len h1 hiter, C08_is_empty h1 (by have := hs.1; omega) hiter, fun k v hk => ?_⟩
  obtain ⟨t'', h3⟩ := (C02_no_panic_calls hs hP h1).1 k v hk
  obtain ⟨es0, es1, e0, e1, hp⟩ := C01_insert_adds_one h1 h3
  refine ⟨t'', h3, ?_⟩
  obtain rfl : [] = es0 := by simpa [hiter] using e0
  rw [e1, List.perm_singleton.1 hp]

example : ∃ t', removeAll sampleTree ((sampleEntries.map Prod.fst).reverse) = .ok t' ∧ t'.iter = .ok [] := by
  let _ := sampleLaws
  have hv : ∀ k ∈ (sampleEntries.map Prod.fst).reverse, SampleKey k := by decide +kernel
  obtain ⟨t', h1, h2, _⟩ := C31_remove_all cfg42_sound.safe (P := SampleKey) (fun k hk => hk.1) sample_reachable sample_iter
    (List.reverse_perm _) (fun k hk => (hv k hk).2)
  exact ⟨t', h1, h2⟩

end RTree
