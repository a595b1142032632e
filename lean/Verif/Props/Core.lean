import Verif.Samples
/-!
# Insertion, lookup, removal and plain iteration (C01, C03, C04, C06, C08, C09, C10, C11, C25, C27, C28)

Contents of a tree are always stated through what `iter` yields.
-/

namespace RTree

variable {B K V Q : Type} [Bounds B] [Volume B] [Bounded K B] [BEq K]
variable {c : Config} {P : K → Prop} {t t' : Tree B K V}

/-! ## C09: iteration -/

/-- C09: `iter` terminates without panic or misreading a node, and yields each entry exactly once, from left to
    right. No assumption on the configuration or on the trait implementations. -/
theorem C09_iter_exact (h : Reachable c P t) : t.iter = .ok t.entries := h.iter_eq

example : Reachable cfg42 SampleKey sampleTree ∧ sampleTree.level = 1 ∧ sampleTree.entries = sampleEntries := by
  refine ⟨sample_reachable, sample_level, ?_⟩
  have := C09_iter_exact sample_reachable
  rw [sample_iter] at this
  simpa using this.symm

/-! ## C01: insertion -/

/-- C01: after `insert(k, v)` the tree holds what it held before and one more `(k, v)`. -/
theorem C01_insert_adds_one (h : Reachable c P t) {k : K} {v : V} (hi : t.insert k v = .ok t') :
    ∃ es es', t.iter = .ok es ∧ t'.iter = .ok es' ∧ es'.Perm ((k, v) :: es) := by
  have h' : Reachable c (fun _ => True) t' := .insert (h.mono fun _ _ => trivial) trivial hi
  refine ⟨_, _, h.iter_eq, h'.iter_eq, ?_⟩
  let _ : VolumeLaws B := trivialVolumeLaws
  exact ((sat_insert anyLaws h.treeOk_any.1 k v (fun h => h.elim) (fun h => h.elim)).of_ok hi).2.2

example : ∃ t', sampleTree.insert (box 0 0 1 1) 77 = .ok t' := ⟨_, Res.ok_getD sampleTree (by decide +kernel)⟩

/-! ## C03: lookup -/

section Lookup

variable [LawfulBounds B] [Bounded Q B] [BEq Q] [LawfulKey Q B]

/-- C03: `get(q)` is the value of the first entry in iteration order whose key equals `q`, or `None` if there is
    none; it never panics.  `q` must have non-inverted bounds (see C48). -/
theorem C03_get_first (h : Reachable c P t) {borrow : K → Q} (hb : LawfulBorrow (B := B) borrow) {q : Q}
    (hq : LawfulBounds.valid (Bounded.bounds q : B)) {es : List (K × V)} (hes : t.iter = .ok es) :
    t.get borrow q = .ok ((es.find? fun e => borrow e.1 == q).map Prod.snd) := by
  obtain rfl : t.entries = es := by simpa [h.iter_eq] using hes
  let _ : VolumeLaws B := trivialVolumeLaws
  have hs := sat_getMutNode (complete := True) (borrow := borrow) (q := q)
    (fun _ b bs hb hm => LawfulBounds.contains_of_le hq (hb _ hm))
    (fun _ k hk => by rw [← hb k]; exact LawfulKey.bounds_eq hk) t.level t.root h.treeOk_covers.ok
  unfold Tree.get
  rw [getNode_eq_getMutNode]
  cases hx : getMutNode borrow q t.level t.root with
  | error e => rw [hx] at hs; exact hs.elim
  | ok r =>
    rw [hx] at hs
    cases r with
    | none =>
      have : t.entries.find? (fun e => borrow e.1 == q) = none := by
        rw [List.find?_eq_none]; intro e he; simp [hs trivial e he]
      rw [this]; rfl
    | some vb =>
      obtain ⟨v, back⟩ := vb
      obtain ⟨x, k, y, he, hk, hno, _⟩ := hs
      have : t.entries.find? (fun e => borrow e.1 == q) = some (k, v) := by
        rw [List.find?_eq_some_iff_append]
        exact ⟨hk, x, y, he, fun a ha => by simp [hno trivial a ha]⟩
      rw [this]; rfl

end Lookup

example : sampleTree.get id (box 8 8 9 9) = .ok (some 9) := by
  rw [C03_get_first sample_reachable (borrow := id) (fun _ => rfl) (q := box 8 8 9 9)
    (box_valid (by decide +kernel)) sample_iter]
  congr 1

/-! ## C04: removal -/

section Removal

variable [LawfulBounds B] [Bounded Q B] [BEq Q] [LawfulKey Q B]

/-- C04: `remove(q)` returning `Some(v)` takes out exactly one entry `(k, v)` with `k == q`; returning `None` it
    leaves the tree as it was, and then no key of the tree equals `q`. -/
theorem C04_remove_one (h : Reachable c P t) {borrow : K → Q} (hb : LawfulBorrow (B := B) borrow) {q : Q}
    (hq : LawfulBounds.valid (Bounded.bounds q : B)) {r : Option V} (hr : t.remove borrow q = .ok (t', r)) :
    ∃ es es', t.iter = .ok es ∧ t'.iter = .ok es' ∧
      match (generalizing := false) r with
      | some v => ∃ k, (borrow k == q) = true ∧ es.Perm ((k, v) :: es')
      | none => t' = t ∧ ∀ e ∈ es, (borrow e.1 == q) = false := by
  have h' : Reachable c P t' := .remove borrow h hr
  refine ⟨_, _, h.iter_eq, h'.iter_eq, ?_⟩
  let _ : VolumeLaws B := trivialVolumeLaws
  have := ((sat_remove coversLaws h.treeOk_covers (complete := True) (borrow := borrow) (q := q)
    (fun _ b bs hb hm => LawfulBounds.intersects_of_le hq (hb _ hm))
    (fun _ k hk => by rw [← hb k]; exact LawfulKey.bounds_eq hk) fun h => h.elim).of_ok hr).2.2
  cases r with
  | none => exact ⟨this.1, this.2 trivial⟩
  | some v => obtain ⟨k, hk, hp⟩ := this; exact ⟨k, hk, hp.symm⟩

/-- C04, read as "iff": `remove(q)` returns `Some` exactly if some key equals `q`. -/
theorem C04_remove_some_iff (h : Reachable c P t) {borrow : K → Q} (hb : LawfulBorrow (B := B) borrow) {q : Q}
    (hq : LawfulBounds.valid (Bounded.bounds q : B)) {r : Option V} (hr : t.remove borrow q = .ok (t', r))
    {es : List (K × V)} (hes : t.iter = .ok es) :
    r.isSome = true ↔ ∃ e ∈ es, (borrow e.1 == q) = true := by
  obtain ⟨es₁, es', h1, h2, h3⟩ := C04_remove_one h hb hq hr
  obtain rfl : es₁ = es := by simpa [h1] using hes
  cases r with
  | none =>
    simp only [Option.isSome_none, Bool.false_eq_true, false_iff, not_exists, not_and]
    intro e he; simp [h3.2 e he]
  | some v =>
    obtain ⟨k, hk, hp⟩ := h3
    simp only [Option.isSome_some, true_iff]
    exact ⟨(k, v), hp.mem_iff.2 (by simp), hk⟩

end Removal

example : ∃ t', sampleTree.remove id (box 8 8 9 9) = .ok (t', some 7) := by
  have h : (sampleTree.remove id (box 8 8 9 9)).isOk = true := by decide +kernel
  have h2 := Res.ok_getD (sampleTree, none) h
  exact ⟨_, h2.trans (by rw [show (7 : Nat) = 7 from rfl]; congr 1; exact Prod.ext rfl (by decide +kernel))⟩

/-! ## C06: insertion without duplicates -/

/-- C06: `insert_unique(k, v)` either replaces, in place, the value of the first entry in iteration order whose key equals
    `k` and returns the old value, or, if there is none, adds the entry once and returns `None`. -/
theorem C06_insert_unique [LawfulBounds B] [LawfulKey K B] (h : Reachable c P t) {k : K} {v : V}
    (hq : LawfulBounds.valid (Bounded.bounds k : B)) {r : Option V} (hr : t.insertUnique k v = .ok (t', r)) :
    ∃ es es', t.iter = .ok es ∧ t'.iter = .ok es' ∧
      match (generalizing := false) r with
      | some old => ∃ x k₀ y, es = x ++ (k₀, old) :: y ∧ (k₀ == k) = true ∧ (∀ e ∈ x, (e.1 == k) = false) ∧
          es' = x ++ (k₀, v) :: y
      | none => (∀ e ∈ es, (e.1 == k) = false) ∧ es'.Perm ((k, v) :: es) := by
  have h' : Reachable c (fun _ => True) t' := .insertUnique (h.mono fun _ _ => trivial) trivial hr
  refine ⟨_, _, h.iter_eq, h'.iter_eq, ?_⟩
  let _ : VolumeLaws B := trivialVolumeLaws
  have := ((sat_insertUnique coversLaws h.treeOk_covers (complete := True) k v
    (fun _ b bs hb hm => LawfulBounds.contains_of_le hq (hb _ hm))
    (fun _ k' hk => LawfulKey.bounds_eq hk)
    (fun _ _ _ _ hb _ x hx => Enclosure.le_trans (hb x hx) (Enclosure.le_union_left _ _))
    (fun h => h.elim) (fun h => h.elim)).of_ok hr).2.2
  cases r with
  | none => exact ⟨this.2 trivial, this.1⟩
  | some old =>
    obtain ⟨x, k', y, h1, h2, h3, h4⟩ := this
    exact ⟨x, k', y, h1, h2, h3 trivial, h4⟩

example : ∃ t', sampleTree.insertUnique (box 8 8 9 9) 99 = .ok (t', some 9) := by
  have h : (sampleTree.insertUnique (box 8 8 9 9) 99).isOk = true := by decide +kernel
  exact ⟨_, (Res.ok_getD (sampleTree, none) h).trans (by congr 1; exact Prod.ext rfl (by decide +kernel))⟩

example : ∃ t', sampleTree.insertUnique (box 7 7 7 7) 99 = .ok (t', none) := by
  have h : (sampleTree.insertUnique (box 7 7 7 7) 99).isOk = true := by decide +kernel
  exact ⟨_, (Res.ok_getD (sampleTree, none) h).trans (by congr 1; exact Prod.ext rfl (by decide +kernel))⟩

/-! ## C08: length -/

/-- C08: `len` is the number of entries `iter` yields; for every configuration. -/
theorem C08_len (h : Reachable c P t) {es : List (K × V)} (hes : t.iter = .ok es) : t.len = .ok es.length := by
  obtain rfl : t.entries = es := by simpa [h.iter_eq] using hes
  let _ : VolumeLaws B := trivialVolumeLaws
  exact lenNode_spec h.treeOk_any.1.ok

/-- C08: `is_empty` is `len() == 0`, if `min_children` is at least 1 (see C51). -/
theorem C08_is_empty (h : Reachable c P t) (hm : 1 ≤ c.minChildren) {es : List (K × V)} (hes : t.iter = .ok es) :
    t.isEmpty = .ok (es.length == 0) := by
  obtain rfl : t.entries = es := by simpa [h.iter_eq] using hes
  let _ : VolumeLaws B := trivialVolumeLaws
  have hok := h.treeOk_any.1.ok
  have hm' : 1 ≤ t.alloc.minChildren := by rw [h.treeOk_any.2]; exact hm
  have hne : ∀ (l : Nat) (n : Node B K V), Ok AnyRel t.alloc False l n → 1 ≤ n.fanout → n.entries ≠ [] := by
    intro l
    induction l with
    | zero =>
      intro n hn hf
      obtain ⟨b, es, rfl, _⟩ := hn.leaf
      simp only [Node.fanout] at hf
      intro h'; simp at h'; subst h'; simp at hf
    | succ l ih =>
      intro n hn hf
      obtain ⟨b, cs, rfl, _, _, hcs⟩ := hn.inner
      cases cs with
      | nil => simp [Node.fanout] at hf
      | cons c cs =>
        have hc := hcs c (by simp)
        have := ih c hc.1 (hc.2.2 hm')
        simp [this]
  unfold Tree.isEmpty
  unfold Tree.entries
  obtain ⟨a, level, root⟩ := t
  cases level with
  | zero =>
    obtain ⟨b, es, hr, _⟩ := hok.leaf
    simp only at hr; subst hr
    cases es <;> simp [isEmptyNode, Node.leafChildren]
  | succ l =>
    obtain ⟨b, cs, hr, _, _, hcs⟩ := hok.inner
    simp only at hr; subst hr
    cases cs with
    | nil => simp [isEmptyNode, Node.innerChildren]
    | cons c cs =>
      have hc := hcs c (by simp)
      have := hne _ c hc.1 (hc.2.2 hm')
      have hpos : 0 < c.entries.length := List.length_pos_iff.2 this
      simp only [isEmptyNode, Node.innerChildren, ok_bind, pure_eq_ok, entries_inner, entriesList_cons,
        List.length_append, List.isEmpty_cons]
      congr 1
      symm
      rw [beq_eq_false_iff_ne]; omega

example : sampleTree.len = .ok 9 ∧ sampleTree.isEmpty = .ok false :=
  ⟨C08_len sample_reachable sample_iter, C08_is_empty sample_reachable (by decide) sample_iter⟩

/-! ## C10, C11: filtered iteration -/

/-- C10: with a filter honouring its contract, `filter_iter` yields exactly the entries of `iter` whose key passes,
    each once, in the order of `iter`. -/
theorem C10_filter_iter_exact [Enclosure B] (h : Reachable c P t) {borrow : K → Q} {f : SpatialFilter B Q}
    (hf : f.Honours borrow) {es : List (K × V)} (hes : t.iter = .ok es) :
    t.filterIter borrow f = .ok (es.filter fun e => f.testKey (borrow e.1)) := by
  obtain rfl : t.entries = es := by simpa [h.iter_eq] using hes
  rw [Tree.filterIter_of_shape borrow f h.shape]
  let _ : VolumeLaws B := trivialVolumeLaws
  rw [(h.treeOk_covers.ok.matching (tb := f.testBounds) (tk := fun e => f.testKey (borrow e.1))
    fun b es hr e he hk => hf e.1 b hk (hr _ (List.mem_map.2 ⟨e, he, rfl⟩))).1]
  rfl

/-- C11: for any filter, `filter_iter` terminates without panic and yields a subsequence of `iter` all of whose keys
    pass the filter. -/
theorem C11_filter_iter_sound (h : Reachable c P t) (borrow : K → Q) (f : SpatialFilter B Q)
    {es : List (K × V)} (hes : t.iter = .ok es) :
    ∃ r, t.filterIter borrow f = .ok r ∧ r.Sublist es ∧ ∀ e ∈ r, f.testKey (borrow e.1) = true := by
  obtain rfl : t.entries = es := by simpa [h.iter_eq] using hes
  refine ⟨_, Tree.filterIter_of_shape borrow f h.shape, ?_⟩
  split
  · have hs := t.root.matching_sublist f.testBounds (fun e => f.testKey (borrow e.1))
    refine ⟨hs.trans List.filter_sublist, fun e he => ?_⟩
    have := hs.subset he
    exact (List.mem_filter.1 this).2
  · simp

/-- C11: a filter that breaks its contract loses only entries for which it breaks it: among the keys of any set `S` on
    which it honours the contract, exactly those that pass are yielded, in the order of `iter`. -/
theorem C11_filter_iter_honest [Enclosure B] (h : Reachable c P t) {borrow : K → Q} {f : SpatialFilter B Q} (S : K → Bool)
    (hf : ∀ (k : K) (b : B), S k = true → f.testKey (borrow k) = true → Enclosure.le (Bounded.bounds k) b →
      f.testBounds b = true) {es r : List (K × V)} (hes : t.iter = .ok es) (hr : t.filterIter borrow f = .ok r) :
    r.filter (fun e => S e.1) = es.filter fun e => f.testKey (borrow e.1) && S e.1 := by
  obtain rfl : t.entries = es := by simpa [h.iter_eq] using hes
  rw [Tree.filterIter_of_shape borrow f h.shape] at hr
  injection hr with hr
  subst hr
  let _ : VolumeLaws B := trivialVolumeLaws
  have key := (h.treeOk_covers.ok.matching (tb := f.testBounds) (tk := fun e => f.testKey (borrow e.1) && S e.1)
    fun b es hr e he hk => by
      rw [Bool.and_eq_true] at hk
      exact hf e.1 b hk.2 hk.1 (hr _ (List.mem_map.2 ⟨e, he, rfl⟩))).1
  rw [Node.matching_and] at key
  show _ = t.root.entries.filter _
  rw [← key]
  split <;> rfl

/-- A filter that lies about the key `(9, 9) - (12, 12)` loses it, and may lose only it. -/
example : let f : SpatialFilter (AABB I32 2) (AABB I32 2) :=
      ⟨fun b => AABB.intersectsBox (box 0 0 8 8) b, fun k => AABB.intersectsBox (box 0 0 8 8) k || k == box 9 9 12 12⟩
    let S : AABB I32 2 → Bool := fun k => k != box 9 9 12 12
    (∀ (k b : AABB I32 2), S k = true → f.testKey (id k) = true → Enclosure.le (Bounded.bounds k : AABB I32 2) b →
      f.testBounds b = true) ∧ ∃ r, sampleTree.filterIter id f = .ok r := by
  refine ⟨fun k b hs hk hle => ?_, (C11_filter_iter_sound sample_reachable id _ sample_iter).imp fun _ h => h.1⟩
  simp only [bne_iff_ne, ne_eq, id, Bool.or_eq_true, beq_iff_eq] at hs hk
  have hk := hk.resolve_right hs
  simp only [AABB.intersectsBox, Bool.and_eq_true, SVec.allLe_iff, SVec.allGe_iff] at hk ⊢
  exact ⟨fun i => (hk.1 i).trans (hle i).2, fun i => le_trans (hle i).1 (hk.2 i)⟩

/-! ## C25: clone -/

/-- C25: `clone` never panics and yields the same tree: same entries, same structure, same configuration. -/
theorem C25_clone (h : Reachable c P t) : t.clone = .ok t := by
  let _ : VolumeLaws B := trivialVolumeLaws
  unfold Tree.clone
  rw [cloneNode_spec h.treeOk_any.1.ok]; rfl

example : sampleTree.clone = .ok sampleTree := C25_clone sample_reachable

/-! ## C27: get_mut -/

/-- C27: `get_mut(q)` finds an entry iff `get(q)` does; the value seen is the one `get` returns, and writing `v'`
    changes that value and nothing else: the other entries, the keys, the order and all recorded bounds (the structure
    without its values) stay. -/
theorem C27_get_mut [LawfulBounds B] [Bounded Q B] [BEq Q] [LawfulKey Q B] (h : Reachable c P t) {borrow : K → Q}
    (hb : LawfulBorrow (B := B) borrow) {q : Q} (hq : LawfulBounds.valid (Bounded.bounds q : B)) :
    ∃ r es, t.getMut borrow q = .ok r ∧ t.iter = .ok es ∧
      match (generalizing := false) r with
      | none => t.get borrow q = .ok none ∧ ∀ e ∈ es, (borrow e.1 == q) = false
      | some (v, back) => t.get borrow q = .ok (some v) ∧
          ∃ x k y, es = x ++ (k, v) :: y ∧ (borrow k == q) = true ∧ (∀ e ∈ x, (borrow e.1 == q) = false) ∧
            ∀ v', (back v').iter = .ok (x ++ (k, v') :: y) ∧ (back v').erase = t.erase := by
  let _ : VolumeLaws B := trivialVolumeLaws
  have hs := sat_getMut h.treeOk_covers (complete := True) (borrow := borrow) (q := q)
    (fun _ b bs hb hm => LawfulBounds.contains_of_le hq (hb _ hm))
    (fun _ k hk => by rw [← hb k]; exact LawfulKey.bounds_eq hk)
  obtain ⟨r, hr, hp⟩ := hs.exists_ok fun _ h => h
  refine ⟨r, t.entries, hr, h.iter_eq, ?_⟩
  have hget := C03_get_first h hb hq h.iter_eq
  cases r with
  | none =>
    refine ⟨?_, hp trivial⟩
    rw [hget]
    have : t.entries.find? (fun e => borrow e.1 == q) = none := by
      rw [List.find?_eq_none]; intro e he; simp [hp trivial e he]
    simp [this]
  | some vb =>
    obtain ⟨v, back⟩ := vb
    obtain ⟨x, k, y, he, hk, hno, hback⟩ := hp
    refine ⟨?_, x, k, y, he, hk, hno trivial, fun v' => ?_⟩
    · rw [hget]
      have : t.entries.find? (fun e => borrow e.1 == q) = some (k, v) := by
        rw [List.find?_eq_some_iff_append]
        exact ⟨hk, x, y, he, fun a ha => by simp [hno trivial a ha]⟩
      simp [this]
    · obtain ⟨h1, h2, h3, h4⟩ := hback v'
      have hr' : Reachable c P (back v') := .getMut borrow v' h hr
      exact ⟨by rw [hr'.iter_eq, h4], Tree.getMut_erase hr v'⟩

example : ∃ v back, sampleTree.getMut id (box 8 8 9 9) = .ok (some (v, back)) ∧ ∀ v', (back v').erase = sampleTree.erase := by
  obtain ⟨r, es, h1, h2, h3⟩ := C27_get_mut sample_reachable (borrow := id) (fun _ => rfl) (q := box 8 8 9 9) (box_valid (by decide +kernel))
  have hg : sampleTree.get id (box 8 8 9 9) = .ok (some 9) := by
    rw [C03_get_first sample_reachable (borrow := id) (fun _ => rfl) (q := box 8 8 9 9) (box_valid (by decide +kernel)) sample_iter]
    congr 1
  cases r with
  | none => rw [hg] at h3; cases h3.1
  | some vb => exact ⟨vb.1, vb.2, h1, fun v' => by obtain ⟨_, _, _, _, _, _, _, h⟩ := h3; exact (h v').2⟩

/-! ## C28: mutable iteration -/

/-- C28: the references `filter_iter_mut` hands out are pairwise distinct, whatever the filter. -/
theorem C28_no_alias (h : Reachable c P t) (borrow : K → Q) (f : SpatialFilter B Q) :
    ∃ refs, t.filterIterMut borrow f = .ok refs ∧ (refs.map Prod.snd).Nodup := by
  have hsh : Shape t.addressed.level t.addressed.root := h.addressed_shape
  refine ⟨_, Tree.filterIter_of_shape borrow f hsh, ?_⟩
  have hnd : (t.addressed.entries.map Prod.snd).Nodup := t.addressed_nodup
  split
  · have hs := (t.addressed.root.matching_sublist f.testBounds
      (fun e => f.testKey (borrow e.1))).trans List.filter_sublist
    exact hnd.sublist (hs.map _)
  · simp

/-- C28: `iter_mut` hands out exactly one reference to each value, with its key, in the order of `iter`. -/
theorem C28_iter_mut (h : Reachable c P t) {es : List (K × V)} (hes : t.iter = .ok es) :
    t.iterMut = .ok (es.zipIdx.map fun e => (e.1.1, e.2)) := by
  obtain rfl : t.entries = es := by simpa [h.iter_eq] using hes
  have := Tree.iter_of_shape h.addressed_shape
  rw [Node.matching_true] at this
  exact this.trans (congrArg _ t.entries_addressed)

/-- C28: writing `u(key, value)` through every reference `filter_iter_mut(f)` hands out leaves all keys, their order and
    the structure as they were and changes exactly the values of the matching entries. -/
theorem C28_filter_iter_mut_updates [Enclosure B] (h : Reachable c P t) {borrow : K → Q} {f : SpatialFilter B Q}
    (hf : f.Honours borrow) (u : K → V → V) {es : List (K × V)} (hes : t.iter = .ok es) :
    ∃ refs, t.filterIterMut borrow f = .ok refs ∧
      (t.writeAll u refs).iter =
        .ok (es.map fun e => if f.testKey (borrow e.1) then (e.1, u e.1 e.2) else e) ∧
      (t.writeAll u refs).erase = t.erase := by
  obtain rfl : t.entries = es := by simpa [h.iter_eq] using hes
  obtain ⟨refs, h1, h2⟩ := C28_no_alias h borrow f
  refine ⟨refs, h1, ?_, Tree.erase_writeAll u refs t⟩
  rw [(h.writeAll u refs).iter_eq, Tree.entries_writeAll u refs t h2]
  have hrefs : refs = (t.entries.zipIdx.map fun e => (e.1.1, e.2)).filter fun e => f.testKey (borrow e.1) := by
    let _ : VolumeLaws B := trivialVolumeLaws
    have hok : TreeOk Covers False t.addressed := treeOk_of_erase t.erase_addressed h.treeOk_covers
    have := Tree.filterIter_of_shape borrow f h.addressed_shape
    rw [(hok.ok.matching (tb := f.testBounds) (tk := fun e => f.testKey (borrow e.1))
      fun b es hr e he hk => hf e.1 b hk (hr _ (List.mem_map.2 ⟨e, he, rfl⟩))).1] at this
    have h3 : t.filterIterMut borrow f = _ := this
    rw [h1] at h3
    have h4 : t.addressed.root.entries = t.entries.zipIdx.map fun e => (e.1.1, e.2) := t.entries_addressed
    rw [h4] at h3
    simpa using h3
  congr 1
  apply List.ext_getElem?
  intro i
  simp only [List.getElem?_map, List.getElem?_zipIdx, Nat.zero_add]
  cases he : t.entries[i]? with
  | none => rfl
  | some e =>
    simp only [Option.map_some, Option.some.injEq]
    have hmem : ∀ r ∈ refs, r.2 = i → r.1 = e.1 ∧ f.testKey (borrow e.1) = true := by
      intro r hr hi
      rw [hrefs] at hr
      obtain ⟨hr1, hr2⟩ := List.mem_filter.1 hr
      obtain ⟨p, hp, rfl⟩ := List.mem_map.1 hr1
      rw [List.mem_zipIdx_iff_getElem?] at hp
      simp only at hi; subst hi
      rw [he] at hp
      simp at hp; subst hp
      exact ⟨rfl, hr2⟩
    cases hfind : refs.find? (fun r => r.2 == i) with
    | some r =>
      have h5 := List.mem_of_find?_eq_some hfind
      have h6 := List.find?_some hfind
      obtain ⟨h7, h8⟩ := hmem r h5 (by simpa using h6)
      simp [h7, h8]
    | none =>
      rw [List.find?_eq_none] at hfind
      have : f.testKey (borrow e.1) = false := by
        refine Bool.eq_false_iff.2 fun hk => ?_
        refine hfind (e.1, i) ?_ (by simp)
        rw [hrefs]
        refine List.mem_filter.2 ⟨List.mem_map.2 ⟨(e, i), ?_, rfl⟩, hk⟩
        rw [List.mem_zipIdx_iff_getElem?]; simpa using he
      simp [this]

/-- A filter on the sample tree: boxes meeting `[1, 8] × [1, 8]`. -/
def sampleFilter : SpatialFilter (AABB I32 2) (AABB I32 2) :=
  intersectsFilter AABB.intersectsBox AABB.intersectsBox (box 1 1 8 8)

theorem sampleFilter_honours : sampleFilter.Honours (K := AABB I32 2) id := by
  intro k b hk hle
  simp only [sampleFilter, intersectsFilter, id, AABB.intersectsBox, Bool.and_eq_true, SVec.allLe_iff,
    SVec.allGe_iff] at hk ⊢
  exact ⟨fun i => le_trans (hk.1 i) (hle i).2, fun i => le_trans (hle i).1 (hk.2 i)⟩

example : sampleTree.filterIter id sampleFilter = .ok
    [(box 0 0 1 1, 1), (box 0 2 1 3, 3), (box 1 3 1 3, 60), (box 8 8 9 9, 9), (box 2 2 3 3, 4), (box 5 5 6 6, 10),
     (box 8 8 9 9, 7)] := by
  rw [C10_filter_iter_exact sample_reachable sampleFilter_honours sample_iter]
  congr 1

example : ∃ refs, sampleTree.filterIterMut id sampleFilter = .ok refs ∧ refs.length = 7 := by
  have h : (sampleTree.filterIterMut id sampleFilter).isOk = true := by decide +kernel
  exact ⟨_, Res.ok_getD [] h, by decide +kernel⟩

end RTree
