import Verif.Props.Structure
import Verif.Proofs.RemoveValue
import Verif.Proofs.Select
/-!
# Where the crate does not do what its documentation suggests (C05, C22, C23, C48, C51), and the selection and
  splitting heuristics (C49, C50)

A `…_refuted` theorem states the full property and proves its negation with a concrete history; the `…_partial`
theorem beside it is what holds.
-/

namespace RTree

variable {B K V Q : Type} [Bounds B] [Volume B] [Bounded K B] [BEq K]
variable {c : Config} {P : K → Prop} {t t' : Tree B K V}

/-! ## C05: which of several equal entries `remove` takes -/

/-- Five entries with the same key. -/
def equalOps : List (Op (AABB I32 2) (AABB I32 2) Nat) :=
  [.insert (box 0 0 1 1) 0, .insert (box 0 0 1 1) 1, .insert (box 0 0 1 1) 2, .insert (box 0 0 1 1) 3,
   .insert (box 0 0 1 1) 4]

/-- The tree with five equal keys. -/
def equalTree : BoxTree := (run (Tree.new cfg42) equalOps).getD (Tree.new cfg42)

theorem equal_reachable : Reachable cfg42 (fun _ => True) equalTree :=
  Reachable.run .new (fun _ _ _ _ => trivial) (Res.ok_getD _ (by decide +kernel))

/-- C05 (refuted): it is not true that `remove` takes the first matching entry in iteration order. -/
theorem C05_remove_first_refuted :
    ¬ ∀ (c : Config) (t t' : BoxTree) (q : AABB I32 2) (v : Nat) (es : List (AABB I32 2 × Nat)),
      c.Sound → Reachable c (fun _ => True) t → t.iter = .ok es → t.remove id q = .ok (t', some v) →
      (es.find? fun e => e.1 == q).map (·.2) = some v := by
  intro h
  have h1 : (equalTree.remove id (box 0 0 1 1)).isOk = true := by decide +kernel
  have h2 : (equalTree.remove id (box 0 0 1 1)).getD (equalTree, none) =
      (((equalTree.remove id (box 0 0 1 1)).getD (equalTree, none)).1, some 4) :=
    Prod.ext rfl (by decide +kernel)
  have := h cfg42 equalTree _ (box 0 0 1 1) 4 equalTree.entries cfg42_sound equal_reachable
    equal_reachable.iter_eq ((Res.ok_getD (equalTree, none) h1).trans (congrArg Except.ok h2))
  revert this
  decide +kernel

/-- C05 (what holds): `remove` takes the first match within the last leaf, in iteration order, that has a match.
    Missing: that this is the first match overall. -/
theorem C05_remove_last_leaf_partial [LawfulBounds B] [Bounded Q B] [BEq Q] [LawfulKey Q B] (h : Reachable c P t)
    {borrow : K → Q} (hb : LawfulBorrow (B := B) borrow) {q : Q}
    (hq : LawfulBounds.valid (Bounded.bounds q : B)) {r : Option V} (hr : t.remove borrow q = .ok (t', r)) :
    t.iter = .ok t.root.leaves.flatten ∧
      r = t.root.leaves.reverse.findSome? fun es => (es.find? fun e => borrow e.1 == q).map (·.2) := by
  let _ : VolumeLaws B := trivialVolumeLaws
  refine ⟨?_, ?_⟩
  · rw [h.iter_eq, leaves_flatten _ _ h.shape]; rfl
  have hok := h.treeOk_covers
  have := removeNode_value coversLaws hok.sound (borrow := borrow) (q := q)
    (fun b bs hb hm => LawfulBounds.intersects_of_le hq (hb _ hm))
    (fun k hk => by rw [← hb k]; exact LawfulKey.bounds_eq hk) t.level t.root (List.replicate t.level none) hok.ok
    (fun j hj => by simp [hj])
  unfold Tree.remove at hr
  obtain ⟨⟨n, v, slots⟩, h1, h2⟩ := bind_eq_ok.1 hr
  have hv := this.of_ok h1
  simp only at hv h2
  cases v with
  | none =>
    have : r = none := by
      have := congrArg (Except.map Prod.snd) h2
      simpa [Except.map] using this.symm
    rw [this]; exact hv
  | some v =>
    obtain ⟨t1, -, h3⟩ := bind_eq_ok.1 h2
    obtain ⟨t2, -, h4⟩ := bind_eq_ok.1 h3
    have : r = some v := by
      have := congrArg (Except.map Prod.snd) h4
      simpa [Except.map] using this.symm
    rw [this]; exact hv

/-- C05 (what holds): in a tree that is a single leaf, `remove` takes the first matching entry.
    Missing: taller trees. -/
theorem C05_remove_first_leaf_partial [LawfulBounds B] [Bounded Q B] [BEq Q] [LawfulKey Q B] (h : Reachable c P t)
    {borrow : K → Q} (hb : LawfulBorrow (B := B) borrow) {q : Q}
    (hq : LawfulBounds.valid (Bounded.bounds q : B)) {r : Option V} (hr : t.remove borrow q = .ok (t', r))
    (hl : t.level = 0) {es : List (K × V)} (hes : t.iter = .ok es) :
    r = (es.find? fun e => borrow e.1 == q).map (·.2) := by
  obtain ⟨h1, h2⟩ := C05_remove_last_leaf_partial h hb hq hr
  have hsh := h.shape
  rw [hl] at hsh
  obtain ⟨b, es', hroot⟩ := Shape.leaf hsh
  rw [hroot] at h1 h2
  rw [h1] at hes
  obtain rfl : es' = es := by simpa using hes
  simpa using h2

example : Reachable cfg42 (fun _ => True) equalTree ∧ equalTree.level = 1 ∧
    (equalTree.remove id (box 0 0 1 1)).isOk = true := by
  refine ⟨equal_reachable, ?_, ?_⟩ <;> decide +kernel

/-! ## C22: `min_children` in the tight case -/

/-- `RTreeConfig { max_children: 3, min_children: 2 }`: four children can be split two and two. -/
def cfg32 : Config := { maxChildren := 3, minChildren := 2 }

/-- Four boxes, of which three are close to each other. -/
def tightOps : List (Op (AABB I32 2) (AABB I32 2) Nat) :=
  [.insert (box 0 0 0 1) 0, .insert (box 100 0 100 1) 1, .insert (box 101 0 101 1) 2, .insert (box 102 0 102 1) 3]

/-- The tree after `tightOps`. -/
def tightTree : BoxTree := (run (Tree.new cfg32) tightOps).getD (Tree.new cfg32)

theorem tight_reachable : Reachable cfg32 (fun _ => True) tightTree :=
  Reachable.run .new (fun _ _ _ _ => trivial) (Res.ok_getD _ (by decide +kernel))

/-- C22 (refuted): with `2 * min_children ≤ max_children + 1` a legal split always exists, but the crate does not
    always find it. -/
theorem C22_min_children_tight_refuted :
    ¬ ∀ (c : Config) (t : BoxTree), 2 ≤ c.minChildren → 2 * c.minChildren ≤ c.maxChildren + 1 →
      Reachable c (fun _ => True) t → ∀ n ∈ t.root.descendants, c.minChildren ≤ n.fanout := by
  intro h
  have := h cfg32 tightTree (by decide) (by decide) tight_reachable
  revert this
  have : tightTree.root.descendants.map Node.fanout = [3, 1] := by decide +kernel
  intro h2
  have h3 : ∀ m ∈ tightTree.root.descendants.map Node.fanout, 2 ≤ m := by
    intro m hm; obtain ⟨n, hn, rfl⟩ := List.mem_map.1 hm; exact h2 n hn
  rw [this] at h3
  exact absurd (h3 1 (by simp)) (by decide)

/-- C22 (what holds): in the tight case every node below the root has at least `min_children - 1` children, and at least
    one; for `2 * min_children ≤ max_children` at least `min_children` (`C21_min_children`).
    Missing: `min_children` in the tight case. -/
theorem C22_min_children_tight_partial [VolumeLaws B] (h2 : 2 ≤ c.minChildren)
    (hm : 2 * c.minChildren ≤ c.maxChildren + 1) (hP : ∀ k, P k → VolumeLaws.volOk (Bounded.bounds k : B))
    (h : Reachable c P t) : ∀ n ∈ t.root.descendants, c.minChildren ≤ n.fanout + 1 ∧ 1 ≤ n.fanout := by
  intro n hn
  have h1 : 1 ≤ n.fanout := by
    let _ : VolumeLaws B := trivialVolumeLaws
    obtain ⟨l, hl⟩ := h.treeOk_any.1.ok.descendants hn
    exact hl.2.2 (by rw [h.treeOk_any.2]; simp only; omega)
  refine ⟨?_, h1⟩
  rcases Nat.lt_or_ge c.minChildren 3 with h3 | h3
  · omega
  · have := (floor_le_fanout ⟨h2, by omega⟩ hP h).1 n hn
    simp only [Alloc.floor] at this
    split at this
    · omega
    · omega

example : Reachable cfg32 (fun _ => True) tightTree ∧ tightTree.root.descendants.length = 2 := by
  refine ⟨tight_reachable, ?_⟩; decide +kernel

/-! ## C23: `min_children = 1` -/

/-- `RTreeConfig { max_children: 4, min_children: 1 }`, the configuration of the crate's benchmark (benches/rtree.rs). -/
def cfg41 : Config := { maxChildren := 4, minChildren := 1 }

/-- Unit-wide boxes at the given positions. -/
def at' (i : Fin 64) : AABB I32 2 :=
  ⟨⟨![⟨(i.1 : ℤ), by omega⟩, ⟨0, by decide⟩]⟩, ⟨![⟨(i.1 : ℤ) + 1, by omega⟩, ⟨1, by decide⟩]⟩⟩

/-- Eleven insertions, then removal of everything. -/
def lonelyOps : List (Op (AABB I32 2) (AABB I32 2) Nat) :=
  ([22, 36, 31, 38, 19, 6, 13, 41, 14, 45, 20].map fun i => .insert (at' i) 0) ++
  ([31, 6, 36, 45, 19, 22, 13, 14, 41, 20, 38].map fun i => .remove (at' i))

/-- The empty tree after `lonelyOps`. -/
def lonelyTree : BoxTree := (run (Tree.new cfg41) lonelyOps).getD (Tree.new cfg41)

theorem lonely_reachable : Reachable cfg41 (fun _ => True) lonelyTree :=
  Reachable.run .new (fun _ _ _ _ => trivial) (Res.ok_getD _ (by decide +kernel))

/-- C23 (refuted): with `min_children = 1` a history of insertions and removals can make the next insertion panic. -/
theorem C23_min_one_insert_refuted :
    ¬ ∀ (c : Config) (t : BoxTree) (k : AABB I32 2) (v : Nat), c.minChildren = 1 → 2 ≤ c.maxChildren →
      Reachable c (fun _ => True) t → ∃ t', t.insert k v = .ok t' := by
  intro h
  obtain ⟨t', ht'⟩ := h cfg41 lonelyTree (at' 1) 0 rfl (by decide) lonely_reachable
  have : (lonelyTree.insert (at' 1) 0).isOk = false := by decide +kernel
  rw [ht'] at this
  simp [Except.isOk, Except.toBool] at this

/-- C23 (what holds): with `min_children = 1` and `2 ≤ max_children` the only panic is that of an insertion into a tree
    that has been emptied but still has an inner root.
    Missing: that this cannot happen. -/
theorem C23_min_one_partial [VolumeLaws B] (h1 : c.minChildren = 1) (h2 : 2 ≤ c.maxChildren)
    (hP : ∀ k, P k → VolumeLaws.volOk (Bounded.bounds k : B)) (h : Reachable c P t) :
    (∀ k v, P k → (∃ r, t.insert k v = .ok r) ∨
      (t.insert k v = .error .unwrapNone ∧ t.len = .ok 0 ∧ 1 ≤ t.level)) ∧
    (∀ k v, P k → (∃ r, t.insertUnique k v = .ok r) ∨
      (t.insertUnique k v = .error .unwrapNone ∧ t.len = .ok 0 ∧ 1 ≤ t.level)) ∧
    ∀ (Q : Type) [Bounded Q B] [BEq Q] (borrow : K → Q) (q : Q), ∃ r, t.remove borrow q = .ok r := by
  have ht := h.treeOk_weak ⟨Nat.le_of_eq h1.symm, h2⟩ hP
  have hlen : t.root.fanout = 0 → t.len = .ok 0 := by
    intro h0
    have hl := C08_len h h.iter_eq
    have he : t.entries = [] := by
      unfold Tree.entries
      cases hr : t.root with
      | leaf b es => simp [hr, Node.fanout] at h0; simp [h0]
      | inner b cs => simp [hr, Node.fanout] at h0; simp [h0]
    rw [hl, he]; rfl
  have hok : ∀ {α : Type} {x : Res α} {p : α → Prop}, Sat x (Allowed True) p → ∃ a, x = .ok a := by
    intro α x p hx
    obtain ⟨a, ha, _⟩ := hx.exists_ok fun e he => he.1 trivial
    exact ⟨a, ha⟩
  refine ⟨fun k v hk => ?_, fun k v hk => ?_, fun Q _ _ borrow q => ?_⟩
  · rcases Nat.eq_zero_or_pos t.level with hl | hl
    · exact .inl (hok (sat_insert anyLaws ht k v (fun _ => hP k hk) fun _ h => by omega))
    · rcases Nat.eq_zero_or_pos t.root.fanout with hf | hf
      · exact .inr ⟨insert_empty_inner ht hl hf k v, hlen hf, hl⟩
      · exact .inl (hok (sat_insert anyLaws ht k v (fun _ => hP k hk) fun _ _ => hf))
  · rcases Nat.eq_zero_or_pos t.level with hl | hl
    · exact .inl (hok (sat_insertUnique anyLaws ht (complete := False) k v (fun h => h.elim) (fun h => h.elim)
        (fun _ _ _ _ _ _ => trivial) (fun _ => hP k hk) fun _ h => by omega))
    · rcases Nat.eq_zero_or_pos t.root.fanout with hf | hf
      · exact .inr ⟨insertUnique_empty_inner ht hl hf k v, hlen hf, hl⟩
      · exact .inl (hok (sat_insertUnique anyLaws ht (complete := False) k v (fun h => h.elim) (fun h => h.elim)
          (fun _ _ _ _ _ _ => trivial) (fun _ => hP k hk) fun _ _ => hf))
  · exact hok (sat_remove anyLaws ht (complete := False) (fun h => h.elim) (fun h => h.elim)
      fun _ hm => by rw [h.treeOk_any.2] at hm; simp only at hm; omega)

example : Reachable cfg41 (fun _ => True) lonelyTree ∧ lonelyTree.level = 1 := by
  refine ⟨lonely_reachable, ?_⟩; decide +kernel

/-! ## C48: keys with inverted bounds -/

/-- A tree with one inverted key. -/
def invertedTree : BoxTree :=
  (run (Tree.new cfg42) [.insert (box 5 0 0 1) 1, .insert (box 100 0 101 1) 2, .insert (box 100 0 101 1) 3,
    .insert (box 100 0 101 1) 4, .insert (box 102 0 103 1) 5]).getD (Tree.new cfg42)

/-- C48 (refuted): an inserted key whose box is inverted is not always found. -/
theorem C48_inverted_found_refuted :
    ¬ ∀ (c : Config) (t : BoxTree) (q : AABB I32 2) (es : List (AABB I32 2 × Nat)), c.Sound →
      Reachable c (fun _ => True) t → t.iter = .ok es → (∃ e ∈ es, (e.1 == q) = true) →
      ∃ v, t.get id q = .ok (some v) := by
  intro h
  have hreach : Reachable cfg42 (fun _ => True) invertedTree :=
    Reachable.run .new (fun _ _ _ _ => trivial) (Res.ok_getD _ (by decide +kernel))
  obtain ⟨v, hv⟩ := h cfg42 invertedTree (box 5 0 0 1) invertedTree.entries cfg42_sound hreach hreach.iter_eq
    (by decide +kernel)
  have : (invertedTree.get id (box 5 0 0 1)).toOption.join = none := by decide +kernel
  rw [hv] at this
  simp [Except.toOption] at this

/-- C48 (what holds): a lookup whose bounds are valid finds its key (`C03_get_first`); an inverted key is found as long as
    the tree is a single leaf, and it is never lost from iteration (`C09_iter_exact`, `C01_insert_adds_one`).
    Missing: inverted keys in taller trees. -/
theorem C48_inverted_leaf_partial [Bounded Q B] [BEq Q] (h : Reachable c P t) (borrow : K → Q) (q : Q)
    (hl : t.level = 0) {es : List (K × V)} (hes : t.iter = .ok es) :
    t.get borrow q = .ok ((es.find? fun e => borrow e.1 == q).map (·.2)) := by
  have hsh := h.shape
  rw [h.iter_eq] at hes
  obtain rfl : t.entries = es := by simpa using hes
  obtain ⟨a, level, root⟩ := t
  simp only at hl; subst hl
  obtain ⟨b, es', hroot⟩ := Shape.leaf hsh
  simp only at hroot; subst hroot
  simp [Tree.get, getNode, Node.leafChildren, Tree.entries]

/-! ## C51: `is_empty` with `min_children = 0` -/

/-- `RTreeConfig { max_children: 2, min_children: 0 }`. -/
def cfg20 : Config := { maxChildren := 2, minChildren := 0 }

/-- Three insertions, then removal of everything. -/
def hollowTree : BoxTree :=
  (run (Tree.new cfg20) (([0, 10, 20].map fun i => .insert (at' i) 0) ++ ([0, 10, 20].map fun i => .remove (at' i)))
    ).getD (Tree.new cfg20)

/-- C51 (refuted): with `min_children = 0`, `is_empty` can answer `false` for a tree without entries. -/
theorem C51_is_empty_refuted :
    ¬ ∀ (c : Config) (t : BoxTree) (n : Nat), 1 ≤ c.maxChildren → Reachable c (fun _ => True) t → t.len = .ok n →
      t.isEmpty = .ok (decide (n = 0)) := by
  intro h
  have hreach : Reachable cfg20 (fun _ => True) hollowTree :=
    Reachable.run .new (fun _ _ _ _ => trivial) (Res.ok_getD _ (by decide +kernel))
  have hlen : hollowTree.len = .ok 0 := by
    rw [Res.ok_getD (x := hollowTree.len) 7 (by decide +kernel)]
    congr 1; decide +kernel
  have h1 := h cfg20 hollowTree 0 (by decide) hreach hlen
  have h2 : hollowTree.isEmpty.getD true = false := by decide +kernel
  rw [h1] at h2
  simp [Res.getD] at h2

/-- C51 (what holds): for `1 ≤ min_children` it is right, and for every configuration it never says that a tree with
    entries is empty.  Missing: `min_children = 0`. -/
theorem C51_is_empty_partial (h : Reachable c P t) {es : List (K × V)} (hes : t.iter = .ok es) :
    (1 ≤ c.minChildren → t.isEmpty = .ok (es.length == 0)) ∧ (t.isEmpty = .ok true → es = []) := by
  refine ⟨fun hm => C08_is_empty h hm hes, fun he => ?_⟩
  have hsh := h.shape
  rw [h.iter_eq] at hes
  obtain rfl : t.entries = es := by simpa using hes
  obtain ⟨a, level, root⟩ := t
  cases level with
  | zero =>
    obtain ⟨b, es', hroot⟩ := Shape.leaf hsh
    simp only at hroot; subst hroot
    simpa [Tree.isEmpty, isEmptyNode, Node.leafChildren, Tree.entries] using he
  | succ l =>
    obtain ⟨b, cs, hroot, _⟩ := Shape.inner hsh
    simp only at hroot; subst hroot
    have : cs = [] := by simpa [Tree.isEmpty, isEmptyNode, Node.innerChildren] using he
    simp [Tree.entries, this]

/-! ## C49: the child selector -/

/-- C49: among children whose enlargements can be computed, the selected one is enlarged least, among those it has least
    volume, and among those it comes first. -/
theorem C49_select_least_enlargement [Std.TransCmp (Volume.cmp (B := B))] {cs : List B} {x : B} {i : Nat}
    (hdef : ∀ b ∈ cs, ∃ d, enlargement b x = some d) (h : select cs x = .ok (some i)) :
    ∃ b d v, cs[i]? = some b ∧ enlargement b x = some d ∧ Volume.volume b = some v ∧
      ∀ j b' d' v', cs[j]? = some b' → enlargement b' x = some d' → Volume.volume b' = some v' →
        Volume.cmp (B := B) d d' = .lt ∨ Volume.cmp (B := B) d d' = .eq ∧
          (Volume.cmp (B := B) v v' = .lt ∨ Volume.cmp (B := B) v v' = .eq ∧ i ≤ j) := by
  obtain ⟨a, b, r, rfl, rfl, ha, hr⟩ := select_spec hdef h
  obtain ⟨d, hd⟩ := hdef b (by simp)
  have hv : ∃ v, Volume.volume b = some v := by
    unfold enlargement at hd
    cases h1 : Volume.volume b with
    | none => cases h2 : Volume.volume (Bounds.union b x) <;> simp [h1, h2] at hd
    | some v => exact ⟨v, rfl⟩
  obtain ⟨v, hv⟩ := hv
  have hself : ∀ u : Volume.Vol B, Volume.cmp (B := B) u u = .eq := fun u => Std.ReflCmp.compare_self
  refine ⟨b, d, v, by simp, hd, hv, fun j b' d' v' hj hd' hv' => ?_⟩
  rcases Nat.lt_trichotomy j a.length with hlt | rfl | hgt
  · rw [List.getElem?_append_left hlt] at hj
    rcases ha b' (List.mem_of_getElem? hj) d d' v v' hd hd' hv hv' with h1 | ⟨h1, h2⟩
    · exact .inl h1
    · exact .inr ⟨h1, .inl h2⟩
  · obtain rfl : b = b' := by simpa using hj
    rw [hd] at hd'; rw [hv] at hv'; cases hd'; cases hv'
    exact .inr ⟨hself d, .inr ⟨hself v, Nat.le_refl _⟩⟩
  · rw [List.getElem?_append_right (by omega), List.getElem?_cons] at hj
    rw [if_neg (by omega)] at hj
    rcases hr b' (List.mem_of_getElem? hj) d d' v v' hd hd' hv hv' with h1 | ⟨h1, h2⟩
    · exact .inl h1
    · refine .inr ⟨h1, ?_⟩
      cases hc : Volume.cmp (B := B) v v' with
      | lt => exact .inl rfl
      | eq => exact .inr ⟨rfl, by omega⟩
      | gt => exact absurd hc h2

omit [BEq K] in
/-- C49: inserting an entry into an inner node changes no child but the selected one (and adds its new sibling, if
    that child was split). -/
theorem C49_insert_descends {a : Alloc} {l : Nat} {b : B} {cs : List (Node B K V)} {k : K} {v : V} {n : Node B K V}
    {s : Option (Nat × Node B K V)} (h : insertNode a (l + 1) (.inner b cs) (.leaf k v) = .ok (n, s)) :
    ∃ i child child' s', select (cs.map Node.bounds) (Bounded.bounds k) = .ok (some i) ∧ cs[i]? = some child ∧
      insertNode a l child (.leaf k v) = .ok (child', s') ∧
      (s' = none → s = none ∧ ∃ b', n = .inner b' (cs.set i child')) := by
  rw [insertNode, if_pos (by simp [NodeEntry.targetLevel])] at h
  simp only [Node.innerChildren, ok_bind] at h
  obtain ⟨o, h1, h⟩ := bind_eq_ok.1 h
  obtain ⟨i, h2, h⟩ := bind_eq_ok.1 h
  obtain ⟨child, h3, h⟩ := bind_eq_ok.1 h
  obtain ⟨⟨child', s'⟩, h4, h⟩ := bind_eq_ok.1 h
  refine ⟨i, child, child', s', ?_, ?_, h4, ?_⟩
  · cases o with
    | none => simp [unwrap] at h2
    | some j => obtain rfl : j = i := by simpa [unwrap] using h2
                exact h1
  · unfold index at h3
    cases hc : cs[i]? with
    | none => simp [hc] at h3
    | some x => simpa [hc] using h3
  · rintro rfl
    simp only [pure_eq_ok, Except.ok.injEq, Prod.mk.injEq] at h
    exact ⟨h.2.symm, _, h.1.symm⟩

/-- The volumes of boxes are lawfully ordered. -/
instance {N : Type} {D : Nat} [Scalar N] : Std.TransCmp (Volume.cmp (B := AABB N D)) where
  eq_swap {a b} := by
    have key : ∀ a b : XRat, N64.cmp a b = (N64.cmp b a).swap := by
      intro a b
      unfold N64.cmp
      rcases lt_trichotomy a b with h | rfl | h
      · simp [h, h.not_gt, h.ne']
      · simp
      · simp [h, h.not_gt, h.ne']
    exact key a b
  isLE_trans {a b c} := by
    have key : ∀ a b : XRat, (N64.cmp a b).isLE = true ↔ a ≤ b := by
      intro a b
      unfold N64.cmp
      rcases lt_trichotomy a b with h | rfl | h
      · simp [h, h.le]
      · simp
      · simp [h.not_gt, h.ne', h.not_ge]
    show (N64.cmp a b).isLE = true → (N64.cmp b c).isLE = true → (N64.cmp a c).isLE = true
    rw [key, key, key]
    exact le_trans

example : select [box 0 0 10 10, box 0 0 4 4, box 0 0 5 5] (box 1 1 2 2) = .ok (some 1) ∧
    ∀ b ∈ [box 0 0 10 10, box 0 0 4 4, box 0 0 5 5], ∃ d, enlargement b (box 1 1 2 2) = some d := by
  refine ⟨?_, ?_⟩
  · rw [Res.ok_getD (x := select [box 0 0 10 10, box 0 0 4 4, box 0 0 5 5] (box 1 1 2 2)) none (by decide +kernel)]
    congr 1; decide +kernel
  · intro b hb
    rw [← Option.isSome_iff_exists]
    revert b
    decide +kernel

/-! ## C50: splitting -/

/-- C50: a split of a full node of `cap = max_children` values and one more puts each in exactly one of two non-empty
    groups that fit into nodes, and the returned bounds are the unions of the bounds of the groups. -/
theorem C50_split_partitions {α : Type} {bf : α → B} {minC cap : Nat} {values : List α} {overflow : α}
    {r : SplitResult B α} (hcap : values.length = cap) (h : split bf minC cap values overflow = .ok r) :
    (r.group1 ++ r.group2).Perm (overflow :: values) ∧ r.group1 ≠ [] ∧ r.group2 ≠ [] ∧
      r.group1.length ≤ cap ∧ r.group2.length ≤ cap ∧
      r.bounds1 = unionFold (r.group1.map bf) ∧ r.bounds2 = unionFold (r.group2.map bf) := by
  let _ : VolumeLaws B := trivialVolumeLaws
  obtain ⟨h1, h2, h3, h4, h5, h6, h7, -⟩ :=
    (sat_split (g := False) (Nat.le_of_eq hcap) (fun h => h.elim) (fun h => h.elim)).of_ok h
  exact ⟨h1, List.length_pos_iff.1 h2, List.length_pos_iff.1 h3, by omega, by omega, h6, h7⟩

/-- C50: for `cap ≥ 2 * min_children` and values whose volumes can be computed, the split returns, and both groups have
    at least `min_children` values. -/
theorem C50_split_min [VolumeLaws B] {α : Type} {bf : α → B} {minC cap : Nat} {values : List α} {overflow : α}
    (hcap : values.length = cap) (h1 : 1 ≤ minC) (h2 : 2 * minC ≤ cap)
    (hv : ∀ x ∈ overflow :: values, VolumeLaws.volOk (bf x)) :
    ∃ r, split bf minC cap values overflow = .ok r ∧ minC ≤ r.group1.length ∧ minC ≤ r.group2.length := by
  obtain ⟨r, hr, h⟩ := (sat_split (g := True) (minC := minC) (overflow := overflow) (Nat.le_of_eq hcap) (fun _ => by omega)
    (fun _ => hv)).exists_ok
    fun e he => he.1 trivial
  obtain ⟨-, -, -, -, -, -, -, h3⟩ := h
  have := h3 ⟨by omega, by omega⟩
  exact ⟨r, hr, this.1, this.2.2 (by omega)⟩

/-- C50: a split of a node with at least one value whose volumes can be computed returns, whatever `min_children` is. -/
theorem C50_split_returns [VolumeLaws B] {α : Type} {bf : α → B} {minC cap : Nat} {values : List α} {overflow : α}
    (hcap : values.length = cap) (h1 : 1 ≤ cap) (hv : ∀ x ∈ overflow :: values, VolumeLaws.volOk (bf x)) :
    ∃ r, split bf minC cap values overflow = .ok r := by
  obtain ⟨r, hr, -⟩ := (sat_split (g := True) (minC := minC) (overflow := overflow) (Nat.le_of_eq hcap) (fun _ => by omega)
    (fun _ => hv)).exists_ok fun e he => he.1 trivial
  exact ⟨r, hr⟩

example : (split (B := AABB I32 2) id 2 4 [box 0 0 1 1, box 9 9 10 10, box 0 0 2 2, box 8 8 9 9]
    (box 1 1 2 2)).isOk = true := by decide +kernel

end RTree
