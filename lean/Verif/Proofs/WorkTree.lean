import Verif.Proofs.Work
import Verif.Proofs.Tree
import Verif.Proofs.History
/-!
# How often the operations of trees call user code
-/

namespace RTree.Work

variable {α β B K V Q : Type}

/-- `w` computes what `x` computes; the bound on the calls may depend on the result. -/
structure DoesBy (w : W α) (x : Res α) (k : α → Nat) : Prop where
  ok : ∀ a, x = .ok a → ∀ n, ∃ j, j ≤ k a ∧ w n = .ok (a, n + j)
  error : ∀ e, x = .error e → ∀ n, w n = .error e

theorem Does.by {w : W α} {x : Res α} {k : Nat} {k' : α → Nat} (h : Does w x k) (hk : ∀ a, x = .ok a → k ≤ k' a) : DoesBy w x k' :=
  ⟨fun a ha n => by
    obtain ⟨j, hj, e⟩ := h.ok a ha n
    exact ⟨j, Nat.le_trans hj (hk a ha), e⟩, h.error⟩

theorem DoesBy.bind {w : W α} {x : Res α} {f : α → W β} {g : α → Res β} {k : α → Nat} {k' : β → Nat} {l : α → β → Nat} (h : DoesBy w x k)
    (hf : ∀ a, x = .ok a → DoesBy (f a) (g a) (l a)) (hk : ∀ a b, x = .ok a → g a = .ok b → k a + l a b ≤ k' b) : DoesBy (w >>= f) (x >>= g) k' := by
  cases x with
  | error e => exact ⟨fun _ h => by (cases h), fun e' he n => by cases he; exact bind_of_error (h.error e rfl n)⟩
  | ok a =>
    refine ⟨fun b hb n => ?_, fun e he n => ?_⟩
    · obtain ⟨j, hj, e⟩ := h.ok a rfl n
      obtain ⟨i, hi, e2⟩ := (hf a rfl).ok b hb (n + j)
      exact ⟨j + i, Nat.le_trans (Nat.add_le_add hj hi) (hk a b rfl hb), by rw [bind_of_ok e, e2, Nat.add_assoc]⟩
    · obtain ⟨j, hj, e1⟩ := h.ok a rfl n
      rw [bind_of_ok e1]
      exact (hf a rfl).error e he _

/-- The calls of the insertion of an entry into a node with room, or splitting it. -/
def selfCost (M : Nat) : Nat := 6 * (M * M) + 2 * M + 2

/-- The calls of an insertion per level. -/
def levelCost (M : Nat) : Nat := 6 * (M * M) + 16 * M + 4

section Insert

variable [Bounds B] [Volume B] [Bounded K B]

omit [Bounds B] [Volume B] [Bounded K B] in
theorem split_cost {n M : Nat} (h : n ≤ M) : 6 * (n * n) + 2 * n ≤ 6 * (M * M) + 2 * M :=
  Nat.add_le_add (Nat.mul_le_mul_left _ (Nat.mul_le_mul h h)) (Nat.mul_le_mul_left _ h)

/-- Number of children of a node. -/
def width : Node B K V → Nat
  | .leaf _ es => es.length
  | .inner _ cs => cs.length

theorem does_selfInsert (a : Alloc) (level : Nat) (node : Node B K V) (entry : NodeEntry B K V) (hw : width node ≤ a.maxChildren) :
    Does (selfInsert a level node entry) (RTree.selfInsert a level node entry) (selfCost a.maxChildren) := by
  have hcost : selfCost a.maxChildren = 1 + (6 * (a.maxChildren * a.maxChildren) + 2 * a.maxChildren + 1) := by unfold selfCost; omega
  rw [hcost]
  unfold selfInsert RTree.selfInsert
  refine Does.user (m := 1) ?_
  cases level with
  | succ l =>
    cases node with
    | leaf b es => exact ⟨fun _ h => by (cases h), fun _ h n => by cases h; rfl⟩
    | inner b cs =>
      cases entry with
      | leaf k v => exact ⟨fun _ h => by (cases h), fun _ h n => by cases h; rfl⟩
      | inner el en =>
        simp only [Node.innerChildren, ok_bind]
        refine Does.skip' ?_
        by_cases hl : l = el
        · subst hl
          simp only [ne_eq, not_true_eq_false, if_false]
          refine Does.skip ?_
          unfold Vec.tryPush
          by_cases hf : cs.length = a.maxChildren
          · simp only [if_pos hf]
            exact (Does.bind (k' := 0) (does_split Node.bounds _ _ cs en) fun _ _ => .pure).mono (by have := split_cost (n := cs.length) hw; omega)
          · simp only [if_neg hf]
            exact (Does.user (m := 1) (k := 0) .pure).mono (by omega)
        · simp only [ne_eq, hl, not_false_eq_true, if_true]
          exact ⟨fun _ h => by (cases h), fun _ h n => by cases h; rfl⟩
  | zero =>
    cases node with
    | inner b es => exact ⟨fun _ h => by (cases h), fun _ h n => by cases h; rfl⟩
    | leaf b es =>
      cases entry with
      | inner k v => exact ⟨fun _ h => by (cases h), fun _ h n => by cases h; rfl⟩
      | leaf k v =>
        simp only [Node.leafChildren, ok_bind]
        refine Does.skip' ?_
        unfold Vec.tryPush
        by_cases hf : es.length = a.maxChildren
        · simp only [if_pos hf]
          exact (Does.bind (k' := 0) (does_split entryBounds _ _ es (k, v)) fun _ _ => .pure).mono (by have := split_cost (n := es.length) hw; omega)
        · simp only [if_neg hf]
          exact (Does.user (m := 1) (k := 0) .pure).mono (by omega)

/-- node.rs 424-433, 478-487 in the model without counting. -/
def after (a : Alloc) (l : Nat) (bounds eb : B) (children : List (Node B K V)) (sibling : Option (Nat × Node B K V)) :
    Res (Node B K V × Option (Nat × Node B K V)) :=
  match sibling with
  | some (newLevel, newChild) =>
    RTree.selfInsert a (l + 1) (.inner (Bounds.unionAll (children.map Node.bounds)) children) (.inner newLevel newChild)
  | none => .ok (.inner (Bounds.union bounds eb) children, none)

theorem does_afterChild (a : Alloc) (l : Nat) (bounds eb : B) (children : List (Node B K V)) (sibling : Option (Nat × Node B K V))
    (hw : children.length ≤ a.maxChildren) :
    Does (afterChild a l bounds eb children sibling) (after a l bounds eb children sibling) (2 * a.maxChildren + 1 + selfCost a.maxChildren) := by
  cases sibling with
  | none => exact (Does.user (m := 1) (k := 0) .pure).mono (by omega)
  | some s =>
    refine (Does.bind (x := .ok (children.map Node.bounds)) (g := fun bs => RTree.selfInsert a (l + 1) (.inner (Bounds.unionAll bs) children) (.inner s.1 s.2))
      (k' := children.length + 1 + selfCost a.maxChildren) (does_allBounds Node.bounds children) fun bs hbs => ?_).mono (by omega)
    cases hbs
    refine (Does.user (m := (children.map Node.bounds).length + 1) (does_selfInsert a (l + 1) (.inner (Bounds.unionAll (children.map Node.bounds)) children) _ hw)).mono ?_
    rw [List.length_map] <;> omega

variable [VolumeLaws B] {rel : B → List B → Prop} {a : Alloc} {g : Prop}

omit [Volume B] [Bounded K B] in
theorem ok_width [Volume B] [VolumeLaws B] [Bounded K B] {rel : B → List B → Prop} {l : Nat} {n : Node B K V} (h : Ok rel a g l n) : width n ≤ a.maxChildren := by
  cases l with
  | zero =>
    obtain ⟨b, es, rfl, -, hlen, -⟩ := h.leaf
    exact hlen
  | succ l =>
    obtain ⟨b, cs, rfl, -, hlen, -⟩ := h.inner
    exact hlen

omit [Bounds B] [Volume B] [Bounded K B] [VolumeLaws B] in
theorem index_mem {l : List α} {i : Nat} {x : α} (h : index l i = .ok x) : x ∈ l := by
  unfold index at h
  cases he : l[i]? with
  | none => rw [he] at h; cases h
  | some y =>
    rw [he] at h
    cases h
    exact List.mem_of_getElem? he

theorem does_insertNode (entry : NodeEntry B K V) : ∀ (level : Nat) (node : Node B K V), Ok rel a g level node →
    Does (insertNode a level node entry) (RTree.insertNode a level node entry) ((level + 1) * levelCost a.maxChildren)
  | 0, node, h => by
    unfold insertNode RTree.insertNode
    refine (Does.user (m := 1) (k := selfCost a.maxChildren) (Does.ite (fun _ => ?_) fun _ => does_selfInsert a 0 node entry (ok_width h))).mono (by
      unfold selfCost levelCost; omega)
    cases node with
    | leaf => exact ⟨fun _ h => by (cases h), fun _ h n => by cases h; rfl⟩
    | inner => exact ⟨fun _ h => by (cases h), fun _ h n => by cases h; rfl⟩
  | l + 1, node, h => by
    unfold insertNode RTree.insertNode
    have hs : 1 + selfCost a.maxChildren ≤ (l + 1 + 1) * levelCost a.maxChildren := by
      refine Nat.le_trans ?_ (Nat.le_mul_of_pos_left _ (by omega))
      unfold selfCost levelCost; omega
    refine (Does.user (m := 1) (k := (l + 1 + 1) * levelCost a.maxChildren - 1) (Does.ite (fun _ => ?_) fun _ =>
      (does_selfInsert a (l + 1) node entry (ok_width h)).mono (by omega))).mono (by omega)
    obtain ⟨b, cs, rfl, -, hlen, hcs⟩ := h.inner
    refine Does.skip' ?_
    have hsel := does_select (cs.map Node.bounds) entry.bounds
    rw [List.length_map] at hsel
    refine (Does.bind (k' := (l + 1) * levelCost a.maxChildren + (2 * a.maxChildren + 1 + selfCost a.maxChildren)) hsel fun i _ => Does.first fun i _ =>
      Does.first fun child hc => Does.bind (does_insertNode entry l child (hcs child (index_mem hc)).1) fun r _ => ?_).mono ?_
    · obtain ⟨n, s⟩ := r
      have := does_afterChild a l b entry.bounds (cs.set i n) s (by rw [List.length_set]; exact hlen)
      cases s <;> exact this
    · rw [Nat.succ_mul (l + 1)]
      have : (cs.length - 1) * 12 ≤ a.maxChildren * 12 := Nat.mul_le_mul_right _ (by omega)
      unfold levelCost selfCost
      omega

end Insert


/-! ### Searching -/

mutual

/-- Number of nodes a search enters that enters a node if `p` holds of its bounds (and always the first). -/
def touched (p : B → Bool) : Node B K V → Nat
  | .leaf _ _ => 1
  | .inner _ cs => 1 + touchedList p cs

/-- The same for the children of a node. -/
def touchedList (p : B → Bool) : List (Node B K V) → Nat
  | [] => 0
  | c :: cs => (if p c.bounds then touched p c else 0) + touchedList p cs

end

theorem touched_pos (p : B → Bool) (n : Node B K V) : 1 ≤ touched p n := by
  cases n <;> simp only [touched] <;> omega

theorem touched_mem {p : B → Bool} : ∀ {cs : List (Node B K V)} {c : Node B K V}, c ∈ cs → p c.bounds = true → touched p c ≤ touchedList p cs
  | d :: cs, c, h, hp => by
    rw [touchedList]
    rcases List.mem_cons.1 h with rfl | h
    · rw [if_pos hp]; omega
    · have := touched_mem h hp
      omega

section Get

variable [Bounds B] [Bounded Q B] [BEq Q]

omit [Bounds B] [Bounded Q B] in
theorem does_findEntry (borrow : K → Q) (q : Q) : ∀ es : List (K × V),
    Does (findEntry borrow q es) (.ok ((es.find? fun e => borrow e.1 == q).map (·.2))) (2 * es.length)
  | [] => .pure
  | e :: es => by
    rw [findEntry, List.find?_cons, List.length_cons]
    refine (Does.user (m := 2) (k := 2 * es.length) ?_).mono (by omega)
    cases borrow e.1 == q
    · simp only [Bool.false_eq_true, if_false]
      exact does_findEntry borrow q es
    · exact .pure

theorem does_getChildren (q : Q) {M : Nat} {rec : Node B K V → W (Option V)} {rec' : Node B K V → Res (Option V)} : ∀ cs : List (Node B K V),
    (∀ c ∈ cs, Does (rec c) (rec' c) (2 * (M * touched (fun b => Bounds.contains b (Bounded.bounds q)) c))) →
    Does (getChildren q rec cs) (RTree.getChildren q rec' cs) (2 * cs.length + 2 * (M * touchedList (fun b => Bounds.contains b (Bounded.bounds q)) cs))
  | [], _ => .pure
  | c :: cs, h => by
    have ih := does_getChildren q cs fun c hc => h c (List.mem_cons_of_mem _ hc)
    rw [getChildren, RTree.getChildren, touchedList, List.length_cons]
    refine (Does.user (m := 1) (Does.user (m := 1) (k := 2 * cs.length + 2 * (M * ((if Bounds.contains c.bounds (Bounded.bounds q) = true then
      touched (fun b => Bounds.contains b (Bounded.bounds q)) c else 0) + touchedList (fun b => Bounds.contains b (Bounded.bounds q)) cs))) ?_)).mono (by omega)
    cases hc : Bounds.contains c.bounds (Bounded.bounds q)
    · simp only [Bool.false_eq_true, if_false, Nat.zero_add]
      exact ih
    · simp only [if_true, Nat.mul_add]
      refine (Does.bind (h c List.mem_cons_self) fun r _ => ?_).mono (k := 2 * (M * touched (fun b => Bounds.contains b (Bounded.bounds q)) c) +
        (2 * cs.length + 2 * (M * touchedList (fun b => Bounds.contains b (Bounded.bounds q)) cs))) (by omega)
      cases r with
      | none => exact ih
      | some v => exact .pure

variable [Volume B] [VolumeLaws B] [Bounded K B] {rel : B → List B → Prop} {a : Alloc} {g : Prop}

theorem does_getNode (borrow : K → Q) (q : Q) : ∀ (l : Nat) (n : Node B K V), Ok rel a g l n →
    Does (getNode borrow q l n) (RTree.getNode borrow q l n) (2 * (a.maxChildren * touched (fun b => Bounds.contains b (Bounded.bounds q)) n))
  | 0, n, h => by
    obtain ⟨b, es, rfl, -, hlen, -⟩ := h.leaf
    rw [getNode, RTree.getNode, touched]
    exact (Does.skip' (does_findEntry borrow q es)).mono (by omega)
  | l + 1, n, h => by
    obtain ⟨b, cs, rfl, -, hlen, hcs⟩ := h.inner
    rw [getNode, RTree.getNode, touched]
    refine (Does.skip' (does_getChildren q cs fun c hc => does_getNode borrow q l c (hcs c hc).1)).mono ?_
    rw [Nat.mul_add]
    omega

omit [Bounds B] [Bounded Q B] [BEq Q] [Volume B] [VolumeLaws B] [Bounded K B] in
theorem does_findEntryMut {same : K → W Bool} {p : K → Bool} {k : Nat} (hs : ∀ x, Does (same x) (.ok (p x)) k) : ∀ es : List (K × V),
    Does (findEntryMut same es) (.ok (RTree.findEntryMut p es)) (k * es.length)
  | [] => .pure
  | e :: es => by
    rw [findEntryMut, RTree.findEntryMut, List.length_cons]
    refine (Does.bind (g := fun y => .ok (if y = true then some (e.2, fun v => (e.1, v) :: es)
      else match RTree.findEntryMut p es with
        | some (v, back) => some (v, fun v' => e :: back v')
        | none => none)) (k' := k * es.length) (hs e.1) fun y hy => ?_).mono (by rw [Nat.mul_add]; omega)
    cases y
    · simp only [Bool.false_eq_true, if_false]
      refine (Does.bind (x := .ok (RTree.findEntryMut p es)) (g := fun r => .ok (match r with
        | some (v, back) => some (v, fun v' => e :: back v')
        | none => none)) (k' := 0) (does_findEntryMut hs es) fun r _ => ?_)
      cases r <;> exact .pure
    · exact .pure

theorem does_getMutChildren (q : Q) {M : Nat} {rec : Node B K V → W (Option (V × (V → Node B K V)))} {rec' : Node B K V → Res (Option (V × (V → Node B K V)))} :
    ∀ cs : List (Node B K V), (∀ c ∈ cs, Does (rec c) (rec' c) (2 * (M * touched (fun b => Bounds.contains b (Bounded.bounds q)) c))) →
    Does (getMutChildren q rec cs) (RTree.getMutChildren q rec' cs) (2 * cs.length + 2 * (M * touchedList (fun b => Bounds.contains b (Bounded.bounds q)) cs))
  | [], _ => .pure
  | c :: cs, h => by
    have ih := does_getMutChildren q cs fun c hc => h c (List.mem_cons_of_mem _ hc)
    rw [getMutChildren, RTree.getMutChildren, touchedList, List.length_cons]
    refine (Does.user (m := 1) (Does.user (m := 1) (Does.bind (k := 2 * (M * (if Bounds.contains c.bounds (Bounded.bounds q) = true then
      touched (fun b => Bounds.contains b (Bounded.bounds q)) c else 0))) (k' := 2 * cs.length + 2 * (M * touchedList (fun b => Bounds.contains b (Bounded.bounds q)) cs))
        ?_ fun r _ => ?_))).mono (by simp only [Nat.mul_add]; omega)
    · cases hc : Bounds.contains c.bounds (Bounded.bounds q)
      · exact .pure
      · exact h c List.mem_cons_self
    · cases r with
      | some r => exact .pure
      | none =>
        refine Does.bind (k' := 0) ih fun r _ => ?_
        cases r <;> exact .pure

theorem does_getMutNode (borrow : K → Q) (q : Q) : ∀ (l : Nat) (n : Node B K V), Ok rel a g l n →
    Does (getMutNode borrow q l n) (RTree.getMutNode borrow q l n) (2 * (a.maxChildren * touched (fun b => Bounds.contains b (Bounded.bounds q)) n))
  | 0, n, h => by
    obtain ⟨b, es, rfl, -, hlen, -⟩ := h.leaf
    rw [getMutNode, RTree.getMutNode, touched]
    refine Does.skip' ?_
    refine (Does.bind (β := Option (V × (V → Node B K V))) (x := .ok (RTree.findEntryMut (fun k => borrow k == q) es)) (g := fun r => match r with
        | some (v, back) => .ok (some (v, fun v' => Node.leaf b (back v')))
        | none => .ok none) (k' := 0) (does_findEntryMut (k := 2) (fun x => Does.tick (m := 2) (k := 0) .pure) es) fun r _ => ?_).mono (by omega)
    cases r <;> exact .pure
  | l + 1, n, h => by
    obtain ⟨b, cs, rfl, -, hlen, hcs⟩ := h.inner
    rw [getMutNode, RTree.getMutNode, touched]
    refine Does.skip' ?_
    refine (Does.bind (k' := 0) (does_getMutChildren q cs fun c hc => does_getMutNode borrow q l c (hcs c hc).1) fun r _ => ?_).mono (by rw [Nat.mul_add]; omega)
    cases r <;> exact .pure

end Get

section InsertUnique

variable [Bounds B] [Volume B] [Bounded K B] [BEq K]

omit [Volume B] [BEq K] in
theorem does_onlyLoop (key : K) : ∀ (cs : List (Node B K V)) (i : Nat) (found : Option Nat),
    Does (onlyLoop key cs i found)
      (.ok (getOnly (found.toList ++ ((cs.zipIdx i).filter fun c => Bounds.contains c.1.bounds (Bounded.bounds key : B)).map (·.2)))) (3 * cs.length)
  | [], i, none => .pure
  | [], i, some j => .pure
  | c :: cs, i, found => by
    rw [List.zipIdx_cons, List.filter_cons, List.length_cons]
    unfold onlyLoop
    refine (Does.user (m := 1) (Does.user (m := 1) (Does.user (m := 1) (k := 3 * cs.length) ?_))).mono (by omega)
    cases hc : Bounds.contains c.bounds (Bounded.bounds key : B)
    · simp only [Bool.false_eq_true, if_false]
      exact does_onlyLoop key cs (i + 1) found
    · simp only [if_true]
      cases found with
      | none => exact does_onlyLoop key cs (i + 1) (some i)
      | some j => exact .pure

omit [Volume B] [Bounded K B] [BEq K] in
theorem only_containing {cs : List (Node B K V)} {b : B} {i : Nat} {c : Node B K V} (h : getOnly (containing cs b) = .only i) (hi : index cs i = .ok c) :
    c ∈ cs ∧ Bounds.contains c.bounds b = true := by
  have hmem : i ∈ containing cs b := by
    cases hl : containing cs b with
    | nil => rw [hl] at h; cases h
    | cons x l =>
      cases l with
      | nil => rw [hl] at h; cases h; exact List.mem_singleton.2 rfl
      | cons => rw [hl] at h; cases h
  unfold containing at hmem
  obtain ⟨⟨d, j⟩, hd, rfl⟩ := List.mem_map.1 hmem
  obtain ⟨hd, hp⟩ := List.mem_filter.1 hd
  rw [List.mem_zipIdx_iff_getElem?] at hd
  refine ⟨index_mem hi, ?_⟩
  unfold index at hi
  dsimp only at hi hd
  rw [hd] at hi
  cases hi
  exact hp

variable [VolumeLaws B] {rel : B → List B → Prop} {a : Alloc} {g : Prop}

/-- The calls of `insert_unique` per level, not counting the search. -/
def uniqueCost (M : Nat) : Nat := levelCost M + 3 * M + 1

theorem does_insertUniqueNode (key : K) (value : V) : ∀ (level : Nat) (node : Node B K V), Ok rel a g level node →
    Does (insertUniqueNode a key value level node) (RTree.insertUniqueNode a key value level node)
      ((level + 1) * uniqueCost a.maxChildren + 2 * (a.maxChildren * touched (fun b => Bounds.contains b (Bounded.bounds key : B)) node))
  | 0, node, h => by
    have hins := does_insertNode (NodeEntry.leaf key value) 0 node h
    obtain ⟨b, es, rfl, -, hlen, -⟩ := h.leaf
    rw [insertUniqueNode, RTree.insertUniqueNode]
    refine (Does.user (m := 1) (Does.skip' (Does.bind (x := .ok (RTree.findEntryMut (fun k => k == key) es)) (g := fun r => match r with
        | some (old, back) => pure (.leaf b (back value), some old, none)
        | none => do
          let (node, sibling) ← RTree.insertNode a 0 (.leaf b es) (.leaf key value)
          pure (node, none, sibling))
        (k' := levelCost a.maxChildren) (does_findEntryMut (k := 1) (fun x => Does.tick (m := 1) (k := 0) .pure) es) fun r _ => ?_))).mono (by
          unfold uniqueCost; omega)
    cases r with
    | some r => exact .pure
    | none =>
      refine (Does.bind (k' := 0) hins fun r _ => ?_).mono (by omega)
      exact .pure
  | l + 1, node, h => by
    have hins := does_insertNode (NodeEntry.leaf key value) (l + 1) node h
    have hget := does_getMutNode id key (l + 1) node h
    obtain ⟨b, cs, rfl, -, hlen, hcs⟩ := h.inner
    rw [insertUniqueNode, RTree.insertUniqueNode]
    have hu : (l + 1 + 1) * uniqueCost a.maxChildren = (l + 1) * uniqueCost a.maxChildren + uniqueCost a.maxChildren := Nat.succ_mul _ _
    have hu2 : (l + 1) * levelCost a.maxChildren ≤ (l + 1) * uniqueCost a.maxChildren := Nat.mul_le_mul_left _ (by unfold uniqueCost; omega)
    have hu3 : (l + 1 + 1) * levelCost a.maxChildren = (l + 1) * levelCost a.maxChildren + levelCost a.maxChildren := Nat.succ_mul _ _
    have hu4 : uniqueCost a.maxChildren = levelCost a.maxChildren + 3 * a.maxChildren + 1 := rfl
    generalize hT : 2 * (a.maxChildren * touched (fun b => Bounds.contains b (Bounded.bounds key : B)) (Node.inner b cs)) = T at hget ⊢
    refine (Does.user (m := 1) (Does.skip' (Does.bind (x := .ok (getOnly (containing cs (Bounded.bounds key))))
        (g := fun r => match r with
          | .none => do
            let (node, sibling) ← RTree.insertNode a (l + 1) (.inner b cs) (.leaf key value)
            pure (node, none, sibling)
          | .only i => do
            let child ← index cs i
            let (child, old, sibling) ← RTree.insertUniqueNode a key value l child
            let children := cs.set i child
            match sibling with
            | some (newLevel, newChild) => do
              let (node, sibling) ←
                RTree.selfInsert a (l + 1) (.inner (Bounds.unionAll (children.map Node.bounds)) children)
                  (.inner newLevel newChild)
              pure (node, old, sibling)
            | none =>
              pure (.inner (Bounds.union b (Bounded.bounds key)) children, old, none)
          | .multiple => do
            match ← RTree.getMutNode id key (l + 1) (.inner b cs) with
            | some (old, back) => pure (back value, some old, none)
            | none => do
              let (node, sibling) ← RTree.insertNode a (l + 1) (.inner b cs) (.leaf key value)
              pure (node, none, sibling))
        (k' := (l + 1) * uniqueCost a.maxChildren + levelCost a.maxChildren + T) (does_onlyLoop key cs 0 none) fun r hr => ?_))).mono (by omega)
    cases r with
    | none => exact (Does.bind (k' := 0) hins fun r _ => .pure).mono (by omega)
    | only i =>
      refine Does.first fun c hc => ?_
      obtain ⟨hmem, hin⟩ := only_containing (Except.ok.inj hr) hc
      have ih := does_insertUniqueNode key value l c (hcs c hmem).1
      have ht : touched (fun b => Bounds.contains b (Bounded.bounds key : B)) c ≤ touched (fun b => Bounds.contains b (Bounded.bounds key : B)) (Node.inner b cs) := by
        have := touched_mem (p := fun b => Bounds.contains b (Bounded.bounds key : B)) hmem hin
        rw [touched.eq_2]
        omega
      have ht := Nat.mul_le_mul_left a.maxChildren ht
      refine (Does.bind (k' := levelCost a.maxChildren) ih fun r _ => ?_).mono (by omega)
      obtain ⟨n, old, s⟩ := r
      have hafter := does_afterChild a l b (Bounded.bounds key : B) (cs.set i n) s (by rw [List.length_set]; exact hlen)
      have := Does.bind (k' := 0) (f := fun s => (pure (s.1, old, s.2) : W (Node B K V × Option V × Option (Nat × Node B K V))))
        (g := fun s => .ok (s.1, old, s.2)) hafter fun _ _ => .pure
      have := this.mono (k' := levelCost a.maxChildren) (by unfold levelCost selfCost; omega)
      cases s <;> exact this
    | multiple =>
      refine (Does.bind (k' := (l + 1 + 1) * levelCost a.maxChildren) hget fun r _ => ?_).mono (by omega)
      cases r with
      | some r => exact .pure
      | none => exact (Does.bind (k' := 0) hins fun r _ => .pure).mono (by omega)

end InsertUnique

/-! ### Removal -/

theorem touchedList_append (p : B → Bool) (xs ys : List (Node B K V)) : touchedList p (xs ++ ys) = touchedList p xs + touchedList p ys := by
  induction xs with
  | nil => rw [List.nil_append, touchedList, Nat.zero_add]
  | cons x xs ih => rw [List.cons_append, touchedList, touchedList, ih, Nat.add_assoc]

theorem sat_ok {x : Res α} {E : Panic → Prop} {P : α → Prop} (h : Sat x E P) {a : α} (ha : x = .ok a) : P a := by
  subst ha
  exact h

theorem sat_any {x : Res α} {E : Panic → Prop} {P : α → Prop} (h : Sat x E P) : Sat x (fun _ => True) P := by
  cases x
  · trivial
  · exact h

section Remove

variable [Bounds B] [Volume B] [VolumeLaws B] [Bounded K B] [Bounded Q B] [BEq Q] {rel : B → List B → Prop} {a : Alloc} {g : Prop}

/-- The calls of `remove` per node. -/
def nodeCost (M : Nat) : Nat := 5 * M + 1

omit [Bounds B] [Volume B] [VolumeLaws B] [Bounded K B] [Bounded Q B] in
theorem does_position (borrow : K → Q) (q : Q) : ∀ (es : List (K × V)) (i : Nat),
    Does (position borrow q es i) (.ok ((es.findIdx? fun e => borrow e.1 == q).map (· + i))) (2 * es.length)
  | [], _ => .pure
  | e :: es, i => by
    rw [position, List.findIdx?_cons, List.length_cons]
    refine (Does.user (m := 2) (k := 2 * es.length) ?_).mono (by omega)
    cases borrow e.1 == q
    · simp only [Bool.false_eq_true, if_false]
      have := does_position borrow q es (i + 1)
      rw [Option.map_map]
      have e : ((fun x => x + i) ∘ fun x => x + 1) = fun x => x + (i + 1) := by funext x; simp only [Function.comp]; omega
      rw [e]
      exact this
    · simp only [if_true, Option.map_some, Nat.zero_add]
      exact .pure

theorem does_removeLoop (L : AggLaws rel) (hg : g → a.Good) (borrow : K → Q) (q : Q) (l : Nat)
    (ih : ∀ (n : Node B K V) (r : Reinsert B K V), Ok rel a g l n → (∀ j, j < l → r[j]? = some none) → Does (removeNode a borrow q l n r) (RTree.removeNode a borrow q l n r)
      (nodeCost a.maxChildren * touched (fun b => Bounds.intersects b (Bounded.bounds q : B)) n))
    (cs : List (Node B K V)) (hcs : ∀ c ∈ cs, ChildOk rel a g l c) (r : Reinsert B K V) (hr : ∀ j, j < l → r[j]? = some none) : ∀ i, i ≤ cs.length →
    Does (removeLoop a l q (removeNode a borrow q l) i cs r) (RTree.removeLoop a l q (RTree.removeNode a borrow q l) i cs r)
      (3 * i + nodeCost a.maxChildren * touchedList (fun b => Bounds.intersects b (Bounded.bounds q : B)) (cs.take i))
  | 0, _ => .pure
  | i + 1, hi => by
    have ihi := does_removeLoop L hg borrow q l ih cs hcs r hr i (by omega)
    have hidx : index cs i = .ok cs[i] := by unfold index; rw [List.getElem?_eq_getElem (by omega)]
    have hmem : cs[i] ∈ cs := List.getElem_mem _
    rw [removeLoop, RTree.removeLoop, hidx, List.take_succ_eq_append_getElem (by omega), touchedList_append]
    rw [ok_bind]
    refine Does.skip' ?_
    rw [touchedList, touchedList]
    dsimp only
    refine (Does.user (m := 1) (Does.user (m := 1) (Does.user (m := 1) (k := 3 * i + (nodeCost a.maxChildren *
      touchedList (fun b => Bounds.intersects b (Bounded.bounds q : B)) (cs.take i) + nodeCost a.maxChildren *
      (if Bounds.intersects cs[i].bounds (Bounded.bounds q : B) = true then touched (fun b => Bounds.intersects b (Bounded.bounds q : B)) cs[i] else 0))) ?_))).mono (by simp only [Nat.add_zero, Nat.mul_add]; omega)
    cases hc : Bounds.intersects cs[i].bounds (Bounded.bounds q : B)
    · simp only [Bool.false_eq_true, if_false, Nat.mul_zero, Nat.add_zero]
      exact ihi
    · simp only [if_true]
      have hpost := sat_removeNode L hg (complete := False) (borrow := borrow) (q := q) (fun h => h.elim) (fun h => h.elim) l cs[i] r (hcs _ hmem).1 hr
      refine (Does.bind (k' := 3 * i + nodeCost a.maxChildren * touchedList (fun b => Bounds.intersects b (Bounded.bounds q : B)) (cs.take i))
        (ih cs[i] r (hcs _ hmem).1 hr) fun x hx => ?_).mono (by omega)
      have hp := sat_ok hpost hx
      obtain ⟨n, v, r'⟩ := x
      cases v with
      | none =>
        obtain ⟨rfl, rfl, -⟩ := hp
        have : cs.set i cs[i] = cs := List.set_getElem_self _
        simp only [this]
        exact ihi
      | some v =>
        refine Does.first fun m _ => Does.ite (fun _ => ?_) fun _ => .pure
        exact Does.first fun y _ => Does.first fun ch _ => Does.first fun r'' _ => .pure

theorem does_removeNode (L : AggLaws rel) (hg : g → a.Good) (borrow : K → Q) (q : Q) : ∀ (l : Nat) (n : Node B K V) (r : Reinsert B K V), Ok rel a g l n →
    (∀ j, j < l → r[j]? = some none) → Does (removeNode a borrow q l n r) (RTree.removeNode a borrow q l n r)
      (nodeCost a.maxChildren * touched (fun b => Bounds.intersects b (Bounded.bounds q : B)) n)
  | 0, n, r, h, hr => by
    obtain ⟨b, es, rfl, -, hlen, -⟩ := h.leaf
    rw [removeNode, RTree.removeNode, touched]
    refine Does.skip' ?_
    have hpos := does_position borrow q es 0
    have e : (fun x => x + 0) = (id : Nat → Nat) := rfl
    rw [e, Option.map_id] at hpos
    refine (Does.bind (β := Node B K V × Option V × Reinsert B K V) (x := .ok (es.findIdx? fun e => borrow e.1 == q)) (g := fun o => match o with
      | some i => do
        let (e, es) ← Vec.swapRemove es i
        pure (Node.leaf (Bounds.unionAll (es.map entryBounds)) es, some e.2, r)
      | none => .ok (Node.leaf b es, none, r)) (k' := 2 * es.length + 1) hpos fun o _ => ?_).mono (by unfold nodeCost; omega)
    cases o with
    | none => exact .pure
    | some i =>
      refine Does.first fun x hx => ?_
      have hl := swapRemove_length hx
      refine (Does.bind (x := .ok (x.2.map entryBounds)) (β := Node B K V × Option V × Reinsert B K V) (g := fun bs => .ok (Node.leaf (Bounds.unionAll bs) x.2, some x.1.2, r)) (k' := x.2.length + 1)
        (does_allBounds entryBounds x.2) fun bs hbs => ?_).mono (by omega)
      cases hbs
      exact (Does.user (m := (x.2.map (entryBounds (B := B))).length + 1) (k := 0) .pure).mono (by rw [List.length_map] <;> omega)
  | l + 1, n, r, h, hr => by
    have hok := h
    obtain ⟨b, cs, rfl, -, hlen, hcs⟩ := h.inner
    rw [removeNode, RTree.removeNode, touched]
    refine Does.skip' ?_
    have hl := does_removeLoop L hg borrow q l (does_removeNode L hg borrow q l) cs hcs r (fun j hj => hr j (by omega)) cs.length (Nat.le_refl _)
    have hlp := sat_removeLoop hg (complete := False) (borrow := borrow) (q := q) (l := l) (rel := rel) (rec := RTree.removeNode a borrow q l) (fun h => h.elim)
      (fun h => h.elim) (fun n r hn hr => sat_removeNode L hg (fun h => h.elim) (fun h => h.elim) l n r hn hr) cs.length cs r (Nat.le_refl _) hcs hr
    rw [List.take_length] at hl
    refine (Does.bind (k' := 2 * a.maxChildren + 1) hl fun x hx => ?_).mono (by rw [Nat.mul_add]; unfold nodeCost; omega)
    have hp := sat_ok hlp hx
    obtain ⟨cs', v, r'⟩ := x
    cases v with
    | none => exact .pure
    | some v =>
      have hl' : cs'.length ≤ cs.length := hp.2.2.1
      refine (Does.bind (x := .ok (cs'.map Node.bounds)) (β := Node B K V × Option V × Reinsert B K V) (g := fun bs => .ok (Node.inner (Bounds.unionAll bs) cs', some v, r')) (k' := cs'.length + 1)
        (does_allBounds Node.bounds cs') fun bs hbs => ?_).mono (by omega)
      cases hbs
      exact (Does.user (m := (cs'.map Node.bounds).length + 1) (k := 0) .pure).mono (by rw [List.length_map] <;> omega)

end Remove

namespace Tree

section

variable [Bounds B] [Volume B] [VolumeLaws B] [Bounded K B] {rel : B → List B → Prop} {g : Prop}

omit [Volume B] [VolumeLaws B] [Bounded K B] in
theorem does_branch (t : RTree.Tree B K V) (s : Nat × Node B K V) : Does (branch t s) (t.branch s) 1 := by
  unfold branch RTree.Tree.branch
  by_cases h : s.1 = t.level
  · simp only [ne_eq, h, not_true_eq_false, if_false]
    refine Does.skip ?_
    refine Does.user (m := 1) (k := 0) ?_
    exact Does.first fun _ _ => Does.first fun _ _ => .pure
  · simp only [ne_eq, h, not_false_eq_true, if_true]
    exact ⟨fun _ h => by (cases h), fun _ h n => by cases h; rfl⟩

/-- The calls of an insertion into a tree. -/
def insertCost (M level : Nat) : Nat := (level + 1) * levelCost M + 1

theorem does_insertEntry {t : RTree.Tree B K V} (e : NodeEntry B K V) (h : Ok rel t.alloc g t.level t.root) :
    Does (insertEntry t e) (t.insertEntry e) (insertCost t.alloc.maxChildren t.level) := by
  refine Does.bind (k' := 1) (does_insertNode e t.level t.root h) fun r _ => ?_
  obtain ⟨n, s⟩ := r
  cases s with
  | none => exact .pure
  | some s => exact does_branch _ s

theorem does_insert {t : RTree.Tree B K V} (k : K) (v : V) (h : Ok rel t.alloc g t.level t.root) :
    Does (insert t k v) (t.insert k v) (insertCost t.alloc.maxChildren t.level) :=
  does_insertEntry _ h

theorem does_insertUnique [BEq K] {t : RTree.Tree B K V} (k : K) (v : V) (h : Ok rel t.alloc g t.level t.root) :
    Does (insertUnique t k v) (t.insertUnique k v) ((t.level + 1) * uniqueCost t.alloc.maxChildren +
      2 * (t.alloc.maxChildren * touched (fun b => Bounds.contains b (Bounded.bounds k : B)) t.root) + 1) := by
  refine Does.bind (k' := 1) (does_insertUniqueNode k v t.level t.root h) fun r _ => ?_
  obtain ⟨n, old, s⟩ := r
  cases s with
  | none => exact .pure
  | some s => exact Does.bind (k' := 0) (does_branch _ s) fun _ _ => .pure

theorem does_insertEntries (L : AggLaws rel) {j : Nat} : ∀ (es : List (NodeEntry B K V)) {t : RTree.Tree B K V}, TreeOk rel False t →
    (∀ e ∈ es, EntryOk rel t.alloc False e ∧ e.targetLevel = j) → j ≤ t.level →
    DoesBy (es.foldlM insertEntry t) (es.foldlM RTree.Tree.insertEntry t) fun t' => es.length * insertCost t.alloc.maxChildren t'.level
  | [], t, _, _, _ => Does.by (k := 0) .pure fun _ _ => by omega
  | e :: es, t, ht, he, hl => by
    rw [List.foldlM_cons, List.foldlM_cons]
    have h0 := he e (by simp)
    have hs := sat_insertEntry L ht h0.1 (by omega) (fun h => h.elim)
    refine DoesBy.bind (k := fun _ => insertCost t.alloc.maxChildren t.level) (l := fun t1 t2 => es.length * insertCost t.alloc.maxChildren t2.level)
      ((does_insertEntry e ht.ok).by fun _ _ => Nat.le_refl _) (fun t1 h1 => ?_) fun t1 t2 h1 h2 => ?_
    · obtain ⟨o1, o2, o3, -, -⟩ := sat_ok hs h1
      have := does_insertEntries L es o1 (fun e' he' => by rw [o2]; exact he e' (by simp [he'])) (by omega)
      rw [o2] at this
      exact this
    · obtain ⟨o1, o2, o3, -, -⟩ := sat_ok hs h1
      have hs2 := sat_insertEntries L o1 (es := es) (j := j) (fun e' he' => by rw [o2]; exact he e' (by simp [he'])) (by omega) (fun h => h.elim)
      obtain ⟨-, -, o4, -⟩ := sat_ok hs2 h2
      rw [List.length_cons, Nat.succ_mul, Nat.add_comm]
      refine Nat.add_le_add_left ?_ _
      unfold insertCost
      exact Nat.add_le_add_right (Nat.mul_le_mul_right _ (by omega)) _

theorem sat_reinsert_level (L : AggLaws rel) {t : RTree.Tree B K V} {l : List (Option (NodeChildren B K V) × Nat)} (ht : TreeOk rel False t)
    (hl : ∀ ch j, (some ch, j) ∈ l → (SlotOk rel t.alloc False j ch ∧ ch.fanout < t.alloc.minChildren) ∧ j ≤ t.level) :
    Sat (t.reinsert l) (fun _ => True) fun t' => t.level ≤ t'.level := by
  induction l generalizing t with
  | nil => exact Nat.le_refl _
  | cons x l ih =>
    obtain ⟨s, j⟩ := x
    cases s with
    | none => exact ih ht fun ch j h => hl ch j (by simp [h])
    | some ch =>
      obtain ⟨hs, hj⟩ := hl ch j (by simp)
      obtain ⟨es, hes, hesE, hesOk, hesl⟩ := hs.1.entries
      simp only [RTree.Tree.reinsert, hes, ok_bind]
      refine Sat.bind (sat_any (sat_insertEntries L ht hesOk hj fun h => h.elim)) ?_
      rintro t1 ⟨h1, h2, h3, h4⟩
      refine Sat.mono (ih h1 fun ch' j' h => ?_) fun t2 h5 => Nat.le_trans h3 h5
      obtain ⟨ha, hb⟩ := hl ch' j' (by simp [h])
      exact ⟨by rw [h2]; exact ha, by omega⟩

theorem does_reinsert (L : AggLaws rel) : ∀ (l : List (Option (NodeChildren B K V) × Nat)) {t : RTree.Tree B K V}, TreeOk rel False t →
    (∀ ch j, (some ch, j) ∈ l → (SlotOk rel t.alloc False j ch ∧ ch.fanout < t.alloc.minChildren) ∧ j ≤ t.level) →
    DoesBy (reinsert t l) (t.reinsert l) fun t' => l.length * ((t.alloc.minChildren - 1) * insertCost t.alloc.maxChildren t'.level)
  | [], t, _, _ => Does.by (k := 0) .pure fun _ _ => by omega
  | (none, j) :: l, t, ht, hl => by
    have := does_reinsert L l ht fun ch j h => hl ch j (by simp [h])
    rw [reinsert, RTree.Tree.reinsert]
    refine ⟨fun a ha n => ?_, this.error⟩
    obtain ⟨i, hi, e⟩ := this.ok a ha n
    exact ⟨i, Nat.le_trans hi (by rw [List.length_cons, Nat.succ_mul]; omega), e⟩
  | (some ch, j) :: l, t, ht, hl => by
    obtain ⟨hs, hj⟩ := hl ch j (by simp)
    obtain ⟨es, hes, hesE, hesOk, hesl⟩ := hs.1.entries
    have hi := sat_insertEntries L ht hesOk hj (fun h => h.elim)
    have hnext : ∀ t1, es.foldlM RTree.Tree.insertEntry t = .ok t1 → TreeOk rel False t1 ∧ t1.alloc = t.alloc ∧
        ∀ ch j, (some ch, j) ∈ l → (SlotOk rel t1.alloc False j ch ∧ ch.fanout < t1.alloc.minChildren) ∧ j ≤ t1.level := by
      intro t1 h1
      obtain ⟨o1, o2, o3, -⟩ := sat_ok hi h1
      refine ⟨o1, o2, fun ch' j' h => ?_⟩
      obtain ⟨ha, hb⟩ := hl ch' j' (by simp [h])
      exact ⟨by rw [o2]; exact ha, by omega⟩
    rw [reinsert, RTree.Tree.reinsert, hes]
    rw [ok_bind]
    show DoesBy (es.foldlM insertEntry t >>= fun t => reinsert t l) _ _
    refine DoesBy.bind (l := fun t1 t2 => l.length * ((t.alloc.minChildren - 1) * insertCost t.alloc.maxChildren t2.level))
      (does_insertEntries L es ht hesOk hj) (fun t1 h1 => ?_) fun t1 t2 h1 h2 => ?_
    · obtain ⟨o1, o2, o3⟩ := hnext t1 h1
      have := does_reinsert L l o1 o3
      rw [o2] at this
      exact this
    · obtain ⟨o1, o2, o3⟩ := hnext t1 h1
      have hle : t1.level ≤ t2.level := sat_ok (sat_reinsert_level L o1 o3) h2
      rw [List.length_cons, Nat.succ_mul, Nat.add_comm]
      refine Nat.add_le_add_left ?_ _
      refine Nat.mul_le_mul (by omega) ?_
      unfold insertCost
      exact Nat.add_le_add_right (Nat.mul_le_mul_right _ (by omega)) _

theorem does_remove (L : AggLaws rel) [Bounded Q B] [BEq Q] (borrow : K → Q) (q : Q) {t : RTree.Tree B K V} (ht : TreeOk rel False t) :
    DoesBy (remove borrow t q) (t.remove borrow q) fun r =>
      nodeCost t.alloc.maxChildren * touched (fun b => Bounds.intersects b (Bounded.bounds q : B)) t.root +
        t.level * ((t.alloc.minChildren - 1) * insertCost t.alloc.maxChildren r.1.level) := by
  have hp := sat_removeNode L ht.sound (complete := False) (borrow := borrow) (q := q) (fun h => h.elim) (fun h => h.elim) t.level t.root
    (List.replicate t.level none) ht.ok (by intro j hj; simp [hj])
  unfold remove RTree.Tree.remove
  refine DoesBy.bind (l := fun _ r => t.level * ((t.alloc.minChildren - 1) * insertCost t.alloc.maxChildren r.1.level))
    ((does_removeNode L ht.sound borrow q t.level t.root (List.replicate t.level none) ht.ok (by intro j hj; simp [hj])).by fun _ _ => Nat.le_refl _)
    (fun x hx => ?_) fun _ _ _ _ => Nat.le_refl _
  have hp := sat_ok hp hx
  obtain ⟨root, v, slots⟩ := x
  cases v with
  | none => exact Does.by (k := 0) .pure fun _ _ => by omega
  | some v =>
    obtain ⟨hok, hfan, hvol, -, hlen, hge, hslot⟩ := hp
    have hll : slots.length = t.level := by simpa using hlen
    have hub := sat_tryUnbranch (t := { t with root := root }) (rel := rel) hok ht.sound (fun h => h.elim)
    refine DoesBy.bind (k := fun _ => 0) (l := fun _ r => t.level * ((t.alloc.minChildren - 1) * insertCost t.alloc.maxChildren r.1.level)) (Does.lift.by fun _ _ => Nat.le_refl _)
      (fun t1 h1 => ?_) fun _ _ _ _ => by omega
    obtain ⟨o1, o2, o3, -⟩ := sat_ok hub h1
    simp only at o2 o3
    have hre := does_reinsert L slots.zipIdx o1 (by
      intro ch j hm
      rw [List.mem_zipIdx_iff_getElem?] at hm
      have hj : j < slots.length := by
        rcases Nat.lt_or_ge j slots.length with h' | h'
        · exact h'
        · simp [List.getElem?_eq_none h'] at hm
      exact ⟨by rw [o2]; exact hslot j ch (by omega) hm, by omega⟩)
    rw [List.length_zipIdx, hll, o2] at hre
    refine DoesBy.bind (l := fun _ _ => 0) hre (fun t2 _ => Does.by (k := 0) .pure fun _ _ => by omega) fun t2 r _ h2 => ?_
    cases h2
    exact Nat.le_refl _

end

section

variable [Bounds B] [Volume B] [VolumeLaws B] [Bounded K B] [Bounded Q B] [BEq Q] {rel : B → List B → Prop} {g : Prop}

theorem does_get (borrow : K → Q) (q : Q) {t : RTree.Tree B K V} (h : Ok rel t.alloc g t.level t.root) : Does (get borrow t q) (t.get borrow q)
    (2 * (t.alloc.maxChildren * touched (fun b => Bounds.contains b (Bounded.bounds q : B)) t.root)) :=
  does_getNode borrow q t.level t.root h

theorem does_getMut (borrow : K → Q) (q : Q) {t : RTree.Tree B K V} (h : Ok rel t.alloc g t.level t.root) : Does (getMut borrow t q) (t.getMut borrow q)
    (2 * (t.alloc.maxChildren * touched (fun b => Bounds.contains b (Bounded.bounds q : B)) t.root)) := by
  refine Does.bind (k' := 0) (does_getMutNode borrow q t.level t.root h) fun r _ => ?_
  cases r <;> exact .pure

end

end Tree

end RTree.Work
