import Verif.Proofs.Mut
/-! At every level of a tree there is a node with two or more children, if `min_children ≥ 2` and
`max_children ≥ 2`.  This keeps an inner root from ever becoming empty. -/

namespace RTree

variable {B K V Q : Type}

/-- The child nodes of a node. -/
def Node.childNodes : Node B K V → List (Node B K V)
  | .leaf _ _ => []
  | .inner _ cs => cs

/-- The node, which is at level `l`, or a node below it is at level `j` and has at least two children. -/
def Wide : Nat → Nat → Node B K V → Prop
  | 0, j, n => j = 0 ∧ 2 ≤ n.fanout
  | l + 1, j, n => (j = l + 1 ∧ 2 ≤ n.fanout) ∨ ∃ c ∈ n.childNodes, Wide l j c

theorem Wide.le {l j : Nat} {n : Node B K V} (h : Wide l j n) : j ≤ l := by
  induction l generalizing n with
  | zero => exact Nat.le_of_eq h.1
  | succ l ih =>
    rcases h with h | ⟨c, _, h⟩
    · omega
    · have := ih h; omega

theorem wide_self {l : Nat} {n : Node B K V} : Wide l l n ↔ 2 ≤ n.fanout := by
  cases l with
  | zero => simp [Wide]
  | succ l =>
    refine ⟨fun h => ?_, fun h => .inl ⟨rfl, h⟩⟩
    rcases h with h | ⟨c, _, h⟩
    · exact h.2
    · have := h.le; omega

theorem wide_inner {l j : Nat} {b : B} {cs : List (Node B K V)} :
    Wide (l + 1) j (.inner b cs) ↔ (j = l + 1 ∧ 2 ≤ cs.length) ∨ ∃ c ∈ cs, Wide l j c := Iff.rfl

theorem Node.childNodes_erase (n : Node B K V) : n.erase.childNodes = n.childNodes.map Node.erase := by
  cases n <;> simp [Node.erase, Node.childNodes, eraseList_eq]

theorem wide_erase {l j : Nat} {n : Node B K V} : Wide l j n.erase ↔ Wide l j n := by
  induction l generalizing n with
  | zero => simp [Wide]
  | succ l ih =>
    simp only [Wide, Node.childNodes_erase, Node.fanout_erase, List.mem_map]
    refine or_congr Iff.rfl ⟨?_, ?_⟩
    · rintro ⟨_, ⟨c, hc, rfl⟩, h⟩; exact ⟨c, hc, ih.1 h⟩
    · rintro ⟨c, hc, h⟩; exact ⟨_, ⟨c, hc, rfl⟩, ih.2 h⟩

/-- An entry to be inserted brings a wide node at level `j`. -/
def EntryWide (j : Nat) : NodeEntry B K V → Prop
  | .inner l n => Wide l j n
  | .leaf _ _ => False

/-- The result of an insertion has a wide node at level `j`. -/
def ResultWide (l j : Nat) : Node B K V × Option (Nat × Node B K V) → Prop
  | (n, none) => Wide l j n
  | (n, some (l', s)) => Wide l j n ∨ Wide l' j s

section

variable [Bounds B] [Volume B] [Bounded K B] {a : Alloc}

theorem split_halves {α : Type} {bf : α → B} {minC cap : Nat} {values : List α} {overflow : α} {r}
    (h : split bf minC cap values overflow = .ok r) (hcap : values.length ≤ cap) :
    (r.group1 ++ r.group2).Perm (overflow :: values) := by
  let _ : VolumeLaws B := trivialVolumeLaws
  exact ((sat_split (g := False) hcap (fun h => h.elim) (fun h => h.elim)).of_ok h).1

theorem selfInsert_wide {level : Nat} {node : Node B K V} {entry : NodeEntry B K V} {r}
    (h : selfInsert a level node entry = .ok r) (hM : 2 ≤ a.maxChildren) :
    (∀ j, Wide level j node ∨ EntryWide j entry → ResultWide level j r) ∧
      (1 ≤ node.fanout → ResultWide level level r) := by
  cases level with
  | zero =>
    cases node with
    | inner => simp [selfInsert, Node.leafChildren] at h
    | leaf b es =>
    cases entry with
    | inner l n => simp [selfInsert, Node.leafChildren] at h
    | leaf k v =>
    simp only [selfInsert, Node.leafChildren, Vec.tryPush, ok_bind] at h
    have key : 1 ≤ es.length → ResultWide 0 0 r := by
      intro h1
      by_cases hfull : es.length = a.maxChildren
      · simp only [hfull, if_true] at h
        obtain ⟨s, hs, h⟩ := bind_eq_ok.1 h
        simp only [pure_eq_ok, Except.ok.injEq] at h; subst h
        have := (split_halves hs (Nat.le_of_eq hfull)).length_eq
        simp only [List.length_append, List.length_cons] at this
        have hc : 2 ≤ s.group1.length ∨ 2 ≤ s.group2.length := by omega
        rcases hc with hc | hc
        · exact .inl ⟨rfl, hc⟩
        · exact .inr ⟨rfl, hc⟩
      · simp only [hfull, if_false, pure_eq_ok, Except.ok.injEq] at h; subst h
        exact ⟨rfl, by simp only [Node.fanout, List.length_append, List.length_singleton]; omega⟩
    refine ⟨fun j hj => ?_, key⟩
    rcases hj with hj | hj
    · obtain ⟨rfl, hj⟩ := hj
      exact key (by simp only [Node.fanout] at hj; omega)
    · exact hj.elim
  | succ l =>
    cases node with
    | leaf => simp [selfInsert, Node.innerChildren] at h
    | inner b cs =>
    cases entry with
    | leaf k v => simp [selfInsert, Node.innerChildren] at h
    | inner l' n =>
    simp only [selfInsert, Node.innerChildren, Vec.tryPush, ok_bind] at h
    by_cases hl : l = l'
    · subst hl
      rw [if_neg (by simp)] at h
      have key : 1 ≤ cs.length → ResultWide (l + 1) (l + 1) r := by
        intro h1
        by_cases hfull : cs.length = a.maxChildren
        · simp only [hfull, if_true] at h
          obtain ⟨s, hs, h⟩ := bind_eq_ok.1 h
          simp only [pure_eq_ok, Except.ok.injEq] at h; subst h
          have := (split_halves hs (Nat.le_of_eq hfull)).length_eq
          simp only [List.length_append, List.length_cons] at this
          have hc : 2 ≤ s.group1.length ∨ 2 ≤ s.group2.length := by omega
          rcases hc with hc | hc
          · exact .inl (.inl ⟨rfl, hc⟩)
          · exact .inr (.inl ⟨rfl, hc⟩)
        · simp only [hfull, if_false, pure_eq_ok, Except.ok.injEq] at h; subst h
          exact .inl ⟨rfl, by simp only [Node.fanout, List.length_append, List.length_singleton]; omega⟩
      refine ⟨fun j hj => ?_, key⟩
      have hj' : (j = l + 1 ∧ 2 ≤ cs.length) ∨ ∃ c ∈ n :: cs, Wide l j c := by
        rcases hj with (hj | ⟨c, hc, hj⟩) | hj
        · exact .inl hj
        · exact .inr ⟨c, List.mem_cons_of_mem _ hc, hj⟩
        · exact .inr ⟨n, List.mem_cons_self, hj⟩
      rcases hj' with ⟨rfl, hj⟩ | ⟨c, hc, hj⟩
      · exact key (by omega)
      · by_cases hfull : cs.length = a.maxChildren
        · simp only [hfull, if_true] at h
          obtain ⟨s, hs, h⟩ := bind_eq_ok.1 h
          simp only [pure_eq_ok, Except.ok.injEq] at h; subst h
          have := (split_halves hs (Nat.le_of_eq hfull)).mem_iff.2 hc
          rcases List.mem_append.1 this with hc | hc
          · exact .inl (.inr ⟨c, hc, hj⟩)
          · exact .inr (.inr ⟨c, hc, hj⟩)
        · simp only [hfull, if_false, pure_eq_ok, Except.ok.injEq] at h; subst h
          refine .inr ⟨c, ?_, hj⟩
          simp only [Node.childNodes, List.mem_append, List.mem_singleton]
          simp only [List.mem_cons] at hc
          exact hc.symm
    · rw [if_pos hl] at h
      simp at h

omit [Bounds B] [Volume B] [Bounded K B] in
/-- Replacing a child by one that is wide at `j` whenever the old one was. -/
theorem wide_set {l j : Nat} {b b' : B} {cs : List (Node B K V)} {i : Nat} (hi : i < cs.length) {c' : Node B K V}
    {X : Prop} (hc : Wide l j cs[i] → Wide l j c' ∨ X) (h : Wide (l + 1) j (.inner b cs)) :
    Wide (l + 1) j (.inner b' (cs.set i c')) ∨ X := by
  rcases h with ⟨rfl, h⟩ | ⟨c, hm, h⟩
  · exact .inl (.inl ⟨rfl, by simpa [Node.fanout] using h⟩)
  · obtain ⟨x, y, hxy, _, hset⟩ := exists_split cs i hi
    simp only [Node.childNodes] at hm
    rw [hxy] at hm
    have key : c ∈ x ∨ c ∈ y → Wide (l + 1) j (.inner b' (cs.set i c')) ∨ X := fun hm =>
      .inl (.inr ⟨c, by simp only [Node.childNodes, hset]; rcases hm with hm | hm <;> simp [hm], h⟩)
    rcases List.mem_append.1 hm with hm | hm
    · exact key (.inl hm)
    rcases List.mem_cons.1 hm with rfl | hm
    · rcases hc h with h | h
      · exact .inl (.inr ⟨c', by simp [Node.childNodes, hset], h⟩)
      · exact .inr h
    · exact key (.inr hm)

theorem index_ok {α : Type} {l : List α} {i : Nat} {x : α} (h : index l i = .ok x) :
    ∃ hi : i < l.length, l[i] = x := by
  unfold index at h
  split at h
  · rename_i y hy
    obtain ⟨hi, hy⟩ := List.getElem?_eq_some_iff.1 hy
    exact ⟨hi, by simpa [hy] using h⟩
  · simp at h

theorem insertNode_wide {level : Nat} {node : Node B K V} {entry : NodeEntry B K V} {r}
    (h : insertNode a level node entry = .ok r) (hM : 2 ≤ a.maxChildren) (j : Nat)
    (hj : Wide level j node ∨ EntryWide j entry) : ResultWide level j r := by
  induction level generalizing node r with
  | zero =>
    unfold insertNode at h
    split at h
    · obtain ⟨_, _, h⟩ := bind_eq_ok.1 h
      simp at h
    · exact (selfInsert_wide h hM).1 j hj
  | succ l ih =>
    unfold insertNode at h
    split at h
    · cases node with
      | leaf => simp [Node.innerChildren] at h
      | inner b cs =>
      simp only [Node.innerChildren, ok_bind] at h
      obtain ⟨o, _, h⟩ := bind_eq_ok.1 h
      obtain ⟨i, _, h⟩ := bind_eq_ok.1 h
      obtain ⟨c, hc, h⟩ := bind_eq_ok.1 h
      obtain ⟨hi, rfl⟩ := index_ok hc
      obtain ⟨⟨c', sib⟩, hr, h⟩ := bind_eq_ok.1 h
      have ih := fun hw => ih hr hw
      cases sib with
      | none =>
        simp only [pure_eq_ok, Except.ok.injEq] at h; subst h
        rcases hj with hj | hj
        · exact (wide_set (X := False) hi (fun hw => .inl (ih (.inl hw))) hj).resolve_right id
        · exact .inr ⟨c', List.mem_set hi _, ih (.inr hj)⟩
      | some ls =>
        obtain ⟨l', s⟩ := ls
        simp only at h
        refine (selfInsert_wide h hM).1 j ?_
        rcases hj with hj | hj
        · exact wide_set hi (fun hw => ih (.inl hw)) hj
        · rcases ih (.inr hj) with hw | hw
          · exact .inl (.inr ⟨c', List.mem_set hi _, hw⟩)
          · exact .inr hw
    · exact (selfInsert_wide h hM).1 j hj

/-- The level at which an entry is inserted becomes wide. -/
theorem insertNode_wide_target [VolumeLaws B] {rel : B → List B → Prop} {g : Prop} {level : Nat} {node : Node B K V}
    {entry : NodeEntry B K V} {r}
    (h : insertNode a level node entry = .ok r) (hM : 2 ≤ a.maxChildren) (hm : 1 ≤ a.minChildren)
    (hok : Ok rel a g level node) (hf : 1 ≤ node.fanout) : ResultWide level entry.targetLevel r := by
  induction level generalizing node r with
  | zero =>
    unfold insertNode at h
    split at h
    · obtain ⟨_, _, h⟩ := bind_eq_ok.1 h
      simp at h
    · rename_i ht
      simp only [ne_eq, Decidable.not_not] at ht
      rw [ht]
      exact (selfInsert_wide h hM).2 hf
  | succ l ih =>
    unfold insertNode at h
    split at h
    · obtain ⟨b, cs, rfl, _, _, hcs⟩ := hok.inner
      simp only [Node.innerChildren, ok_bind] at h
      obtain ⟨o, _, h⟩ := bind_eq_ok.1 h
      obtain ⟨i, _, h⟩ := bind_eq_ok.1 h
      obtain ⟨c, hc, h⟩ := bind_eq_ok.1 h
      obtain ⟨hi, rfl⟩ := index_ok hc
      obtain ⟨⟨c', sib⟩, hr, h⟩ := bind_eq_ok.1 h
      have hci := hcs _ (List.getElem_mem hi)
      have ih := ih hr hci.1 (hci.2.2 hm)
      cases sib with
      | none =>
        simp only [pure_eq_ok, Except.ok.injEq] at h; subst h
        exact .inr ⟨c', List.mem_set hi _, ih⟩
      | some ls =>
        obtain ⟨l', s⟩ := ls
        simp only at h
        refine (selfInsert_wide h hM).1 _ ?_
        rcases ih with hw | hw
        · exact .inl (.inr ⟨c', List.mem_set hi _, hw⟩)
        · exact .inr hw
    · rename_i ht
      simp only [ne_eq, Decidable.not_not] at ht
      rw [ht]
      exact (selfInsert_wide h hM).2 hf

theorem getMutChildren_some [Bounded Q B] {q : Q} {rec : Node B K V → Res (Option (V × (V → Node B K V)))}
    {cs : List (Node B K V)} {v : V} {back : V → List (Node B K V)}
    (h : getMutChildren q rec cs = .ok (some (v, back))) :
    ∃ x c y cb, cs = x ++ c :: y ∧ rec c = .ok (some (v, cb)) ∧ ∀ v', back v' = x ++ cb v' :: y := by
  induction cs generalizing v back with
  | nil => simp [getMutChildren] at h
  | cons c cs ih =>
    unfold getMutChildren at h
    obtain ⟨f, hf, h⟩ := bind_eq_ok.1 h
    cases f with
    | some vb =>
      obtain ⟨w, cb⟩ := vb
      simp only [pure_eq_ok, Except.ok.injEq, Option.some.injEq, Prod.mk.injEq] at h
      obtain ⟨rfl, rfl⟩ := h
      split at hf
      · exact ⟨[], c, cs, cb, rfl, hf, fun _ => rfl⟩
      · simp at hf
    | none =>
      simp only at h
      obtain ⟨f, hf', h⟩ := bind_eq_ok.1 h
      cases f with
      | none => simp at h
      | some vb =>
        obtain ⟨w, cb⟩ := vb
        simp only [pure_eq_ok, Except.ok.injEq, Option.some.injEq, Prod.mk.injEq] at h
        obtain ⟨rfl, rfl⟩ := h
        obtain ⟨x, c', y, cb', rfl, h1, h2⟩ := ih hf'
        exact ⟨c :: x, c', y, cb', rfl, h1, fun v' => by simp [h2]⟩

theorem findEntryMut_length {p : K → Bool} {es : List (K × V)} {v : V} {back : V → List (K × V)}
    (h : findEntryMut p es = some (v, back)) (v' : V) : (back v').length = es.length := by
  induction es generalizing v back with
  | nil => simp [findEntryMut] at h
  | cons e es ih =>
    unfold findEntryMut at h
    split at h
    · simp only [Option.some.injEq, Prod.mk.injEq] at h
      obtain ⟨rfl, rfl⟩ := h; rfl
    · split at h
      · rename_i hf
        simp only [Option.some.injEq, Prod.mk.injEq] at h
        obtain ⟨rfl, rfl⟩ := h
        simp [ih hf]
      · simp at h

theorem getMutNode_wide [Bounded Q B] [BEq Q] {borrow : K → Q} {q : Q} {l : Nat} {n : Node B K V} {v : V}
    {back : V → Node B K V} (h : getMutNode borrow q l n = .ok (some (v, back))) (v' : V) {j : Nat}
    (hj : Wide l j n) : Wide l j (back v') := by
  induction l generalizing n v back with
  | zero =>
    cases n with
    | inner => simp [getMutNode, Node.leafChildren] at h
    | leaf b es =>
    simp only [getMutNode, Node.leafChildren, ok_bind] at h
    split at h
    · rename_i hf
      simp only [pure_eq_ok, Except.ok.injEq, Option.some.injEq, Prod.mk.injEq] at h
      obtain ⟨rfl, rfl⟩ := h
      exact ⟨hj.1, by simp only [Node.fanout, findEntryMut_length hf]; exact hj.2⟩
    · simp at h
  | succ l ih =>
    cases n with
    | leaf => simp [getMutNode, Node.innerChildren] at h
    | inner b cs =>
    simp only [getMutNode, Node.innerChildren, ok_bind] at h
    obtain ⟨f, hf, h⟩ := bind_eq_ok.1 h
    cases f with
    | none => simp at h
    | some vb =>
      obtain ⟨w, cb⟩ := vb
      simp only [pure_eq_ok, Except.ok.injEq, Option.some.injEq, Prod.mk.injEq] at h
      obtain ⟨rfl, rfl⟩ := h
      obtain ⟨x, c, y, cb', rfl, h1, h2⟩ := getMutChildren_some hf
      rcases hj with ⟨rfl, hj⟩ | ⟨c', hc', hj⟩
      · exact .inl ⟨rfl, by simp only [Node.fanout, h2] at *; simpa using hj⟩
      · refine .inr ?_
        simp only [Node.childNodes, h2]
        simp only [Node.childNodes, List.mem_append, List.mem_cons] at hc'
        rcases hc' with hc' | rfl | hc'
        · exact ⟨c', by simp [hc'], hj⟩
        · exact ⟨cb' v', by simp, ih h1 hj⟩
        · exact ⟨c', by simp [hc'], hj⟩

theorem insertUniqueNode_wide [BEq K] {key : K} {value : V} {level : Nat} {node : Node B K V}
    {n' : Node B K V} {old : Option V} {sib : Option (Nat × Node B K V)}
    (h : insertUniqueNode a key value level node = .ok (n', old, sib)) (hM : 2 ≤ a.maxChildren) {j : Nat}
    (hj : Wide level j node) : ResultWide level j (n', sib) := by
  have direct : ∀ {level node}, (insertNode a level node (.leaf key value) >>= fun p => pure (p.1, none, p.2))
      = (.ok (n', old, sib) : Res (Node B K V × Option V × Option (Nat × Node B K V))) → Wide level j node →
      ResultWide level j (n', sib) := by
    intro level node h hj
    obtain ⟨⟨m, s⟩, hi, h⟩ := bind_eq_ok.1 h
    simp only [pure_eq_ok, Except.ok.injEq, Prod.mk.injEq] at h
    obtain ⟨rfl, -, rfl⟩ := h
    exact insertNode_wide hi hM j (.inl hj)
  induction level generalizing node n' old sib with
  | zero =>
    cases node with
    | inner => simp [insertUniqueNode, Node.leafChildren] at h
    | leaf b es =>
    simp only [insertUniqueNode, Node.leafChildren, ok_bind] at h
    split at h
    · rename_i hf
      simp only [pure_eq_ok, Except.ok.injEq, Prod.mk.injEq] at h
      obtain ⟨rfl, -, rfl⟩ := h
      exact ⟨hj.1, by simp only [Node.fanout, findEntryMut_length hf]; exact hj.2⟩
    · exact direct h hj
  | succ l ih =>
    cases node with
    | leaf => simp [insertUniqueNode, Node.innerChildren] at h
    | inner b cs =>
    simp only [insertUniqueNode, Node.innerChildren, ok_bind] at h
    split at h
    · exact direct h hj
    · obtain ⟨c, hc, h⟩ := bind_eq_ok.1 h
      obtain ⟨hi, rfl⟩ := index_ok hc
      obtain ⟨⟨c', old', sib'⟩, hr, h⟩ := bind_eq_ok.1 h
      have ih := fun hw => ih (hj := hw) hr fun h hj => by
        obtain ⟨⟨m, s⟩, hi, h⟩ := bind_eq_ok.1 h
        simp only [pure_eq_ok, Except.ok.injEq, Prod.mk.injEq] at h
        obtain ⟨rfl, -, rfl⟩ := h
        exact insertNode_wide hi hM j (.inl hj)
      cases sib' with
      | none =>
        simp only [pure_eq_ok, Except.ok.injEq, Prod.mk.injEq] at h
        obtain ⟨rfl, -, rfl⟩ := h
        exact (wide_set (X := False) hi (fun hw => .inl (ih hw)) hj).resolve_right id
      | some ls =>
        obtain ⟨l', s⟩ := ls
        simp only at h
        obtain ⟨⟨m, s'⟩, hs, h⟩ := bind_eq_ok.1 h
        simp only [pure_eq_ok, Except.ok.injEq, Prod.mk.injEq] at h
        obtain ⟨rfl, -, rfl⟩ := h
        exact (selfInsert_wide hs hM).1 j (wide_set hi (fun hw => ih hw) hj)
    · obtain ⟨f, hf, h⟩ := bind_eq_ok.1 h
      cases f with
      | some vb =>
        obtain ⟨w, cb⟩ := vb
        simp only [pure_eq_ok, Except.ok.injEq, Prod.mk.injEq] at h
        obtain ⟨rfl, -, rfl⟩ := h
        exact getMutNode_wide hf value hj
      | none => exact direct h hj

theorem shallowLen_ok {l : Nat} {n : Node B K V} {m : Nat} (h : shallowLen l n = .ok m) : m = n.fanout := by
  cases l <;> cases n <;> simp [shallowLen, Node.leafChildren, Node.innerChildren, Node.fanout] at * <;> exact h.symm

theorem nodeChildren_ok {l : Nat} {n : Node B K V} {ch : NodeChildren B K V} (h : nodeChildren l n = .ok ch) :
    ch.fanout = n.fanout ∧ ∀ j, l = j + 1 → ch = .inner n.childNodes := by
  cases l <;> cases n <;>
    simp [nodeChildren, Node.leafChildren, Node.innerChildren, Node.fanout, NodeChildren.fanout, Node.childNodes] at * <;>
    subst h <;> simp

/-- What the loop of `remove` does when it removes something: one child is changed by the recursive call, and
    dissolved if it has become too small. -/
theorem removeLoop_some [Bounded Q B] {l : Nat} {q : Q}
    {rec : Node B K V → Reinsert B K V → Res (Node B K V × Option V × Reinsert B K V)}
    {k : Nat} {cs cs' : List (Node B K V)} {r r' : Reinsert B K V} {v : V}
    (hrec : ∀ c ∈ cs, ∀ c' r', rec c r = .ok (c', none, r') → c' = c ∧ r' = r)
    (h : removeLoop a l q rec k cs r = .ok (cs', some v, r')) :
    ∃ i, ∃ hi : i < cs.length, ∃ c' r1, rec cs[i] r = .ok (c', some v, r1) ∧
      ((a.minChildren ≤ c'.fanout ∧ cs' = cs.set i c' ∧ r' = r1) ∨
       (c'.fanout < a.minChildren ∧ (∃ x y, cs = x ++ cs[i] :: y ∧ cs'.Perm (x ++ y)) ∧ ∃ ch,
          nodeChildren l c' = .ok ch ∧ l < r1.length ∧ r' = r1.set l (some ch))) := by
  induction k with
  | zero => simp [removeLoop] at h
  | succ k ih =>
    unfold removeLoop at h
    obtain ⟨c, hc, h⟩ := bind_eq_ok.1 h
    obtain ⟨hi, rfl⟩ := index_ok hc
    split at h
    · obtain ⟨⟨c', o, r1⟩, hr, hx⟩ := bind_eq_ok.1 h
      cases o with
      | none =>
        obtain ⟨rfl, rfl⟩ := hrec _ (List.getElem_mem hi) _ _ hr
        simp only [List.set_getElem_self] at hx
        exact ih hx
      | some w =>
        simp only at hx
        obtain ⟨m, hm, h⟩ := bind_eq_ok.1 hx
        obtain rfl := shallowLen_ok hm
        split at h
        · rename_i hlt
          obtain ⟨⟨c2, cs2⟩, hsr, h⟩ := bind_eq_ok.1 h
          obtain ⟨ch, hch, h⟩ := bind_eq_ok.1 h
          obtain ⟨r2, hr2, h⟩ := bind_eq_ok.1 h
          simp only [pure_eq_ok, Except.ok.injEq, Prod.mk.injEq, Option.some.injEq] at h
          obtain ⟨rfl, rfl, rfl⟩ := h
          obtain ⟨cs3, hsr', hp, _⟩ := Vec.swapRemove_spec (cs.set k c') k (by simpa using hi)
          rw [hsr'] at hsr
          simp only [Except.ok.injEq, Prod.mk.injEq, List.getElem_set_self] at hsr
          obtain ⟨rfl, rfl⟩ := hsr
          unfold onUnderfull at hr2
          split at hr2
          · rename_i hl
            simp only [Except.ok.injEq] at hr2
            refine ⟨k, hi, c', r1, hr, .inr ⟨hlt, ?_, ch, hch, hl, hr2.symm⟩⟩
            obtain ⟨x, y, hxy, _, hset⟩ := exists_split cs k hi
            refine ⟨x, y, hxy, ?_⟩
            simp only [List.getElem_set_self] at hp
            rw [hset] at hp
            exact (hp.trans List.perm_middle).cons_inv
          · simp at hr2
        · rename_i hlt
          simp only [pure_eq_ok, Except.ok.injEq, Prod.mk.injEq, Option.some.injEq] at h
          obtain ⟨rfl, rfl, rfl⟩ := h
          exact ⟨k, hi, c', r1, hr, .inl ⟨by omega, rfl, rfl⟩⟩
    · exact ih h

/-- Reinserting the children in slot `i` makes level `j` wide. -/
def SlotWide (j i : Nat) (ch : NodeChildren B K V) : Prop :=
  (i = j ∧ 1 ≤ ch.fanout) ∨ ∃ l cs, i = l + 1 ∧ ch = .inner cs ∧ ∃ c ∈ cs, Wide l j c

/-- One of the first slots makes level `j` wide. -/
def SlotsWide (L j : Nat) (r : Reinsert B K V) : Prop := ∃ i ch, i < L ∧ r[i]? = some (some ch) ∧ SlotWide j i ch

theorem removeNode_wide [VolumeLaws B] {rel : B → List B → Prop} (Lw : AggLaws rel) [Bounded Q B] [BEq Q]
    {borrow : K → Q} {q : Q} {l : Nat}
    {n n' : Node B K V} {r r' : Reinsert B K V} {v : V} (hm : 2 ≤ a.minChildren) (hok : Ok rel a False l n)
    (hr : ∀ j, j < l → r[j]? = some none)
    (h : removeNode a borrow q l n r = .ok (n', some v, r')) {j : Nat} (hj : j < l) (hw : Wide l j n) :
    Wide l j n' ∨ SlotsWide l j r' := by
  induction l generalizing n n' r r' v with
  | zero => omega
  | succ l ih =>
    obtain ⟨b, cs, rfl, _, _, hcs⟩ := hok.inner
    simp only [removeNode, Node.innerChildren, ok_bind] at h
    obtain ⟨⟨cs', o, r2⟩, hl, h⟩ := bind_eq_ok.1 h
    cases o with
    | none => simp at h
    | some w =>
    simp only [pure_eq_ok, Except.ok.injEq, Prod.mk.injEq, Option.some.injEq] at h
    obtain ⟨rfl, rfl, rfl⟩ := h
    have hpost : ∀ c ∈ cs, Sat (removeNode a borrow q l c r) _ _ := fun c hc =>
      sat_removeNode (complete := False) (borrow := borrow) (q := q) Lw (fun h => h.elim) (fun h => h.elim)
        (fun h => h.elim) l c r (hcs c hc).1 fun j hj => hr j (by omega)
    obtain ⟨i, hi, c', r1, hrec, hcase⟩ := removeLoop_some (fun c hc c' r' he => by
      have := (hpost c hc).of_ok he
      exact ⟨this.1, this.2.1⟩) hl
    have hpi := (hpost _ (List.getElem_mem hi)).of_ok hrec
    have hfan : cs[i].fanout ≤ c'.fanout + 1 := hpi.2.1
    -- what happens to the changed child
    have hchild : Wide l j cs[i] → (Wide l j c' ∨ SlotsWide l j r1) ∨ (j = l ∧ 1 ≤ c'.fanout) := by
      intro hw
      rcases Nat.lt_or_ge j l with hjl | hjl
      · exact .inl (ih (hcs _ (List.getElem_mem hi)).1 (fun j hj => hr j (by omega)) hrec hjl hw)
      · have : j = l := by omega
        subst this
        have := wide_self.1 hw
        exact .inr ⟨rfl, by omega⟩
    rcases hcase with ⟨hge, rfl, rfl⟩ | ⟨hlt, ⟨x, y, hxy, hp⟩, ch, hch, hlr, rfl⟩
    · refine wide_set (X := SlotsWide (l + 1) j _) hi (fun hw => ?_) hw
      rcases hchild hw with (hw | ⟨i, ch, h1, h2⟩) | ⟨rfl, h1⟩
      · exact .inl hw
      · exact .inr ⟨i, ch, by omega, h2⟩
      · exact .inl (wide_self.2 (by omega))
    · rcases hw with ⟨rfl, _⟩ | ⟨c, hc, hw⟩
      · omega
      simp only [Node.childNodes] at hc
      rw [hxy] at hc
      have keep : c ∈ x ++ y → Wide (l + 1) j (.inner (Bounds.unionAll (cs'.map Node.bounds)) cs') :=
        fun hc => .inr ⟨c, hp.mem_iff.2 hc, hw⟩
      rcases List.mem_append.1 hc with hc | hc
      · exact .inl (keep (by simp [hc]))
      rcases List.mem_cons.1 hc with rfl | hc
      · obtain ⟨hchf, hchk⟩ := nodeChildren_ok hch
        have hself : (r1.set l (some ch))[l]? = some (some ch) := List.getElem?_set_self hlr
        refine .inr ?_
        rcases hchild hw with (hw | ⟨i, ch', h1, h2, h3⟩) | ⟨rfl, h1⟩
        · rcases Nat.lt_or_ge j l with hjl | hjl
          · obtain ⟨l2, rfl⟩ : ∃ l2, l = l2 + 1 := ⟨l - 1, by omega⟩
            rcases hw with ⟨rfl, _⟩ | ⟨c2, hc2, hw⟩
            · omega
            · exact ⟨l2 + 1, ch, by omega, hself, .inr ⟨l2, _, rfl, hchk l2 rfl, c2, hc2, hw⟩⟩
          · have : j = l := by omega
            subst this
            have := wide_self.1 hw
            exact ⟨j, ch, by omega, hself, .inl ⟨rfl, by omega⟩⟩
        · exact ⟨i, ch', by omega, by rw [List.getElem?_set_ne (by omega)]; exact h2, h3⟩
        · exact ⟨j, ch, by omega, hself, .inl ⟨rfl, by omega⟩⟩
      · exact .inl (keep (by simp [hc]))

/-- Every inner level of the tree has a node with at least two children. -/
def WideTree (t : Tree B K V) : Prop := ∀ j, 1 ≤ j → j ≤ t.level → Wide t.level j t.root

theorem WideTree.root {t : Tree B K V} (h : WideTree t) : 1 ≤ t.level → 2 ≤ t.root.fanout :=
  fun hl => wide_self.1 (h _ hl (Nat.le_refl _))

theorem branch_wide {t t' : Tree B K V} {s : Nat × Node B K V} (h : t.branch s = .ok t') :
    t'.level = t.level + 1 ∧ t'.alloc = t.alloc ∧ Wide t'.level t'.level t'.root ∧
      ∀ j, ResultWide t.level j (t.root, some s) → Wide t'.level j t'.root := by
  unfold Tree.branch at h
  by_cases hl : s.1 = t.level
  · rw [if_neg (by simpa using hl)] at h
    simp only at h
    obtain ⟨n1, h1, h⟩ := bind_eq_ok.1 h
    obtain ⟨n2, h2, h⟩ := bind_eq_ok.1 h
    simp only [pure_eq_ok, Except.ok.injEq] at h
    unfold Vec.push at h1 h2
    split at h1
    · simp at h1
    · split at h2
      · simp at h2
      · simp only [Except.ok.injEq] at h1 h2
        subst h1 h2 h
        refine ⟨rfl, rfl, .inl ⟨rfl, by simp [Node.fanout]⟩, fun j hj => .inr ?_⟩
        obtain ⟨l', s⟩ := s
        simp only at hl; subst hl
        rcases hj with hj | hj
        · exact ⟨t.root, by simp [Node.childNodes], hj⟩
        · exact ⟨s, by simp [Node.childNodes], hj⟩
  · rw [if_pos (by simpa using hl)] at h
    simp at h

theorem insertEntry_wide {t t' : Tree B K V} {e : NodeEntry B K V} (h : t.insertEntry e = .ok t')
    (hM : 2 ≤ t.alloc.maxChildren) {j : Nat}
    (hj : Wide t.level j t.root ∨ EntryWide j e ∨ (t.level < j ∧ j ≤ t'.level)) : Wide t'.level j t'.root := by
  unfold Tree.insertEntry at h
  obtain ⟨⟨root, sib⟩, hi, h⟩ := bind_eq_ok.1 h
  have hw := insertNode_wide hi hM j
  cases sib with
  | none =>
    simp only [pure_eq_ok, Except.ok.injEq] at h; subst h
    rcases hj with hj | hj | hj
    · exact hw (.inl hj)
    · exact hw (.inr hj)
    · have := hj.1; have := hj.2; simp only at *; omega
  | some s =>
    obtain ⟨h1, h2, h3, h4⟩ := branch_wide h
    rcases hj with hj | hj | hj
    · exact h4 j (hw (.inl hj))
    · exact h4 j (hw (.inr hj))
    · have : j = t'.level := by have := hj.1; have := hj.2; simp only at *; omega
      rw [this]; exact h3

theorem insertEntry_wide_target [VolumeLaws B] {rel : B → List B → Prop} {g : Prop} {t t' : Tree B K V}
    {e : NodeEntry B K V} (h : t.insertEntry e = .ok t') (hM : 2 ≤ t.alloc.maxChildren) (hm : 1 ≤ t.alloc.minChildren)
    (hok : Ok rel t.alloc g t.level t.root) (hf : 1 ≤ t.root.fanout) : Wide t'.level e.targetLevel t'.root := by
  unfold Tree.insertEntry at h
  obtain ⟨⟨root, sib⟩, hi, h⟩ := bind_eq_ok.1 h
  have hw := insertNode_wide_target hi hM hm hok hf
  cases sib with
  | none =>
    simp only [pure_eq_ok, Except.ok.injEq] at h; subst h
    exact hw
  | some s => exact (branch_wide h).2.2.2 _ hw

theorem insertEntries_wide [VolumeLaws B] {rel : B → List B → Prop} (L : AggLaws rel) {t t' : Tree B K V}
    {es : List (NodeEntry B K V)} {i : Nat} (hM : 2 ≤ t.alloc.maxChildren) (hm : 1 ≤ t.alloc.minChildren)
    (ht : TreeOk rel False t) (he : ∀ e ∈ es, EntryOk rel t.alloc False e ∧ e.targetLevel = i) (hi : i ≤ t.level)
    (hf : 1 ≤ t.level → 1 ≤ t.root.fanout) (h : es.foldlM Tree.insertEntry t = .ok t') :
    (∀ j, 1 ≤ j → Wide t.level j t.root ∨ (∃ e ∈ es, EntryWide j e) ∨ (j = i ∧ es ≠ []) ∨
        (t.level < j ∧ j ≤ t'.level) → Wide t'.level j t'.root) ∧
      (1 ≤ t'.level → 1 ≤ t'.root.fanout) := by
  induction es generalizing t with
  | nil =>
    rw [List.foldlM_nil] at h
    simp only [pure_eq_ok, Except.ok.injEq] at h; subst h
    refine ⟨fun j _ hj => ?_, hf⟩
    rcases hj with hj | ⟨e, he, _⟩ | ⟨_, hj⟩ | hj
    · exact hj
    · simp at he
    · exact absurd rfl hj
    · omega
  | cons e es ih =>
    rw [List.foldlM_cons] at h
    obtain ⟨t1, h1, h⟩ := bind_eq_ok.1 h
    have h0 := he e List.mem_cons_self
    obtain ⟨ht1, hal, hle, _, hf1⟩ := (sat_insertEntry L ht h0.1 (by omega) (fun h => h.elim)).of_ok h1
    obtain ⟨ih1, ih2⟩ := ih (by rw [hal]; exact hM) (by rw [hal]; exact hm) ht1
      (fun e' h' => by rw [hal]; exact he e' (List.mem_cons_of_mem _ h')) (by omega) (fun _ => hf1) h
    refine ⟨fun j h1j hj => ?_, ih2⟩
    have hstep : ∀ hj, Wide t1.level j t1.root := fun hj => insertEntry_wide h1 hM hj
    rcases hj with hj | ⟨e', he', hj⟩ | ⟨rfl, -⟩ | hj
    · exact ih1 j h1j (.inl (hstep (.inl hj)))
    · rcases List.mem_cons.1 he' with rfl | he'
      · exact ih1 j h1j (.inl (hstep (.inr (.inl hj))))
      · exact ih1 j h1j (.inr (.inl ⟨e', he', hj⟩))
    · refine ih1 j h1j (.inl ?_)
      rw [← h0.2]
      exact insertEntry_wide_target h1 hM hm ht.ok (hf (by omega))
    · rcases Nat.lt_or_ge t1.level j with hlt | hge
      · exact ih1 j h1j (.inr (.inr (.inr ⟨hlt, hj.2⟩)))
      · exact ih1 j h1j (.inl (hstep (.inr (.inr ⟨hj.1, hge⟩))))

theorem SlotWide.entries {j i : Nat} {ch : NodeChildren B K V} (h : SlotWide j i ch) {es : List (NodeEntry B K V)}
    (he : Tree.slotEntries i ch = .ok es) : (∃ e ∈ es, EntryWide j e) ∨ (j = i ∧ es ≠ []) := by
  rcases h with ⟨rfl, h⟩ | ⟨l, cs, rfl, rfl, c, hc, h⟩
  · refine .inr ⟨rfl, ?_⟩
    cases i <;> cases ch <;> simp [Tree.slotEntries] at he <;> subst he <;>
      simp [NodeChildren.fanout] at h ⊢ <;> intro h' <;> subst h' <;> simp at h
  · simp only [Tree.slotEntries, Except.ok.injEq] at he; subst he
    exact .inl ⟨_, List.mem_map.2 ⟨c, hc, rfl⟩, h⟩

theorem reinsert_wide [VolumeLaws B] {rel : B → List B → Prop} (L : AggLaws rel) {t t' : Tree B K V}
    {l : List (Option (NodeChildren B K V) × Nat)} (hM : 2 ≤ t.alloc.maxChildren) (hm : 1 ≤ t.alloc.minChildren)
    (ht : TreeOk rel False t)
    (hl : ∀ ch j, (some ch, j) ∈ l → SlotOk rel t.alloc False j ch ∧ j ≤ t.level)
    (hf : 1 ≤ t.level → 1 ≤ t.root.fanout)
    (hw : ∀ j, 1 ≤ j → j ≤ t.level → Wide t.level j t.root ∨ ∃ ch i, (some ch, i) ∈ l ∧ SlotWide j i ch)
    (h : t.reinsert l = .ok t') : WideTree t' := by
  induction l generalizing t with
  | nil =>
    simp only [Tree.reinsert, Except.ok.injEq] at h; subst h
    intro j h1 h2
    rcases hw j h1 h2 with hw | ⟨_, _, hm, _⟩
    · exact hw
    · simp at hm
  | cons x l ih =>
    obtain ⟨o, i⟩ := x
    cases o with
    | none =>
      refine ih hM hm ht (fun ch j hmem => hl ch j (List.mem_cons_of_mem _ hmem)) hf (fun j h1 h2 => ?_) h
      rcases hw j h1 h2 with hw | ⟨ch, i', hmem, hw⟩
      · exact .inl hw
      · refine .inr ⟨ch, i', ?_, hw⟩
        rcases List.mem_cons.1 hmem with hmem | hmem
        · simp at hmem
        · exact hmem
    | some ch =>
      obtain ⟨hs, hi⟩ := hl ch i List.mem_cons_self
      obtain ⟨es, hes, _, hesOk, _⟩ := hs.entries
      simp only [Tree.reinsert, hes, ok_bind] at h
      obtain ⟨t1, h1, h⟩ := bind_eq_ok.1 h
      obtain ⟨ht1, hal, hle, _⟩ := (sat_insertEntries L ht hesOk hi (fun h => h.elim)).of_ok h1
      obtain ⟨hw1, hf1⟩ := insertEntries_wide L hM hm ht hesOk hi hf h1
      refine ih (by rw [hal]; exact hM) (by rw [hal]; exact hm) ht1 (fun ch' j hmem => ?_) hf1 (fun j h1j h2 => ?_) h
      · obtain ⟨ha, hb⟩ := hl ch' j (List.mem_cons_of_mem _ hmem)
        exact ⟨by rw [hal]; exact ha, by omega⟩
      · rcases Nat.lt_or_ge t.level j with hlt | hge
        · exact .inl (hw1 j h1j (.inr (.inr (.inr ⟨hlt, h2⟩))))
        rcases hw j h1j hge with hx | ⟨ch', i', hmem, hw'⟩
        · exact .inl (hw1 j h1j (.inl hx))
        · rcases List.mem_cons.1 hmem with hmem | hmem
          · simp only [Prod.mk.injEq, Option.some.injEq] at hmem
            obtain ⟨rfl, rfl⟩ := hmem
            refine .inl (hw1 j h1j (.inr ?_))
            rcases hw'.entries hes with hx | hx
            · exact .inl hx
            · exact .inr (.inl hx)
          · exact .inr ⟨ch', i', hmem, hw'⟩

theorem remove_wide [VolumeLaws B] {rel : B → List B → Prop} (L : AggLaws rel) [Bounded Q B] [BEq Q]
    {t t' : Tree B K V} {borrow : K → Q} {q : Q} {o : Option V}
    (hM : 2 ≤ t.alloc.maxChildren) (hm : 2 ≤ t.alloc.minChildren) (ht : TreeOk rel False t) (hw : WideTree t)
    (h : t.remove borrow q = .ok (t', o)) : WideTree t' := by
  unfold Tree.remove at h
  obtain ⟨⟨root, w, slots⟩, h1, h⟩ := bind_eq_ok.1 h
  have hpost := (sat_removeNode L (complete := False) (borrow := borrow) (q := q) (fun h => h.elim)
    (fun h => h.elim) (fun h => h.elim) t.level t.root (List.replicate t.level none) ht.ok
    (fun j hj => by simp [hj])).of_ok h1
  cases w with
  | none =>
    obtain ⟨rfl, rfl, _⟩ := hpost
    simp only [pure_eq_ok, Except.ok.injEq, Prod.mk.injEq] at h
    obtain ⟨rfl, -⟩ := h
    exact hw
  | some w =>
    have hrw := fun j hj hwj => removeNode_wide L (j := j) hm ht.ok (fun j hj => by simp [hj]) h1 hj hwj
    obtain ⟨hok, hfan, -, -, hlen, -, hslot⟩ := hpost
    have hll : slots.length = t.level := by simpa using hlen
    simp only at h
    obtain ⟨t1, h2, h⟩ := bind_eq_ok.1 h
    obtain ⟨t2, h3, h⟩ := bind_eq_ok.1 h
    simp only [pure_eq_ok, Except.ok.injEq, Prod.mk.injEq] at h
    obtain ⟨rfl, -⟩ := h
    obtain ⟨ht1, hal, hle, -⟩ := (sat_tryUnbranch (t := { t with root := root }) (rel := rel) hok
      (fun h => h.elim) (fun h => h.elim)).of_ok h2
    simp only at hal hle
    have hslots : ∀ ch j, (some ch, j) ∈ slots.zipIdx → slots[j]? = some (some ch) ∧ j < t.level := by
      intro ch j hmem
      rw [List.mem_zipIdx_iff_getElem?] at hmem
      have hj : j < slots.length := by
        rcases Nat.lt_or_ge j slots.length with h' | h'
        · exact h'
        · simp [List.getElem?_eq_none h'] at hmem
      exact ⟨hmem, by omega⟩
    have hsw : ∀ j, SlotsWide t.level j slots → ∃ ch i, (some ch, i) ∈ slots.zipIdx ∧ SlotWide j i ch := by
      rintro j ⟨i, ch, _, h1, h2⟩
      exact ⟨ch, i, List.mem_zipIdx_iff_getElem?.2 h1, h2⟩
    -- the tree after `try_unbranch`
    have key : (1 ≤ t1.level → 1 ≤ t1.root.fanout) ∧
        ∀ j, 1 ≤ j → j ≤ t1.level → Wide t1.level j t1.root ∨
          ∃ ch i, (some ch, i) ∈ slots.zipIdx ∧ SlotWide j i ch := by
      have hroot := hw.root
      obtain ⟨al, level, root0⟩ := t
      cases level with
      | zero =>
        simp only [Tree.tryUnbranch] at h2
        obtain ⟨_, _, h2⟩ := bind_eq_ok.1 h2
        simp only [pure_eq_ok, Except.ok.injEq] at h2; subst h2
        exact ⟨by simp, fun j h1 h2 => by simp only at h2; omega⟩
      | succ l =>
        simp only at *
        obtain ⟨b, cs, rfl, _, _, hcs⟩ := hok.inner
        simp only [Tree.tryUnbranch, Node.innerChildren, ok_bind] at h2
        have hroot := hroot (by omega)
        have hfc : (Node.inner b cs : Node B K V).fanout = cs.length := rfl
        rw [hfc] at hfan
        have low : ∀ j, 1 ≤ j → j ≤ l → (∃ c ∈ cs, Wide l j c) ∨
            ∃ ch i, (some ch, i) ∈ slots.zipIdx ∧ SlotWide j i ch := by
          intro j h1j h2j
          rcases hrw j (by omega) (hw j h1j (by simp only; omega)) with hx | hx
          · rcases hx with ⟨rfl, _⟩ | hx
            · omega
            · exact .inl hx
          · exact .inr (hsw j hx)
        split at h2
        · rename_i hone
          obtain ⟨c, rfl⟩ := List.length_eq_one_iff.1 hone
          have : Vec.swapRemove [c] 0 = .ok (c, []) := rfl
          simp only [this, ok_bind, pure_eq_ok, Except.ok.injEq] at h2
          subst h2
          refine ⟨fun _ => (hcs c (by simp)).2.2 (by omega), fun j h1j h2j => ?_⟩
          rcases low j h1j h2j with ⟨c', hc', hx⟩ | hx
          · simp only [List.mem_singleton] at hc'; subst hc'
            exact .inl hx
          · exact .inr hx
        · rename_i hone
          simp only [pure_eq_ok, Except.ok.injEq] at h2; subst h2
          have hlen2 : 2 ≤ cs.length := by omega
          refine ⟨fun _ => by simp only [Node.fanout]; omega, fun j h1j h2j => ?_⟩
          simp only at h2j
          rcases Nat.lt_or_ge l j with hlt | hge
          · exact .inl (.inl ⟨by omega, hlen2⟩)
          · rcases low j h1j hge with hx | hx
            · exact .inl (.inr hx)
            · exact .inr hx
    refine reinsert_wide L (by rw [hal]; exact hM) (by rw [hal]; omega) ht1 (fun ch j hmem => ?_) key.1 key.2 h3
    obtain ⟨hg, hj⟩ := hslots ch j hmem
    exact ⟨by rw [hal]; exact (hslot j ch hj hg).1, by omega⟩

end

end RTree
