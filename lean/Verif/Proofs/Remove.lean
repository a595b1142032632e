import Verif.Proofs.Invariant
/-! Removal preserves the invariant. -/

namespace RTree

variable {B K V Q : Type}

/-- The entries below detached children. -/
def NodeChildren.entries : NodeChildren B K V → List (K × V)
  | .inner cs => entriesList cs
  | .leaf es => es

/-- The number of detached children. -/
def NodeChildren.fanout : NodeChildren B K V → Nat
  | .inner cs => cs.length
  | .leaf es => es.length

/-- The entries held in the reinsertion slots. -/
def slotsEntries (r : Reinsert B K V) : List (K × V) :=
  r.flatMap fun s => match s with
    | some ch => ch.entries
    | none => []

theorem slotsEntries_set {r : Reinsert B K V} {j : Nat} {ch : NodeChildren B K V}
    (h : r[j]? = some none) :
    (slotsEntries (r.set j (some ch))).Perm (ch.entries ++ slotsEntries r) := by
  have hj : j < r.length := by
    rcases Nat.lt_or_ge j r.length with h' | h'
    · exact h'
    · simp [List.getElem?_eq_none h'] at h
  obtain ⟨x, y, hxy, _, hset⟩ := exists_split r j hj
  have hrj : r[j] = none := by simpa [List.getElem?_eq_getElem hj] using h
  rw [hset]
  conv => rhs; rw [hxy, hrj]
  simp only [slotsEntries, List.flatMap_append, List.flatMap_cons, List.nil_append]
  rw [← List.append_assoc, ← List.append_assoc]
  exact List.perm_append_comm.append_right _

section

variable [Bounds B] [Volume B] [VolumeLaws B] [Bounded K B] [Bounded Q B] [BEq Q]
open VolumeLaws (volOk)

/-- The invariant of children waiting in reinsertion slot `j`. -/
def SlotOk (rel : B → List B → Prop) (a : Alloc) (g : Prop) : Nat → NodeChildren B K V → Prop
  | 0, .leaf es => ∀ e ∈ es, EntryOk (V := V) rel a g (.leaf e.1 e.2)
  | j + 1, .inner cs => ∀ c ∈ cs, ChildOk rel a g j c
  | _, _ => False

variable {rel : B → List B → Prop} {a : Alloc} {g : Prop}

theorem Ok.shallowLen {l : Nat} {n : Node B K V} (h : Ok rel a g l n) : shallowLen l n = .ok n.fanout := by
  cases l <;> cases n <;> simp [Ok] at h <;>
    simp [RTree.shallowLen, Node.fanout, Node.leafChildren, Node.innerChildren]

theorem Ok.children {l : Nat} {n : Node B K V} (h : Ok rel a g l n) :
    ∃ ch, nodeChildren l n = .ok ch ∧ ch.entries = n.entries ∧ SlotOk rel a g l ch ∧
      ch.fanout = n.fanout := by
  cases l with
  | zero =>
    obtain ⟨b, es, rfl, _, _, hv⟩ := h.leaf
    exact ⟨.leaf es, rfl, by simp [NodeChildren.entries], fun e he hg => hv hg e he, rfl⟩
  | succ l =>
    obtain ⟨b, cs, rfl, _, _, hcs⟩ := h.inner
    exact ⟨.inner cs, rfl, by simp [NodeChildren.entries], hcs, rfl⟩

/-- Post-condition of `remove` on a node. `complete` states that the key's bounds cannot be pruned away. -/
def RemovePost (rel : B → List B → Prop) (a : Alloc) (g complete : Prop) (borrow : K → Q) (q : Q)
    (level : Nat) (node : Node B K V) (r : Reinsert B K V) :
    Node B K V × Option V × Reinsert B K V → Prop
  | (n, none, r') => n = node ∧ r' = r ∧
      (complete → ∀ e ∈ node.entries, (borrow e.1 == q) = false)
  | (n, some v, r') => Ok rel a g level n ∧ node.fanout ≤ n.fanout + 1 ∧
      (g → 1 ≤ n.fanout → volOk n.bounds) ∧
      (∃ k, (borrow k == q) = true ∧
        ((k, v) :: n.entries ++ slotsEntries r').Perm (node.entries ++ slotsEntries r)) ∧
      r'.length = r.length ∧ (∀ j, level ≤ j → r'[j]? = r[j]?) ∧
      (∀ j ch, j < level → r'[j]? = some (some ch) → SlotOk rel a g j ch ∧ ch.fanout < a.minChildren)

/-- Post-condition of the loop of `remove`. -/
def RemoveLoopPost (rel : B → List B → Prop) (a : Alloc) (g complete : Prop) (borrow : K → Q) (q : Q)
    (l i : Nat) (cs : List (Node B K V)) (r : Reinsert B K V) :
    List (Node B K V) × Option V × Reinsert B K V → Prop
  | (cs', none, r') => cs' = cs ∧ r' = r ∧
      (complete → ∀ c ∈ cs.take i, ∀ e ∈ c.entries, (borrow e.1 == q) = false)
  | (cs', some v, r') => (∀ c ∈ cs', ChildOk rel a g l c) ∧ cs.length ≤ cs'.length + 1 ∧
      cs'.length ≤ cs.length ∧
      (∃ k, (borrow k == q) = true ∧
        ((k, v) :: entriesList cs' ++ slotsEntries r').Perm (entriesList cs ++ slotsEntries r)) ∧
      r'.length = r.length ∧ (∀ j, l + 1 ≤ j → r'[j]? = r[j]?) ∧
      (∀ j ch, j < l + 1 → r'[j]? = some (some ch) → SlotOk rel a g j ch ∧ ch.fanout < a.minChildren)

theorem sat_removeLoop (hg : g → a.Good)
    {complete : Prop} {borrow : K → Q} {q : Q}
    (hprune : complete → ∀ b bs, rel b bs → (Bounded.bounds q : B) ∈ bs →
      Bounds.intersects b (Bounded.bounds q) = true)
    (hbq : complete → ∀ k : K, (borrow k == q) = true → (Bounded.bounds k : B) = Bounded.bounds q)
    {l : Nat} {rec : Node B K V → Reinsert B K V → Res (Node B K V × Option V × Reinsert B K V)}
    (hrec : ∀ n r, Ok rel a g l n → (∀ j, j < l → r[j]? = some none) →
      Sat (rec n r) (Allowed g) (RemovePost rel a g complete borrow q l n r))
    (i : Nat) (cs : List (Node B K V)) (r : Reinsert B K V) (hi : i ≤ cs.length)
    (hcs : ∀ c ∈ cs, ChildOk rel a g l c) (hr : ∀ j, j < l + 1 → r[j]? = some none) :
    Sat (removeLoop a l q rec i cs r) (Allowed g)
      (RemoveLoopPost rel a g complete borrow q l i cs r) := by
  induction i with
  | zero => exact ⟨rfl, rfl, by simp⟩
  | succ i ih =>
    have hi' : i < cs.length := by omega
    have ih := ih (by omega)
    have hci := hcs _ (List.getElem_mem hi')
    unfold removeLoop
    refine Sat.bind (Sat.index (P := fun c => c = cs[i]) hi' rfl) ?_
    rintro _ rfl
    have htake : cs.take (i + 1) = cs.take i ++ [cs[i]] := by simp
    -- continuing the loop when the child does not have the key
    have hcont : (complete → ∀ e ∈ cs[i].entries, (borrow e.1 == q) = false) →
        Sat (removeLoop a l q rec i cs r) (Allowed g)
          (RemoveLoopPost rel a g complete borrow q l (i + 1) cs r) := by
      intro hno
      refine Sat.mono ih ?_
      rintro ⟨cs', v, r'⟩ h
      cases v with
      | some v => exact h
      | none =>
        refine ⟨h.1, h.2.1, fun hc c hc' => ?_⟩
        rw [htake] at hc'
        rcases List.mem_append.1 hc' with h' | h'
        · exact h.2.2 hc c h'
        · simp at h'; subst h'; exact hno hc
    split
    · refine Sat.bind (hrec _ r hci.1 fun j hj => hr j (by omega)) ?_
      rintro ⟨c', v, r'⟩ hpost
      cases v with
      | none =>
        obtain ⟨rfl, rfl, hno⟩ := hpost
        simp only [List.set_getElem_self]
        exact hcont hno
      | some v =>
        obtain ⟨hok, hfan, hvol, ⟨k, hk, hperm⟩, hlen, hge, hslot⟩ := hpost
        obtain ⟨x, y, hxy, hxlen, hset⟩ := exists_split cs i hi'
        simp only [hok.shallowLen, ok_bind]
        have hpermcs : ((k, v) :: entriesList (cs.set i c') ++ slotsEntries r').Perm
            (entriesList cs ++ slotsEntries r) := by
          rw [hset]; conv => rhs; rw [hxy]
          classical
          rw [List.perm_iff_count] at hperm ⊢
          intro z
          have := hperm z
          simp only [entriesList_append, entriesList_cons, List.count_append, List.count_cons,
            List.cons_append] at this ⊢
          omega
        split
        · -- underfull child
          rename_i hunder
          obtain ⟨cs', hsr, hsrp, hsrl, _⟩ := Vec.swapRemove_spec (cs.set i c') i (by simpa using hi')
          have hgi : (cs.set i c')[i]'(by simpa using hi') = c' := by simp
          rw [hgi] at hsr hsrp
          obtain ⟨ch, hch, hche, hchok, hchf⟩ := hok.children
          have hlr : l < r'.length := by
            rw [hlen]
            rcases Nat.lt_or_ge l r.length with h' | h'
            · exact h'
            · have := hr l (by omega); simp [List.getElem?_eq_none h'] at this
          have hrl : r'[l]? = some none := by rw [hge l (Nat.le_refl _)]; exact hr l (by omega)
          simp only [hsr, ok_bind, hch, onUnderfull, hlr, if_true]
          refine ⟨?_, ?_, ?_, ⟨k, hk, ?_⟩, ?_, ?_, ?_⟩
          · intro c hc
            have : c ∈ c' :: cs' := by simp [hc]
            have hne := hsrp.mem_iff.1 this
            -- the rest of the children are old children
            have hold : cs'.Perm (x ++ y) := by
              rw [hset] at hsrp
              exact (hsrp.trans List.perm_middle).cons_inv
            have := hold.mem_iff.1 hc
            refine hcs c ?_
            rw [hxy]; simp at this ⊢; rcases this with h | h <;> simp [h]
          · simp at hsrl; omega
          · simp at hsrl; omega
          · have h1 := slotsEntries_set (ch := ch) hrl
            have h2 := entriesList_perm hsrp
            rw [hche] at h1
            classical
            rw [List.perm_iff_count] at hpermcs h1 h2 ⊢
            intro z
            have e1 := h1 z; have e2 := h2 z; have e3 := hpermcs z
            simp only [entriesList_cons, List.count_append, List.count_cons, List.cons_append] at *
            omega
          · simpa using hlen
          · intro j hj
            rw [List.getElem?_set_ne (by omega)]; exact hge j (by omega)
          · intro j ch' hj hsome
            rcases Nat.lt_or_ge j l with h' | h'
            · rw [List.getElem?_set_ne (by omega)] at hsome
              exact hslot j ch' h' hsome
            · have : j = l := by omega
              subst this
              rw [List.getElem?_set_self hlr] at hsome
              simp at hsome; subst hsome; exact ⟨hchok, by omega⟩
        · rename_i hunder
          have hc' : ChildOk rel a g l c' := ⟨hok, fun h => ⟨by have := (hg h).facts; omega, hvol h (by have := (hg h).facts; omega)⟩,
            fun _ => by omega⟩
          refine ⟨?_, by simp, by simp, ⟨k, hk, hpermcs⟩, hlen, fun j hj => hge j (by omega), ?_⟩
          · intro c hc
            rcases List.mem_or_eq_of_mem_set hc with h | rfl
            · exact hcs c h
            · exact hc'
          · intro j ch' hj hsome
            rcases Nat.lt_or_ge j l with h' | h'
            · exact hslot j ch' h' hsome
            · rw [hge j h', hr j hj] at hsome; simp at hsome
    · rename_i hint
      refine hcont fun hc e he => ?_
      refine Bool.eq_false_iff.2 fun heq => ?_
      refine hint (hprune hc _ _ hci.1.agg ?_)
      rw [← hbq hc e.1 heq]
      exact List.mem_map.2 ⟨e, he, rfl⟩

theorem sat_removeNode (L : AggLaws rel)
    (hg : g → a.Good)
    {complete : Prop} {borrow : K → Q} {q : Q}
    (hprune : complete → ∀ b bs, rel b bs → (Bounded.bounds q : B) ∈ bs →
      Bounds.intersects b (Bounded.bounds q) = true)
    (hbq : complete → ∀ k : K, (borrow k == q) = true → (Bounded.bounds k : B) = Bounded.bounds q)
    (level : Nat) (node : Node B K V) (r : Reinsert B K V) (hn : Ok rel a g level node)
    (hr : ∀ j, j < level → r[j]? = some none) :
    Sat (removeNode a borrow q level node r) (Allowed g)
      (RemovePost rel a g complete borrow q level node r) := by
  induction level generalizing node r with
  | zero =>
    obtain ⟨b, es, rfl, hrel, hlen, hvol⟩ := hn.leaf
    simp only [removeNode, Node.leafChildren, ok_bind]
    cases hfind : es.findIdx? (fun e => borrow e.1 == q) with
    | none =>
      refine ⟨rfl, rfl, fun _ e he => ?_⟩
      rw [List.findIdx?_eq_none_iff] at hfind
      exact hfind e (by simpa using he)
    | some i =>
      rw [List.findIdx?_eq_some_iff_getElem] at hfind
      obtain ⟨hi, hmatch, _⟩ := hfind
      obtain ⟨es', hsr, hp, hl, _⟩ := Vec.swapRemove_spec es i hi
      simp only [hsr, ok_bind]
      have hmem : ∀ e ∈ es', e ∈ es := fun e he => hp.mem_iff.1 (by simp [he])
      refine ⟨ok_leaf.2 ⟨?_, by omega, fun h e he => hvol h e (hmem e he)⟩, by simp [Node.fanout]; omega,
        ?_, ⟨es[i].1, hmatch, ?_⟩, rfl, fun _ _ => rfl, by simp⟩
      · have hfm : ∀ l : List (K × V), l.flatMap (fun e => [entryBounds e]) = l.map entryBounds := by
          intro l; induction l <;> simp_all
        exact hfm es' ▸ L.unionAll_of (bf := entryBounds) (kf := fun e => [entryBounds e]) es'
          fun e _ => L.single _
      · intro h hf
        refine VolumeLaws.unionAll ?_ ?_
        · intro h'; simp at h'; subst h'; simp [Node.fanout] at hf
        · simp only [List.mem_map]; rintro _ ⟨e, he, rfl⟩; exact hvol h e (hmem e he)
      · simpa using hp.append_right (slotsEntries r)
  | succ l ih =>
    obtain ⟨b, cs, rfl, hrel, hlen, hcs⟩ := hn.inner
    simp only [removeNode, Node.innerChildren, ok_bind]
    refine Sat.bind (sat_removeLoop hg hprune hbq (fun n r hn hr => ih n r hn hr) cs.length cs r
      (Nat.le_refl _) hcs hr) ?_
    rintro ⟨cs', v, r'⟩ hpost
    cases v with
    | none =>
      obtain ⟨rfl, rfl, hno⟩ := hpost
      refine ⟨rfl, rfl, fun hc e he => ?_⟩
      rw [entries_inner, entriesList_eq, List.mem_flatMap] at he
      obtain ⟨c, hc', he⟩ := he
      exact hno hc c (by simpa using hc') e he
    | some v =>
      obtain ⟨hcs', hl1, hl2, ⟨k, hk, hperm⟩, hlen', hge, hslot⟩ := hpost
      refine ⟨ok_inner.2 ⟨rel_unionAll_children L hcs', Nat.le_trans hl2 hlen, hcs'⟩, by simpa [Node.fanout] using hl1,
        ?_, ⟨k, hk, by simpa using hperm⟩, hlen', hge, hslot⟩
      intro h hf
      refine VolumeLaws.unionAll ?_ ?_
      · intro h'; simp at h'; subst h'; simp [Node.fanout] at hf
      · simp only [List.mem_map]; rintro _ ⟨c, hc, rfl⟩; exact ((hcs' c hc).2.1 h).2

end

end RTree
