import Verif.Proofs.Iter
import Verif.Proofs.History
/-! Node properties by level. -/

namespace RTree

/-- A property of nodes by level that is inherited by children and determines the kind of node. -/
structure NodeInv {B K V : Type} (ok : Nat → Node B K V → Prop) : Prop where
  leaf : ∀ {n}, ok 0 n → ∃ b es, n = .leaf b es
  inner : ∀ {l n}, ok (l + 1) n → ∃ b cs, n = .inner b cs ∧ ∀ c ∈ cs, ok l c

theorem NodeInv.shape {B K V : Type} {ok : Nat → Node B K V → Prop} (h : NodeInv ok) {l : Nat} {n : Node B K V}
    (hn : ok l n) : Shape l n := by
  induction l generalizing n with
  | zero => obtain ⟨b, es, rfl⟩ := h.leaf hn; trivial
  | succ l ih =>
    obtain ⟨b, cs, rfl, hcs⟩ := h.inner hn
    simp only [Shape]
    exact fun c hc => ih (hcs c hc)

/-- Pruning loses nothing if every node with a matching entry passes the bounds test. -/
theorem NodeInv.matching {B K V : Type} {ok : Nat → Node B K V → Prop} (h : NodeInv ok) {tb : B → Bool} {tk : K × V → Bool}
    (hp : ∀ l n, ok l n → ∀ e ∈ n.entries, tk e = true → tb n.bounds = true) {l : Nat} {n : Node B K V} (hn : ok l n) :
    n.matching tb tk = n.entries.filter tk ∧
      ∀ cs : List (Node B K V), (∀ c ∈ cs, ok l c) → matchingList tb tk cs = (entriesList cs).filter tk := by
  have step : ∀ l, (∀ n, ok l n → n.matching tb tk = n.entries.filter tk) → ∀ cs : List (Node B K V), (∀ c ∈ cs, ok l c) →
      matchingList tb tk cs = (entriesList cs).filter tk := by
    intro l hl cs hcs
    induction cs with
    | nil => rfl
    | cons c cs ih =>
      rw [matchingList, entriesList, List.filter_append, ih fun x hx => hcs x (List.mem_cons_of_mem _ hx)]
      congr 1
      split
      · exact hl c (hcs c List.mem_cons_self)
      · rename_i hb
        symm
        rw [List.filter_eq_nil_iff]
        intro e he hk
        exact hb (hp l c (hcs c List.mem_cons_self) e he hk)
  have main : ∀ l n, ok l n → n.matching tb tk = n.entries.filter tk := by
    intro l
    induction l with
    | zero =>
      intro n hn
      obtain ⟨b, es, rfl⟩ := h.leaf hn
      simp [Node.matching, Node.entries]
    | succ l ih =>
      intro n hn
      obtain ⟨b, cs, rfl, hcs⟩ := h.inner hn
      rw [Node.matching, Node.entries]
      exact step l ih cs hcs
  exact ⟨main l n hn, fun cs hcs => step l (main l) cs hcs⟩

/-- Every node below covers the keys below it, and these satisfy `P`. -/
def Covered {B K V : Type} [Bounds B] [Enclosure B] [Bounded K B] (P : K → Prop) : Nat → Node B K V → Prop
  | 0, .leaf b es => ∀ e ∈ es, P e.1 ∧ Enclosure.le (Bounded.bounds e.1) b
  | l + 1, .inner b cs => (∀ e ∈ entriesList cs, P e.1 ∧ Enclosure.le (Bounded.bounds e.1) b) ∧ ∀ c ∈ cs, Covered P l c
  | _, _ => False

section

variable {B K V : Type} [Bounds B] [Enclosure B] [Bounded K B] {P : K → Prop}

theorem Covered.nodeInv : NodeInv (Covered (V := V) P) where
  leaf {n} h := by
    cases n with
    | leaf b es => exact ⟨b, es, rfl⟩
    | inner b cs => simp [Covered] at h
  inner {l n} h := by
    cases n with
    | leaf b es => simp [Covered] at h
    | inner b cs => rw [Covered] at h; exact ⟨b, cs, rfl, h.2⟩

theorem Covered.entry {l : Nat} {n : Node B K V} (h : Covered P l n) :
    ∀ e ∈ n.entries, P e.1 ∧ Enclosure.le (Bounded.bounds e.1) n.bounds := by
  cases l <;> cases n <;> simp only [Covered] at h
  · simpa [Node.entries, Node.bounds] using h
  · simpa [Node.entries, Node.bounds] using h.1

theorem mem_entriesList_of_mem {cs : List (Node B K V)} {c : Node B K V} (hc : c ∈ cs) {e : K × V} (he : e ∈ c.entries) :
    e ∈ entriesList cs := by
  induction cs with
  | nil => cases hc
  | cons x xs ih =>
    rw [entriesList]
    rcases List.mem_cons.1 hc with rfl | hm
    · exact List.mem_append_left _ he
    · exact List.mem_append_right _ (ih hm)

theorem Ok.covered [Volume B] [VolumeLaws B] {a : Alloc} {g : Prop} {l : Nat} {n : Node B K V} (h : Ok Covers a g l n)
    (hP : ∀ e ∈ n.entries, P e.1) : Covered P l n := by
  have hagg := h.agg
  have hc : ∀ e ∈ n.entries, P e.1 ∧ Enclosure.le (Bounded.bounds e.1) n.bounds :=
    fun e he => ⟨hP e he, hagg _ (List.mem_map.2 ⟨e, he, rfl⟩)⟩
  induction l generalizing n with
  | zero =>
    obtain ⟨b, es, rfl, _⟩ := h.leaf
    simpa [Covered, Node.entries, Node.bounds] using hc
  | succ l ih =>
    obtain ⟨b, cs, rfl, _, _, hcs⟩ := h.inner
    rw [Covered]
    refine ⟨by simpa [Node.entries, Node.bounds] using hc, ?_⟩
    intro c hcm
    have hcP : ∀ e ∈ c.entries, P e.1 := by
      intro e he
      refine hP e ?_
      rw [Node.entries]
      exact mem_entriesList_of_mem hcm he
    have hok := (hcs c hcm).1
    exact ih hok hcP hok.agg fun e he => ⟨hcP e he, hok.agg _ (List.mem_map.2 ⟨e, he, rfl⟩)⟩

end

end RTree
