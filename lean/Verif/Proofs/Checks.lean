import Verif.Model.Checks
import Verif.Proofs.Invariant
/-! What the self-checks of the tree check. -/

namespace RTree

variable {B K V : Type}

theorem assertThat_ok {b : Bool} : assertThat b = .ok () ↔ b = true := by
  cases b <;> simp [assertThat]

theorem mapM_ok_iff {α β : Type} {f : α → Res β} {g : α → β} {Q : α → Prop} (l : List α)
    (h : ∀ a ∈ l, ∀ b, f a = .ok b ↔ b = g a ∧ Q a) (bs : List β) :
    l.mapM f = .ok bs ↔ bs = l.map g ∧ ∀ a ∈ l, Q a := by
  induction l generalizing bs with
  | nil => simp [eq_comm]
  | cons a l ih =>
    rw [List.mapM_cons, bind_eq_ok]
    constructor
    · rintro ⟨b, hb, h2⟩
      obtain ⟨bs', hbs, h3⟩ := bind_eq_ok.1 h2
      obtain ⟨rfl, hq⟩ := (h a (by simp) b).1 hb
      obtain ⟨rfl, hqs⟩ := (ih (fun x hx => h x (by simp [hx])) bs').1 hbs
      simp only [pure_eq_ok, Except.ok.injEq] at h3
      exact ⟨h3.symm, fun x hx => by
        rcases List.mem_cons.1 hx with rfl | hx
        · exact hq
        · exact hqs x hx⟩
    · rintro ⟨rfl, hq⟩
      refine ⟨g a, (h a (by simp) _).2 ⟨rfl, hq a (by simp)⟩, bind_eq_ok.2 ⟨l.map g, ?_, rfl⟩⟩
      exact (ih (fun x hx => h x (by simp [hx])) _).2 ⟨rfl, fun x hx => hq x (by simp [hx])⟩

theorem forM_ok_iff {α : Type} {f : α → Res Unit} {Q : α → Prop} (l : List α)
    (h : ∀ a ∈ l, f a = .ok () ↔ Q a) : l.forM f = .ok () ↔ ∀ a ∈ l, Q a := by
  induction l with
  | nil => simp
  | cons a l ih =>
    show (f a >>= fun _ => l.forM f) = .ok () ↔ _
    rw [bind_eq_ok]
    constructor
    · rintro ⟨⟨⟩, ha, hl⟩ x hx
      rcases List.mem_cons.1 hx with rfl | hx
      · exact (h _ (by simp)).1 ha
      · exact (ih fun y hy => h y (by simp [hy])).1 hl x hx
    · intro hq
      exact ⟨(), (h a (by simp)).2 (hq a (by simp)),
        (ih fun y hy => h y (by simp [hy])).2 fun x hx => hq x (by simp [hx])⟩

theorem forall_descendants_inner {Q : Node B K V → Prop} {b : B} {cs : List (Node B K V)} :
    (∀ m ∈ Node.inner b cs :: (Node.inner b cs).descendants, Q m) ↔
      Q (.inner b cs) ∧ ∀ c ∈ cs, ∀ m ∈ c :: c.descendants, Q m := by
  simp only [List.forall_mem_cons, Node.descendants]
  refine and_congr_right fun _ => ?_
  constructor
  · intro h c hc
    exact ⟨h c (mem_descendantsList.2 ⟨c, hc, .inl rfl⟩), fun m hm => h m (mem_descendantsList.2 ⟨c, hc, .inr hm⟩)⟩
  · intro h m hm
    obtain ⟨c, hc, rfl | hm⟩ := mem_descendantsList.1 hm
    · exact (h _ hc).1
    · exact (h c hc).2 m hm

theorem assertBvhNode_ok_iff [Bounds B] [BEq B] [LawfulBEq B] [Bounded K B] {l : Nat} {n : Node B K V} (hs : Shape l n)
    (b : B) : assertBvhNode l n = .ok b ↔
      b = n.bounds ∧ ∀ m ∈ n :: n.descendants, m.bounds = Bounds.unionAll m.childBounds := by
  have core : ∀ (nb ub : B), (do assertThat (nb == ub); pure ub : Res B) = .ok b ↔ b = nb ∧ nb = ub := by
    intro nb ub
    by_cases h : nb = ub
    · subst h
      simp [assertThat, eq_comm]
    · have : (nb == ub) = false := by simpa using h
      simp [assertThat, this, h]
  induction l generalizing n b with
  | zero =>
    cases n with
    | inner b cs => simp [Shape] at hs
    | leaf nb es =>
      simp only [assertBvhNode, Node.leafChildren, ok_bind, Node.descendants, Node.bounds, Node.childBounds,
        List.forall_mem_cons, List.not_mem_nil, false_implies, implies_true, and_true]
      exact core _ _
  | succ l ih =>
    cases n with
    | leaf b es => simp [Shape] at hs
    | inner nb cs =>
      have hm := mapM_ok_iff (f := assertBvhNode l) (g := Node.bounds)
        (Q := fun c => ∀ m ∈ c :: c.descendants, m.bounds = Bounds.unionAll m.childBounds) cs
        (fun c hc b => ih (hs c hc) b fun nb ub => by
          by_cases h : nb = ub
          · subst h
            simp [assertThat, eq_comm]
          · have : (nb == ub) = false := by simpa using h
            simp [assertThat, this, h])
      rw [forall_descendants_inner]
      simp only [assertBvhNode, Node.innerChildren, ok_bind, Node.bounds, Node.childBounds]
      rw [bind_eq_ok]
      constructor
      · rintro ⟨bs, h1, h2⟩
        obtain ⟨rfl, h3⟩ := (hm bs).1 h1
        obtain ⟨h4, h5⟩ := (core _ _).1 h2
        exact ⟨h4, h5, h3⟩
      · rintro ⟨h4, h5, h3⟩
        exact ⟨_, (hm _).2 ⟨rfl, h3⟩, (core _ _).2 ⟨h4, h5⟩⟩

theorem assertMinChildrenNode_ok_iff {k l : Nat} {n : Node B K V} (hs : Shape l n) (root : Bool) :
    assertMinChildrenNode k l root n = .ok () ↔
      (root = false → k ≤ n.fanout) ∧ ∀ m ∈ n.descendants, k ≤ m.fanout := by
  induction l generalizing n root with
  | zero =>
    cases n with
    | inner b cs => simp [Shape] at hs
    | leaf nb es =>
      cases root <;> simp [assertMinChildrenNode, Node.leafChildren, Node.descendants, Node.fanout, assertThat_ok]
  | succ l ih =>
    cases n with
    | leaf b es => simp [Shape] at hs
    | inner nb cs =>
      have hf := forM_ok_iff (f := fun c => assertMinChildrenNode k l false c)
        (Q := fun c => ∀ m ∈ c :: c.descendants, k ≤ m.fanout) cs (fun c hc => by
          rw [ih (hs c hc)]; simp)
      have hd : (∀ m ∈ (Node.inner nb cs).descendants, k ≤ m.fanout) ↔ ∀ c ∈ cs, ∀ m ∈ c :: c.descendants, k ≤ m.fanout := by
        simp only [Node.descendants]
        constructor
        · intro h c hc m hm
          rcases List.mem_cons.1 hm with rfl | hm
          · exact h _ (mem_descendantsList.2 ⟨_, hc, .inl rfl⟩)
          · exact h m (mem_descendantsList.2 ⟨c, hc, .inr hm⟩)
        · intro h m hm
          obtain ⟨c, hc, rfl | hm⟩ := mem_descendantsList.1 hm
          · exact h _ hc _ (by simp)
          · exact h c hc m (by simp [hm])
      rw [hd, ← hf]
      cases root with
      | true => simp [assertMinChildrenNode, Node.innerChildren]
      | false =>
        simp only [assertMinChildrenNode, Node.innerChildren, ok_bind, Node.fanout, forall_const, Bool.false_eq_true, if_false]
        rw [bind_eq_ok]
        constructor
        · rintro ⟨⟨⟩, h1, h2⟩
          exact ⟨by simpa using assertThat_ok.1 h1, h2⟩
        · rintro ⟨h1, h2⟩
          exact ⟨(), assertThat_ok.2 (by simpa using h1), h2⟩

theorem sameFormList_iff {cs cs' : List (Node B K V)} :
    sameFormList cs cs' ↔ cs.length = cs'.length ∧ ∀ p ∈ cs.zip cs', p.1.SameForm p.2 := by
  induction cs generalizing cs' with
  | nil => cases cs' <;> simp [sameFormList]
  | cons c cs ih =>
    cases cs' with
    | nil => simp [sameFormList]
    | cons c' cs' =>
      simp only [sameFormList, ih, List.length_cons, List.zip_cons_cons, List.forall_mem_cons, Nat.add_right_cancel_iff]
      constructor
      · rintro ⟨a, b, c⟩; exact ⟨b, a, c⟩
      · rintro ⟨a, b, c⟩; exact ⟨b, a, c⟩

theorem assertEqNode_ok_iff [BEq K] [LawfulBEq K] [BEq V] [LawfulBEq V] {l l' : Nat} {n n' : Node B K V} (hs : Shape l n)
    (hs' : Shape l' n') : assertEqNode l n l' n' = .ok () ↔ l = l' ∧ n.SameForm n' := by
  induction l generalizing n n' l' with
  | zero =>
    cases n with
    | inner b cs => simp [Shape] at hs
    | leaf nb es =>
      cases l' with
      | succ l' => simp [assertEqNode, assertThat]
      | zero =>
        cases n' with
        | inner b cs => simp [Shape] at hs'
        | leaf nb' es' =>
          simp only [assertEqNode, Node.leafChildren, ok_bind, Node.SameForm, true_and]
          simp [assertThat]
  | succ l ih =>
    cases n with
    | leaf b es => simp [Shape] at hs
    | inner nb cs =>
      by_cases hl : l + 1 = l'
      · subst hl
        cases n' with
        | leaf b es => simp [Shape] at hs'
        | inner nb' cs' =>
          have hf := forM_ok_iff (f := fun p : Node B K V × Node B K V => assertEqNode l p.1 (l + 1 - 1) p.2)
            (Q := fun p => p.1.SameForm p.2) (cs.zip cs') (fun p hp => by
              have := List.of_mem_zip hp
              rw [Nat.add_sub_cancel, ih (hs _ this.1) (hs' _ this.2)]
              simp)
          simp only [assertEqNode, Node.innerChildren, ok_bind, Node.SameForm, true_and, sameFormList_iff]
          rw [← hf]
          have h0 : assertThat (l + 1 == l + 1) = .ok () := assertThat_ok.2 (by simp)
          rw [h0, ok_bind, bind_eq_ok]
          constructor
          · rintro ⟨⟨⟩, h1, h2⟩
            exact ⟨by simpa using assertThat_ok.1 h1, h2⟩
          · rintro ⟨h1, h2⟩
            exact ⟨(), assertThat_ok.2 (by simpa using h1), h2⟩
      · have : (l + 1 == l') = false := by simpa using hl
        simp only [hl, false_and, iff_false, assertEqNode, this]
        simp [assertThat]

theorem Node.SameForm.refl {l : Nat} {n : Node B K V} (hs : Shape l n) : n.SameForm n := by
  induction l generalizing n with
  | zero => cases n with
    | leaf b es => simp [Node.SameForm]
    | inner b cs => simp [Shape] at hs
  | succ l ih => cases n with
    | leaf b es => simp [Shape] at hs
    | inner b cs =>
      simp only [Node.SameForm, sameFormList_iff, true_and]
      intro p hp
      obtain ⟨a, b⟩ := p
      have := List.of_mem_zip hp
      have hab : a = b := by
        clear this ih hs
        induction cs with
        | nil => simp at hp
        | cons c cs ih =>
          rcases List.mem_cons.1 hp with h | h
          · injection h with h1 h2; rw [h1, h2]
          · exact ih h
      subst hab
      exact ih (hs _ this.1)

theorem Node.SameForm.leaves {l l' : Nat} {n n' : Node B K V} (hs : Shape l n) (hs' : Shape l' n') (h : n.SameForm n') :
    n.leaves = n'.leaves := by
  induction l generalizing n n' l' with
  | zero => cases n with
    | inner b cs => simp [Shape] at hs
    | leaf b es => cases n' with
      | inner b' cs' => simp [Node.SameForm] at h
      | leaf b' es' =>
        simp only [Node.SameForm] at h
        simp [Node.leaves, h]
  | succ l ih => cases n with
    | leaf b es => simp [Shape] at hs
    | inner b cs => cases n' with
      | leaf b' es' => simp [Node.SameForm] at h
      | inner b' cs' =>
        cases l' with
        | zero => simp [Shape] at hs'
        | succ l' =>
          simp only [Node.SameForm] at h
          simp only [Node.leaves]
          have hs : ∀ c ∈ cs, Shape l c := hs
          have hs' : ∀ c ∈ cs', Shape l' c := hs'
          rename_i hs₀ hs₀'
          clear hs₀ hs₀' b b'
          induction cs generalizing cs' with
          | nil => cases cs' with
            | nil => rfl
            | cons c cs => simp [sameFormList] at h
          | cons c cs ihc => cases cs' with
            | nil => simp [sameFormList] at h
            | cons c' cs' =>
              simp only [sameFormList] at h
              simp only [leavesList]
              rw [ih (hs c (by simp)) (hs' c' (by simp)) h.1,
                ihc cs' h.2 (fun x hx => hs x (by simp [hx])) fun x hx => hs' x (by simp [hx])]

end RTree
