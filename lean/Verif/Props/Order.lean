import Verif.Props.Join
import Verif.Props.Nearest
/-!
# The order of operations does not matter to queries (C30)
-/

namespace RTree

section Same

variable {B K V Q : Type} [Bounds B] [Volume B] [Bounded K B] [BEq K] [Enclosure B]
variable {c₁ c₂ : Config} {P : K → Prop} {t₁ t₂ : Tree B K V}

/-- C30: two trees with the same multiset of entries, however and with whatever configuration they were built, have the
    same length and give the same multiset for every filter that honours its contract. -/
theorem C30_same_queries (h₁ : Reachable c₁ P t₁) (h₂ : Reachable c₂ P t₂) {es₁ es₂ : List (K × V)}
    (he₁ : t₁.iter = .ok es₁) (he₂ : t₂.iter = .ok es₂) (hp : es₁.Perm es₂) :
    t₁.len = t₂.len ∧
    ∀ (borrow : K → Q) (f : SpatialFilter B Q), f.Honours borrow →
      ∃ r₁ r₂, t₁.filterIter borrow f = .ok r₁ ∧ t₂.filterIter borrow f = .ok r₂ ∧ r₁.Perm r₂ := by
  refine ⟨by rw [C08_len h₁ he₁, C08_len h₂ he₂, hp.length_eq], fun borrow f hf => ?_⟩
  exact ⟨_, _, C10_filter_iter_exact h₁ hf he₁, C10_filter_iter_exact h₂ hf he₂, hp.filter _⟩

/-- C30: `is_empty` agrees as well, if `min_children` is at least 1 in both configurations. -/
theorem C30_same_is_empty (h₁ : Reachable c₁ P t₁) (h₂ : Reachable c₂ P t₂) (hm₁ : 1 ≤ c₁.minChildren)
    (hm₂ : 1 ≤ c₂.minChildren) {es₁ es₂ : List (K × V)} (he₁ : t₁.iter = .ok es₁) (he₂ : t₂.iter = .ok es₂)
    (hp : es₁.Perm es₂) : t₁.isEmpty = t₂.isEmpty := by
  rw [C08_is_empty h₁ hm₁ he₁, C08_is_empty h₂ hm₂ he₂, hp.length_eq]

/-- C30: `iter_asc_by` yields the same ranks in the same order, and the same multiset of entries. -/
theorem C30_same_ranks {M : Type} [LE M] [Std.IsPreorder M] (anti : ∀ a b : M, a ≤ b → b ≤ a → a = b)
    (h₁ : Reachable c₁ P t₁) (h₂ : Reachable c₂ P t₂) {es₁ es₂ : List (K × V)}
    (he₁ : t₁.iter = .ok es₁) (he₂ : t₂.iter = .ok es₂) (hp : es₁.Perm es₂) (hp₁ hp₂ : IterHeap B K V M)
    {r : Ranking B K M} (hr : r.Honours P) (hd₁ : r.DefinedOn t₁) (hd₂ : r.DefinedOn t₂) :
    ∃ out₁ out₂, t₁.iterAscBy hp₁ r = .ok out₁ ∧ t₂.iterAscBy hp₂ r = .ok out₂ ∧ out₁.Perm out₂ ∧
      out₁.map (fun e => r.rankKey e.1) = out₂.map fun e => r.rankKey e.1 := by
  obtain ⟨out₁, o₁, q₁, s₁⟩ := C12_iter_asc_by h₁ hp₁ hr hd₁ he₁
  obtain ⟨out₂, o₂, q₂, s₂⟩ := C12_iter_asc_by h₂ hp₂ hr hd₂ he₂
  have hperm : out₁.Perm out₂ := q₁.trans (hp.trans q₂.symm)
  refine ⟨out₁, out₂, o₁, o₂, hperm, ?_⟩
  refine List.Perm.eq_of_pairwise (le := fun a b => ∀ m n, a = .ok m → b = .ok n → m ≤ n) ?_
    (List.pairwise_map.2 s₁) (List.pairwise_map.2 s₂) (hperm.map _)
  intro a b ha hb hab hba
  obtain ⟨e, he, rfl⟩ := List.mem_map.1 ha
  obtain ⟨e', he', rfl⟩ := List.mem_map.1 hb
  obtain rfl : t₁.entries = es₁ := by simpa [h₁.iter_eq] using he₁
  obtain rfl : t₂.entries = es₂ := by simpa [h₂.iter_eq] using he₂
  obtain ⟨m, hm⟩ := hd₁.2 e (q₁.mem_iff.1 he)
  obtain ⟨n, hn⟩ := hd₂.2 e' (q₂.mem_iff.1 he')
  rw [hm, hn, anti m n (hab m n hm hn) (hba n m hn hm)]

end Same

section SameJoin

variable {B0 B1 K0 K1 V0 V1 Q0 Q1 : Type} [Bounds B0] [Volume B0] [Bounded K0 B0] [BEq K0] [Bounds B1] [Volume B1]
  [Bounded K1 B1] [BEq K1] [Enclosure B0] [Enclosure B1]
variable {c0 c0' c1 c1' : Config} {P0 : K0 → Prop} {P1 : K1 → Prop} {t0 t0' : Tree B0 K0 V0} {t1 t1' : Tree B1 K1 V1}

/-- C30: joins of trees with the same multisets of entries yield the same multiset of pairs. -/
theorem C30_same_joins (h0 : Reachable c0 P0 t0) (h0' : Reachable c0' P0 t0') (h1 : Reachable c1 P1 t1)
    (h1' : Reachable c1' P1 t1') {es es' : List (K0 × V0)} {fs fs' : List (K1 × V1)} (he : t0.iter = .ok es)
    (he' : t0'.iter = .ok es') (hf : t1.iter = .ok fs) (hf' : t1'.iter = .ok fs') (hp : es.Perm es') (hq : fs.Perm fs')
    {borrow0 : K0 → Q0} {borrow1 : K1 → Q1} {f : JoinFilter B0 B1 Q0 Q1} (hh : f.Honours P0 P1 borrow0 borrow1) :
    ∃ out out', t0.join borrow0 borrow1 f t1 = .ok out ∧ t0'.join borrow0 borrow1 f t1' = .ok out' ∧ out.Perm out' := by
  obtain ⟨out, o1, o2⟩ := C16_join_exact h0 h1 hh he hf
  obtain ⟨out', o1', o2'⟩ := C16_join_exact h0' h1' hh he' hf'
  refine ⟨out, out', o1, o1', o2.trans (List.Perm.trans (List.Perm.filter _ ?_) o2'.symm)⟩
  exact (hp.flatMap_right _).trans (List.Perm.flatMap_left _ fun a _ => hq.map _)

end SameJoin

/-! ### Histories with the same net content -/

section Histories

variable {B K V : Type} [Bounds B] [Volume B] [Bounded K B] [BEq K]

/-- A call that changes the content. -/
inductive Change (K V : Type) where
  | insert (k : K) (v : V)
  | remove (k : K)

/-- The tree after a sequence of changes. -/
def applyAll (t : Tree B K V) : List (Change K V) → Res (Tree B K V)
  | [] => .ok t
  | .insert k v :: xs => do applyAll (← t.insert k v) xs
  | .remove k :: xs => do applyAll (← t.remove id k).1 xs

/-- The net content of a sequence of changes, starting with `es`: an insertion adds its entry, a removal takes out one
    entry with an equal key, if there is one. -/
def netContent (es : List (K × V)) : List (Change K V) → List (K × V)
  | [] => es
  | .insert k v :: xs => netContent ((k, v) :: es) xs
  | .remove k :: xs => netContent (es.eraseP fun e => e.1 == k) xs

theorem net_perm {P : K × V → Prop} (heq : ∀ a b, P a → P b → (a.1 == b.1) = true → a = b) [EquivBEq K]
    {es fs : List (K × V)} (hes : ∀ e ∈ es, P e) (hp : es.Perm fs) (k : K) :
    (es.eraseP fun e => e.1 == k).Perm (fs.eraseP fun e => e.1 == k) := by
  by_cases h : ∃ e ∈ es, (e.1 == k) = true
  · obtain ⟨e, he, hk⟩ := h
    obtain ⟨a, l₁, l₂, h1, h2, h3, h4⟩ := List.exists_of_eraseP (p := fun e : K × V => e.1 == k) he hk
    obtain ⟨b, m₁, m₂, g1, g2, g3, g4⟩ := List.exists_of_eraseP (p := fun e : K × V => e.1 == k) (hp.mem_iff.1 he) hk
    have hab : a = b := by
      refine heq a b (hes a (h3 ▸ by simp)) (hes b (hp.mem_iff.2 (g3 ▸ by simp))) ?_
      exact BEq.trans h2 (BEq.symm g2)
    subst hab
    rw [h4, g4]
    rw [h3, g3] at hp
    exact (List.perm_middle.symm.trans (hp.trans List.perm_middle)).cons_inv
  · rw [List.eraseP_of_forall_not (fun e he hk => h ⟨e, he, hk⟩),
      List.eraseP_of_forall_not (fun e he hk => h ⟨e, hp.mem_iff.2 he, hk⟩)]
    exact hp

/-- C30: if equal keys carry equal entries, the content of a tree is the net content of its history. -/
theorem C30_net_content [LawfulBounds B] [LawfulKey K B] {c : Config} {P : K × V → Prop}
    (heq : ∀ a b, P a → P b → (a.1 == b.1) = true → a = b) {xs : List (Change K V)}
    (hins : ∀ k v, Change.insert k v ∈ xs → P (k, v))
    (hrem : ∀ k, Change.remove (V := V) k ∈ xs → LawfulBounds.valid (Bounded.bounds k : B)) {t : Tree B K V}
    (h : applyAll (Tree.new c) xs = .ok t) :
    ∃ es, t.iter = .ok es ∧ es.Perm (netContent [] xs) := by
  suffices main : ∀ (xs : List (Change K V)) (t₀ : Tree B K V) (es : List (K × V)),
      (∀ k v, Change.insert k v ∈ xs → P (k, v)) →
      (∀ k, Change.remove (V := V) k ∈ xs → LawfulBounds.valid (Bounded.bounds k : B)) →
      Reachable c (fun _ => True) t₀ → t₀.entries.Perm es → (∀ e ∈ es, P e) → applyAll t₀ xs = .ok t →
      Reachable c (fun _ => True) t ∧ t.entries.Perm (netContent es xs) by
    obtain ⟨h1, h2⟩ := main xs _ [] hins hrem .new (List.Perm.refl _) (fun e he => by cases he) h
    exact ⟨_, h1.iter_eq, h2⟩
  intro xs
  induction xs with
  | nil =>
    intro t₀ es _ _ hr hp _ h
    injection h with h
    subst h
    exact ⟨hr, hp⟩
  | cons x xs ih =>
    intro t₀ es hins hrem hr hp hP h
    cases x with
    | insert k v =>
      obtain ⟨t₁, hi, h⟩ := bind_eq_ok.1 h
      have hr' : Reachable c (fun _ => True) t₁ := .insert hr trivial hi
      obtain ⟨e1, e2, q1, q2, q3⟩ := C01_insert_adds_one hr hi
      rw [hr.iter_eq] at q1
      rw [hr'.iter_eq] at q2
      injection q1 with q1
      injection q2 with q2
      subst q1 q2
      refine ih t₁ ((k, v) :: es) (fun k v hm => hins k v (List.mem_cons_of_mem _ hm))
        (fun k hm => hrem k (List.mem_cons_of_mem _ hm)) hr' (q3.trans (hp.cons _)) ?_ h
      intro e he
      rcases List.mem_cons.1 he with rfl | he
      · exact hins k v List.mem_cons_self
      · exact hP e he
    | remove k =>
      obtain ⟨⟨t₁, r⟩, hi, h⟩ := bind_eq_ok.1 h
      have hr' : Reachable c (fun _ => True) t₁ := .remove id hr hi
      obtain ⟨e1, e2, q1, q2, q3⟩ := C04_remove_one hr (borrow := id) (fun _ => rfl) (hrem k List.mem_cons_self) hi
      rw [hr.iter_eq] at q1
      rw [hr'.iter_eq] at q2
      injection q1 with q1
      injection q2 with q2
      subst q1 q2
      have hP₀ : ∀ e ∈ t₀.entries, P e := fun e he => hP e (hp.mem_iff.1 he)
      refine ih t₁ (es.eraseP fun e => e.1 == k) (fun k v hm => hins k v (List.mem_cons_of_mem _ hm))
        (fun k hm => hrem k (List.mem_cons_of_mem _ hm)) hr' ?_ (fun e he => hP e (List.mem_of_mem_eraseP he)) h
      refine List.Perm.trans ?_ (net_perm heq hP₀ hp k)
      cases r with
      | none =>
        obtain ⟨rfl, hn⟩ := q3
        rw [List.eraseP_of_forall_not (fun e he hk => by simp [show (e.1 == k) = false from hn e he] at hk)]
      | some v =>
        obtain ⟨k', hk', hq⟩ := q3
        have := net_perm heq hP₀ hq k
        rw [List.eraseP_cons_of_pos (by exact hk')] at this
        exact this.symm

/-- C30: two histories of insertions and removals with the same net content, with any two configurations, lead to trees
    with the same multiset of entries (and hence, by the theorems above, the same answers). -/
theorem C30_histories [LawfulBounds B] [LawfulKey K B] {c₁ c₂ : Config} {P : K × V → Prop}
    (heq : ∀ a b, P a → P b → (a.1 == b.1) = true → a = b) {xs ys : List (Change K V)}
    (hins : ∀ k v, Change.insert k v ∈ xs ∨ Change.insert k v ∈ ys → P (k, v))
    (hrem : ∀ k, Change.remove (V := V) k ∈ xs ∨ Change.remove (V := V) k ∈ ys →
      LawfulBounds.valid (Bounded.bounds k : B)) {t₁ t₂ : Tree B K V}
    (h₁ : applyAll (Tree.new c₁) xs = .ok t₁) (h₂ : applyAll (Tree.new c₂) ys = .ok t₂)
    (hnet : (netContent [] xs).Perm (netContent [] ys)) :
    ∃ es₁ es₂, t₁.iter = .ok es₁ ∧ t₂.iter = .ok es₂ ∧ es₁.Perm es₂ := by
  obtain ⟨es₁, a1, a2⟩ := C30_net_content heq (fun k v h => hins k v (.inl h)) (fun k h => hrem k (.inl h)) h₁
  obtain ⟨es₂, b1, b2⟩ := C30_net_content heq (fun k v h => hins k v (.inr h)) (fun k h => hrem k (.inr h)) h₂
  exact ⟨es₁, es₂, a1, b1, a2.trans (hnet.trans b2.symm)⟩

/-- C30, for insertions only and without any assumption on equal keys: inserting the same entries in any two orders. -/
theorem C30_insert_orders {c₁ c₂ : Config} {kvs kvs' : List (K × V)} (hp : kvs.Perm kvs') {t₁ t₂ : Tree B K V}
    (h₁ : applyAll (Tree.new c₁) (kvs.map fun e => .insert e.1 e.2) = .ok t₁)
    (h₂ : applyAll (Tree.new c₂) (kvs'.map fun e => .insert e.1 e.2) = .ok t₂) :
    ∃ es₁ es₂, t₁.iter = .ok es₁ ∧ t₂.iter = .ok es₂ ∧ es₁.Perm es₂ ∧ es₁.Perm kvs := by
  have main : ∀ (c : Config) (kvs : List (K × V)) (t₀ t : Tree B K V), Reachable c (fun _ => True) t₀ →
      applyAll t₀ (kvs.map fun e => .insert e.1 e.2) = .ok t →
      Reachable c (fun _ => True) t ∧ t.entries.Perm (kvs ++ t₀.entries) := by
    intro c kvs
    induction kvs with
    | nil => intro t₀ t hr h; injection h with h; subst h; exact ⟨hr, List.Perm.refl _⟩
    | cons e kvs ih =>
      intro t₀ t hr h
      obtain ⟨t', hi, h⟩ := bind_eq_ok.1 h
      have hr' : Reachable c (fun _ => True) t' := .insert hr trivial hi
      obtain ⟨e1, e2, q1, q2, q3⟩ := C01_insert_adds_one hr hi
      rw [hr.iter_eq] at q1
      rw [hr'.iter_eq] at q2
      injection q1 with q1
      injection q2 with q2
      subst q1 q2
      obtain ⟨r1, r2⟩ := ih t' t hr' h
      exact ⟨r1, r2.trans ((q3.append_left _).trans List.perm_middle)⟩
  obtain ⟨r1, p1⟩ := main c₁ kvs _ t₁ .new h₁
  obtain ⟨r2, p2⟩ := main c₂ kvs' _ t₂ .new h₂
  have e0 : ∀ c : Config, (Tree.new c : Tree B K V).entries = [] := fun c => by simp [Tree.entries, Tree.new]
  rw [e0, List.append_nil] at p1 p2
  exact ⟨_, _, r1.iter_eq, r2.iter_eq, p1.trans (hp.trans p2.symm), p1⟩

end Histories

/-! ### Concrete histories -/

/-- Ten entries, one order, with a detour. -/
def orderA : List (Change (AABB I32 2) Nat) :=
  [.insert (box 0 0 1 1) 1, .insert (box 2 0 3 1) 2, .insert (box 4 0 5 1) 3, .insert (box 6 0 7 1) 4,
   .insert (box 8 0 9 1) 5, .insert (box 3 3 4 4) 99, .insert (box 0 5 1 6) 6, .remove (box 3 3 4 4), .remove (box 50 50 51 51),
   .insert (box 2 5 3 6) 7]

/-- The same net content by another history. -/
def orderB : List (Change (AABB I32 2) Nat) :=
  [.insert (box 2 5 3 6) 7, .insert (box 0 5 1 6) 6, .insert (box 8 0 9 1) 5, .insert (box 6 0 7 1) 4,
   .insert (box 4 0 5 1) 3, .insert (box 2 0 3 1) 2, .insert (box 0 0 1 1) 1]

/-- The two histories run through, with different configurations, and the theorem applies. -/
example : ∃ t₁ t₂ : BoxTree, applyAll (Tree.new cfg42) orderA = .ok t₁ ∧
    applyAll (Tree.new { maxChildren := 7, minChildren := 3 }) orderB = .ok t₂ ∧
    ∃ es₁ es₂, t₁.iter = .ok es₁ ∧ t₂.iter = .ok es₂ ∧ es₁.Perm es₂ := by
  have h₁ : applyAll (Tree.new cfg42 : BoxTree) orderA = .ok _ := Res.ok_getD (Tree.new cfg42) (by decide +kernel)
  have h₂ : applyAll (Tree.new { maxChildren := 7, minChildren := 3 } : BoxTree) orderB = .ok _ :=
    Res.ok_getD (Tree.new cfg42) (by decide +kernel)
  refine ⟨_, _, h₁, h₂, C30_histories (P := fun e => e ∈ (netContent [] orderB ++ [(box 3 3 4 4, 99)])) ?_ ?_ ?_ h₁ h₂ ?_⟩
  · have : ∀ a ∈ netContent [] orderB ++ [(box 3 3 4 4, 99)], ∀ b ∈ netContent [] orderB ++ [(box 3 3 4 4, 99)],
        (a.1 == b.1) = true → a = b := by decide +kernel
    exact fun a b ha hb h => this a ha b hb h
  · have : ((orderA ++ orderB).all fun x => match x with
        | .insert k v => decide ((k, v) ∈ (netContent [] orderB ++ [(box 3 3 4 4, 99)]))
        | .remove _ => true) = true := by decide +kernel
    intro k v h
    have := List.all_eq_true.1 this (.insert k v) (by simpa using h)
    simpa using this
  · have : ((orderA ++ orderB).all fun x => match x with
        | .insert _ _ => true
        | .remove k => decide (∀ i, k.min.get i ≤ k.max.get i)) = true := by decide +kernel
    intro k h
    have := List.all_eq_true.1 this (.remove k) (by simpa using h)
    have h : ∀ i, k.min.get i ≤ k.max.get i := by simpa using this
    exact h
  · rw [← List.isPerm_iff]
    decide +kernel

end RTree
