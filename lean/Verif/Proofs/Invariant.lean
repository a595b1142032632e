import Verif.Proofs.Split
/-! The tree invariant and its preservation by insertion. -/

namespace RTree

variable {B K V Q : Type}

/-! ### entries -/

@[simp] theorem entries_leaf (b : B) (es : List (K × V)) : (Node.leaf b es).entries = es := by
  simp [Node.entries]
@[simp] theorem entries_inner (b : B) (cs : List (Node B K V)) :
    (Node.inner b cs).entries = entriesList cs := by simp [Node.entries]
@[simp] theorem entriesList_nil : entriesList ([] : List (Node B K V)) = [] := by simp [entriesList]
@[simp] theorem entriesList_cons (c : Node B K V) (cs) :
    entriesList (c :: cs) = c.entries ++ entriesList cs := by simp [entriesList]
theorem entriesList_eq (cs : List (Node B K V)) : entriesList cs = cs.flatMap Node.entries := by
  induction cs with
  | nil => simp
  | cons c cs ih => simp [ih]
@[simp] theorem entriesList_append (cs ds : List (Node B K V)) :
    entriesList (cs ++ ds) = entriesList cs ++ entriesList ds := by simp [entriesList_eq]

theorem mem_entriesList {e : K × V} {cs : List (Node B K V)} : e ∈ entriesList cs ↔ ∃ c ∈ cs, e ∈ c.entries := by
  rw [entriesList_eq, List.mem_flatMap]

theorem mem_descendantsList {n : Node B K V} {cs : List (Node B K V)} :
    n ∈ descendantsList cs ↔ ∃ c ∈ cs, n = c ∨ n ∈ c.descendants := by
  induction cs with
  | nil => simp [descendantsList]
  | cons c cs ih => simp [descendantsList, ih, or_assoc]

theorem entriesList_perm {cs ds : List (Node B K V)} (h : cs.Perm ds) :
    (entriesList cs).Perm (entriesList ds) := by
  rw [entriesList_eq, entriesList_eq]; exact h.flatMap_right _

/-- The entries below a `NodeEntry`. -/
def NodeEntry.entries : NodeEntry B K V → List (K × V)
  | .inner _ n => n.entries
  | .leaf k v => [(k, v)]

theorem exists_split {α : Type} (l : List α) (i : Nat) (h : i < l.length) :
    ∃ a b, l = a ++ l[i] :: b ∧ a.length = i ∧ ∀ x, l.set i x = a ++ x :: b := by
  refine ⟨l.take i, l.drop (i + 1), ?_, by simp; omega, fun x => ?_⟩
  · simp
  · rw [List.set_eq_take_append_cons_drop, if_pos h]

theorem perm_mid {α : Type} {x c c' y e : List α} (hp : c'.Perm (e ++ c)) :
    (x ++ (c' ++ y)).Perm (e ++ (x ++ (c ++ y))) := by
  classical
  rw [List.perm_iff_count] at hp ⊢
  intro z; have := hp z
  simp only [List.count_append] at this ⊢
  omega

theorem perm_mid' {α : Type} {x c c' y e s : List α} (hp : (c' ++ s).Perm (e ++ c)) :
    (s ++ (x ++ (c' ++ y))).Perm (e ++ (x ++ (c ++ y))) := by
  classical
  rw [List.perm_iff_count] at hp ⊢
  intro z; have := hp z
  simp only [List.count_append] at this ⊢
  omega

/-! ### aggregation of bounds -/

/-- A relation between the bounds of a node and the bounds of all keys below it that the bounds updates of
    the crate preserve. -/
structure AggLaws [Bounds B] (rel : B → List B → Prop) : Prop where
  empty : rel Bounds.empty []
  single : ∀ b, rel b [b]
  perm : ∀ {b bs bs'}, rel b bs → bs.Perm bs' → rel b bs'
  union : ∀ {a b as bs}, rel a as → rel b bs → rel (Bounds.union a b) (as ++ bs)
  unionAll : ∀ (l : List (B × List B)), (∀ p ∈ l, rel p.1 p.2) →
    rel (Bounds.unionAll (l.map (·.1))) (l.flatMap (·.2))
  absorb : ∀ {b e bs}, rel b bs → e ∈ bs → rel (Bounds.union b e) bs

/-- "The bounds contain every key below." -/
def Covers [Bounds B] [Enclosure B] (b : B) (bs : List B) : Prop := ∀ x ∈ bs, Enclosure.le x b

theorem coversLaws [Bounds B] [Enclosure B] : AggLaws (Covers (B := B)) where
  empty := by simp [Covers]
  single b := by simp [Covers, Enclosure.le_refl]
  perm h p := fun x hx => h x (p.mem_iff.2 hx)
  union ha hb := by
    intro x hx
    rcases List.mem_append.1 hx with h | h
    · exact Enclosure.le_trans (ha x h) (Enclosure.le_union_left _ _)
    · exact Enclosure.le_trans (hb x h) (Enclosure.le_union_right _ _)
  unionAll l h := by
    intro x hx
    obtain ⟨p, hp, hx⟩ := List.mem_flatMap.1 hx
    exact Enclosure.le_trans (h p hp x hx) (Enclosure.le_unionAll (List.mem_map.2 ⟨p, hp, rfl⟩))
  absorb h _ := fun x hx => Enclosure.le_trans (h x hx) (Enclosure.le_union_left _ _)

/-- "The bounds are the union of the bounds of all keys below", if `empty` is an identity for these. -/
def IsUnion [Bounds B] (b : B) (bs : List B) : Prop := (∀ x ∈ bs, Normal x) → b = Bounds.unionAll bs

section
variable [Bounds B] [ExactBounds B]

theorem normal_empty : Normal (Bounds.empty : B) := ExactBounds.union_self _

theorem unionAll_nil : Bounds.unionAll ([] : List B) = Bounds.empty := ExactBounds.unionAll_eq _

theorem foldl_union (bs : List B) (a b : B) :
    bs.foldl Bounds.union (Bounds.union a b) = Bounds.union a (bs.foldl Bounds.union b) := by
  induction bs generalizing a b with
  | nil => rfl
  | cons c bs ih => rw [List.foldl_cons, List.foldl_cons, ExactBounds.union_assoc, ih]

theorem unionAll_cons (a : B) (bs : List B) : Bounds.unionAll (a :: bs) = Bounds.union a (Bounds.unionAll bs) := by
  rw [ExactBounds.unionAll_eq, ExactBounds.unionAll_eq, List.foldl_cons, ExactBounds.union_comm, foldl_union]

theorem normal_union_left {a : B} (h : Normal a) (b : B) : Normal (Bounds.union a b) := by
  unfold Normal; rw [← ExactBounds.union_assoc, h]

theorem normal_unionAll (bs : List B) : Normal (Bounds.unionAll bs) := by
  induction bs with
  | nil => rw [unionAll_nil]; exact normal_empty
  | cons b bs ih => rw [unionAll_cons, ExactBounds.union_comm]; exact normal_union_left ih b

theorem unionAll_append (as bs : List B) :
    Bounds.unionAll (as ++ bs) = Bounds.union (Bounds.unionAll as) (Bounds.unionAll bs) := by
  induction as with
  | nil => rw [List.nil_append, unionAll_nil, normal_unionAll]
  | cons a as ih =>
    rw [List.cons_append, unionAll_cons, ih, unionAll_cons, ExactBounds.union_assoc]

theorem unionAll_perm {as bs : List B} (h : as.Perm bs) : Bounds.unionAll as = Bounds.unionAll bs := by
  induction h with
  | nil => rfl
  | cons x _ ih => rw [unionAll_cons, unionAll_cons, ih]
  | swap x y l =>
    simp only [unionAll_cons, ← ExactBounds.union_assoc]
    rw [ExactBounds.union_comm y x]
  | trans _ _ ih1 ih2 => exact ih1.trans ih2

theorem isUnionLaws : AggLaws (IsUnion (B := B)) where
  empty := fun _ => unionAll_nil.symm
  single b := fun h => by
    rw [unionAll_cons, unionAll_nil, ExactBounds.union_comm, h b (by simp)]
  perm h p := fun hn => by rw [h fun x hx => hn x (p.mem_iff.1 hx), unionAll_perm p]
  union ha hb := fun hn => by
    rw [unionAll_append, ha fun x hx => hn x (by simp [hx]), hb fun x hx => hn x (by simp [hx])]
  unionAll l h := by
    unfold IsUnion at *
    intro hn
    induction l with
    | nil => simp
    | cons p l ih =>
      rw [List.map_cons, unionAll_cons, List.flatMap_cons, unionAll_append,
        ih (fun q hq => h q (by simp [hq])) fun x hx => hn x (by
          rw [List.flatMap_cons]; exact List.mem_append_right _ hx),
        ← h p (by simp) fun x hx => hn x (by rw [List.flatMap_cons]; exact List.mem_append_left _ hx)]
  absorb {b e bs} h he := by
    unfold IsUnion at *
    intro hn
    obtain ⟨bs', hp⟩ : ∃ bs', bs.Perm (e :: bs') := by
      obtain ⟨l, r, rfl⟩ := List.append_of_mem he
      exact ⟨l ++ r, List.perm_middle⟩
    rw [h hn, unionAll_perm hp, unionAll_cons, ExactBounds.union_comm,
      ← ExactBounds.union_assoc, ExactBounds.union_self]

end

/-- Every aggregation fact at once. -/
theorem andLaws [Bounds B] {r s : B → List B → Prop} (hr : AggLaws r) (hs : AggLaws s) :
    AggLaws fun b bs => r b bs ∧ s b bs where
  empty := ⟨hr.empty, hs.empty⟩
  single b := ⟨hr.single b, hs.single b⟩
  perm h p := ⟨hr.perm h.1 p, hs.perm h.2 p⟩
  union ha hb := ⟨hr.union ha.1 hb.1, hs.union ha.2 hb.2⟩
  unionAll l h := ⟨hr.unionAll l fun p hp => (h p hp).1, hs.unionAll l fun p hp => (h p hp).2⟩
  absorb h he := ⟨hr.absorb h.1 he, hs.absorb h.2 he⟩

theorem AggLaws.unionAll_of [Bounds B] {rel : B → List B → Prop} (L : AggLaws rel) {α : Type}
    {bf : α → B} {kf : α → List B} (vs : List α) (h : ∀ v ∈ vs, rel (bf v) (kf v)) :
    rel (Bounds.unionAll (vs.map bf)) (vs.flatMap kf) := by
  have := L.unionAll (vs.map fun v => (bf v, kf v)) (by simpa using h)
  simpa [List.flatMap_map, Function.comp_def] using this

theorem AggLaws.unionFold_of [Bounds B] {rel : B → List B → Prop} (L : AggLaws rel) {α : Type}
    {bf : α → B} {kf : α → List B} (vs : List α) (hne : vs ≠ []) (h : ∀ v ∈ vs, rel (bf v) (kf v)) :
    rel (unionFold (vs.map bf)) (vs.flatMap kf) := by
  cases vs with
  | nil => simp at hne
  | cons v vs =>
    simp only [List.map_cons, unionFold]
    have key : ∀ (vs : List α) (b : B) (bs : List B), rel b bs → (∀ v ∈ vs, rel (bf v) (kf v)) →
        rel ((vs.map bf).foldl Bounds.union b) (bs ++ vs.flatMap kf) := by
      intro vs
      induction vs with
      | nil => intro b bs h _; simpa using h
      | cons w vs ih =>
        intro b bs hb h
        simp only [List.map_cons, List.foldl_cons, List.flatMap_cons]
        rw [← List.append_assoc]
        exact ih _ _ (L.union hb (h w (by simp))) fun v hv => h v (by simp [hv])
    exact key vs _ _ (h v (by simp)) fun v hv => h v (by simp [hv])

/-! ### the invariant -/

/-- The configurations for which the structure of the tree is under control. -/
def Alloc.Good (a : Alloc) : Prop := 1 ≤ a.minChildren ∧ 2 ≤ a.maxChildren

theorem Alloc.Good.facts {a : Alloc} (h : a.Good) : 1 ≤ a.minChildren ∧ 2 ≤ a.maxChildren ∧ 1 ≤ a.floor ∧
    a.floor ≤ a.minChildren := by
  unfold Alloc.Good at h
  unfold Alloc.floor
  split
  · omega
  · split <;> omega

/-- Both groups of a split have at least `floor` children. -/
theorem Alloc.Good.split {a : Alloc} (h : a.Good) {x y : Nat} (hx : 1 ≤ x) (hy : 1 ≤ y)
    (hm : Fits a.minChildren a.maxChildren → a.minChildren ≤ x ∧ a.minChildren ≤ y + 1 ∧
      (2 * a.minChildren ≤ a.maxChildren → a.minChildren ≤ y)) : a.floor ≤ x ∧ a.floor ≤ y := by
  unfold Alloc.Good at h
  unfold Fits at hm
  unfold Alloc.floor
  split
  · omega
  · split <;> omega

section

variable [Bounds B] [Volume B] [VolumeLaws B] [Bounded K B]
open VolumeLaws (volOk)

/-- The invariant of a node at a level.  `g` says that the configuration is sound and all keys have
    computable volumes. -/
def Ok (rel : B → List B → Prop) (a : Alloc) (g : Prop) : Nat → Node B K V → Prop
  | 0, .leaf b es =>
    rel b (es.map entryBounds) ∧ es.length ≤ a.maxChildren ∧ (g → ∀ e ∈ es, volOk (entryBounds e))
  | l + 1, .inner b cs =>
    rel b ((entriesList cs).map entryBounds) ∧ cs.length ≤ a.maxChildren ∧
      ∀ c ∈ cs, Ok rel a g l c ∧ (g → a.floor ≤ c.fanout ∧ volOk c.bounds) ∧
        (1 ≤ a.minChildren → 1 ≤ c.fanout)
  | _, _ => False

/-- The invariant of a non-root node. -/
def ChildOk (rel : B → List B → Prop) (a : Alloc) (g : Prop) (l : Nat) (c : Node B K V) : Prop :=
  Ok rel a g l c ∧ (g → a.floor ≤ c.fanout ∧ volOk c.bounds) ∧ (1 ≤ a.minChildren → 1 ≤ c.fanout)

/-- The invariant of an entry to be inserted. -/
def EntryOk (rel : B → List B → Prop) (a : Alloc) (g : Prop) : NodeEntry B K V → Prop
  | .inner l n => ChildOk rel a g l n
  | .leaf k _ => g → volOk (Bounded.bounds k : B)

variable {rel : B → List B → Prop} {a : Alloc} {g : Prop}

theorem Ok.agg {l : Nat} {n : Node B K V} (h : Ok rel a g l n) :
    rel n.bounds (n.entries.map entryBounds) := by
  cases l <;> cases n <;> simp [Ok, Node.bounds] at * <;> exact h.1

theorem Ok.le {l : Nat} {n : Node B K V} (h : Ok rel a g l n) : n.fanout ≤ a.maxChildren := by
  cases l <;> cases n <;> simp [Ok, Node.fanout] at * <;> exact h.2.1

theorem Ok.leaf {n : Node B K V} (h : Ok rel a g 0 n) :
    ∃ b es, n = .leaf b es ∧ rel b (es.map entryBounds) ∧ es.length ≤ a.maxChildren ∧
      (g → ∀ e ∈ es, volOk (entryBounds e)) := by
  cases n with
  | leaf b es => exact ⟨b, es, rfl, by simpa [Ok] using h⟩
  | inner => simp [Ok] at h

theorem Ok.inner {l : Nat} {n : Node B K V} (h : Ok rel a g (l + 1) n) :
    ∃ b cs, n = .inner b cs ∧ rel b ((entriesList cs).map entryBounds) ∧
      cs.length ≤ a.maxChildren ∧ ∀ c ∈ cs, ChildOk rel a g l c := by
  cases n with
  | leaf => simp [Ok] at h
  | inner b cs => exact ⟨b, cs, rfl, by simpa [Ok, ChildOk] using h⟩

theorem ok_leaf {b : B} {es : List (K × V)} : Ok rel a g 0 (.leaf b es) ↔
    rel b (es.map entryBounds) ∧ es.length ≤ a.maxChildren ∧ (g → ∀ e ∈ es, volOk (entryBounds e)) := by
  simp [Ok]

theorem ok_inner {l : Nat} {b : B} {cs : List (Node B K V)} : Ok rel a g (l + 1) (.inner b cs) ↔
    rel b ((entriesList cs).map entryBounds) ∧ cs.length ≤ a.maxChildren ∧
      ∀ c ∈ cs, ChildOk rel a g l c := by
  simp [Ok, ChildOk]

theorem rel_unionAll_children (L : AggLaws rel) {l : Nat} {cs : List (Node B K V)}
    (h : ∀ c ∈ cs, ChildOk rel a g l c) :
    rel (Bounds.unionAll (cs.map Node.bounds)) ((entriesList cs).map entryBounds) := by
  have := L.unionAll_of (bf := Node.bounds) (kf := fun c : Node B K V => c.entries.map entryBounds) cs
    fun c hc => (h c hc).1.agg
  rw [entriesList_eq, List.map_flatMap]; exact this

theorem EntryOk.agg (L : AggLaws rel) {e : NodeEntry B K V} (h : EntryOk rel a g e) :
    rel e.bounds (e.entries.map entryBounds) := by
  cases e with
  | inner l n => exact h.1.agg
  | leaf k v => exact L.single _

theorem EntryOk.volOk {e : NodeEntry B K V} (h : EntryOk rel a g e) (hg : g) :
    VolumeLaws.volOk (e.bounds) := by
  cases e with
  | inner l n => exact (h.2.1 hg).2
  | leaf k v => exact h hg

/-- Post-condition of inserting an entry into a node. -/
def InsertPost (rel : B → List B → Prop) (a : Alloc) (g : Prop) (level : Nat) (node : Node B K V)
    (entry : NodeEntry B K V) : Node B K V × Option (Nat × Node B K V) → Prop
  | (n, none) => Ok rel a g level n ∧ n.entries.Perm (entry.entries ++ node.entries) ∧
      (g → volOk node.bounds → volOk n.bounds) ∧ node.fanout ≤ n.fanout ∧ 1 ≤ n.fanout
  | (n, some (l, s)) => l = level ∧ ChildOk rel a g level n ∧ ChildOk rel a g level s ∧
      (n.entries ++ s.entries).Perm (entry.entries ++ node.entries) ∧
      1 ≤ n.fanout ∧ 1 ≤ s.fanout

theorem sat_selfInsert (L : AggLaws rel) (hg : g → a.Good)
    {level : Nat} {node : Node B K V} {entry : NodeEntry B K V} (hn : Ok rel a g level node)
    (he : EntryOk rel a g entry) (hl : entry.targetLevel = level) :
    Sat (selfInsert a level node entry) (Allowed g) (InsertPost rel a g level node entry) := by
  cases level with
  | zero =>
    obtain ⟨b, es, rfl, hrel, hlen, hvol⟩ := hn.leaf
    cases entry with
    | inner l n => simp [NodeEntry.targetLevel] at hl
    | leaf k v =>
    simp only [selfInsert, Node.leafChildren, Vec.tryPush, ok_bind]
    by_cases hfull : es.length = a.maxChildren
    · simp only [hfull, if_true]
      have hvol' : g → ∀ e ∈ (k, v) :: es, volOk (entryBounds e) := by
        intro h e he'
        rcases List.mem_cons.1 he' with rfl | h'
        · exact he h
        · exact hvol h e h'
      refine Sat.bind (sat_split (bf := entryBounds) (overflow := (k, v)) (g := g) hlen
        (fun h => by have := (hg h).facts; omega) hvol') fun r hr => ?_
      obtain ⟨hperm, h1, h2, h3, h4, hb1, hb2, hmin⟩ := hr
      rw [hfull] at hmin
      have hne1 : r.group1 ≠ [] := by intro h; simp [h] at h1
      have hne2 : r.group2 ≠ [] := by intro h; simp [h] at h2
      have hm1 : ∀ e ∈ r.group1, e ∈ (k, v) :: es := fun e h => hperm.mem_iff.1 (by simp [h])
      have hm2 : ∀ e ∈ r.group2, e ∈ (k, v) :: es := fun e h => hperm.mem_iff.1 (by simp [h])
      have hfm : ∀ l : List (K × V), l.flatMap (fun e => [entryBounds e]) = l.map entryBounds := by
        intro l; induction l <;> simp_all
      refine ⟨rfl, ⟨ok_leaf.2 ⟨?_, by omega, fun h e he => hvol' h e (hm1 e he)⟩, fun h => ⟨((hg h).split h1 h2 hmin).1, ?_⟩, fun _ => h1⟩,
        ⟨ok_leaf.2 ⟨?_, by omega, fun h e he => hvol' h e (hm2 e he)⟩, fun h => ⟨((hg h).split h1 h2 hmin).2, ?_⟩, fun _ => h2⟩,
        by simpa [NodeEntry.entries] using hperm, by simpa [Node.fanout] using h1, by simpa [Node.fanout] using h2⟩
      · rw [hb1]; exact hfm _ ▸ L.unionFold_of (bf := entryBounds) _ hne1 fun e _ => L.single _
      · simp only [Node.bounds]; rw [hb1]
        refine volOk_unionFold (by simpa using hne1) ?_
        simp only [List.mem_map]; rintro _ ⟨e, he, rfl⟩; exact hvol' h e (hm1 e he)
      · rw [hb2]; exact hfm _ ▸ L.unionFold_of (bf := entryBounds) _ hne2 fun e _ => L.single _
      · simp only [Node.bounds]; rw [hb2]
        refine volOk_unionFold (by simpa using hne2) ?_
        simp only [List.mem_map]; rintro _ ⟨e, he, rfl⟩; exact hvol' h e (hm2 e he)
    · simp only [hfull, if_false]
      refine ⟨ok_leaf.2 ⟨?_, by simp; omega, ?_⟩, ?_, fun h hb => VolumeLaws.union hb (he.volOk h), by simp [Node.fanout], by simp [Node.fanout]⟩
      · rw [List.map_append]; exact L.union hrel (L.single _)
      · intro h e he'
        rcases List.mem_append.1 he' with h' | h'
        · exact hvol h e h'
        · simp at h'; subst h'; exact he h
      · simp [NodeEntry.entries, List.perm_append_singleton]
  | succ l =>
    obtain ⟨b, cs, rfl, hrel, hlen, hcs⟩ := hn.inner
    cases entry with
    | leaf k v => simp [NodeEntry.targetLevel] at hl
    | inner l' n =>
    simp [NodeEntry.targetLevel] at hl; subst hl
    simp only [selfInsert, Node.innerChildren, Vec.tryPush]
    show Sat (if l' ≠ l' then _ else _) _ _
    rw [if_neg (by simp)]
    have hall : ∀ c ∈ n :: cs, ChildOk rel a g l' c := by
      intro c hc
      rcases List.mem_cons.1 hc with rfl | h
      · exact he
      · exact hcs c h
    by_cases hfull : cs.length = a.maxChildren
    · simp only [hfull, if_true]
      have hvol' : g → ∀ c ∈ n :: cs, volOk (Node.bounds c) := fun h c hc => ((hall c hc).2.1 h).2
      refine Sat.bind (sat_split (bf := Node.bounds) (overflow := n) (g := g) hlen
        (fun h => by have := (hg h).facts; omega) hvol') fun r hr => ?_
      obtain ⟨hperm, h1, h2, h3, h4, hb1, hb2, hmin⟩ := hr
      rw [hfull] at hmin
      have hne1 : r.group1 ≠ [] := by intro h; simp [h] at h1
      have hne2 : r.group2 ≠ [] := by intro h; simp [h] at h2
      have hm1 : ∀ e ∈ r.group1, e ∈ n :: cs := fun e h => hperm.mem_iff.1 (by simp [h])
      have hm2 : ∀ e ∈ r.group2, e ∈ n :: cs := fun e h => hperm.mem_iff.1 (by simp [h])
      refine ⟨rfl, ⟨ok_inner.2 ⟨?_, by omega, fun c hc => hall c (hm1 c hc)⟩, fun h => ⟨((hg h).split h1 h2 hmin).1, ?_⟩, fun _ => h1⟩,
        ⟨ok_inner.2 ⟨?_, by omega, fun c hc => hall c (hm2 c hc)⟩, fun h => ⟨((hg h).split h1 h2 hmin).2, ?_⟩, fun _ => h2⟩,
        ?_, by simpa [Node.fanout] using h1, by simpa [Node.fanout] using h2⟩
      · rw [hb1, entriesList_eq, List.map_flatMap]
        exact L.unionFold_of (bf := Node.bounds) (kf := fun c : Node B K V => c.entries.map entryBounds) _ hne1
          fun c hc => (hall c (hm1 c hc)).1.agg
      · simp only [Node.bounds]; rw [hb1]
        refine volOk_unionFold (by simpa using hne1) ?_
        simp only [List.mem_map]; rintro _ ⟨e, he, rfl⟩; exact hvol' h e (hm1 e he)
      · rw [hb2, entriesList_eq, List.map_flatMap]
        exact L.unionFold_of (bf := Node.bounds) (kf := fun c : Node B K V => c.entries.map entryBounds) _ hne2
          fun c hc => (hall c (hm2 c hc)).1.agg
      · simp only [Node.bounds]; rw [hb2]
        refine volOk_unionFold (by simpa using hne2) ?_
        simp only [List.mem_map]; rintro _ ⟨e, he, rfl⟩; exact hvol' h e (hm2 e he)
      · have := entriesList_perm hperm
        simpa [NodeEntry.entries] using this
    · simp only [hfull, if_false]
      refine ⟨ok_inner.2 ⟨?_, by simp; omega, ?_⟩, ?_, fun h hb => VolumeLaws.union hb (he.volOk h), by simp [Node.fanout], by simp [Node.fanout]⟩
      · rw [entriesList_append, List.map_append]
        refine L.union hrel ?_
        simpa [NodeEntry.bounds] using he.1.agg
      · intro c hc
        refine hall c ?_
        simp at hc ⊢; exact hc.symm
      · simp [NodeEntry.entries, List.perm_append_comm]

theorem sat_insertNode (L : AggLaws rel) (hg : g → a.Good)
    {level : Nat} {node : Node B K V} {entry : NodeEntry B K V} (hn : Ok rel a g level node)
    (he : EntryOk rel a g entry) (hl : entry.targetLevel ≤ level)
    (hf : g → entry.targetLevel < level → 1 ≤ node.fanout) :
    Sat (insertNode a level node entry) (Allowed g) (InsertPost rel a g level node entry) := by
  induction level generalizing node with
  | zero =>
    have hl' : entry.targetLevel = 0 := by omega
    unfold insertNode
    rw [if_neg (by simpa using hl')]
    exact sat_selfInsert L hg hn he hl'
  | succ l ih =>
    unfold insertNode
    by_cases ht : entry.targetLevel = l + 1
    · rw [if_neg (by simpa using ht)]
      exact sat_selfInsert L hg hn he ht
    rw [if_pos ht]
    obtain ⟨b, cs, rfl, hrel, hlen, hcs⟩ := hn.inner
    simp only [Node.innerChildren, ok_bind]
    have hsel : Sat (select (cs.map Node.bounds) entry.bounds) (Allowed g) _ :=
      sat_select (g := g) (fun h => he.volOk h) fun h => by
        simp only [List.mem_map]; rintro _ ⟨c, hc, rfl⟩; exact ((hcs c hc).2.1 h).2
    refine Sat.bind hsel fun r hr => ?_
    refine Sat.bind (P := fun i => i < cs.length) (Sat.unwrap (fun i hi => by simpa using hr.2 i hi) ?_) fun i hi => ?_
    · intro h
      have hnil := hr.1 h
      refine ⟨fun hgood => ?_, by simp [UserPanic]⟩
      have := hf hgood (by omega)
      simp at hnil; subst hnil; simp [Node.fanout] at this
    refine Sat.bind (Sat.index (P := fun c => c = cs[i]) hi rfl) ?_
    rintro _ rfl
    have hci : ChildOk rel a g l cs[i] := hcs _ (List.getElem_mem hi)
    refine Sat.bind (ih hci.1 (by omega) fun h _ => by have := hci.2.1 h; have := (hg h).facts; omega) fun r hr => ?_
    obtain ⟨x, y, hxy, hxlen, hset⟩ := exists_split cs i hi
    obtain ⟨c', sib⟩ := r
    cases sib with
    | none =>
      obtain ⟨hok, hp, hb, hfan, hfan1⟩ := hr
      have hc' : ChildOk rel a g l c' := ⟨hok, fun h => ⟨by have := hci.2.1 h; omega, hb h (hci.2.1 h).2⟩, fun _ => hfan1⟩
      have hperm : (entriesList (cs.set i c')).Perm (entry.entries ++ entriesList cs) := by
        rw [hset]; conv => rhs; rw [hxy]
        simp only [entriesList_append, entriesList_cons]
        exact perm_mid hp
      refine ⟨ok_inner.2 ⟨?_, by simpa using hlen, ?_⟩, by simpa using hperm,
        fun h hb => VolumeLaws.union hb (he.volOk h), by simp [Node.fanout],
        by simp [Node.fanout]; omega⟩
      · refine L.perm (L.union hrel (he.agg L)) ?_
        rw [← List.map_append]
        exact (List.perm_append_comm.trans hperm.symm).map _
      · intro c hc
        rcases List.mem_or_eq_of_mem_set hc with h | rfl
        · exact hcs c h
        · exact hc'
    | some ls =>
      obtain ⟨l', s⟩ := ls
      obtain ⟨rfl, hc', hs, hp, hf1, hf2⟩ := hr
      have hcs' : ∀ c ∈ cs.set i c', ChildOk rel a g l' c := by
        intro c hc
        rcases List.mem_or_eq_of_mem_set hc with h | rfl
        · exact hcs c h
        · exact hc'
      have hperm : (s.entries ++ entriesList (cs.set i c')).Perm (entry.entries ++ entriesList cs) := by
        rw [hset]; conv => rhs; rw [hxy]
        simp only [entriesList_append, entriesList_cons]
        exact perm_mid' hp
      refine Sat.mono (sat_selfInsert (entry := .inner l' s) L hg (level := l' + 1)
        (node := .inner (Bounds.unionAll ((cs.set i c').map Node.bounds)) (cs.set i c'))
        (ok_inner.2 ⟨rel_unionAll_children L hcs', by simpa using hlen, hcs'⟩) hs rfl) ?_
      rintro ⟨n'', sib''⟩ h
      cases sib'' with
      | some t =>
        obtain ⟨lt, t⟩ := t
        obtain ⟨rfl, h1, h2, h3, h4, h5⟩ := h
        exact ⟨rfl, h1, h2, h3.trans hperm, h4, h5⟩
      | none =>
        obtain ⟨h1, h2, h3, h4, h5⟩ := h
        exact ⟨h1, h2.trans hperm, fun h _ => h3 h (VolumeLaws.unionAll (by
          intro h'; simp at h'; subst h'; simp at hi) (by
          simp only [List.mem_map]; rintro _ ⟨c, hc, rfl⟩; exact ((hcs' c hc).2.1 h).2)), by simpa [Node.fanout] using h4, h5⟩

end

end RTree
