import Verif.Props.Core
/-!
# The filters made from a space, over any bounds and any space (C36, C37)

The four filters of filter.rs are generic: the space, the bounds and the keys are any types of the user. Here `ib` and `ik`
are the `Intersects` implementations of the space for bounds and for keys, `ck` its `Contains` implementation for keys. What
is assumed of them is geometry: bounds that enclose a key which meets (or lies in) the space meet the space too.
-/

namespace RTree

variable {B K V Q S : Type} [Bounds B] [Volume B] [Bounded K B] [BEq K] [Enclosure B]
variable {c : Config} {P : K → Prop} {t : Tree B K V}

/-- C36 over any bounds: the intersection filter of a space yields exactly the entries whose key meets the space, each once,
    in the order of `iter`. -/
theorem C36_intersect_spaces (h : Reachable c P t) {borrow : K → Q} {space : S} {ib : S → B → Bool} {ik : S → Q → Bool}
    (hg : ∀ (k : K) (b : B), ik space (borrow k) = true → Enclosure.le (Bounded.bounds k) b → ib space b = true)
    {es : List (K × V)} (hes : t.iter = .ok es) :
    ∃ r, t.filterIter borrow (intersectsFilter ib ik space) = .ok r ∧
      Selects (fun e => ik space (borrow e.1) = true) es r :=
  ⟨_, C10_filter_iter_exact (f := intersectsFilter ib ik space) h hg hes, _, fun _ _ => Iff.rfl, rfl⟩

/-- C36 over any bounds: the same for the bounded intersection filter, which asks the bounds of the space whether they
    intersect the bounds of a node. -/
theorem C36_bounded_intersect_spaces [Bounded S B] (h : Reachable c P t) {borrow : K → Q} {space : S} {ik : S → Q → Bool}
    (hg : ∀ (k : K) (b : B), ik space (borrow k) = true → Enclosure.le (Bounded.bounds k) b →
      Bounds.intersects (Bounded.bounds space) b = true)
    {es : List (K × V)} (hes : t.iter = .ok es) :
    ∃ r, t.filterIter borrow (boundedIntersectsFilter ik space) = .ok r ∧
      Selects (fun e => ik space (borrow e.1) = true) es r :=
  ⟨_, C10_filter_iter_exact (f := boundedIntersectsFilter ik space) h hg hes, _, fun _ _ => Iff.rfl, rfl⟩

/-- What holds of C37, over any bounds and any space whose own `Contains` is right: the containment filter yields exactly the
    entries whose key the space contains, each once, in the order of `iter`. (Missing: the `Contains` of the boxes of the
    crate is not right, see `C37_contain_queries_refuted`.) -/
theorem C37_contain_spaces_partial (h : Reachable c P t) {borrow : K → Q} {space : S} {ib : S → B → Bool}
    {ck : S → Q → Bool}
    (hg : ∀ (k : K) (b : B), ck space (borrow k) = true → Enclosure.le (Bounded.bounds k) b → ib space b = true)
    {es : List (K × V)} (hes : t.iter = .ok es) :
    ∃ r, t.filterIter borrow (containsFilter ib ck space) = .ok r ∧
      Selects (fun e => ck space (borrow e.1) = true) es r :=
  ⟨_, C10_filter_iter_exact (f := containsFilter ib ck space) h hg hes, _, fun _ _ => Iff.rfl, rfl⟩

/-- What holds of C37: the same for the bounded containment filter; a node is searched if its bounds *intersect* those of the
    space (not only if they lie in the space). -/
theorem C37_bounded_contain_spaces_partial [Bounded S B] (h : Reachable c P t) {borrow : K → Q} {space : S} {ck : S → Q → Bool}
    (hg : ∀ (k : K) (b : B), ck space (borrow k) = true → Enclosure.le (Bounded.bounds k) b →
      Bounds.intersects (Bounded.bounds space) b = true)
    {es : List (K × V)} (hes : t.iter = .ok es) :
    ∃ r, t.filterIter borrow (boundedContainsFilter ck space) = .ok r ∧
      Selects (fun e => ck space (borrow e.1) = true) es r :=
  ⟨_, C10_filter_iter_exact (f := boundedContainsFilter ck space) h hg hes, _, fun _ _ => Iff.rfl, rfl⟩

/-! ## A case: sets of small numbers -/

/-- Client code: a set of small numbers, as the bits of a number. -/
structure Bits where
  bits : Nat
deriving DecidableEq

/-- Client code: sets as bounds. -/
instance : Bounds Bits where
  empty := ⟨0⟩
  union a b := ⟨a.bits ||| b.bits⟩
  unionAll bs := bs.foldl (fun a b => ⟨a.bits ||| b.bits⟩) ⟨0⟩
  contains b c := b.bits ||| c.bits == b.bits
  intersects b c := b.bits &&& c.bits != 0

/-- Client code: the volume of a set is its number. -/
instance : Volume Bits where
  Vol := Nat
  volume b := some b.bits
  sub a b := some (a - b)
  lt a b := decide (a < b)
  cmp a b := compare a b
  negInf := 0

/-- Client code: the bounds of a set are the set. -/
instance : Bounded Bits Bits := ⟨id⟩

/-- The union of sets contains the sets. -/
instance : Enclosure Bits where
  le c b := b.bits ||| c.bits = b.bits
  le_refl b := Nat.or_self b.bits
  le_trans {a b c} h h' := by
    show c.bits ||| a.bits = c.bits
    rw [← h', Nat.or_assoc, h]
  le_union_left a b := by
    show a.bits ||| b.bits ||| a.bits = a.bits ||| b.bits
    rw [Nat.or_comm (a.bits ||| b.bits), ← Nat.or_assoc, Nat.or_self]
  le_union_right a b := by
    show a.bits ||| b.bits ||| b.bits = a.bits ||| b.bits
    rw [Nat.or_assoc, Nat.or_self]
  le_unionAll {b bs} h := by
    have key : ∀ (l : List Bits) (a : Bits),
        (∀ x : Bits, a.bits ||| x.bits = a.bits →
          (l.foldl (fun a b : Bits => ⟨a.bits ||| b.bits⟩) a).bits ||| x.bits =
            (l.foldl (fun a b : Bits => ⟨a.bits ||| b.bits⟩) a).bits) ∧
        ∀ x ∈ l, (l.foldl (fun a b : Bits => ⟨a.bits ||| b.bits⟩) a).bits ||| x.bits =
            (l.foldl (fun a b : Bits => ⟨a.bits ||| b.bits⟩) a).bits := by
      intro l
      induction l with
      | nil => exact fun a => ⟨fun x hx => hx, fun x hx => (List.not_mem_nil hx).elim⟩
      | cons y l ih =>
        intro a
        refine ⟨fun x hx => (ih _).1 x ?_, fun x hx => ?_⟩
        · show a.bits ||| y.bits ||| x.bits = a.bits ||| y.bits
          rw [Nat.or_assoc, Nat.or_comm y.bits, ← Nat.or_assoc, hx]
        · rcases List.mem_cons.1 hx with rfl | hx
          · refine (ih _).1 x ?_
            show a.bits ||| x.bits ||| x.bits = a.bits ||| x.bits
            rw [Nat.or_assoc, Nat.or_self]
          · exact (ih _).2 x hx
    exact (key bs ⟨0⟩).2 b h

/-- A non-empty set that lies in the space shares a number with everything that encloses it. -/
theorem Bits.meets {k space b : Bits} (hne : k.bits ≠ 0) (hk : space.bits ||| k.bits = space.bits)
    (hb : b.bits ||| k.bits = b.bits) : space.bits &&& b.bits ≠ 0 := by
  intro h
  obtain ⟨i, hi⟩ := Nat.exists_testBit_of_ne_zero hne
  have h1 : space.bits.testBit i = true := by rw [← hk, Nat.testBit_or, hi, Bool.or_true]
  have h2 : b.bits.testBit i = true := by rw [← hb, Nat.testBit_or, hi, Bool.or_true]
  have := congrArg (Nat.testBit · i) h
  simp [Nat.testBit_and, h1, h2] at this

/-- Client code: a set is inserted under itself, with its number as the value. -/
abbrev addBits (t : Tree Bits Bits Nat) (n : Nat) : Res (Tree Bits Bits Nat) := t.insert ⟨n⟩ n

/-- Client code: a tree of five sets. -/
def bitsTree : Tree Bits Bits Nat := ([1, 2, 12, 33, 6].foldlM addBits (Tree.new cfg42)).getD (Tree.new cfg42)

/-- The tree is made by insertions. -/
theorem bits_reachable : Reachable cfg42 (fun k => k.bits ≠ 0) bitsTree := by
  have step : ∀ (l : List Nat) (t : Tree Bits Bits Nat), Reachable cfg42 (fun k : Bits => k.bits ≠ 0) t →
      (∀ n ∈ l, n ≠ 0) → ∀ t', l.foldlM addBits t = .ok t' →
      Reachable cfg42 (fun k : Bits => k.bits ≠ 0) t' := by
    intro l
    induction l with
    | nil => intro t h _ t' e; cases e; exact h
    | cons n l ih =>
      intro t h hn t' e
      rw [List.foldlM_cons] at e
      obtain ⟨t1, e1, e2⟩ := bind_eq_ok.1 e
      exact ih t1 (.insert h (hn n List.mem_cons_self) e1) (fun m hm => hn m (List.mem_cons_of_mem _ hm)) t' e2
  exact step [1, 2, 12, 33, 6] _ .new (by decide) _ (Res.ok_getD _ (by decide +kernel))

/-- Whether one set lies in another and is not empty. -/
abbrev Bits.sub (space k : Bits) : Bool := k.bits != 0 && (space.bits ||| k.bits == space.bits)

/-- The geometry the filters rely on. -/
theorem Bits.sub_meets {space k b : Bits} (hk : Bits.sub space k = true) (hb : Enclosure.le (Bounded.bounds k) b) :
    Bounds.intersects (Bounded.bounds space : Bits) b = true := by
  simp only [Bits.sub, Bool.and_eq_true, bne_iff_ne, ne_eq, beq_iff_eq] at hk
  exact bne_iff_ne.2 (Bits.meets hk.1 hk.2 hb)

/-- The same, the geometry of sets that share a number. -/
theorem Bits.shares_meets {space k b : Bits} (hk : Bounds.intersects space k = true)
    (hb : Enclosure.le (Bounded.bounds k) b) : Bounds.intersects (Bounded.bounds space : Bits) b = true := by
  have hk : space.bits &&& k.bits ≠ 0 := bne_iff_ne.1 hk
  refine bne_iff_ne.2 (Bits.meets hk (space := space) ?_ ?_)
  · refine Nat.eq_of_testBit_eq fun i => ?_
    cases h : space.bits.testBit i <;> simp [Nat.testBit_or, Nat.testBit_and, h]
  · have hb : b.bits ||| k.bits = b.bits := hb
    refine Nat.eq_of_testBit_eq fun i => ?_
    have := congrArg (Nat.testBit · i) hb
    simp only [Nat.testBit_or] at this
    cases h : k.bits.testBit i <;> simp_all [Nat.testBit_or, Nat.testBit_and]

/-- The entries of the tree. -/
def bitsEntries : List (Bits × Nat) := [(⟨12⟩, 12), (⟨2⟩, 2), (⟨6⟩, 6), (⟨33⟩, 33), (⟨1⟩, 1)]

theorem bits_iter : bitsTree.iter = .ok bitsEntries := by
  have h : (bitsTree.iter.getD []) = bitsEntries := by decide +kernel
  exact h ▸ Res.ok_getD [] (by decide +kernel)

-- The tree has two leaves, with the bounds {1, 2, 4, 8} and {0, 5}; the sets that lie in {0, 1, 2}:
example : bitsTree.level = 1 ∧ ∃ r,
    bitsTree.filterIter id (boundedContainsFilter Bits.sub (⟨7⟩ : Bits)) = .ok r ∧ r = [(⟨2⟩, 2), (⟨6⟩, 6), (⟨1⟩, 1)] := by
  obtain ⟨r, hr, f, hf, e⟩ := C37_bounded_contain_spaces_partial bits_reachable (borrow := id) (space := (⟨7⟩ : Bits))
    (ck := Bits.sub) (fun _ _ hk hb => Bits.sub_meets hk hb) bits_iter
  refine ⟨by decide +kernel, r, hr, e.trans ?_⟩
  rw [List.filter_congr (q := fun e => Bits.sub ⟨7⟩ e.1) fun e he => Bool.eq_iff_iff.2 (hf e he)]
  rfl

example := C37_contain_spaces_partial bits_reachable (borrow := id) (space := (⟨7⟩ : Bits)) (ck := Bits.sub)
    (ib := Bounds.intersects) (fun _ _ hk hb => Bits.sub_meets hk hb) bits_iter

example := C36_intersect_spaces bits_reachable (borrow := id) (space := (⟨7⟩ : Bits)) (ik := Bounds.intersects)
    (ib := Bounds.intersects) (fun _ _ hk hb => Bits.shares_meets hk hb) bits_iter

example := C36_bounded_intersect_spaces bits_reachable (borrow := id) (space := (⟨7⟩ : Bits)) (ik := Bounds.intersects)
    (fun _ _ hk hb => Bits.shares_meets hk hb) bits_iter

end RTree
