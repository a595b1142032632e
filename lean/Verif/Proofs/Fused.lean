import Verif.Proofs.CallsJoin
import Verif.Proofs.CallsSorted
/-! An iterator that has answered `None` answers `None` ever after, and asks no user code any more. -/

namespace RTree.Calls

variable {S α β F : Type}

theorem bind_inv {x : M S α} {f : α → M S β} {s s' : S} {n n' : Nat} {b : β} (h : (x >>= f) s n = (.ok b, s', n')) :
    ∃ a s1 n1, x s n = (.ok a, s1, n1) ∧ f a s1 n1 = (.ok b, s', n') := by
  generalize hx : x s n = y at *
  match y with
  | (.ok a, s1, n1) => exact ⟨a, s1, n1, rfl, by rwa [bind_ok' hx] at h⟩
  | (.error e, s1, n1) => rw [bind_error' hx] at h; cases h

theorem own_inv {r : Res α} {s s' : S} {n n' : Nat} {a : α} (h : (own r : M S α) s n = (.ok a, s', n')) : r = .ok a ∧ s' = s ∧ n' = n := by
  cases r with
  | ok b => cases h; exact ⟨rfl, rfl, rfl⟩
  | error p => cases h

theorem own_bind_inv {r : Res α} {f : α → M S β} {s s' : S} {n n' : Nat} {b : β} (h : (own r >>= f) s n = (.ok b, s', n')) :
    ∃ a, r = .ok a ∧ f a s n = (.ok b, s', n') := by
  obtain ⟨a, s1, n1, h1, h2⟩ := bind_inv h
  obtain ⟨h3, rfl, rfl⟩ := own_inv h1
  exact ⟨a, h3, h2⟩

section Stack

variable {L I : Type} (emptyL : L → Prop) (emptyI : I → Prop)

/-- Entry `j` of a stack has the right kind and is exhausted. -/
def SpentAt (s : IterStack L I) : Nat → Prop
  | 0 => ∃ it, s[0]? = some (.leaf it) ∧ emptyL it
  | j + 1 => ∃ it, s[j + 1]? = some (.inner it) ∧ emptyI it

/-- The entries of a stack below `level` are exhausted. -/
def Spent (s : IterStack L I) (level : Nat) : Prop := ∀ j < level, SpentAt emptyL emptyI s j

variable {emptyL emptyI}

theorem Spent.zero (s : IterStack L I) : Spent emptyL emptyI s 0 := fun _ h => absurd h (Nat.not_lt_zero _)

theorem Spent.mono {s : IterStack L I} {a b : Nat} (h : Spent emptyL emptyI s b) (hab : a ≤ b) : Spent emptyL emptyI s a := fun j hj => h j (by omega)

theorem Spent.set {s : IterStack L I} {level i : Nat} (h : Spent emptyL emptyI s level) (hi : level ≤ i) (x : StackEntry L I) : Spent emptyL emptyI (s.set i x) level := by
  intro j hj
  have h1 := h j hj
  have hne : i ≠ j := by omega
  cases j with
  | zero => simpa [SpentAt, List.getElem?_set_ne hne] using h1
  | succ j => simpa [SpentAt, List.getElem?_set_ne hne] using h1

theorem getLeaf_inv {s : IterStack L I} {it : L} (h : s.getLeaf = .ok it) : s[0]? = some (.leaf it) := by
  cases s with
  | nil => cases h
  | cons x s => cases x with
    | leaf y => cases h; rfl
    | inner y => cases h

theorem getInner_inv {s : IterStack L I} {i : Nat} {it : I} (h : s.getInner i = .ok it) : s[i + 1]? = some (.inner it) := by
  rw [IterStack.getInner] at h
  obtain ⟨x, h1, h2⟩ := bind_eq_ok.1 h
  cases x with
  | leaf y => cases h2
  | inner y =>
    cases h2
    unfold index at h1
    split at h1
    · next h3 => cases h1; exact h3
    · cases h1

theorem setLeaf_inv {s s' : IterStack L I} {it : L} (h : s.setLeaf it = .ok s') : s' = s.set 0 (.leaf it) ∧ 0 < s.length := by
  cases s with
  | nil => cases h
  | cons x s => cases h; exact ⟨rfl, by simp⟩

theorem setInner_inv {s s' : IterStack L I} {i : Nat} {it : I} (h : s.setInner i it = .ok s') : s' = s.set (i + 1) (.inner it) ∧ i + 1 < s.length := by
  rw [IterStack.setInner] at h
  obtain ⟨x, h1, h2⟩ := bind_eq_ok.1 h
  cases h2
  unfold index at h1
  refine ⟨rfl, ?_⟩
  split at h1
  · next h3 => exact (List.getElem?_eq_some_iff.1 h3).1
  · cases h1

theorem Spent.setLeaf {s s' : IterStack L I} {it : L} (h : s.setLeaf it = .ok s') (he : emptyL it) : Spent emptyL emptyI s' 1 := by
  obtain ⟨rfl, h0⟩ := setLeaf_inv h
  intro j hj
  obtain rfl : j = 0 := by omega
  exact ⟨it, by simp [h0], he⟩

theorem Spent.setInner {s s' : IterStack L I} {i : Nat} {it : I} (hs : Spent emptyL emptyI s (i + 1)) (h : s.setInner i it = .ok s') (he : emptyI it) :
    Spent emptyL emptyI s' (i + 2) := by
  obtain ⟨rfl, h0⟩ := setInner_inv h
  intro j hj
  by_cases hji : j = i + 1
  · subst hji
    exact ⟨it, by simp [h0], he⟩
  · exact hs.set (Nat.le_refl _) _ j (by omega)

theorem Spent.get_leaf {s : IterStack L I} (h : Spent emptyL emptyI s 1) : ∃ it, s.getLeaf = .ok it ∧ s.setLeaf it = .ok s ∧ emptyL it := by
  obtain ⟨it, h1, h2⟩ := h 0 (by omega)
  cases s with
  | nil => cases h1
  | cons x s => cases h1; exact ⟨it, rfl, rfl, h2⟩

theorem Spent.get_inner {s : IterStack L I} {i : Nat} (h : Spent emptyL emptyI s (i + 2)) : ∃ it, s.getInner i = .ok it ∧ s.setInner i it = .ok s ∧ emptyI it := by
  obtain ⟨it, h1, h2⟩ := h (i + 1) (by omega)
  have hi : index s (i + 1) = .ok (.inner it) := by simp [index, h1]
  refine ⟨it, ?_, ?_, h2⟩
  · rw [IterStack.getInner, hi]; rfl
  · rw [IterStack.setInner, hi]
    show Except.ok (s.set (i + 1) (.inner it)) = .ok s
    congr 1
    exact List.ext_getElem? fun j => by
      by_cases hj : i + 1 = j
      · subst hj
        rw [List.getElem?_set_self (List.getElem?_eq_some_iff.1 h1).1, h1]
      · rw [List.getElem?_set_ne hj]

end Stack

variable {B K V Q : Type}

namespace TreeIter

/-- Exhausted slice iterators. -/
abbrev Done (s : TreeIter B K V) (level : Nat) : Prop := Spent (fun es : List (K × V) => es = []) (fun cs : List (Node B K V) => cs = []) s level

theorem done_of_none {code : Nat → Option (SpatialFilter B Q)} {borrow : K → Q} (fuel : Nat) : ∀ {level : Nat} {s s' : TreeIter B K V} {n n' : Nat},
    Done s level → nextLoop code borrow fuel level s n = (.ok none, s', n') → Done s' s'.length := by
  induction fuel with
  | zero =>
    intro level s s' n n' hd h
    rw [nextLoop, self_bind] at h
    split at h
    · cases h
    · next hl => cases h; exact hd.mono (by omega)
  | succ fuel ih =>
    intro level s s' n n' hd h
    rw [nextLoop, self_bind] at h
    split at h
    · next hl =>
      match level with
      | l + 1 =>
        dsimp only at h
        obtain ⟨it, h1, h⟩ := own_bind_inv h
        obtain ⟨⟨found, it'⟩, s1, n1, h2, h⟩ := bind_inv h
        obtain ⟨r, as', n2, h3, pre, hpre, h4⟩ := search_spec code (fun f (n : Node B K V) => f.testBounds n.bounds) it s n
        rw [h3] at h2
        cases h2
        obtain ⟨s2, h5, h⟩ := own_bind_inv h
        rw [put_bind] at h
        obtain ⟨found, s4, n4, h6, h⟩ := bind_inv h
        cases h6
        have hd2 : Done s2 (l + 1) := by
          obtain ⟨rfl, -⟩ := setInner_inv h5
          exact hd.set (Nat.le_refl _) _
        match found with
        | some node =>
          match l with
          | l' + 1 =>
            dsimp only at h
            obtain ⟨cs, h7, h⟩ := own_bind_inv h
            obtain ⟨s6, h8, h⟩ := own_bind_inv h
            rw [put_bind] at h
            refine ih ?_ h
            obtain ⟨rfl, -⟩ := setInner_inv h8
            exact (hd2.mono (by omega)).set (Nat.le_refl _) _
          | 0 =>
            dsimp only at h
            obtain ⟨cs, h7, h⟩ := own_bind_inv h
            obtain ⟨s6, h8, h⟩ := own_bind_inv h
            rw [put_bind] at h
            exact ih (Spent.zero _) h
        | none =>
          refine ih (Spent.setInner hd h5 h4.2.2) h
      | 0 =>
        dsimp only at h
        obtain ⟨it, h1, h⟩ := own_bind_inv h
        obtain ⟨⟨found, it'⟩, s1, n1, h2, h⟩ := bind_inv h
        obtain ⟨r, as', n2, h3, pre, hpre, h4⟩ := search_spec code (fun f (e : K × V) => f.testKey (borrow e.1)) it s n
        rw [h3] at h2
        cases h2
        obtain ⟨s2, h5, h⟩ := own_bind_inv h
        rw [put_bind] at h
        obtain ⟨found, s4, n4, h6, h⟩ := bind_inv h
        cases h6
        match found with
        | some e => cases h
        | none => exact ih (Spent.setLeaf h5 h4.2.2) h
    · next hl => cases h; exact hd.mono (by omega)

theorem nextLoop_done {code : Nat → Option (SpatialFilter B Q)} {borrow : K → Q} {s : TreeIter B K V} (hd : Done s s.length) (n : Nat) (fuel : Nat) :
    ∀ level, s.length - level ≤ fuel → nextLoop code borrow fuel level s n = (.ok none, s, n) := by
  induction fuel with
  | zero =>
    intro level hl
    rw [nextLoop, self_bind, if_neg (by omega)]; rfl
  | succ fuel ih =>
    intro level hf
    rw [nextLoop, self_bind]
    by_cases hl : level < s.length
    · rw [if_pos hl]
      match level with
      | l + 1 =>
        dsimp only
        obtain ⟨it, h1, h2, rfl⟩ := (hd.mono (show l + 2 ≤ _ by omega)).get_inner
        have h3 : (search code (fun f (n : Node B K V) => f.testBounds n.bounds) [] : M (TreeIter B K V) _) s n = (.ok (.ok none, []), s, n) := rfl
        rw [h1, own_bind, bind_ok' h3, h2, own_bind, put_bind, raise_ok_bind]
        exact ih _ (by omega)
      | 0 =>
        dsimp only
        obtain ⟨it, h1, h2, rfl⟩ := (hd.mono (show 1 ≤ _ by omega)).get_leaf
        have h3 : (search code (fun f (e : K × V) => f.testKey (borrow e.1)) [] : M (TreeIter B K V) _) s n = (.ok (.ok none, []), s, n) := rfl
        rw [h1, own_bind, bind_ok' h3, h2, own_bind, put_bind, raise_ok_bind]
        exact ih _ (by omega)
    · rw [if_neg hl]; rfl

theorem next_done {code : Nat → Option (SpatialFilter B Q)} {borrow : K → Q} {s : TreeIter B K V} (hd : Done s s.length) (n : Nat) :
    next code borrow s n = (.ok none, s, n) := by
  rw [next, self_bind]
  refine nextLoop_done hd n _ 0 ?_
  have : 1 * (s.length + 1) ≤ (RTree.TreeIter.weight s + 1) * (s.length + 1) := Nat.mul_le_mul_right _ (by omega)
  omega

theorem nexts_done {code : Nat → Option (SpatialFilter B Q)} {borrow : K → Q} {s : TreeIter B K V} (hd : Done s s.length) (n k : Nat) :
    nexts code borrow k s n = (.ok (List.replicate k (.ok none)), s, n) := by
  induction k with
  | zero => rfl
  | succ k ih =>
    rw [nexts, bind_ok' (catching_apply (next_done hd n)), bind_ok' ih]
    rfl

theorem done_of_next {code : Nat → Option (SpatialFilter B Q)} {borrow : K → Q} {s s' : TreeIter B K V} {n n' : Nat} (h : next code borrow s n = (.ok none, s', n')) :
    Done s' s'.length := by
  rw [next, self_bind] at h
  exact done_of_none _ (Spent.zero _) h

end TreeIter

variable {B0 B1 K0 K1 V0 V1 Q0 Q1 : Type}

theorem searchBy_done {I : Type} {code : Nat → Option F} {test : F → α → Bool} {next : I → Option α × I} {emptied : I → Prop}
    (hn : ∀ it it', next it = (none, it') → emptied it') (k : Nat) : ∀ {it it' : I} {s s' : S} {n n' : Nat},
    searchBy code test next k it s n = (.ok (.ok none, it'), s', n') → emptied it' := by
  induction k with
  | zero => intro it it' s s' n n' h; cases h
  | succ k ih =>
    intro it it' s s' n n' h
    rw [searchBy] at h
    generalize hx : next it = x at h
    match x with
    | (none, it1) => cases h; exact hn _ _ hx
    | (some a, it1) =>
      dsimp only at h
      obtain ⟨r, s1, n1, -, h⟩ := bind_inv h
      match r with
      | .error e => cases h
      | .ok f =>
        dsimp only at h
        split at h
        · cases h
        · exact ih h

theorem searchBy_state {I : Type} {code : Nat → Option F} {test : F → α → Bool} {next : I → Option α × I} (k : Nat) : ∀ {it : I} {s s' : S} {n n' : Nat} {r},
    searchBy code test next k it s n = (r, s', n') → s' = s := by
  induction k with
  | zero => intro it s s' n n' r h; cases h; rfl
  | succ k ih =>
    intro it s s' n n' r h
    rw [searchBy] at h
    generalize hx : next it = x at h
    match x with
    | (none, it1) => cases h; rfl
    | (some a, it1) =>
      dsimp only at h
      cases hc : code n with
      | none =>
        have h1 : catching (ask code) s n = (.ok (.error .user), s, n + 1) := catching_apply (by rw [ask, hc])
        rw [bind_ok' h1] at h; cases h; rfl
      | some f =>
        have h1 : catching (ask code) s n = (.ok (.ok f), s, n + 1) := catching_apply (by rw [ask, hc])
        rw [bind_ok' h1] at h
        dsimp only at h
        split at h
        · cases h; rfl
        · exact ih h

namespace JoinIter

/-- A product iterator that will yield nothing more. -/
def Over {α β : Type} (it : ProductIter α β) : Prop := it.next = (none, it)

theorem over_of_next {α β : Type} {it it' : ProductIter α β} (h : it.next = (none, it')) : Over it' := by
  have : it' = it := by
    unfold ProductIter.next at h
    split at h
    · split at h <;> cases h
      rfl
    · cases h; rfl
  rw [this] at h ⊢
  exact h

/-- Exhausted product iterators. -/
abbrev Done (s : JoinIterStack B0 B1 K0 K1 V0 V1) (level : Nat) : Prop :=
  Spent (Over (α := K0 × V0) (β := K1 × V1)) (Over (α := Node B0 K0 V0) (β := Node B1 K1 V1)) s level

theorem startJoin_inv {s s' : JoinIterStack B0 B1 K0 K1 V0 V1} {node0 : Node B0 K0 V0} {l0 : Nat} {node1 : Node B1 K1 V1} {l1 : Nat}
    (h : RTree.JoinIter.startJoin s node0 l0 node1 l1 = .ok s') : ∃ x, s' = s.set (max l0 l1) x := by
  unfold RTree.JoinIter.startJoin at h
  split at h
  · next hm =>
    obtain ⟨v0, h1, h⟩ := bind_eq_ok.1 h
    obtain ⟨v1, h2, h⟩ := bind_eq_ok.1 h
    rw [hm]
    exact ⟨_, (setLeaf_inv h).1⟩
  · next height hm =>
    obtain ⟨v0, h1, h⟩ := bind_eq_ok.1 h
    obtain ⟨v1, h2, h⟩ := bind_eq_ok.1 h
    rw [hm]
    exact ⟨_, (setInner_inv h).1⟩

theorem done_of_none {code : Nat → Option (JoinFilter B0 B1 Q0 Q1)} {borrow0 : K0 → Q0} {borrow1 : K1 → Q1} (fuel : Nat) :
    ∀ {level : Nat} {s s' : JoinIter B0 B1 K0 K1 V0 V1} {n n' : Nat} {r},
    s.padding0 = 0 ∨ s.padding1 = 0 → Done s.stack level → nextLoop code borrow0 borrow1 fuel level s n = (r, s', n') →
    (s'.padding0 = 0 ∨ s'.padding1 = 0) ∧ (r = .ok none → Done s'.stack s'.stack.length) := by
  induction fuel with
  | zero =>
    intro level s s' n n' r hp hd h
    rw [nextLoop, self_bind] at h
    split at h
    · cases h; exact ⟨hp, fun h => by cases h⟩
    · next hl => cases h; exact ⟨hp, fun _ => hd.mono (by omega)⟩
  | succ fuel ih =>
    intro level s s' n n' r hp hd h
    rw [nextLoop, self_bind] at h
    split at h
    · next hl =>
      match level with
      | l + 1 =>
        dsimp only at h
        cases h1 : s.stack.getInner l with
        | error p => rw [h1, bind_error' (show own (.error p) s n = (.error (.own p), s, n) from rfl)] at h; cases h; exact ⟨hp, fun h => by cases h⟩
        | ok it =>
        rw [h1, own_bind] at h
        generalize hx : searchBy code (fun f (x : Node B0 K0 V0 × Node B1 K1 V1) => f.testBounds x.1.bounds x.2.bounds) ProductIter.next
            (it.fst.slice.length * it.snd.length + 1) it s n = y at h
        match y with
        | (.error e, s1, n1) =>
          obtain rfl := searchBy_state _ hx
          rw [bind_error' hx] at h; cases h; exact ⟨hp, fun h => by cases h⟩
        | (.ok (found, it'), s1, n1) =>
        obtain rfl := searchBy_state _ hx
        rw [bind_ok' hx] at h
        dsimp only at h
        cases h5 : s1.stack.setInner l it' with
        | error p => rw [h5, bind_error' (show own (.error p) s1 n1 = (.error (.own p), s1, n1) from rfl)] at h; cases h; exact ⟨hp, fun h => by cases h⟩
        | ok st =>
        rw [h5, own_bind, put_bind] at h
        have hd2 : Done st (l + 1) := by
          obtain ⟨rfl, -⟩ := setInner_inv h5
          exact hd.set (Nat.le_refl _) _
        match found with
        | .error e => rw [raise_error_bind] at h; cases h; exact ⟨hp, fun h => by cases h⟩
        | .ok (some (node0, node1)) =>
          rw [raise_ok_bind] at h
          dsimp only at h
          cases h7 : RTree.JoinIter.startJoin st node0 (l - s1.padding0) node1 (l - s1.padding1) with
          | error p => rw [h7, bind_error' (show own (.error p) _ n1 = (.error (.own p), _, n1) from rfl)] at h; cases h; exact ⟨hp, fun h => by cases h⟩
          | ok st' =>
          rw [h7, own_bind, put_bind] at h
          refine ih (s := ⟨st', s1.padding0, s1.padding1⟩) hp ?_ h
          obtain ⟨x, rfl⟩ := startJoin_inv h7
          exact (hd2.mono (by omega)).set (by omega) _
        | .ok none =>
          rw [raise_ok_bind] at h
          exact ih (s := ⟨st, s1.padding0, s1.padding1⟩) hp (Spent.setInner hd h5 (searchBy_done (fun _ _ => over_of_next) _ hx)) h
      | 0 =>
        dsimp only at h
        cases h1 : s.stack.getLeaf with
        | error p => rw [h1, bind_error' (show own (.error p) s n = (.error (.own p), s, n) from rfl)] at h; cases h; exact ⟨hp, fun h => by cases h⟩
        | ok it =>
        rw [h1, own_bind] at h
        generalize hx : searchBy code (fun f (x : (K0 × V0) × (K1 × V1)) => f.testKey (borrow0 x.1.1) (borrow1 x.2.1)) ProductIter.next
            (it.fst.slice.length * it.snd.length + 1) it s n = y at h
        match y with
        | (.error e, s1, n1) =>
          obtain rfl := searchBy_state _ hx
          rw [bind_error' hx] at h; cases h; exact ⟨hp, fun h => by cases h⟩
        | (.ok (found, it'), s1, n1) =>
        obtain rfl := searchBy_state _ hx
        rw [bind_ok' hx] at h
        dsimp only at h
        cases h5 : s1.stack.setLeaf it' with
        | error p => rw [h5, bind_error' (show own (.error p) s1 n1 = (.error (.own p), s1, n1) from rfl)] at h; cases h; exact ⟨hp, fun h => by cases h⟩
        | ok st =>
        rw [h5, own_bind, put_bind] at h
        match found with
        | .error e => rw [raise_error_bind] at h; cases h; exact ⟨hp, fun h => by cases h⟩
        | .ok (some e) => rw [raise_ok_bind] at h; cases h; exact ⟨hp, fun h => by cases h⟩
        | .ok none =>
          rw [raise_ok_bind] at h
          exact ih (s := ⟨st, s1.padding0, s1.padding1⟩) hp (Spent.setLeaf h5 (searchBy_done (fun _ _ => over_of_next) _ hx)) h
    · next hl => cases h; exact ⟨hp, fun _ => hd.mono (by omega)⟩

theorem nextLoop_done {code : Nat → Option (JoinFilter B0 B1 Q0 Q1)} {borrow0 : K0 → Q0} {borrow1 : K1 → Q1} {s : JoinIter B0 B1 K0 K1 V0 V1}
    (hd : Done s.stack s.stack.length) (n : Nat) (fuel : Nat) :
    ∀ level, s.stack.length - level ≤ fuel → nextLoop code borrow0 borrow1 fuel level s n = (.ok none, s, n) := by
  induction fuel with
  | zero =>
    intro level hl
    rw [nextLoop, self_bind, if_neg (by omega)]; rfl
  | succ fuel ih =>
    intro level hf
    rw [nextLoop, self_bind]
    by_cases hl : level < s.stack.length
    · rw [if_pos hl]
      match level with
      | l + 1 =>
        dsimp only
        obtain ⟨it, h1, h2, he⟩ := (hd.mono (show l + 2 ≤ _ by omega)).get_inner
        have h3 : (searchBy code (fun f (x : Node B0 K0 V0 × Node B1 K1 V1) => f.testBounds x.1.bounds x.2.bounds) ProductIter.next
            (it.fst.slice.length * it.snd.length + 1) it : M (JoinIter B0 B1 K0 K1 V0 V1) _) s n = (.ok (.ok none, it), s, n) := by
          rw [searchBy, he]; rfl
        rw [h1, own_bind, bind_ok' h3, h2, own_bind, put_bind, raise_ok_bind]
        exact ih _ (by omega)
      | 0 =>
        dsimp only
        obtain ⟨it, h1, h2, he⟩ := (hd.mono (show 1 ≤ _ by omega)).get_leaf
        have h3 : (searchBy code (fun f (x : (K0 × V0) × (K1 × V1)) => f.testKey (borrow0 x.1.1) (borrow1 x.2.1)) ProductIter.next
            (it.fst.slice.length * it.snd.length + 1) it : M (JoinIter B0 B1 K0 K1 V0 V1) _) s n = (.ok (.ok none, it), s, n) := by
          rw [searchBy, he]; rfl
        rw [h1, own_bind, bind_ok' h3, h2, own_bind, put_bind, raise_ok_bind]
        exact ih _ (by omega)
    · rw [if_neg hl]; rfl

theorem next_done {code : Nat → Option (JoinFilter B0 B1 Q0 Q1)} {borrow0 : K0 → Q0} {borrow1 : K1 → Q1} {s : JoinIter B0 B1 K0 K1 V0 V1}
    (hd : Done s.stack s.stack.length) (n : Nat) : next code borrow0 borrow1 s n = (.ok none, s, n) := by
  rw [next, self_bind]
  refine nextLoop_done hd n _ 0 ?_
  have : 1 * (s.stack.length + 1) ≤ (weight s.stack + 1) * (s.stack.length + 1) := Nat.mul_le_mul_right _ (by omega)
  omega

theorem nexts_done {code : Nat → Option (JoinFilter B0 B1 Q0 Q1)} {borrow0 : K0 → Q0} {borrow1 : K1 → Q1} {s : JoinIter B0 B1 K0 K1 V0 V1}
    (hd : Done s.stack s.stack.length) (n k : Nat) : nexts code borrow0 borrow1 k s n = (.ok (List.replicate k (.ok none)), s, n) := by
  induction k with
  | zero => rfl
  | succ k ih =>
    rw [nexts, bind_ok' (catching_apply (next_done hd n)), bind_ok' ih]
    rfl

theorem done_of_nexts {code : Nat → Option (JoinFilter B0 B1 Q0 Q1)} {borrow0 : K0 → Q0} {borrow1 : K1 → Q1} (k : Nat) :
    ∀ {s s' : JoinIter B0 B1 K0 K1 V0 V1} {n n' : Nat} {outs}, s.padding0 = 0 ∨ s.padding1 = 0 → nexts code borrow0 borrow1 k s n = (.ok outs, s', n') →
    .ok none ∈ outs → Done s'.stack s'.stack.length := by
  induction k with
  | zero => intro s s' n n' outs hp h hm; cases h; cases hm
  | succ k ih =>
    intro s s' n n' outs hp h hm
    rw [nexts] at h
    obtain ⟨r, s1, n1, h1, h⟩ := bind_inv h
    obtain ⟨rs, s2, n2, h2, h⟩ := bind_inv h
    cases h
    have h3 : next code borrow0 borrow1 s n = (r, s1, n1) := by
      have h1' : (Except.ok (next code borrow0 borrow1 s n).1, (next code borrow0 borrow1 s n).2) = ((Except.ok r : Except Stop _), s1, n1) := h1
      simp only [Prod.mk.injEq, Except.ok.injEq] at h1'
      exact Prod.ext h1'.1 (by rw [h1'.2])
    rw [next, self_bind] at h3
    obtain ⟨h4, h5⟩ := done_of_none _ hp (Spent.zero _) h3
    rcases List.mem_cons.1 hm with h6 | h6
    · have hd := h5 h6.symm
      rw [nexts_done hd] at h2
      cases h2
      exact hd
    · exact ih h4 h2 h6

theorem new_padding {code : Nat → Option (JoinFilter B0 B1 Q0 Q1)} {root0 : Node B0 K0 V0} {level0 : Nat} {root1 : Node B1 K1 V1} {level1 : Nat}
    {s₀ s : JoinIter B0 B1 K0 K1 V0 V1} {n₀ n : Nat} (h : new code root0 level0 root1 level1 s₀ n₀ = (.ok (), s, n)) : s.padding0 = 0 ∨ s.padding1 = 0 := by
  rw [new] at h
  obtain ⟨f, s1, n1, h1, h⟩ := bind_inv h
  split at h
  · cases h; exact .inl rfl
  · dsimp only at h
    rw [put_bind] at h
    obtain ⟨st, s2, n2, h2, h⟩ := bind_inv h
    cases h
    show max level0 level1 - level0 = 0 ∨ max level0 level1 - level1 = 0
    omega

end JoinIter

namespace SortedIter

variable {Mt : Type}

theorem empty_of_pop {B' K' A T : Type} {code : Nat → RankCode B' K' A Mt} {d d' : List (Score Mt × T)} {n n' : Nat} (h : BinaryHeap.pop code d n = (.ok none, d', n')) :
    d' = [] := by
  rw [BinaryHeap.pop, self_bind] at h
  cases hl : d.getLast? with
  | none => rw [hl] at h; cases h; simpa using hl
  | some item =>
    rw [hl] at h
    dsimp only at h
    cases hd : d.dropLast with
    | nil => rw [hd] at h; cases h
    | cons top rest =>
      rw [hd] at h
      dsimp only at h
      rw [put_bind] at h
      obtain ⟨p, s1, n1, h1, h⟩ := bind_inv h
      obtain ⟨u, s2, n2, h2, h⟩ := bind_inv h
      cases h

theorem empty_of_none {code : Nat → RankCode B K Mt Mt} (fuel : Nat) : ∀ {d d' : SortedHeap B K V Mt} {n n' : Nat}, nextLoop code fuel d n = (.ok none, d', n') → d' = [] := by
  induction fuel with
  | zero => intro d d' n n' h; cases h
  | succ fuel ih =>
    intro d d' n n' h
    rw [nextLoop] at h
    obtain ⟨x, s1, n1, h1, h⟩ := bind_inv h
    match x with
    | none => cases h; exact empty_of_pop h1
    | some (score, value) =>
      obtain ⟨metric, level⟩ := score
      match level with
      | 0 => obtain ⟨u, s2, n2, h2, h⟩ := bind_inv h; cases h
      | 1 =>
        obtain ⟨u, s2, n2, h2, h⟩ := bind_inv h
        obtain ⟨u, s3, n3, h3, h⟩ := bind_inv h
        obtain ⟨u, s4, n4, h4, h⟩ := bind_inv h
        exact ih h
      | l + 2 =>
        obtain ⟨u, s2, n2, h2, h⟩ := bind_inv h
        obtain ⟨u, s3, n3, h3, h⟩ := bind_inv h
        obtain ⟨u, s4, n4, h4, h⟩ := bind_inv h
        exact ih h

theorem nexts_nil {code : Nat → RankCode B K Mt Mt} {fuel : Nat} (hf : 0 < fuel) (k n : Nat) :
    nexts code fuel k ([] : SortedHeap B K V Mt) n = (.ok (List.replicate k (.ok none)), [], n) := by
  induction k with
  | zero => rfl
  | succ k ih =>
    match fuel, hf with
    | fuel + 1, _ =>
      have h1 : nextLoop code (fuel + 1) ([] : SortedHeap B K V Mt) n = (.ok none, [], n) := rfl
      rw [nexts, bind_ok' (catching_apply h1), bind_ok' ih]
      rfl

end SortedIter

namespace FilterSortedIter

variable {Mt : Type}

theorem empty_of_none {code : Nat → RankCode B K (Option Mt) Mt} (fuel : Nat) : ∀ {d d' : SortedHeap B K V Mt} {n n' : Nat}, nextLoop code fuel d n = (.ok none, d', n') → d' = [] := by
  induction fuel with
  | zero => intro d d' n n' h; cases h
  | succ fuel ih =>
    intro d d' n n' h
    rw [nextLoop] at h
    obtain ⟨x, s1, n1, h1, h⟩ := bind_inv h
    match x with
    | none => cases h; exact SortedIter.empty_of_pop h1
    | some (score, value) =>
      obtain ⟨metric, level⟩ := score
      match level with
      | 0 => obtain ⟨u, s2, n2, h2, h⟩ := bind_inv h; cases h
      | 1 =>
        obtain ⟨u, s2, n2, h2, h⟩ := bind_inv h
        obtain ⟨u, s3, n3, h3, h⟩ := bind_inv h
        obtain ⟨u, s4, n4, h4, h⟩ := bind_inv h
        exact ih h
      | l + 2 =>
        obtain ⟨u, s2, n2, h2, h⟩ := bind_inv h
        obtain ⟨u, s3, n3, h3, h⟩ := bind_inv h
        obtain ⟨u, s4, n4, h4, h⟩ := bind_inv h
        exact ih h

theorem nexts_nil {code : Nat → RankCode B K (Option Mt) Mt} {fuel : Nat} (hf : 0 < fuel) (k n : Nat) :
    nexts code fuel k ([] : SortedHeap B K V Mt) n = (.ok (List.replicate k (.ok none)), [], n) := by
  induction k with
  | zero => rfl
  | succ k ih =>
    match fuel, hf with
    | fuel + 1, _ =>
      have h1 : nextLoop code (fuel + 1) ([] : SortedHeap B K V Mt) n = (.ok none, [], n) := rfl
      rw [nexts, bind_ok' (catching_apply h1), bind_ok' ih]
      rfl

end FilterSortedIter

end RTree.Calls
