import Verif.Proofs.FCVec
/-!
# The fixed-capacity vector in raw memory (C45, C46, C53)
-/

namespace RTree.Raw

variable {α : Type}

/-! ### Specification: a bounded list -/

/-- The operations of the vector that move elements. -/
inductive VecOp (α : Type) where
  | push (a : α)
  | tryPush (a : α)
  | insert (i : Nat) (a : α)
  | remove (i : Nat)
  | swapRemove (i : Nat)
  | swap (i j : Nat)
  | pop
  | replace (i : Nat) (a : α)

/-- The element an operation hands to the vector. -/
def VecOp.given : VecOp α → List α
  | .push a | .tryPush a | .insert _ a | .replace _ a => [a]
  | _ => []

/-- What each operation does to a list of at most `cap` elements: the new list and the element handed back. -/
def VecOp.spec (cap : Nat) (l : List α) : VecOp α → Res (List α × Option α)
  | .push a => if l.length = cap then .error .vectorFull else .ok (l ++ [a], none)
  | .tryPush a => if l.length = cap then .ok (l, some a) else .ok (l ++ [a], none)
  | .insert i a =>
    if i > l.length then .error .indexOutOfBounds
    else if l.length = cap then .error .vectorFull
    else .ok (l.insertIdx i a, none)
  | .remove i => if h : i < l.length then .ok (l.eraseIdx i, some l[i]) else .error .indexOutOfBounds
  | .swapRemove i =>
    if h : i < l.length then .ok ((l.set i (l[l.length - 1]'(by omega))).dropLast, some l[i])
    else .error .indexOutOfBounds
  | .swap i j =>
    if h : i < l.length ∧ j < l.length then .ok ((l.set i l[j]).set j l[i], none) else .error .indexOutOfBounds
  | .pop => .ok (l.dropLast, l.getLast?)
  | .replace i a => if h : i < l.length then .ok (l.set i a, some l[i]) else .error .indexOutOfBounds

/-- A sequence of operations on the list, with everything handed back. -/
def specRun (cap : Nat) : List α → List (VecOp α) → Res (List α × List α)
  | l, [] => .ok (l, [])
  | l, op :: ops => do
    let (l, out) ← op.spec cap l
    let (l, outs) ← specRun cap l ops
    pure (l, out.toList ++ outs)

/-! ### The same operations on the raw vector -/

/-- One operation of `FCVec`. -/
def VecOp.raw (E : Env) (cap : Nat) (v : FCVec) : VecOp α → M α (FCVec × Option α)
  | .push a => do pure (← v.push E cap a, none)
  | .tryPush a => v.tryPush E cap a
  | .insert i a => do pure (← v.insert E cap i a, none)
  | .remove i => do
    let (v, a) ← v.remove E i
    pure (v, some a)
  | .swapRemove i => do
    let (v, a) ← v.swapRemove E i
    pure (v, some a)
  | .swap i j => do
    v.swap E i j
    pure (v, none)
  | .pop => v.pop E
  | .replace i a => do pure (v, some (← v.set E i a))

/-- A sequence of operations of `FCVec`, with everything handed back. -/
def rawRun (E : Env) (cap : Nat) : FCVec → List (VecOp α) → M α (FCVec × List α)
  | v, [] => pure (v, [])
  | v, op :: ops => do
    let (v, out) ← op.raw E cap v
    let (v, outs) ← rawRun E cap v ops
    pure (v, out.toList ++ outs)

/-- Taking elements from both ends of a by-value iterator: `false` for `next`, `true` for `next_back`. -/
def takeEnds (E : Env) : IntoIter → List Bool → M α (IntoIter × List α)
  | it, [] => pure (it, [])
  | it, back :: bs => do
    let (it, out) ← if back then it.nextBack E else it.next E
    let (it, outs) ← takeEnds E it bs
    pure (it, out.toList ++ outs)

/-- The same on a list: the remaining list and the elements taken. -/
def specEnds : List α → List Bool → List α × List α
  | l, [] => (l, [])
  | l, false :: bs => ((specEnds l.tail bs).1, l.head?.toList ++ (specEnds l.tail bs).2)
  | l, true :: bs => ((specEnds l.dropLast bs).1, l.getLast?.toList ++ (specEnds l.dropLast bs).2)

theorem insertIdx_take_drop (a : α) : ∀ (l : List α) (i : Nat), i ≤ l.length → l.insertIdx i a = l.take i ++ a :: l.drop i
  | l, 0, _ => by simp
  | [], i + 1, h => by simp at h
  | x :: l, i + 1, h => by
    rw [List.insertIdx_succ_cons, insertIdx_take_drop a l i (by simpa using h)]; simp

theorem eraseIdx_perm {l : List α} {i : Nat} (hi : i < l.length) : (l.eraseIdx i ++ [l[i]]).Perm l := by
  rw [List.eraseIdx_eq_take_drop_succ]
  have h : l = l.take i ++ l[i] :: l.drop (i + 1) := by rw [List.getElem_cons_drop, List.take_append_drop]
  conv => rhs; rw [h]
  rw [List.append_assoc]
  exact List.Perm.append_left _ List.perm_append_comm

theorem set_perm {l : List α} {i : Nat} (hi : i < l.length) (b : α) : (l.set i b ++ [l[i]]).Perm (l ++ [b]) := by
  classical
  rw [List.perm_iff_count]
  intro x
  rw [List.count_append, List.count_append, List.count_set hi]
  have : 0 < l.count l[i] := List.count_pos_iff.2 (List.getElem_mem hi)
  simp only [List.count_cons, List.count_nil]
  by_cases hx : l[i] = x
  · subst hx; simp; omega
  · simp [hx]

theorem dropLast_set {l : List α} {i : Nat} (hi : i < l.length - 1) (a : α) : (l.set i a).dropLast = l.dropLast.set i a := by
  refine List.ext_getElem? fun k => ?_
  rw [List.getElem?_dropLast]
  by_cases hki : k = i
  · subst hki
    rw [List.getElem?_set_self (by omega), List.getElem?_set_self (by simp; omega), if_pos (by simpa using hi)]
  · rw [List.getElem?_set_ne (Ne.symm hki), List.getElem?_set_ne (Ne.symm hki), List.getElem?_dropLast]
    simp

section

variable {E : Env} {cap : Nat}

/-- One operation: the raw vector does what the list does, panics exactly when the list does, and touches no other
    allocation. -/
theorem op_refines (hs : 0 < E.size) {h : Heap α} {v : FCVec} {l : List α} (ho : Owns E cap h v l) (op : VecOp α) :
    match op.spec cap l with
    | .ok (l', out) => ∃ v' h', op.raw E cap v h = .ok ((v', out), h') ∧ Owns E cap h' v' l' ∧ SameBut v.buf.block h h' ∧
        v'.buf = v.buf
    | .error e => op.raw E cap v h = .error e ∧ e ≠ .ub := by
  cases op with
  | push a =>
    have := FCVec.push_ok ho hs a
    rw [Vec.push] at this
    simp only [VecOp.spec]
    by_cases hc : l.length = cap
    · rw [if_pos hc] at this ⊢
      exact ⟨bind_err this, by decide⟩
    · rw [if_neg hc] at this ⊢
      obtain ⟨v', h', h1, h2⟩ := this
      exact ⟨v', h', by rw [VecOp.raw, bind_ok h1]; rfl, h2⟩
  | tryPush a =>
    obtain ⟨v', h', h1, h2⟩ := FCVec.tryPush_ok ho hs a
    rw [Vec.tryPush] at h1 h2
    simp only [VecOp.spec]
    by_cases hc : l.length = cap
    · rw [if_pos hc] at h1 h2 ⊢
      exact ⟨v', h', h1, h2⟩
    · rw [if_neg hc] at h1 h2 ⊢
      exact ⟨v', h', h1, h2⟩
  | insert i a =>
    have := FCVec.insert_ok ho hs i a
    rw [Vec.insert] at this
    simp only [VecOp.spec]
    by_cases hi : i > l.length
    · rw [if_pos hi] at this ⊢
      exact ⟨bind_err this, by decide⟩
    · rw [if_neg hi] at this ⊢
      by_cases hc : l.length = cap
      · rw [if_pos hc] at this ⊢
        exact ⟨bind_err this, by decide⟩
      · rw [if_neg hc] at this ⊢
        obtain ⟨v', h', h1, h2⟩ := this
        refine ⟨v', h', by rw [VecOp.raw, bind_ok h1]; rfl, ?_⟩
        rw [insertIdx_take_drop _ _ _ (by omega)]
        exact h2
  | remove i =>
    have := FCVec.remove_ok ho hs i
    rw [Vec.remove] at this
    simp only [VecOp.spec]
    by_cases hi : i < l.length
    · rw [List.getElem?_eq_getElem hi] at this
      rw [dif_pos hi]
      obtain ⟨v', h', h1, h2⟩ := this
      refine ⟨v', h', by rw [VecOp.raw, bind_ok h1]; rfl, ?_⟩
      rw [List.eraseIdx_eq_take_drop_succ]
      exact h2
    · rw [List.getElem?_eq_none (by omega)] at this
      rw [dif_neg hi]
      exact ⟨bind_err this, by decide⟩
  | swapRemove i =>
    have := FCVec.swapRemove_ok ho hs i
    rw [Vec.swapRemove] at this
    simp only [VecOp.spec]
    by_cases hi : i < l.length
    · have hne : l ≠ [] := by intro h0; rw [h0] at hi; simp at hi
      rw [List.getElem?_eq_getElem hi, List.getLast?_eq_some_getLast hne, List.getLast_eq_getElem] at this
      rw [dif_pos hi]
      obtain ⟨v', h', h1, h2⟩ := this
      exact ⟨v', h', by rw [VecOp.raw, bind_ok h1]; rfl, h2⟩
    · rw [List.getElem?_eq_none (by omega)] at this
      rw [dif_neg hi]
      exact ⟨bind_err this, by decide⟩
  | swap i j =>
    have := FCVec.swap_ok ho hs i j
    simp only [VecOp.spec]
    by_cases hij : i < l.length ∧ j < l.length
    · rw [Vec.swap, List.getElem?_eq_getElem hij.1, List.getElem?_eq_getElem hij.2] at this
      rw [dif_pos hij]
      obtain ⟨h', h1, h2, h3⟩ := this
      exact ⟨v, h', by rw [VecOp.raw, bind_ok h1]; rfl, h2, h3, rfl⟩
    · rw [dif_neg hij]
      refine ⟨?_, by decide⟩
      rw [VecOp.raw]
      refine bind_err ?_
      rw [FCVec.swap]
      exact bind_err (panicIf_pos (by rw [ho.len]; omega))
  | pop =>
    have := FCVec.pop_ok ho hs
    rw [Vec.pop] at this
    simp only [VecOp.spec]
    cases hl : l.getLast? with
    | none =>
      rw [hl] at this
      obtain ⟨h1, rfl⟩ := this
      exact ⟨v, h, h1, ho, .refl _ _, rfl⟩
    | some a =>
      rw [hl] at this
      obtain ⟨v', h1, h2, h3⟩ := this
      exact ⟨v', h, h1, h2, .refl _ _, h3⟩
  | replace i a =>
    simp only [VecOp.spec]
    by_cases hi : i < l.length
    · rw [dif_pos hi]
      obtain ⟨h', h1, h2, h3⟩ := FCVec.set_ok ho hs hi a
      exact ⟨v, h', by rw [VecOp.raw, bind_ok h1]; rfl, h2, h3, rfl⟩
    · rw [dif_neg hi]
      refine ⟨?_, by decide⟩
      rw [VecOp.raw]
      refine bind_err ?_
      rw [FCVec.set, ho.len, ite_apply, if_neg hi]
      rfl

theorem run_refines (hs : 0 < E.size) (ops : List (VecOp α)) : ∀ {h : Heap α} {v : FCVec} {l : List α}, Owns E cap h v l →
    match specRun cap l ops with
    | .ok (l', outs) => ∃ v' h', rawRun E cap v ops h = .ok ((v', outs), h') ∧ Owns E cap h' v' l' ∧
        SameBut v.buf.block h h' ∧ v'.buf = v.buf
    | .error e => rawRun E cap v ops h = .error e ∧ e ≠ .ub := by
  induction ops with
  | nil => intro h v l ho; exact ⟨v, h, rfl, ho, .refl _ _, rfl⟩
  | cons op ops ih =>
    intro h v l ho
    have h1 := op_refines hs ho op
    rw [specRun]
    cases hop : op.spec cap l with
    | error e =>
      rw [hop] at h1
      exact ⟨bind_err h1.1, h1.2⟩
    | ok r =>
      obtain ⟨l₁, out⟩ := r
      rw [hop] at h1
      obtain ⟨v₁, h₁, r1, r2, r3, r4⟩ := h1
      have h2 := ih r2
      simp only [ok_bind]
      cases hops : specRun cap l₁ ops with
      | error e =>
        rw [hops] at h2
        exact ⟨by rw [rawRun, bind_ok r1]; exact bind_err h2.1, h2.2⟩
      | ok r =>
        obtain ⟨l₂, outs⟩ := r
        rw [hops] at h2
        obtain ⟨v₂, h₂, s1, s2, s3, s4⟩ := h2
        refine ⟨v₂, h₂, ?_, s2, ?_, s4.trans r4⟩
        · rw [rawRun, bind_ok r1]
          simp only
          rw [bind_ok s1]
          rfl
        · rw [r4] at s3; exact r3.trans s3

/-- The operations of the list conserve elements: given = left + handed back. -/
theorem spec_conserves {l l' : List α} {op : VecOp α} {out : Option α} (h : op.spec cap l = .ok (l', out)) :
    (l' ++ out.toList).Perm (op.given ++ l) := by
  classical
  cases op with
  | push a =>
    simp only [VecOp.spec] at h
    split at h
    · cases h
    · injection h with h; injection h with h1 h2; subst h1 h2
      rw [List.perm_iff_count]; intro x; simp [VecOp.given, List.count_cons]
  | tryPush a =>
    simp only [VecOp.spec] at h
    split at h
    · injection h with h; injection h with h1 h2; subst h1 h2
      rw [List.perm_iff_count]; intro x; simp [VecOp.given, List.count_cons]
    · injection h with h; injection h with h1 h2; subst h1 h2
      rw [List.perm_iff_count]; intro x; simp [VecOp.given, List.count_cons]
  | insert i a =>
    simp only [VecOp.spec] at h
    split at h
    · cases h
    · split at h
      · cases h
      · injection h with h; injection h with h1 h2; subst h1 h2
        simpa [VecOp.given] using List.perm_insertIdx a l (i := i) (by omega)
  | remove i =>
    simp only [VecOp.spec] at h
    split at h
    · rename_i hi
      injection h with h; injection h with h1 h2; subst h1 h2
      simp only [VecOp.given, Option.toList_some, List.nil_append]
      exact eraseIdx_perm hi
    · cases h
  | swapRemove i =>
    simp only [VecOp.spec] at h
    split at h
    · rename_i hi
      injection h with h; injection h with h1 h2; subst h1 h2
      simp only [VecOp.given, Option.toList_some, List.nil_append]
      by_cases hlast : i = l.length - 1
      · subst hlast
        have hne : l ≠ [] := by intro h0; rw [h0] at hi; simp at hi
        rw [List.set_getElem_self]
        have := List.dropLast_concat_getLast hne
        rw [List.getLast_eq_getElem] at this
        rw [this]
      · have hne : l ≠ [] := by intro h0; rw [h0] at hi; simp at hi
        have hsplit := List.dropLast_concat_getLast hne
        rw [List.getLast_eq_getElem] at hsplit
        rw [dropLast_set (by omega)]
        have h3 : (l.dropLast.set i (l[l.length - 1]'(by omega)) ++ [l[i]]).Perm
            (l.dropLast ++ [l[l.length - 1]'(by omega)]) := by
          have hi' : i < l.dropLast.length := by simp; omega
          have e1 : l[i] = l.dropLast[i] := by simp
          rw [e1]
          exact set_perm hi' _
        exact h3.trans (by rw [hsplit])
    · cases h
  | swap i j =>
    simp only [VecOp.spec] at h
    split at h
    · rename_i hij
      injection h with h; injection h with h1 h2; subst h1 h2
      simp only [VecOp.given, Option.toList_none, List.nil_append, List.append_nil]
      rw [List.perm_iff_count]
      intro x
      have h0 : j < (l.set i l[j]).length := by simpa using hij.2
      rw [List.count_set h0, List.count_set hij.1]
      have c1 : 0 < l.count l[i] := List.count_pos_iff.2 (List.getElem_mem hij.1)
      have c2 : 0 < l.count l[j] := List.count_pos_iff.2 (List.getElem_mem hij.2)
      rw [List.getElem_set]
      by_cases hji : i = j
      · subst hji
        by_cases hx : l[i] = x
        · subst hx; simp only [beq_self_eq_true, if_true, List.getElem_set_self]; omega
        · simp [hx]
      · simp only [hji, if_false]
        by_cases hx : l[i] = x <;> by_cases hy : l[j] = x
        · have : l[i] = l[j] := by rw [hx, hy]
          simp only [beq_iff_eq, hx, hy, if_true]
          rw [hx] at c1
          omega
        · simp only [beq_iff_eq, hx, hy, if_true, if_false]
          rw [hx] at c1
          omega
        · simp only [beq_iff_eq, hx, hy, if_true, if_false]
          omega
        · simp [hx, hy]
    · cases h
  | pop =>
    simp only [VecOp.spec] at h
    injection h with h; injection h with h1 h2; subst h1 h2
    simp only [VecOp.given, List.nil_append]
    by_cases hne : l = []
    · subst hne; exact List.Perm.refl _
    · rw [List.getLast?_eq_some_getLast hne, Option.toList_some, List.dropLast_concat_getLast hne]
  | replace i a =>
    simp only [VecOp.spec] at h
    split at h
    · rename_i hi
      injection h with h; injection h with h1 h2; subst h1 h2
      simp only [VecOp.given, Option.toList_some]
      exact (set_perm hi a).trans List.perm_append_comm
    · cases h

theorem specRun_conserves (ops : List (VecOp α)) : ∀ {l l' outs : List α}, specRun cap l ops = .ok (l', outs) →
    (l' ++ outs).Perm (ops.flatMap VecOp.given ++ l) := by
  classical
  induction ops with
  | nil => intro l l' outs h; injection h with h; injection h with h1 h2; subst h1 h2; simp
  | cons op ops ih =>
    intro l l' outs h
    obtain ⟨⟨l₁, out⟩, h1, h⟩ := bind_eq_ok.1 h
    obtain ⟨⟨l₂, outs'⟩, h2, h⟩ := bind_eq_ok.1 h
    injection h with h; injection h with e1 e2; subst e1 e2
    have p1 := spec_conserves h1
    have p2 := ih h2
    rw [List.perm_iff_count] at p1 p2 ⊢
    intro x
    have := p1 x
    have := p2 x
    simp only [List.count_append, List.flatMap_cons] at *
    omega

theorem ends_refines (hs : 0 < E.size) (bs : List Bool) : ∀ {h : Heap α} {it : IntoIter} {l : List α}, OwnsIter E cap h it l →
    ∃ it', takeEnds E it bs h = .ok ((it', (specEnds l bs).2), h) ∧ OwnsIter E cap h it' (specEnds l bs).1 ∧
      it'.buf = it.buf := by
  induction bs with
  | nil => intro h it l ho; exact ⟨it, rfl, ho, rfl⟩
  | cons b bs ih =>
    intro h it l ho
    cases b with
    | false =>
      obtain ⟨it₁, h1, h2, h3⟩ := IntoIter.next_ok ho hs
      obtain ⟨it₂, g1, g2, g3⟩ := ih h2
      refine ⟨it₂, ?_, g2, g3.trans h3⟩
      rw [takeEnds]
      simp only [Bool.false_eq_true, if_false]
      rw [bind_ok h1]
      simp only
      rw [bind_ok g1]
      rfl
    | true =>
      obtain ⟨it₁, h1, h2, h3⟩ := IntoIter.nextBack_ok ho hs
      obtain ⟨it₂, g1, g2, g3⟩ := ih h2
      refine ⟨it₂, ?_, g2, g3.trans h3⟩
      rw [takeEnds]
      simp only [if_true]
      rw [bind_ok h1]
      simp only
      rw [bind_ok g1]
      rfl

theorem specEnds_conserves (bs : List Bool) : ∀ (l : List α), ((specEnds l bs).2 ++ (specEnds l bs).1).Perm l := by
  classical
  induction bs with
  | nil => intro l; exact List.Perm.refl _
  | cons b bs ih =>
    intro l
    cases b with
    | false =>
      have := ih l.tail
      rw [List.perm_iff_count] at this ⊢
      intro x
      have := this x
      cases l with
      | nil => simpa [specEnds] using this
      | cons a l => simp only [specEnds, List.count_append, List.head?_cons, Option.toList_some, List.count_cons, List.count_nil,
          List.tail_cons] at *; omega
    | true =>
      have := ih l.dropLast
      by_cases hne : l = []
      · subst hne; simpa [specEnds] using this
      · have e := List.dropLast_concat_getLast hne
        rw [List.perm_iff_count] at this ⊢
        intro x
        have := this x
        have h3 := congrArg (List.count x) e
        simp only [specEnds, List.count_append, List.getLast?_eq_some_getLast hne, Option.toList_some] at *
        omega

/-! ### C45 -/

/-- C45: for every element size of at least one byte, every capacity for which a vector can be allocated, every state of
    memory and every sequence of operations, the vector gives back what a list bounded by the capacity gives back and
    then holds what the list holds; it panics exactly where the list operation panics, never has undefined
    behaviour (out-of-allocation access, uninitialised read), and leaves every other allocation alone. -/
theorem C45_vector_refines_list (hs : 0 < E.size) (hm : cap * E.size ≤ E.maxBytes) (hc : 0 < cap) (ops : List (VecOp α))
    (h : Heap α) :
    match specRun cap [] ops with
    | .ok (l, outs) => ∃ v h', (do rawRun E cap (← FCVec.new E cap) ops : M α _) h = .ok ((v, outs), h') ∧
        v.slice E h' = .ok (l, h') ∧ v.len = l.length ∧ h'.length = (gapped E h).length + 1 ∧ ∀ j, j < (gapped E h).length → h'[j]? = (gapped E h)[j]?
    | .error e => (do rawRun E cap (← FCVec.new E cap) ops : M α _) h = .error e ∧ e ≠ .ub := by
  obtain ⟨v, x, n1, n2, n3⟩ := FCVec.new_ok (E := E) (cap := cap) h hm (.inl (Nat.mul_pos hc hs))
  have := run_refines hs ops n2
  cases hr : specRun cap [] ops with
  | error e => rw [hr] at this; exact ⟨by rw [bind_ok n1]; exact this.1, this.2⟩
  | ok r =>
    obtain ⟨l, outs⟩ := r
    rw [hr] at this
    obtain ⟨v', h', r1, r2, r3, r4⟩ := this
    refine ⟨v', h', by rw [bind_ok n1]; exact r1, FCVec.slice_ok r2 hs, r2.len, by rw [r3.1]; simp, fun j hj => ?_⟩
    rw [r3.2 j (by omega), List.getElem?_append_left hj]

/-- A vector is created, used, iterated by value from both ends, and the iterator dropped: what was handed back, what
    was yielded, what was dropped. -/
def lifeByIteration (E : Env) (cap : Nat) (ops : List (VecOp α)) (ends : List Bool) : M α (List α × List α × List α) := do
  let (v, outs) ← rawRun E cap (← FCVec.new E cap) ops
  let it ← IntoIter.new E cap v
  let (it, taken) ← takeEnds E it ends
  let dropped ← it.drop E
  pure (outs, taken, dropped)

/-- C45: the whole life of a vector, ended by by-value iteration from both ends (`ends`: which end each call takes from)
    and dropping the iterator.  Every element handed in is handed back, yielded or dropped exactly once, in the order of
    a list; the allocation is freed; the rest of memory is as before. -/
theorem C45_life_by_iteration (hs : 0 < E.size) (hm : cap * E.size ≤ E.maxBytes) (hc : 0 < cap) {ops : List (VecOp α)}
    {l outs : List α} (hspec : specRun cap [] ops = .ok (l, outs)) (ends : List Bool) (h : Heap α) :
    ∃ dropped, lifeByIteration E cap ops ends h = .ok ((outs, (specEnds l ends).2, dropped), gapped E h ++ [none]) ∧
      dropped = (specEnds l ends).1 ∧
      (outs ++ (specEnds l ends).2 ++ dropped).Perm (ops.flatMap VecOp.given) := by
  classical
  obtain ⟨v, x, n1, n2, n3⟩ := FCVec.new_ok (E := E) (cap := cap) h hm (.inl (Nat.mul_pos hc hs))
  have := run_refines hs ops n2
  rw [hspec] at this
  obtain ⟨v', h', r1, r2, r3, r4⟩ := this
  obtain ⟨it, i1, i2, i3⟩ := IntoIter.new_ok r2
  obtain ⟨it', e1, e2, e3⟩ := ends_refines hs ends i2
  refine ⟨_, ?_, rfl, ?_⟩
  · rw [lifeByIteration, bind_ok n1, bind_ok r1]
    simp only
    rw [bind_ok i1, bind_ok e1]
    simp only
    rw [bind_ok (IntoIter.drop_ok e2 hs)]
    simp only [pure_apply]
    congr 2
    refine List.ext_getElem? fun j => ?_
    rw [e3, i3, r4, n3]
    have hl : h'.length = (gapped E h).length + 1 := by rw [r3.1]; simp
    rcases Nat.lt_trichotomy j (gapped E h).length with hj | hj | hj
    · rw [List.getElem?_set_ne (by omega), r3.2 j (by omega), List.getElem?_append_left hj, List.getElem?_append_left hj]
    · subst hj
      rw [List.getElem?_set_self (by omega)]; simp
    · rw [List.getElem?_eq_none (by simp; omega), List.getElem?_eq_none (by simp; omega)]
  · have p1 := specRun_conserves ops hspec
    have p2 := specEnds_conserves ends l
    rw [List.perm_iff_count] at p1 p2 ⊢
    intro x
    have := p1 x
    have := p2 x
    simp only [List.count_append, List.append_nil] at *
    omega

/-- C45: the whole life of a vector, ended by dropping it: every element handed in is handed back or dropped exactly once,
    last element first, and the allocation is freed. -/
theorem C45_life_by_drop (hs : 0 < E.size) (hm : cap * E.size ≤ E.maxBytes) (hc : 0 < cap) {ops : List (VecOp α)}
    {l outs : List α} (hspec : specRun cap [] ops = .ok (l, outs)) (h : Heap α) :
    (do
        let (v, outs) ← rawRun E cap (← FCVec.new E cap) ops
        let dropped ← v.drop E cap
        pure (outs, dropped) : M α _) h = .ok ((outs, l.reverse), gapped E h ++ [none]) ∧
      (outs ++ l.reverse).Perm (ops.flatMap VecOp.given) := by
  classical
  obtain ⟨v, x, n1, n2, n3⟩ := FCVec.new_ok (E := E) (cap := cap) h hm (.inl (Nat.mul_pos hc hs))
  have := run_refines hs ops n2
  rw [hspec] at this
  obtain ⟨v', h', r1, r2, r3, r4⟩ := this
  constructor
  · rw [bind_ok n1, bind_ok r1]
    simp only
    rw [bind_ok (FCVec.drop_ok r2 hs)]
    simp only [pure_apply]
    congr 2
    refine List.ext_getElem? fun j => ?_
    rw [r4, n3]
    have hl : h'.length = (gapped E h).length + 1 := by rw [r3.1]; simp
    rcases Nat.lt_trichotomy j (gapped E h).length with hj | hj | hj
    · rw [List.getElem?_set_ne (by omega), r3.2 j (by omega), List.getElem?_append_left hj, List.getElem?_append_left hj]
    · subst hj
      rw [List.getElem?_set_self (by omega)]; simp
    · rw [List.getElem?_eq_none (by simp; omega), List.getElem?_eq_none (by simp; omega)]
  · have p1 := specRun_conserves ops hspec
    rw [List.perm_iff_count] at p1 ⊢
    intro x
    have := p1 x
    simp only [List.count_append, List.append_nil, List.count_reverse] at *
    omega

/-- C45: cloning a vector gives a second vector, in an allocation of its own, with a clone of each element in order; the
    first vector still has its elements. -/
theorem C45_clone (hs : 0 < E.size) (hm : cap * E.size ≤ E.maxBytes) (hc : 0 < cap) {ops : List (VecOp α)}
    {l outs : List α} (hspec : specRun cap [] ops = .ok (l, outs)) (cl : α → α) (h : Heap α) :
    ∃ v v' h', (do
        let (v, _) ← rawRun E cap (← FCVec.new E cap) ops
        let v' ← v.clone E cap cl
        pure (v, v') : M α _) h = .ok ((v, v'), h') ∧
      v.slice E h' = .ok (l, h') ∧ v'.slice E h' = .ok (l.map cl, h') ∧ v.buf.block ≠ v'.buf.block := by
  obtain ⟨v, x, n1, n2, n3⟩ := FCVec.new_ok (E := E) (cap := cap) h hm (.inl (Nat.mul_pos hc hs))
  have := run_refines hs ops n2
  rw [hspec] at this
  obtain ⟨v₁, h₁, r1, r2, r3, r4⟩ := this
  obtain ⟨v₂, h₂, c1, c2, c3, c4, c5⟩ := FCVec.clone_ok r2 hs cl r2.fits r2.layout r2.nonzero
  refine ⟨v₁, v₂, h₂, ?_, FCVec.slice_ok c3 hs, FCVec.slice_ok c2 hs, by have := r2.alive; have := gapped_length E h₁; omega⟩
  rw [bind_ok n1, bind_ok r1]
  simp only
  rw [bind_ok c1]
  rfl

/-- C45: the size hint of the by-value iterator is the number of elements it has left. -/
theorem C45_size_hint (hs : 0 < E.size) (hm : cap * E.size ≤ E.maxBytes) (hc : 0 < cap) {ops : List (VecOp α)}
    {l outs : List α} (hspec : specRun cap [] ops = .ok (l, outs)) (ends : List Bool) (h : Heap α) :
    ∃ h', (do
        let (v, _) ← rawRun E cap (← FCVec.new E cap) ops
        let (it, _) ← takeEnds E (← IntoIter.new E cap v) ends
        it.sizeHint E : M α _) h = .ok ((specEnds l ends).1.length, h') := by
  obtain ⟨v, x, n1, n2, n3⟩ := FCVec.new_ok (E := E) (cap := cap) h hm (.inl (Nat.mul_pos hc hs))
  have := run_refines hs ops n2
  rw [hspec] at this
  obtain ⟨v', h', r1, r2, r3, r4⟩ := this
  obtain ⟨it, i1, i2, i3⟩ := IntoIter.new_ok r2
  obtain ⟨it', e1, e2, e3⟩ := ends_refines hs ends i2
  refine ⟨h', ?_⟩
  rw [bind_ok n1, bind_ok r1]
  simp only
  rw [bind_ok i1, bind_ok e1]
  exact IntoIter.sizeHint_ok e2 hs

/-- An 8-byte element type on a 64-bit machine. -/
def env8 : Env := ⟨8, 2 ^ 63 - 1, false, fun _ => 0⟩

/-- A concrete history: four elements kept out of eight handed in, then taken from both ends. -/
def someOps : List (VecOp Nat) :=
  [.push 10, .push 11, .insert 1 12, .tryPush 13, .tryPush 14, .swap 0 3, .remove 1, .push 15, .swapRemove 0, .pop, .pop,
   .push 16, .replace 0 17, .push 18, .insert 0 19]

example : specRun 4 [] someOps = .ok ([19, 17, 16, 18], [14, 12, 13, 10, 11, 15]) := rfl
example : specEnds [19, 17, 16, 18] [true, false, true] = ([17], [18, 19, 16]) := rfl

/-- The hypotheses of the theorems above are met, and memory may already hold other blocks. -/
example : ∃ dropped, lifeByIteration env8 4 someOps [true, false, true] [none, some ⟨8, [some 5]⟩] =
      .ok (([14, 12, 13, 10, 11, 15], [18, 19, 16], dropped), [none, some ⟨8, [some 5]⟩] ++ [none]) ∧ dropped = [17] := by
  obtain ⟨d, h1, h2, h3⟩ := C45_life_by_iteration (E := env8) (cap := 4) (by decide) (by decide) (by decide)
    (ops := someOps) (l := [19, 17, 16, 18]) (outs := [14, 12, 13, 10, 11, 15]) rfl [true, false, true]
    [none, some ⟨8, [some 5]⟩]
  have e : specEnds [19, 17, 16, 18] [true, false, true] = ([17], [18, 19, 16]) := rfl
  rw [e] at h1 h2
  exact ⟨d, h1, h2⟩

/-- Operations that panic: the third push into a vector of capacity two. -/
example : specRun 2 [] [VecOp.push 1, .push 2, .push 3] = .error .vectorFull := rfl

end

/-! ### C46: zero-sized elements -/

/-- A zero-sized element type, with an allocator that tolerates requests for zero bytes. -/
def envZero : Env := ⟨0, 2 ^ 63 - 1, true, fun _ => 0⟩

/-- C46 fails: a vector of three zero-sized elements yields none of them by value, and dropping the iterator drops none of
    them either (they are lost). -/
theorem C46_zero_sized_refuted :
    (do
      let (v, _) ← rawRun envZero 4 (← FCVec.new envZero 4) [.push (), .push (), .push ()]
      let it ← IntoIter.new envZero 4 v
      let (it, first) ← it.next envZero
      let dropped ← it.drop envZero
      pure (v.len, first, dropped) : M Unit _) [] = .ok ((3, none, []), [none]) := rfl

/-- C46 fails also because asking for the size hint divides by zero. -/
theorem C46_size_hint_refuted :
    (do
      let (v, _) ← rawRun envZero 4 (← FCVec.new envZero 4) [.push (), .push (), .push ()]
      let it ← IntoIter.new envZero 4 v
      it.sizeHint envZero : M Unit _) [] = .error .arithmetic := rfl

/-- C46, the part that holds: elements of at least one byte are all yielded, in order. -/
theorem C46_sized_partial {E : Env} {cap : Nat} (hs : 0 < E.size) (hm : cap * E.size ≤ E.maxBytes) (hc : 0 < cap)
    {ops : List (VecOp α)} {l outs : List α} (hspec : specRun cap [] ops = .ok (l, outs)) (h : Heap α) :
    ∃ h', (do
        let (v, _) ← rawRun E cap (← FCVec.new E cap) ops
        let it ← IntoIter.new E cap v
        let (_, taken) ← takeEnds E it (List.replicate l.length false)
        pure taken : M α _) h = .ok (l, h') := by
  obtain ⟨v, x, n1, n2, n3⟩ := FCVec.new_ok (E := E) (cap := cap) h hm (.inl (Nat.mul_pos hc hs))
  have := run_refines hs ops n2
  rw [hspec] at this
  obtain ⟨v', h', r1, r2, r3, r4⟩ := this
  obtain ⟨it, i1, i2, i3⟩ := IntoIter.new_ok r2
  obtain ⟨it', e1, e2, e3⟩ := ends_refines hs (List.replicate l.length false) i2
  have hall : ∀ l : List α, (specEnds l (List.replicate l.length false)).2 = l := by
    intro l
    induction l with
    | nil => rfl
    | cons a l ih => simp [specEnds, List.replicate_succ, ih]
  refine ⟨h', ?_⟩
  rw [bind_ok n1, bind_ok r1]
  simp only
  rw [bind_ok i1, bind_ok e1, hall]
  rfl

/-! ### C53: what is asked of the allocator -/

/-- C53 fails: a vector of capacity zero (`max_children = 0`), and a vector of zero-sized elements, ask the allocator for
    zero bytes, which its contract forbids. -/
theorem C53_zero_bytes_refuted (h : Heap α) :
    (FCVec.new env8 0 : M α _) h = .error .ub ∧ (FCVec.new { envZero with zeroOk := false } 4 : M α _) h = .error .ub := by
  constructor <;> rfl

/-- C53, the part that holds: with a positive capacity and elements of at least one byte, creating a vector either panics
    because the layout would exceed `isize::MAX` bytes, or makes one allocation of exactly the right size. -/
theorem C53_new_partial {E : Env} {cap : Nat} (hs : 0 < E.size) (hc : 0 < cap) (h : Heap α) :
    (FCVec.new E cap : M α _) h =
      if cap * E.size ≤ E.maxBytes then
        .ok (⟨⟨(gapped E h).length, 0⟩, 0⟩, gapped E h ++ [some ⟨cap * E.size, List.replicate cap none⟩])
      else .error .unwrapNone := by
  by_cases hm : cap * E.size ≤ E.maxBytes
  · rw [if_pos hm]
    have hl : (layoutArray E cap : M α Nat) h = .ok (cap * E.size, h) := by simp [layoutArray, hm]
    have hp : 0 < cap * E.size := Nat.mul_pos hc hs
    have ha : (alloc E cap : M α Ptr) h = .ok (⟨(gapped E h).length, 0⟩, gapped E h ++ [some ⟨cap * E.size, List.replicate cap none⟩]) := by
      rw [alloc, bind_ok hl, bind_ok (panicIf_neg (by omega))]
      rfl
    rw [FCVec.new, bind_ok ha]
    rfl
  · rw [if_neg hm]
    have hl : (layoutArray E cap : M α Nat) h = .error .unwrapNone := by simp [layoutArray, hm]
    rw [FCVec.new]
    refine bind_err ?_
    rw [alloc]
    exact bind_err hl

end RTree.Raw
