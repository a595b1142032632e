import Verif.Model.Vec
/-! Lemmas about the list-level vector operations. -/

namespace RTree.Vec

variable {α : Type}

theorem perm_set (l : List α) (i : Nat) (h : i < l.length) (z : α) :
    (l[i] :: l.set i z).Perm (z :: l) := by
  induction l generalizing i with
  | nil => simp at h
  | cons a l ih =>
    cases i with
    | zero => simpa using List.Perm.swap z a l
    | succ i =>
      simp only [List.getElem_cons_succ, List.set_cons_succ]
      have h' : i < l.length := by simpa using h
      exact (List.Perm.swap _ _ _).trans (((ih i h').cons a).trans (List.Perm.swap _ _ _))

theorem swapRemove_spec (l : List α) (i : Nat) (h : i < l.length) :
    ∃ l', swapRemove l i = .ok (l[i], l') ∧ (l[i] :: l').Perm l ∧ l'.length + 1 = l.length ∧
      l'.take i = l.take i := by
  have hne : l ≠ [] := by rintro rfl; simp at h
  refine ⟨(l.set i (l.getLast hne)).dropLast, ?_, ?_, ?_, ?_⟩
  · simp [swapRemove, h, List.getLast?_eq_some_getLast hne]
  · have h1 := perm_set l i h (l.getLast hne)
    have hne' : l.set i (l.getLast hne) ≠ [] := by simpa using hne
    have hlast : (l.set i (l.getLast hne)).getLast hne' = l.getLast hne := by
      rw [List.getLast_eq_getElem, List.getElem_set]
      split
      · rfl
      · simp [List.getLast_eq_getElem]
    have h2 : (l.set i (l.getLast hne)).Perm (l.getLast hne :: (l.set i (l.getLast hne)).dropLast) := by
      conv => lhs; rw [← List.dropLast_concat_getLast hne', hlast]
      exact List.perm_append_singleton _ _
    have h3 := (h2.cons l[i]).symm.trans h1
    exact ((List.Perm.swap _ _ _).trans h3).cons_inv
  · simp; have : 0 < l.length := by omega
    omega
  · rw [List.dropLast_eq_take, List.take_take, List.take_set_of_le (by omega)]
    congr 1; simp; omega

theorem swap_spec (l : List α) (i j : Nat) (hi : i < l.length) (hj : j < l.length) :
    ∃ l', swap l i j = .ok l' ∧ l'.Perm l ∧ l'.length = l.length ∧
      l' = (l.set i l[j]).set j l[i] := by
  refine ⟨_, by simp [swap, hi, hj], ?_, by simp, rfl⟩
  have h1 := perm_set l i hi l[j]
  have h2 := perm_set (l.set i l[j]) j (by simpa) l[i]
  have hx : (l.set i l[j])[j]'(by simpa) = l[j] := by
    rw [List.getElem_set]; split
    · subst_vars; rfl
    · rfl
  rw [hx] at h2
  exact (h2.trans h1).cons_inv

theorem clone_spec (cap : Nat) (l : List α) (h : l.length ≤ cap) : clone cap l = .ok l := by
  have key : ∀ (l acc : List α), acc.length + l.length ≤ cap →
      l.foldlM (fun acc a => push cap acc a) acc = .ok (acc ++ l) := by
    intro l
    induction l with
    | nil => intro acc _; simp
    | cons a l ih =>
      intro acc h
      simp only [List.length_cons] at h
      rw [List.foldlM_cons]
      have : push cap acc a = .ok (acc ++ [a]) := by
        unfold push; rw [if_neg (by omega)]
      rw [this]
      show List.foldlM _ (acc ++ [a]) l = _
      rw [ih _ (by simp; omega)]; simp
  unfold clone
  rw [if_neg (by omega)]
  simpa using key l [] (by simpa using h)

end RTree.Vec
