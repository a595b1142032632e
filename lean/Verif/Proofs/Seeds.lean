import Verif.Proofs.Split
import Verif.Model.Geom
import Verif.Proofs.Volume
/-! The seeds of a split. -/

namespace RTree

variable {N : Type} {D : Nat} [Scalar N] {α : Type}

/-- A scan for the greatest. -/
theorem foldlM_greatest {β γ : Type} {g : β → Res XRat} {upd : XRat × γ → β → γ} {I : XRat × γ → Prop} {xs : List β}
    (hI : ∀ a x w, x ∈ xs → I a → g x = .ok w → a.1 < w → I (w, upd a x)) {a a' : XRat × γ} (ha : I a)
    (h : xs.foldlM (fun (a : XRat × γ) x => (g x >>= fun w => if decide (a.1 < w) = true then pure (w, upd a x) else pure a : Res (XRat × γ))) a = .ok a') :
    I a' ∧ a.1 ≤ a'.1 ∧ ∀ x ∈ xs, ∃ w, g x = .ok w ∧ w ≤ a'.1 := by
  induction xs generalizing a with
  | nil => cases h; exact ⟨ha, le_refl _, by simp⟩
  | cons x xs ih =>
    rw [List.foldlM_cons] at h
    obtain ⟨b, hb, h⟩ := bind_eq_ok.1 h
    obtain ⟨w, hw, hb⟩ := bind_eq_ok.1 hb
    by_cases hlt : a.1 < w
    · rw [if_pos (decide_eq_true hlt)] at hb
      cases hb
      obtain ⟨h1, h2, h3⟩ := ih (fun a y w hy => hI a y w (List.mem_cons_of_mem _ hy)) (hI a x w List.mem_cons_self ha hw hlt) h
      refine ⟨h1, le_trans hlt.le h2, fun y hy => ?_⟩
      rcases List.mem_cons.1 hy with rfl | hy
      · exact ⟨w, hw, h2⟩
      · exact h3 y hy
    · rw [if_neg (by simp [hlt])] at hb
      cases hb
      obtain ⟨h1, h2, h3⟩ := ih (fun a y w hy => hI a y w (List.mem_cons_of_mem _ hy)) ha h
      refine ⟨h1, h2, fun y hy => ?_⟩
      rcases List.mem_cons.1 hy with rfl | hy
      · exact ⟨w, hw, le_trans (not_lt.1 hlt) h2⟩
      · exact h3 y hy

/-- The volume of the common bounds of two values and the overflow value. -/
def tripleVolume (bf : α → AABB N D) (overflow x y : α) : Option XRat := ((bf x).union ((bf y).union (bf overflow))).volume

theorem AABB.union_same (a : AABB N D) : a.union a = a := by
  cases a with
  | mk lo hi => exact congrArg₂ AABB.mk (SVec.ext (funext fun i => min_self _)) (SVec.ext (funext fun i => max_self _))

/-- What `worst_combination` finds. -/
theorem worstCombination_spec {bf : α → AABB N D} {values : List α} {overflow : α} {i j : Nat}
    (h : worstCombination bf values overflow = .ok (i, j)) :
    ∃ (x y : α) (v : XRat), i < j ∧ values[i]? = some x ∧ (values ++ [overflow])[j]? = some y ∧ tripleVolume bf overflow x y = some v ∧
      (∀ z ∈ values, ∃ w, tripleVolume bf overflow z overflow = some w ∧ w ≤ v) ∧
      (∀ (i' j' : Nat) (z z' : α), i' < j' → values[i']? = some z → values[j']? = some z' → ∃ w, tripleVolume bf overflow z z' = some w ∧ w ≤ v) ∧
      (j = values.length ∨ ∀ z ∈ values, ∀ w, tripleVolume bf overflow z overflow = some w → w < v) := by
  unfold worstCombination at h
  cases hv : values with
  | nil => subst hv; cases h
  | cons v0 vs =>
  rw [← hv]
  have hpos : 0 < values.length := by simp [hv]
  rw [if_neg (by simp [hv])] at h
  obtain ⟨(a₁ : XRat × Nat × Nat), h1, h⟩ := bind_eq_ok.1 (show (do
    let acc ← values.zipIdx.foldlM (worstWithOverflow bf overflow) ((⊥ : XRat), 0, values.length)
    let acc ← (pairIndices values.length).foldlM (worstPair bf values overflow) acc
    pure (acc.2.1, acc.2.2)) = .ok (i, j) from h)
  obtain ⟨(a₂ : XRat × Nat × Nat), h2, h⟩ := bind_eq_ok.1 h
  cases h
  have k1 := foldlM_greatest (g := fun iv : α × Nat => arith (AABB.volume ((bf iv.1).union (bf overflow)))) (upd := fun (a : XRat × Nat × Nat) (iv : α × Nat) => (iv.2, a.2.2))
    (I := fun a : XRat × Nat × Nat => a.2.2 = values.length ∧ (a.1 = ⊥ ∧ a.2.1 = 0 ∨ ∃ x, values[a.2.1]? = some x ∧ tripleVolume bf overflow x overflow = some a.1))
    (xs := values.zipIdx) (a := (⊥, 0, values.length)) (a' := a₁) ?_ ⟨rfl, .inl ⟨rfl, rfl⟩⟩ h1
  swap
  · intro a iv w hiv ha hw _
    refine ⟨ha.1, .inr ⟨iv.1, ?_, ?_⟩⟩
    · exact List.mem_zipIdx_iff_getElem?.1 hiv
    · rw [arith_eq_ok] at hw
      rw [tripleVolume, AABB.union_same]; exact hw
  obtain ⟨⟨k11, k12⟩, -, k13⟩ := k1
  have hov : ∀ z ∈ values, ∃ w, tripleVolume bf overflow z overflow = some w ∧ w ≤ a₁.1 := by
    intro z hz
    obtain ⟨n, hn, rfl⟩ := List.getElem_of_mem hz
    obtain ⟨w, hw, hle⟩ := k13 (values[n], n) (List.mem_zipIdx_iff_getElem?.2 (by simp [hn]))
    rw [arith_eq_ok] at hw
    exact ⟨w, by rw [tripleVolume, AABB.union_same]; exact hw, hle⟩
  have k2 : ∃ x, values[a₁.2.1]? = some x ∧ tripleVolume bf overflow x overflow = some a₁.1 := by
    rcases k12 with ⟨e1, e2⟩ | hx
    · obtain ⟨w, hw, hle⟩ := hov v0 (by simp [hv])
      rw [e1, le_bot_iff] at hle
      exact ⟨v0, by rw [e2, hv]; rfl, by rw [e1, hw, hle]⟩
    · exact hx
  have k3 := foldlM_greatest (g := fun ij : Nat × Nat => (do
      let vi ← index values ij.1
      let vj ← index values ij.2
      arith (AABB.volume ((bf vi).union ((bf vj).union (bf overflow)))) : Res XRat)) (upd := fun (_ : XRat × Nat × Nat) (ij : Nat × Nat) => ij)
    (I := fun a : XRat × Nat × Nat => a₁.1 ≤ a.1 ∧ ((a.2.2 = values.length ∧ ∃ x, values[a.2.1]? = some x ∧ tripleVolume bf overflow x overflow = some a.1) ∨
      (a.2.1 < a.2.2 ∧ a₁.1 < a.1 ∧ ∃ x y, values[a.2.1]? = some x ∧ values[a.2.2]? = some y ∧ tripleVolume bf overflow x y = some a.1)))
    (xs := pairIndices values.length) (a := a₁) (a' := a₂) ?_ ⟨le_refl _, .inl ⟨k11, k2⟩⟩ ?_
  rotate_left
  · intro a ij w hij ha hw hlt
    refine ⟨le_trans ha.1 hlt.le, .inr ⟨?_, lt_of_le_of_lt ha.1 hlt, ?_⟩⟩
    · simp only [pairIndices, List.mem_flatMap, List.mem_map, List.mem_range, List.mem_range'_1] at hij
      obtain ⟨i, hi, j, hj, rfl⟩ := hij
      exact hj.1
    · obtain ⟨x, hx, hw⟩ := bind_eq_ok.1 hw
      obtain ⟨y, hy, hw⟩ := bind_eq_ok.1 hw
      rw [arith_eq_ok] at hw
      refine ⟨x, y, ?_, ?_, hw⟩
      · unfold index at hx; split at hx <;> simp_all
      · unfold index at hy; split at hy <;> simp_all
  · refine (Eq.trans ?_ h2)
    congr 1
    funext a ij
    simp only [worstPair, bind_assoc]
    rfl
  obtain ⟨⟨k31, k32⟩, -, k33⟩ := k3
  have hpair : ∀ (i' j' : Nat) (z z' : α), i' < j' → values[i']? = some z → values[j']? = some z' → ∃ w, tripleVolume bf overflow z z' = some w ∧ w ≤ a₂.1 := by
    intro i' j' z z' hlt hz hz'
    have hj := (List.getElem?_eq_some_iff.1 hz').1
    obtain ⟨w, hw, hle⟩ := k33 (i', j') (by
      simp only [pairIndices, List.mem_flatMap, List.mem_map, List.mem_range, List.mem_range'_1]
      exact ⟨i', by omega, j', ⟨by omega, by omega⟩, rfl⟩)
    simp only [index, hz, hz'] at hw
    have hw := arith_eq_ok.1 hw
    exact ⟨w, hw, hle⟩
  rcases k32 with ⟨e, x, hx, hvol⟩ | ⟨hlt, hlt', x, y, hx, hy, hvol⟩
  · refine ⟨x, overflow, a₂.1, ?_, hx, ?_, hvol, fun z hz => ?_, hpair, .inl e⟩
    · rw [e]; exact (List.getElem?_eq_some_iff.1 hx).1
    · rw [e]; simp
    · obtain ⟨w, hw, hle⟩ := hov z hz
      exact ⟨w, hw, le_trans hle k31⟩
  · refine ⟨x, y, a₂.1, hlt, hx, ?_, hvol, fun z hz => ?_, hpair, .inr fun z hz w hw => ?_⟩
    · rw [List.getElem?_append_left (List.getElem?_eq_some_iff.1 hy).1]; exact hy
    · obtain ⟨w, hw, hle⟩ := hov z hz
      exact ⟨w, hw, le_trans hle k31⟩
    · obtain ⟨w', hw', hle⟩ := hov z hz
      rw [hw] at hw'
      cases hw'
      exact lt_of_le_of_lt hle hlt'

/-- The seeds are moved to the heads of the groups. -/
theorem seedSplitGroups_heads {B : Type} [Bounds B] [Volume B] {bf : α → B} {values vs : List α} {overflow s : α} (h : seedSplitGroups bf values overflow = .ok (vs, s)) :
    ∃ i j, worstCombination bf values overflow = .ok (i, j) ∧ (∀ x, values[i]? = some x → i < j → vs[0]? = some x) ∧
      (∀ y, (values ++ [overflow])[j]? = some y → i < j → s = y) := by
  unfold seedSplitGroups at h
  obtain ⟨⟨i, j⟩, h1, h⟩ := bind_eq_ok.1 h
  obtain ⟨l, h2, h⟩ := bind_eq_ok.1 h
  refine ⟨i, j, h1, ?_⟩
  unfold Vec.swap at h2
  split at h2
  swap
  · cases h2
  next a b ha hb =>
  cases h2
  have hi := (List.getElem?_eq_some_iff.1 hb).1
  have h0 := (List.getElem?_eq_some_iff.1 ha).1
  have hl0 : ((values.set 0 b).set i a)[0]? = some b := by
    rw [List.getElem?_set]
    split
    · next e => subst e; rw [if_pos (by simpa using h0)]; rw [ha] at hb; exact hb
    · rw [List.getElem?_set, if_pos rfl, if_pos h0]
  have hlen : ((values.set 0 b).set i a).length = values.length := by simp
  by_cases hj : j < ((values.set 0 b).set i a).length
  · rw [if_pos hj] at h
    obtain ⟨y, hy, h⟩ := bind_eq_ok.1 h
    cases h
    have hy : ((values.set 0 b).set i a)[j]? = some s := by
      unfold index at hy; split at hy
      · next hq => cases hy; exact hq
      · cases hy
    refine ⟨fun x hx hij => ?_, fun y' hy' hij => ?_⟩
    · rw [List.getElem?_set, if_neg (by omega), hl0, ← hb, hx]
    · rw [List.getElem?_set, if_neg (by omega), List.getElem?_set, if_neg (by omega)] at hy
      rw [List.getElem?_append_left (by omega), hy] at hy'
      exact Option.some.inj hy'
  · rw [if_neg hj] at h
    cases h
    refine ⟨fun x hx hij => ?_, fun y' hy' hij => ?_⟩
    · rw [hl0, ← hb, hx]
    · rw [List.getElem?_append_right (by omega)] at hy'
      have := (List.getElem?_eq_some_iff.1 hy').1
      simp at this
      have hj' : j - values.length = 0 := by omega
      rw [hj'] at hy'
      exact Option.some.inj hy'

theorem splitStep_heads {B : Type} [Bounds B] [Volume B] {bf : α → B} {minC cap : Nat} {s s' : SplitState B α} {x y : α} (h : splitStep bf minC cap s = .ok s')
    (hg : 1 ≤ s.group1Len) (hx : s.values[0]? = some x) (hy : s.group2[0]? = some y) :
    1 ≤ s'.group1Len ∧ s'.values[0]? = some x ∧ s'.group2[0]? = some y := by
  unfold splitStep at h
  obtain ⟨o1, -, h⟩ := bind_eq_ok.1 h
  obtain ⟨c1, -, h⟩ := bind_eq_ok.1 h
  obtain ⟨o2, -, h⟩ := bind_eq_ok.1 h
  obtain ⟨c2, -, h⟩ := bind_eq_ok.1 h
  dsimp only at h
  generalize (if Volume.lt (B := B) c1.2 c2.2 = true then _ else _ : Bool) = p at h
  cases p with
  | true =>
    rw [if_pos rfl] at h
    obtain ⟨v, -, h⟩ := bind_eq_ok.1 h
    obtain ⟨l, h2, h⟩ := bind_eq_ok.1 h
    cases h
    refine ⟨by simp, ?_, hy⟩
    unfold Vec.swap at h2
    split at h2
    · cases h2
      rw [List.getElem?_set, if_neg (by omega), List.getElem?_set, if_neg (by omega)]
      exact hx
    · cases h2
  | false =>
    rw [if_neg (by simp)] at h
    obtain ⟨v, -, h⟩ := bind_eq_ok.1 h
    obtain ⟨⟨z, l⟩, h2, h⟩ := bind_eq_ok.1 h
    obtain ⟨g2, h3, h⟩ := bind_eq_ok.1 h
    cases h
    refine ⟨hg, ?_, ?_⟩
    · unfold Vec.swapRemove at h2
      split at h2
      · next a b ha hb =>
        cases h2
        have := (List.getElem?_eq_some_iff.1 ha).1
        show ((s.values.set _ b).dropLast)[0]? = _
        rw [List.getElem?_dropLast, if_pos (by simp; omega), List.getElem?_set, if_neg (by omega)]
        exact hx
      · cases h2
    · unfold Vec.push at h3
      split at h3
      · cases h3
      · cases h3
        rw [List.getElem?_append_left (List.getElem?_eq_some_iff.1 hy).1]
        exact hy

theorem splitLoop_heads {B : Type} [Bounds B] [Volume B] {bf : α → B} {minC cap : Nat} {x y : α} : ∀ (fuel : Nat) {s s' : SplitState B α}, splitLoop bf minC cap fuel s = .ok s' →
    1 ≤ s.group1Len → s.values[0]? = some x → s.group2[0]? = some y → s'.values[0]? = some x ∧ s'.group2[0]? = some y := by
  intro fuel
  induction fuel with
  | zero =>
    intro s s' h _ hx hy
    unfold splitLoop at h
    split at h
    · cases h
    · cases h; exact ⟨hx, hy⟩
  | succ fuel ih =>
    intro s s' h hg hx hy
    unfold splitLoop at h
    split at h
    · obtain ⟨s₁, h1, h2⟩ := bind_eq_ok.1 h
      obtain ⟨a, b, c⟩ := splitStep_heads h1 hg hx hy
      exact ih h2 a b c
    · cases h; exact ⟨hx, hy⟩

/-- The seeds of a split come first in the groups. -/
theorem split_heads {B : Type} [Bounds B] [Volume B] {bf : α → B} {minC cap : Nat} {values : List α} {overflow : α} {r : SplitResult B α}
    (h : split bf minC cap values overflow = .ok r) :
    ∃ i j, worstCombination bf values overflow = .ok (i, j) ∧ (∀ x, values[i]? = some x → i < j → r.group1[0]? = some x) ∧
      (∀ y, (values ++ [overflow])[j]? = some y → i < j → r.group2[0]? = some y) := by
  unfold split at h
  split at h
  · cases h
  obtain ⟨⟨vs, s⟩, h1, h⟩ := bind_eq_ok.1 h
  obtain ⟨g2, h2, h⟩ := bind_eq_ok.1 h
  obtain ⟨v0, h3, h⟩ := bind_eq_ok.1 h
  obtain ⟨st, h4, h⟩ := bind_eq_ok.1 h
  cases h
  obtain ⟨i, j, k1, k2, k3⟩ := seedSplitGroups_heads h1
  have h2 : g2 = [s] := by
    unfold Vec.push at h2
    split at h2 <;> cases h2
    rfl
  subst h2
  have h3 : vs[0]? = some v0 := by
    unfold index at h3; split at h3
    · next hq => cases h3; exact hq
    · cases h3
  obtain ⟨k4, k5⟩ := splitLoop_heads _ h4 (Nat.le_refl _) h3 rfl
  refine ⟨i, j, k1, fun x hx hij => ?_, fun y hy hij => ?_⟩
  · rw [k4, ← h3]; exact k2 x hx hij
  · rw [k5, k3 y hy hij]

end RTree
