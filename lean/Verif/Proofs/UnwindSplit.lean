import Verif.Proofs.UnwindTree
/-!
# Splitting, with user code that can panic
-/

namespace RTree.Unwind

open Raw

variable {B K V Q σ τ β γ : Type} {E : TEnv} {cap : Nat}

/-- Looking at the length of a vector. -/
theorem Spec.len {x : U B K V Q σ β} {s : σ} {R Fr : List (Thing B K V)} {P : β → σ → List (Thing B K V) → Prop} {F : σ → List (Thing B K V) → Prop}
    {l : Nat} {v : FCVec} {kids : List (It B K V l)} (hp : R.Perm (vT E cap l v kids :: Fr))
    (hx : v.len = kids.length → kids.length ≤ cap → Spec x s R P F) : Spec x s R P F := fun w H =>
  hx (by simpa using (has_vec H hp).owns.len) (by simpa using (has_vec H hp).owns.fits) w H

theorem new_spec (S : Fit E cap) (l : Nat) (s : σ) : Spec (mem (FCVec.new (RTree.slotEnv E l) cap) : U B K V Q σ FCVec) s []
    (fun v s' R' => s' = s ∧ R' = [vT E cap l v ([] : List (It B K V l))]) (fun s' R' => s' = s ∧ R' = []) := by
  refine (Spec.mem (cs := []) (M := fun v cs' => cs' = [vecC (RTree.slotEnv E l) cap v []]) ?_).mono ?_ ?_
  · intro h _
    have hc := S.cap
    by_cases hm : cap * (RTree.slotEnv E l).size ≤ (RTree.slotEnv E l).maxBytes
    · obtain ⟨v, h', h1, t⟩ := FCVec.new_tr h hm (.inl (Nat.mul_pos (by omega) (S.size l)))
      rw [h1]
      exact ⟨_, rfl, t⟩
    · have h1 : (layoutArray (RTree.slotEnv E l) cap : M (UCell B K V) Nat) h = .error .unwrapNone := by simp [layoutArray, hm]
      have h2 : (alloc (RTree.slotEnv E l) cap : M (UCell B K V) Ptr) h = .error .unwrapNone := by rw [alloc, bind_err h1]
      have h3 : (FCVec.new (RTree.slotEnv E l) cap : M (UCell B K V) FCVec) h = .error .unwrapNone := by rw [FCVec.new, bind_err h2]
      rw [h3]; rfl
  · rintro v s' _ ⟨rfl, _, rfl, rfl⟩; exact ⟨rfl, rfl⟩
  · rintro s' _ ⟨rfl, rfl⟩; exact ⟨rfl, rfl⟩

theorem pushLocal_spec (S : Fit E cap) (l : Nat) (v : FCVec) (kids : List (It B K V l)) (x : It B K V l) :
    Spec (pushLocal (RTree.slotEnv E l) cap (cell l x) : U B K V Q FCVec Unit) v (vT E cap l v kids :: headT l x)
      (fun _ v' R' => R' = vT E cap l v' (kids ++ [x]) :: headT l x) (fun v' R' => v' = v ∧ R' = [vT E cap l v kids]) := by
  refine .guarded (F₀ := fun v' R' => v' = v ∧ R' = vT E cap l v kids :: headT l x) ?_ ?_
  · refine .place ?_
    refine .call (Fr := headT l x) (.mem (cs := [vecC (RTree.slotEnv E l) cap v (kids.map (cell l))])
      (M := fun v' cs' => cs' = [vecC (RTree.slotEnv E l) cap v' ((kids ++ [x]).map (cell l))]) ?_) (.refl _) ?_ ?_
    · intro h H
      have := FCVec.push_ok H.owns (S.size l) (cell l x)
      rw [push_map, RTree.Vec.push] at this
      split at this
      next l' hl' =>
        obtain ⟨v', h', h1, h2, h3, h4⟩ := this
        rw [h1]
        have : l' = (kids ++ [x]).map (cell l) := by
          split at hl'
          · cases hl'
          · cases hl'; rfl
        subst this
        exact ⟨_, rfl, .of_same h2 h3 h4⟩
      next e he =>
        rw [this]
        split at he
        · cases he; rfl
        · cases he
    · rintro v' _ _ ⟨rfl, _, rfl, rfl⟩
      exact .put' rfl
    · rintro _ _ ⟨rfl, rfl⟩
      exact ⟨rfl, rfl⟩
  · rintro v _ ⟨rfl, rfl⟩
    exact (dropCell_quiet l x).last (Fr := [vT E cap l v kids]) (by permsU) (by rintro _ _ rfl; exact ⟨rfl, rfl⟩)

theorem swap_spec (S : Fit E cap) (l : Nat) (v : FCVec) (kids : List (It B K V l)) (i j : Nat) (s : σ) :
    Spec (mem (v.swap (RTree.slotEnv E l) i j) : U B K V Q σ Unit) s [vT E cap l v kids]
      (fun _ s' R' => s' = s ∧ ∃ kids', kids'.Perm kids ∧ R' = [vT E cap l v kids']) (fun s' R' => s' = s ∧ R' = [vT E cap l v kids]) := by
  refine (Spec.mem (cs := [vecC (RTree.slotEnv E l) cap v (kids.map (cell l))])
      (M := fun _ cs' => ∃ kids' : List (It B K V l), kids'.Perm kids ∧ cs' = [vecC (RTree.slotEnv E l) cap v (kids'.map (cell l))]) ?_).mono ?_ ?_
  · intro h H
    have := FCVec.swap_ok H.owns (S.size l) i j
    rw [swap_map] at this
    by_cases hij : i < kids.length ∧ j < kids.length
    · obtain ⟨kids', h1, h2, _, _⟩ := Vec.swap_spec kids i j hij.1 hij.2
      rw [h1] at this
      obtain ⟨h', h3, h4, h5⟩ := this
      rw [h3]
      exact ⟨_, ⟨kids', h2, rfl⟩, .of_same h4 h5 rfl⟩
    · have h1 : Vec.swap kids i j = .error .indexOutOfBounds := by
        rw [RTree.Vec.swap]
        by_cases hi : i < kids.length
        · have hj : ¬ j < kids.length := fun hj => hij ⟨hi, hj⟩
          simp [List.getElem?_eq_none (Nat.le_of_not_lt hj), hi]
        · simp [List.getElem?_eq_none (Nat.le_of_not_lt hi)]
      rw [h1] at this
      simp only [map_error] at this
      rw [this]; rfl
  · rintro _ _ _ ⟨rfl, _, rfl, kids', h1, rfl⟩; exact ⟨rfl, kids', h1, rfl⟩
  · rintro _ _ ⟨rfl, rfl⟩; exact ⟨rfl, rfl⟩

theorem swapRemove_spec (S : Fit E cap) (l : Nat) (n : UNode B) (kids : List (It B K V l)) (i : Nat) :
    Spec (onVec fun v => v.swapRemove (RTree.slotEnv E l) i : U B K V Q (UNode B) (UCell B K V)) n [vT E cap l n.vec kids]
      (fun c n' R' => ∃ x kids', c = cell l x ∧ (x :: kids').Perm kids ∧ n'.bounds = n.bounds ∧ R' = [vT E cap l n'.vec kids'])
      (fun n' R' => n' = n ∧ R' = [vT E cap l n.vec kids]) := by
  refine .place ?_
  refine .bind (.mem (y := n.vec.swapRemove (RTree.slotEnv E l) i) (cs := [vecC (RTree.slotEnv E l) cap n.vec (kids.map (cell l))])
      (M := fun r cs' => ∃ (x : It B K V l) (kids' : List (It B K V l)), r.2 = cell l x ∧ (x :: kids').Perm kids ∧
        cs' = [vecC (RTree.slotEnv E l) cap r.1 (kids'.map (cell l))]) ?_) ?_ ?_
  · intro h H
    have := FCVec.swapRemove_ok H.owns (S.size l) i
    rw [swapRemove_map] at this
    by_cases hi : i < kids.length
    · obtain ⟨kids', h1, h2, _, _⟩ := Vec.swapRemove_spec kids i hi
      rw [h1] at this
      obtain ⟨v', h', h3, h4, h5, h6⟩ := this
      rw [h3]
      exact ⟨_, ⟨_, kids', rfl, h2, rfl⟩, .of_same h4 h5 h6⟩
    · have h1 : Vec.swapRemove kids i = .error .indexOutOfBounds := by
        rw [RTree.Vec.swapRemove]
        simp [List.getElem?_eq_none (Nat.le_of_not_lt hi)]
      rw [h1] at this
      simp only [map_error] at this
      rw [this]; rfl
  · rintro r _ _ ⟨rfl, _, rfl, x, kids', h1, h2, rfl⟩
    exact .put (.pure ⟨x, kids', h1, h2, rfl, rfl⟩)
  · rintro _ _ ⟨rfl, rfl⟩; exact ⟨rfl, rfl⟩

theorem headL_perm {l : Nat} {ks ks' : List (It B K V l)} (h : ks.Perm ks') : (headL l ks).Perm (headL l ks') := h.flatMap_right _
theorem restL_perm {l : Nat} {ks ks' : List (It B K V l)} (h : ks.Perm ks') : (restL E cap l ks).Perm (restL E cap l ks') := h.flatMap_right _
theorem thingsL_perm {l : Nat} {ks ks' : List (It B K V l)} (h : ks.Perm ks') : (thingsL E cap l ks).Perm (thingsL E cap l ks') := h.flatMap_right _

theorem seed_spec (S : Fit E cap) (l : Nat) (n : UNode B) (kids : List (It B K V l)) (o : It B K V l) :
    Spec (seedSplitGroups (RTree.slotEnv E l) (cell l o) : U B K V Q (UNode B) (UCell B K V)) n (vT E cap l n.vec kids :: headL l (kids ++ [o]))
      (fun c n' R' => n' = n ∧ ∃ x kids', c = cell l x ∧ (kids' ++ [x]).Perm (kids ++ [o]) ∧ R'.Perm (vT E cap l n.vec kids' :: headL l (kids' ++ [x])))
      (fun n' R' => n' = n ∧ ∃ kids', (kids' ++ [o]).Perm (kids ++ [o]) ∧ R'.Perm (vT E cap l n.vec kids' :: headL l kids')) := by
  refine .guarded (F₀ := fun n' R' => n' = n ∧ ∃ kids', (kids' ++ [o]).Perm (kids ++ [o]) ∧ R'.Perm (vT E cap l n.vec kids' :: headL l (kids' ++ [o]))) ?_ ?_
  · refine .place ?_
    refine .read (fun h H => FCVec.slice_ok (has_vec H (.refl _)).owns (S.size l)) ?_
    refine .ask ?_ ⟨rfl, kids, .refl _, .refl _⟩
    rintro ⟨i, j⟩
    refine .call (Fr := headL l (kids ++ [o])) (swap_spec S l n.vec kids 0 i n) (.refl _) ?_ ?_
    · rintro _ n _ ⟨rfl, kids', hk, rfl⟩
      have hk' := headL_perm (hk.append_right [o])
      refine .len (l := l) (v := n.vec) (kids := kids') (Fr := headL l (kids ++ [o])) (.refl _) ?_
      intro hlen _
      show Spec (if j < n.vec.len then _ else _) _ _ _ _
      split
      next hj =>
        rw [hlen] at hj
        refine .last (F₀ := fun _ _ => False) (Fr := headL l (kids ++ [o])) (.memOk (cs := [vecC (RTree.slotEnv E l) cap n.vec (kids'.map (cell l))])
          (M := fun c cs' => c = cell l kids'[j] ∧ cs' = [vecC (RTree.slotEnv E l) cap n.vec ((kids'.set j o).map (cell l))]) ?_) (.refl _) ?_ (fun _ _ h => h.elim)
        · intro h H
          obtain ⟨h', h1, t⟩ := FCVec.set_tr H (S.size l) (i := j) (by simpa using hj) (cell l o)
          refine ⟨_, h', _, h1, ⟨by simp, rfl⟩, ?_⟩
          rw [List.map_set]; exact t
        · rintro c _ _ ⟨rfl, _, rfl, rfl, rfl⟩
          have e := Vec.perm_set kids' j hj o
          have e' : (kids'.set j o ++ [kids'[j]]).Perm (kids ++ [o]) :=
            ((List.perm_append_singleton _ _).trans e).trans ((List.perm_append_singleton _ _).symm.trans (hk.append_right [o]))
          exact ⟨rfl, _, _, rfl, e', by have := headL_perm e'; permsU [this]⟩
      next hj =>
        exact .pure ⟨rfl, o, kids', rfl, hk.append_right _, by permsU [hk']⟩
    · rintro _ _ ⟨rfl, rfl⟩
      exact ⟨rfl, kids, .refl _, .refl _⟩
  · rintro n R' ⟨rfl, kids', hk, hR⟩
    refine (dropCell_quiet l o).last (Fr := vT E cap l n.vec kids' :: headL l kids') ?_ (by rintro _ _ rfl; exact ⟨rfl, kids', hk, .refl _⟩)
    permsU [hR]

/-- A lookup with a bounds check, then the rest. -/
theorem Spec.index {α : Type} {f : α → U B K V Q σ β} {s : σ} {R : List (Thing B K V)} {P : β → σ → List (Thing B K V) → Prop} {F : σ → List (Thing B K V) → Prop}
    {as : List α} {i : Nat} (h1 : ∀ hi : i < as.length, Spec (f as[i]) s R P F) (h2 : F s R) : Spec (Unwind.mem (Raw.lift (RTree.index as i)) >>= f) s R P F := by
  by_cases hi : i < as.length
  · exact .lift (b := as[i]) (by simp [RTree.index, hi]) (h1 hi)
  · intro w H
    have : (Unwind.mem (Raw.lift (RTree.index as i)) >>= f) s w = (.error .panic, s, w) := by
      have : RTree.index as i = .error .indexOutOfBounds := by simp [RTree.index, List.getElem?_eq_none (Nat.le_of_not_lt hi)]
      rw [this]; rfl
    rw [this]
    exact ⟨R, h2, .refl H⟩

/-- Two groups during a split. -/
def Two (E : TEnv) (cap l : Nat) (b : Own B) (k1 k2 : List (It B K V l)) (p : UNode B × FCVec) (R : List (Thing B K V)) : Prop :=
  p.1.bounds = b ∧ R.Perm (vT E cap l p.1.vec k1 :: vT E cap l p.2 k2 :: headL l (k1 ++ k2))

theorem splitStep_spec {a : Alloc} (S : Fit E a.maxChildren) (l : Nat) (s : Nat × B × B) (p : UNode B × FCVec) (k1 k2 : List (It B K V l))
    (hs : s.1 < k1.length) {R : List (Thing B K V)} (hR : Two E a.maxChildren l p.1.bounds k1 k2 p R) :
    Spec (splitStep (RTree.slotEnv E l) a s : U B K V Q (UNode B × FCVec) (Nat × B × B)) p R
      (fun s' p' R' => ∃ k1' k2', (k1' ++ k2').Perm (k1 ++ k2) ∧ Two E a.maxChildren l p.1.bounds k1' k2' p' R' ∧ s'.1 ≤ k1'.length ∧
        k1'.length - s'.1 + 1 = k1.length - s.1)
      (fun p' R' => ∃ k1' k2' lost, (k1' ++ k2' ++ lost).Perm (k1 ++ k2) ∧ Two E a.maxChildren l p.1.bounds k1' k2' p' R') := by
  obtain ⟨n, g⟩ := p
  obtain ⟨-, hR⟩ := hR
  have hF : ∃ k1' k2' lost, (k1' ++ k2' ++ lost).Perm (k1 ++ k2) ∧ Two E a.maxChildren l n.bounds k1' k2' (n, g) R :=
    ⟨k1, k2, [], by rw [List.append_nil], rfl, hR⟩
  refine .placeFst ?_
  refine .placeSnd ?_
  refine .read (fun h H => FCVec.slice_ok (has_vec H hR).owns (S.size l)) ?_
  refine .ask ?_ hF
  rintro ⟨first, i⟩
  refine .index (F := fun p' R' => ∃ k1' k2' lost : List (It B K V l), (k1' ++ k2' ++ lost).Perm (k1 ++ k2) ∧ Two E a.maxChildren l n.bounds k1' k2' p' R') ?_ hF
  intro hi
  refine .ask ?_ hF
  intro b
  cases first with
  | true =>
    refine .call (Fr := vT E a.maxChildren l g k2 :: headL l (k1 ++ k2)) (swap_spec S l n.vec k1 (s.1 + i) s.1 (n, g)) hR ?_ ?_
    · rintro _ _ _ ⟨rfl, k1', hk, rfl⟩
      refine .pure ⟨k1', k2, hk.append_right k2, ⟨rfl, ?_⟩, ?_, ?_⟩
      · have := headL_perm hk
        permsU [this]
      · have := hk.length_eq
        show s.1 + 1 ≤ k1'.length
        omega
      · have := hk.length_eq
        show k1'.length - (s.1 + 1) + 1 = k1.length - s.1
        omega
    · rintro _ _ ⟨rfl, rfl⟩
      exact ⟨k1, k2, [], by rw [List.append_nil], rfl, .refl _⟩
  | false =>
    refine .call (Fr := vT E a.maxChildren l g k2 :: headL l (k1 ++ k2)) (.onFst (swapRemove_spec S l n k1 (s.1 + i))) hR ?_ ?_
    · rintro _ ⟨n', _⟩ _ ⟨rfl, x, k1', rfl, hk, hb, rfl⟩
      change n'.bounds = n.bounds at hb
      have hh := headL_perm hk
      refine .call (Fr := vT E a.maxChildren l n'.vec k1' :: headL l (k1' ++ k2)) (.onSnd (pushLocal_spec S l _ k2 x)) ?_ ?_ ?_
      · permsU [hh]
      · rintro _ ⟨_, g'⟩ _ ⟨rfl, rfl⟩
        have hl := hk.length_eq
        rw [List.length_cons] at hl
        refine .pure ⟨k1', k2 ++ [x], ?_, ⟨hb, ?_⟩, ?_, ?_⟩
        · rw [← List.append_assoc]
          exact (List.perm_append_singleton _ _).trans (hk.append_right k2)
        · permsU [hh]
        · show s.1 ≤ k1'.length
          omega
        · show k1'.length - s.1 + 1 = k1.length - s.1
          omega
      · rintro ⟨_, g'⟩ _ ⟨rfl, rfl, rfl⟩
        refine ⟨k1', k2, [x], ?_, hb, ?_⟩
        · exact (List.perm_append_singleton _ _).trans (hk.append_right k2)
        · permsU
    · rintro ⟨_, _⟩ _ ⟨rfl, rfl, rfl⟩
      exact ⟨k1, k2, [], by rw [List.append_nil], rfl, .refl _⟩

theorem splitLoop_spec {a : Alloc} (S : Fit E a.maxChildren) (l : Nat) : ∀ (fuel : Nat) (s : Nat × B × B) (p : UNode B × FCVec) (k1 k2 : List (It B K V l))
    (R : List (Thing B K V)), Two E a.maxChildren l p.1.bounds k1 k2 p R → k1.length - s.1 ≤ fuel →
    Spec (splitLoop (RTree.slotEnv E l) a fuel s : U B K V Q (UNode B × FCVec) (B × B)) p R
      (fun _ p' R' => ∃ k1' k2', (k1' ++ k2').Perm (k1 ++ k2) ∧ Two E a.maxChildren l p.1.bounds k1' k2' p' R')
      (fun p' R' => ∃ k1' k2' lost, (k1' ++ k2' ++ lost).Perm (k1 ++ k2) ∧ Two E a.maxChildren l p.1.bounds k1' k2' p' R') := by
  intro fuel
  induction fuel with
  | zero =>
    rintro s ⟨n, g⟩ k1 k2 R hR hf
    rw [splitLoop]
    refine .placeFst ?_
    refine .len hR.2 ?_
    intro hl _
    rw [if_neg (by change n.vec.len = _ at hl; omega)]
    exact .pure ⟨k1, k2, .refl _, hR⟩
  | succ fuel ih =>
    rintro s ⟨n, g⟩ k1 k2 R hR hf
    rw [splitLoop]
    refine .placeFst ?_
    refine .len hR.2 ?_
    intro hl _
    change n.vec.len = _ at hl
    by_cases hs : s.1 < n.vec.len
    · rw [if_pos hs]
      refine .bind (splitStep_spec S l s _ k1 k2 (by omega) hR) ?_ (fun _ _ h => h)
      rintro s' p' R' ⟨k1', k2', hk, hT, hs', hm⟩
      have hb : p'.1.bounds = n.bounds := hT.1
      refine (ih s' p' k1' k2' R' (by rw [hb]; exact hT) (by omega)).mono ?_ ?_
      · rintro _ p'' R'' ⟨k1'', k2'', hk', hT'⟩
        rw [hb] at hT'
        exact ⟨k1'', k2'', hk'.trans hk, hT'⟩
      · rintro p'' R'' ⟨k1'', k2'', lost, hk', hT'⟩
        rw [hb] at hT'
        exact ⟨k1'', k2'', lost, hk'.trans hk, hT'⟩
    · rw [if_neg hs]
      exact .pure ⟨k1, k2, .refl _, hR⟩

/-- Splitting: the elements are divided between the node and the new vector; on a panic those that are not in the node have been dropped, but not what
    belongs to them. -/
theorem split_spec {a : Alloc} (S : Fit E a.maxChildren) (l : Nat) (n : UNode B) (kids : List (It B K V l)) (o : It B K V l) :
    Spec (split (RTree.slotEnv E l) a (cell l o) : U B K V Q (UNode B) ((B × B) × FCVec)) n (vT E a.maxChildren l n.vec kids :: headL l (kids ++ [o]))
      (fun r n' R' => n'.bounds = n.bounds ∧ ∃ k1 k2, (k1 ++ k2).Perm (kids ++ [o]) ∧
        R'.Perm (vT E a.maxChildren l n'.vec k1 :: vT E a.maxChildren l r.2 k2 :: headL l (k1 ++ k2)))
      (fun n' R' => n'.bounds = n.bounds ∧ ∃ k1 lost, (k1 ++ lost).Perm (kids ++ [o]) ∧ R'.Perm (vT E a.maxChildren l n'.vec k1 :: headL l k1)) := by
  have hF : n.bounds = n.bounds ∧ ∃ k1 lost, (k1 ++ lost).Perm (kids ++ [o]) ∧
      (vT E a.maxChildren l n.vec kids :: headL l kids).Perm (vT E a.maxChildren l n.vec k1 :: headL l k1) := ⟨rfl, kids, [o], .refl _, .refl _⟩
  refine .place ?_
  refine guarded_panicIf (T := headT l o) (Fr := vT E a.maxChildren l n.vec kids :: headL l kids) (by permsU) (dropCell_quiet l o) hF ?_
  intro hne
  refine .bind (F₀ := fun n' R' => n' = n ∧ R' = vT E a.maxChildren l n.vec kids :: headL l kids)
    (P₀ := fun g n' R' => n' = n ∧ R' = vT E a.maxChildren l g ([] : List (It B K V l)) :: vT E a.maxChildren l n.vec kids :: headL l (kids ++ [o])) ?_ ?_ ?_
  · refine .guarded (.last (new_spec S l n) (Fr := vT E a.maxChildren l n.vec kids :: headL l (kids ++ [o])) (.refl _) ?_
      (F := fun n' R' => n' = n ∧ R' = vT E a.maxChildren l n.vec kids :: headL l (kids ++ [o])) ?_) ?_
    · rintro g _ _ ⟨rfl, rfl⟩; exact ⟨rfl, rfl⟩
    · rintro _ _ ⟨rfl, rfl⟩; exact ⟨rfl, rfl⟩
    · rintro n _ ⟨rfl, rfl⟩
      exact (dropCell_quiet l o).last (Fr := vT E a.maxChildren l n.vec kids :: headL l kids) (by permsU) (by rintro _ _ rfl; exact ⟨rfl, rfl⟩)
  · rintro g n _ ⟨rfl, rfl⟩
    refine .len (E := E) (cap := a.maxChildren) (l := l) (v := n.vec) (kids := kids) (Fr := vT E a.maxChildren l g ([] : List (It B K V l)) :: headL l (kids ++ [o])) (by permsU) ?_
    intro hlen _
    refine (Spec.withLocal (P := fun _ (p : UNode B × FCVec) R' => p.1.bounds = n.bounds ∧ ∃ k1 k2, (k1 ++ k2).Perm (kids ++ [o]) ∧
        R'.Perm (vT E a.maxChildren l p.1.vec k1 :: vT E a.maxChildren l p.2 k2 :: headL l (k1 ++ k2)))
      (F₁ := fun (p : UNode B × FCVec) R' => p.1.bounds = n.bounds ∧ ∃ k1 k2 lost, (k1 ++ k2 ++ lost).Perm (kids ++ [o]) ∧
        R'.Perm (vT E a.maxChildren l p.1.vec k1 :: vT E a.maxChildren l p.2 k2 :: headL l (k1 ++ k2))) ?_ ?_)
    · refine .call (Fr := [vT E a.maxChildren l g ([] : List (It B K V l))]) (.onFst (seed_spec S l n kids o)) (by permsU) ?_ ?_
      · rintro _ ⟨n', _⟩ R₁ ⟨rfl, rfl, x, kids', rfl, hk, hR⟩
        refine .call (Fr := vT E a.maxChildren l n'.vec kids' :: headL l kids') (.onSnd (pushLocal_spec S l _ [] x)) (by permsU [hR]) ?_ ?_
        · rintro _ ⟨n', g'⟩ _ ⟨rfl, rfl⟩
          have hT : Two E a.maxChildren l n'.bounds kids' [x] (n', g')
              (vT E a.maxChildren l g' ([] ++ [x]) :: headT l x ++ vT E a.maxChildren l n'.vec kids' :: headL l kids') := ⟨rfl, by permsU⟩
          have hl := hk.length_eq
          rw [List.length_append, List.length_append] at hl
          have h0 : 0 < kids'.length := by simp only [List.length_singleton] at hl; omega
          have hF' := hT.2
          change n'.vec.len = kids.length at hlen
          refine .read (b := cell l kids'[0]) (fun h H => ?_) ?_
          · have := FCVec.get_ok (has_vec H hT.2).owns (S.size l) 0
            have hx : RTree.index (kids'.map (cell (B := Own B) l)) 0 = .ok (cell l kids'[0]) := by simp [RTree.index, h0]
            rw [hx] at this
            exact this
          · refine .ask ?_ ⟨rfl, kids', [x], [], by rw [List.append_nil]; exact hk, hF'⟩
            intro b1
            refine .ask ?_ ⟨rfl, kids', [x], [], by rw [List.append_nil]; exact hk, hF'⟩
            intro b2
            refine (splitLoop_spec S l n'.vec.len (1, b1, b2) _ kids' [x] _ hT (by show kids'.length - 1 ≤ _; simp only [List.length_singleton] at hl; omega)).mono ?_ ?_
            · rintro _ p R' ⟨k1, k2, hk', hb, hR'⟩
              exact ⟨hb, k1, k2, hk'.trans hk, hR'⟩
            · rintro p R' ⟨k1, k2, lost, hk', hb, hR'⟩
              exact ⟨hb, k1, k2, lost, hk'.trans hk, hR'⟩
        · rintro ⟨n', g'⟩ _ ⟨rfl, rfl, rfl⟩
          exact ⟨rfl, kids', [], [x], by rw [List.append_nil]; exact hk, by permsU⟩
      · rintro ⟨n', _⟩ R₁ ⟨rfl, rfl, kids', hk, hR⟩
        exact ⟨rfl, kids', [], [o], by rw [List.append_nil]; exact hk, by permsU [hR]⟩
    · rintro ⟨n', g'⟩ R' ⟨hb, k1, k2, lost, hk, hR⟩
      refine (dropVec_quiet S l g' k2).last (Fr := vT E a.maxChildren l n'.vec k1 :: headL l k1) (by permsU [hR]) ?_
      rintro _ _ rfl
      exact ⟨hb, k1, k2 ++ lost, by rw [← List.append_assoc]; exact hk, .refl _⟩
  · rintro n _ ⟨rfl, rfl⟩
    exact hF

end RTree.Unwind
