import Verif.Proofs.Invariant
/-! The child selector picks the earliest least element. -/

namespace RTree

/-- `min_by` returns the earliest least element. -/
theorem minBy_spec {α : Type} {cmp : α → α → Res Ordering} {le lt : α → α → Prop} {l : List α} {r : α}
    (hgt : ∀ x ∈ l, ∀ y ∈ l, cmp x y = .ok .gt → lt y x)
    (hle : ∀ x ∈ l, ∀ y ∈ l, ∀ o, cmp x y = .ok o → o ≠ .gt → le x y)
    (hrefl : ∀ x ∈ l, le x x)
    (htr : ∀ x ∈ l, ∀ y ∈ l, ∀ z ∈ l, le x y → le y z → le x z)
    (hlt : ∀ x ∈ l, ∀ y ∈ l, ∀ z ∈ l, lt x y → le y z → lt x z)
    (hltle : ∀ x ∈ l, ∀ y ∈ l, lt x y → le x y)
    (h : minBy cmp l = .ok (some r)) :
    ∃ a b, l = a ++ r :: b ∧ (∀ x ∈ a, lt r x) ∧ ∀ x ∈ b, le r x := by
  cases l with
  | nil => simp [minBy] at h
  | cons x xs =>
    -- the loop, with the part already seen
    have key : ∀ (ys a b : List α) (acc : α), x :: xs = a ++ acc :: b ++ ys → (∀ z ∈ a, lt acc z) →
        (∀ z ∈ b, le acc z) → ∀ r, ys.foldlM (fun acc y => do
          match ← cmp acc y with
          | .gt => pure y
          | _ => pure acc) acc = (.ok r : Res α) →
        ∃ a b, x :: xs = a ++ r :: b ∧ (∀ x ∈ a, lt r x) ∧ ∀ x ∈ b, le r x := by
      intro ys
      induction ys with
      | nil =>
        intro a b acc hl ha hb r hr
        obtain rfl : acc = r := by simpa using hr
        exact ⟨a, b, by simpa using hl, ha, hb⟩
      | cons y ys ih =>
        intro a b acc hl ha hb r hr
        rw [List.foldlM_cons] at hr
        have hacc : acc ∈ x :: xs := by rw [hl]; simp
        have hy : y ∈ x :: xs := by rw [hl]; simp
        have hma : ∀ z ∈ a, z ∈ x :: xs := fun z hz => by rw [hl]; simp [hz]
        have hmb : ∀ z ∈ b, z ∈ x :: xs := fun z hz => by rw [hl]; simp [hz]
        cases hc : cmp acc y with
        | error e => simp [hc] at hr
        | ok o =>
          cases ho : decide (o = .gt) with
          | true =>
            obtain rfl : o = .gt := by simpa using ho
            have h1 := hgt _ hacc _ hy hc
            refine ih (a ++ acc :: b) [] y (by simp [hl]) ?_ (by simp) r (by simpa [hc] using hr)
            intro z hz
            rcases List.mem_append.1 hz with hz | hz
            · exact hlt _ hy _ hacc _ (hma z hz) h1 (hltle _ hacc _ (hma z hz) (ha z hz))
            · rcases List.mem_cons.1 hz with rfl | hz
              · exact h1
              · exact hlt _ hy _ hacc _ (hmb z hz) h1 (hb z hz)
          | false =>
            have hne : o ≠ .gt := by simpa using ho
            refine ih a (b ++ [y]) acc (by simp [hl]) ha ?_ r ?_
            · intro z hz
              rcases List.mem_append.1 hz with hz | hz
              · exact hb z hz
              · simp at hz; subst hz
                exact hle _ hacc _ hy o hc hne
            · rw [hc] at hr
              cases o <;> simp_all
    unfold minBy at h
    obtain ⟨r', hf, hr⟩ := bind_eq_ok.1 h
    obtain rfl : r' = r := by simpa using hr
    exact key xs [] [] x (by simp) (by simp) (by simp) r' hf

section

variable {B : Type} [Bounds B] [Volume B]

theorem arith_ok {α : Type} {o : Option α} {a : α} : arith o = .ok a ↔ o = some a := by
  cases o <;> simp [arith]

theorem volumeIncrease_ok {b x : B} {d : Volume.Vol B} : volumeIncrease b x = .ok d ↔ enlargement b x = some d := by
  unfold volumeIncrease enlargement
  cases h1 : Volume.volume (Bounds.union b x) <;> cases h2 : Volume.volume b <;> simp [arith, bind, Except.bind]
  rename_i u v
  cases Volume.sub (B := B) u v <;> simp

/-- `x` is at least as good a choice as `y` for inserting `e`: less enlargement, or as much and at most its volume. -/
def BetterEq (e x y : B) : Prop :=
  ∀ d d' v v', enlargement x e = some d → enlargement y e = some d' → Volume.volume x = some v →
    Volume.volume y = some v' →
    Volume.cmp (B := B) d d' = .lt ∨ (Volume.cmp (B := B) d d' = .eq ∧ Volume.cmp (B := B) v v' ≠ .gt)

/-- `x` is a better choice than `y` for inserting `e`. -/
def Better (e x y : B) : Prop :=
  ∀ d d' v v', enlargement x e = some d → enlargement y e = some d' → Volume.volume x = some v →
    Volume.volume y = some v' →
    Volume.cmp (B := B) d d' = .lt ∨ (Volume.cmp (B := B) d d' = .eq ∧ Volume.cmp (B := B) v v' = .lt)

theorem selectCmp_ok {e x y : B} {o : Ordering} (h : selectCmp e x y = .ok o) :
    ∃ d d' v v', enlargement x e = some d ∧ enlargement y e = some d' ∧ Volume.volume x = some v ∧
      Volume.volume y = some v' ∧
      o = if Volume.cmp (B := B) d d' = .eq then Volume.cmp (B := B) v v' else Volume.cmp (B := B) d d' := by
  unfold selectCmp at h
  cases hx : volumeIncrease x e with
  | error => simp [hx] at h
  | ok d =>
    cases hy : volumeIncrease y e with
    | error => simp [hx, hy] at h
    | ok d' =>
      rw [volumeIncrease_ok] at hx hy
      have hvx : ∃ v, Volume.volume x = some v := by
        unfold enlargement at hx
        cases h1 : Volume.volume x with
        | none => cases h2 : Volume.volume (Bounds.union x e) <;> simp [h1, h2] at hx
        | some v => exact ⟨v, rfl⟩
      have hvy : ∃ v, Volume.volume y = some v := by
        unfold enlargement at hy
        cases h1 : Volume.volume y with
        | none => cases h2 : Volume.volume (Bounds.union y e) <;> simp [h1, h2] at hy
        | some v => exact ⟨v, rfl⟩
      obtain ⟨v, hv⟩ := hvx
      obtain ⟨v', hv'⟩ := hvy
      refine ⟨d, d', v, v', hx, hy, hv, hv', ?_⟩
      rw [← volumeIncrease_ok] at hx hy
      simp only [hx, hy, hv, hv', ok_bind, arith, pure_eq_ok] at h
      split at h <;> rename_i hc
      · rw [if_pos hc]; simpa using h.symm
      · rw [if_neg hc]; simpa using h.symm

theorem select_spec [Std.TransCmp (Volume.cmp (B := B))] {cs : List B} {e : B} {i : Nat}
    (hdef : ∀ c ∈ cs, ∃ d, enlargement c e = some d) (h : select cs e = .ok (some i)) :
    ∃ a c b, cs = a ++ c :: b ∧ a.length = i ∧ (∀ x ∈ a, Better e c x) ∧ ∀ x ∈ b, BetterEq e c x := by
  unfold select at h
  cases hm : minBy (fun x y => selectCmp e x.1 y.1) cs.zipIdx with
  | error => simp [hm] at h
  | ok r =>
    cases r with
    | none => simp [hm] at h
    | some r =>
      simp [hm] at h
      have hvol : ∀ c : B, (∃ d, enlargement c e = some d) → ∃ v, Volume.volume c = some v := by
        rintro c ⟨d, hd⟩
        unfold enlargement at hd
        cases h1 : Volume.volume c with
        | none => cases h2 : Volume.volume (Bounds.union c e) <;> simp [h1, h2] at hd
        | some v => exact ⟨v, rfl⟩
      have hmem : ∀ x ∈ cs.zipIdx, ∃ d v, enlargement x.1 e = some d ∧ Volume.volume x.1 = some v := by
        intro x hx
        obtain ⟨d, hd⟩ := hdef x.1 (List.fst_mem_of_mem_zipIdx hx)
        obtain ⟨v, hv⟩ := hvol x.1 ⟨d, hd⟩
        exact ⟨d, v, hd, hv⟩
      have := minBy_spec (le := fun x y => BetterEq e x.1 y.1) (lt := fun x y => Better e x.1 y.1)
        ?_ ?_ ?_ ?_ ?_ ?_ hm
      · obtain ⟨a, b, hl, ha, hb⟩ := this
        have hcs : cs = (a.map Prod.fst) ++ r.1 :: b.map Prod.fst := by
          have h2 : cs.zipIdx.map Prod.fst = cs := by simp
          rw [← h2, hl]; simp
        have hlen : r.2 = a.length := by
          have h3 : cs.zipIdx.map Prod.snd = List.range' 0 cs.length := by simp
          rw [hl] at h3
          have h4 := congrArg (·[a.length]?) h3
          simp only [List.map_append, List.map_cons] at h4
          rw [List.getElem?_append_right (by simp)] at h4
          have hlt : a.length < cs.length := by
            have h5 := congrArg List.length hcs
            simp at h5; omega
          simp [hlt] at h4
          exact h4
        refine ⟨a.map Prod.fst, r.1, b.map Prod.fst, hcs, by simp; omega, ?_, ?_⟩
        · simp only [List.mem_map]; rintro _ ⟨x, hx, rfl⟩; exact ha x hx
        · simp only [List.mem_map]; rintro _ ⟨x, hx, rfl⟩; exact hb x hx
      · intro x _ y _ hc d' d v' v hd' hd hv' hv
        obtain ⟨d2, d2', v2, v2', h1, h2, h3, h4, h5⟩ := selectCmp_ok hc
        rw [h1] at hd; rw [h2] at hd'; rw [h3] at hv; rw [h4] at hv'
        cases hd; cases hd'; cases hv; cases hv'
        split at h5
        · rename_i heq
          exact .inr ⟨Std.OrientedCmp.eq_symm heq, Std.OrientedCmp.lt_of_gt h5.symm⟩
        · exact .inl (Std.OrientedCmp.lt_of_gt h5.symm)
      · intro x _ y _ o hc ho d d' v v' hd hd' hv hv'
        obtain ⟨d2, d2', v2, v2', h1, h2, h3, h4, h5⟩ := selectCmp_ok hc
        rw [h1] at hd; rw [h2] at hd'; rw [h3] at hv; rw [h4] at hv'
        cases hd; cases hd'; cases hv; cases hv'
        split at h5
        · rename_i heq
          exact .inr ⟨heq, by rw [← h5]; exact ho⟩
        · rename_i hne
          refine .inl ?_
          cases hcmp : Volume.cmp (B := B) d d' with
          | lt => rfl
          | eq => exact absurd hcmp hne
          | gt => rw [hcmp] at h5; exact absurd h5 ho
      · intro x _ d d' v v' hd hd' hv hv'
        rw [hd] at hd'; rw [hv] at hv'; cases hd'; cases hv'
        have h1 : ∀ a : Volume.Vol B, Volume.cmp (B := B) a a = .eq := fun a => Std.ReflCmp.compare_self
        exact .inr ⟨h1 d, by rw [h1 v]; simp⟩
      · intro x _ y hy z _ hxy hyz d d'' v v'' hd hd'' hv hv''
        obtain ⟨d', v', hd', hv'⟩ := hmem y hy
        have a1 := hxy d d' v v' hd hd' hv hv'
        have a2 := hyz d' d'' v' v'' hd' hd'' hv' hv''
        rcases a1 with a1 | ⟨a1, b1⟩ <;> rcases a2 with a2 | ⟨a2, b2⟩
        · exact .inl (Std.TransCmp.lt_trans a1 a2)
        · exact .inl (Std.TransCmp.lt_of_lt_of_eq a1 a2)
        · exact .inl (Std.TransCmp.lt_of_eq_of_lt a1 a2)
        · refine .inr ⟨Std.TransCmp.eq_trans a1 a2, ?_⟩
          simp only [ne_eq, ← Ordering.isLE_iff_ne_gt] at b1 b2 ⊢
          exact Std.TransCmp.isLE_trans b1 b2
      · intro x _ y hy z _ hxy hyz d d'' v v'' hd hd'' hv hv''
        obtain ⟨d', v', hd', hv'⟩ := hmem y hy
        have a1 := hxy d d' v v' hd hd' hv hv'
        have a2 := hyz d' d'' v' v'' hd' hd'' hv' hv''
        rcases a1 with a1 | ⟨a1, b1⟩ <;> rcases a2 with a2 | ⟨a2, b2⟩
        · exact .inl (Std.TransCmp.lt_trans a1 a2)
        · exact .inl (Std.TransCmp.lt_of_lt_of_eq a1 a2)
        · exact .inl (Std.TransCmp.lt_of_eq_of_lt a1 a2)
        · refine .inr ⟨Std.TransCmp.eq_trans a1 a2, ?_⟩
          simp only [ne_eq, ← Ordering.isLE_iff_ne_gt] at b2
          exact Std.TransCmp.lt_of_lt_of_isLE b1 b2
      · intro x _ y _ hxy d d' v v' hd hd' hv hv'
        rcases hxy d d' v v' hd hd' hv hv' with h1 | ⟨h1, h2⟩
        · exact .inl h1
        · exact .inr ⟨h1, by rw [h2]; simp⟩

end

end RTree
