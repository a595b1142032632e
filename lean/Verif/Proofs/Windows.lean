import Verif.Props.Shapes
/-!
# Predicates that every bounds of a tree inherits from the keys; floating point coordinates without NaN
-/

namespace RTree

section Closed

variable {B K V : Type} [Bounds B] [Volume B] [Bounded K B] [BEq K] {c : Config} {P : K → Prop} {t : Tree B K V}

/-- The relation "if all keys below have `Q`, so have the bounds". -/
def Inherits (Q : B → Prop) (b : B) (bs : List B) : Prop := (∀ x ∈ bs, Q x) → Q b

theorem inheritsLaws {Q : B → Prop} (he : Q Bounds.empty) (hu : ∀ a b, Q a → Q b → Q (Bounds.union a b))
    (hua : ∀ bs : List B, (∀ b ∈ bs, Q b) → Q (Bounds.unionAll bs)) : AggLaws (Inherits Q) where
  empty := fun _ => he
  single b := fun h => h b (by simp)
  perm h p := fun hb => h fun x hx => hb x (p.mem_iff.1 hx)
  union ha hb := fun h => hu _ _ (ha fun x hx => h x (by simp [hx])) (hb fun x hx => h x (by simp [hx]))
  unionAll l h := fun hl => hua _ fun b hb => by
    obtain ⟨p, hp, rfl⟩ := List.mem_map.1 hb
    exact h p hp fun x hx => hl x (List.mem_flatMap.2 ⟨p, hp, hx⟩)
  absorb h he := fun hb => hu _ _ (h hb) (hb _ he)

theorem entries_of_descendants {n : Node B K V} {e : K × V} (he : e ∈ n.entries) {l : Nat} {m : Node B K V}
    (hd : n ∈ m.descendants) (hs : Shape l m) : e ∈ m.entries := by
  induction l generalizing m with
  | zero => cases m with
    | leaf b es => simp [Node.descendants] at hd
    | inner b cs => simp [Shape] at hs
  | succ l ih => cases m with
    | leaf b es => simp [Shape] at hs
    | inner b cs =>
      simp only [Node.descendants, mem_descendantsList] at hd
      rw [entries_inner, mem_entriesList]
      obtain ⟨c, hc, rfl | hd⟩ := hd
      · exact ⟨_, hc, he⟩
      · exact ⟨c, hc, ih hd (hs c hc)⟩

theorem Reachable.node_entries (h : Reachable c P t) {n : Node B K V} (hn : n ∈ t.nodes) {e : K × V}
    (he : e ∈ n.entries) : e ∈ t.entries := by
  rcases List.mem_cons.1 hn with rfl | hn
  · exact he
  · exact entries_of_descendants he hn h.shape

/-- A predicate that holds for `empty()`, is preserved by unions, and holds for the bounds of keys, holds for the bounds of
    all nodes. -/
theorem Reachable.bounds_closed [LawfulKey K B] {Q : B → Prop} (he : Q Bounds.empty)
    (hu : ∀ a b, Q a → Q b → Q (Bounds.union a b))
    (hua : ∀ bs : List B, (∀ b ∈ bs, Q b) → Q (Bounds.unionAll bs)) (hP : ∀ k, P k → Q (Bounded.bounds k))
    (h : Reachable c P t) {n : Node B K V} (hn : n ∈ t.nodes) : Q n.bounds := by
  let _ : VolumeLaws B := trivialVolumeLaws
  have L := inheritsLaws he hu hua
  have ht := (reachable_treeOk L (fun h => h.elim) (fun h => h.elim) (g := False)
    (fun k k' hk b bs hb hm => by
      rw [← LawfulKey.bounds_eq hk]
      exact L.absorb hb hm) (fun h => h.elim) h).1
  obtain ⟨l, hl⟩ := ht.ok.nodes hn
  refine hl.agg fun x hx => ?_
  obtain ⟨e, he, rfl⟩ := List.mem_map.1 hx
  exact hP _ (h.keys e (h.node_entries hn he))

end Closed

variable {N : Type} {D : Nat} [Scalar N]

theorem Reachable.bounds_inWindow' {K V : Type} [Bounded K (AABB N D)] [BEq K] [LawfulKey K (AABB N D)] {c : Config}
    {P : K → Prop} {lo hi : N} (h1 : lo ≤ Scalar.minVal) (h2 : Scalar.maxVal ≤ hi) (h3 : (Scalar.minVal : N) ≤ Scalar.maxVal)
    {t : Tree (AABB N D) K V} (h : Reachable c P t)
    (hP : ∀ k, P k → (Bounded.bounds k : AABB N D).InWindow lo hi) {n : Node (AABB N D) K V} (hn : n ∈ t.nodes) :
    n.bounds.InWindow lo hi := by
  have he : (AABB.empty : AABB N D).InWindow lo hi := fun i =>
    ⟨⟨h1.trans h3, h2⟩, ⟨h1, h3.trans h2⟩⟩
  refine h.bounds_closed (Q := AABB.InWindow lo hi) he (fun _ _ => AABB.inWindow_union) (fun bs hb => ?_) hP hn
  have : ∀ (bs : List (AABB N D)) (a : AABB N D), a.InWindow lo hi → (∀ b ∈ bs, b.InWindow lo hi) →
      (bs.foldl AABB.union a).InWindow lo hi := by
    intro bs
    induction bs with
    | nil => intro a ha _; exact ha
    | cons b bs ih =>
      intro a ha hb
      exact ih _ (AABB.inWindow_union ha (hb b (by simp))) fun x hx => hb x (by simp [hx])
  exact this bs _ he hb

/-! ## `N32` and `N64` -/

variable {F : Format}

theorem NoisyFloat.sub_isSome {a b : NoisyFloat F} (hb : Scalar.Finite b) : (Scalar.sub a b).isSome := by
  obtain ⟨q, hq⟩ := hb
  have hq : b.1 = XRat.rat q := hq
  have : ∃ z, F64.sub (.ieee F) (some a.1) (some b.1) = some z := by
    rw [hq]
    rcases a.1.cases with h | h | ⟨p, h⟩ <;> rw [h] <;> exact ⟨_, rfl⟩
  obtain ⟨z, hz⟩ := this
  obtain ⟨c, hc, -⟩ := NoisyFloat.sub_eq_some hz
  rw [hc]; rfl

theorem NoisyFloat.sub_isSome' {a b : NoisyFloat F} (ha : Scalar.Finite a) : (Scalar.sub a b).isSome := by
  obtain ⟨q, hq⟩ := ha
  have hq : a.1 = XRat.rat q := hq
  have : ∃ z, F64.sub (.ieee F) (some a.1) (some b.1) = some z := by
    rw [hq]
    rcases b.1.cases with h | h | ⟨p, h⟩ <;> rw [h] <;> exact ⟨_, rfl⟩
  obtain ⟨z, hz⟩ := this
  obtain ⟨c, hc, -⟩ := NoisyFloat.sub_eq_some hz
  rw [hc]; rfl

theorem NoisyFloat.add_isSome {a b : NoisyFloat F} (ha : Scalar.Finite a) : (Scalar.add a b).isSome := by
  obtain ⟨q, hq⟩ := ha
  have hq : a.1 = XRat.rat q := hq
  have : ∃ z, F64.add (.ieee F) (some a.1) (some b.1) = some z := by
    rw [hq]
    rcases b.1.cases with h | h | ⟨p, h⟩ <;> rw [h] <;> exact ⟨_, rfl⟩
  obtain ⟨z, hz⟩ := this
  obtain ⟨c, hc, -⟩ := NoisyFloat.add_eq_some hz
  rw [hc]; rfl

theorem NoisyFloat.sqMag_isSome (hD : 0 < D) (a : SVec (NoisyFloat F) D) : ∃ m, a.sqMag = some m := by
  have hR := Rounding.ieee_lawful F
  have h1 : ∀ v : NoisyFloat F, ∃ s : NoisyFloat F, Scalar.mul v v = some s ∧ XRat.rat 0 ≤ s.1 := by
    intro v
    obtain ⟨z, hz, h0⟩ := F64.mul_self_some hR v.1
    obtain ⟨s, hs, rfl⟩ := NoisyFloat.mul_eq_some hz
    exact ⟨s, hs, h0⟩
  have h2 : ∀ l : List (NoisyFloat F), ∃ sq : List (NoisyFloat F), l.mapM (fun v => Scalar.mul v v) = some sq ∧
      sq.length = l.length ∧ ∀ s ∈ sq, XRat.rat 0 ≤ s.1 := by
    intro l
    induction l with
    | nil => exact ⟨[], rfl, rfl, fun _ h => by cases h⟩
    | cons v l ih =>
      obtain ⟨sq, e, hl, hsq⟩ := ih
      obtain ⟨s, hs, h0⟩ := h1 v
      refine ⟨s :: sq, by simp [List.mapM_cons, hs, e], by simp [hl], fun x hx => ?_⟩
      rcases List.mem_cons.1 hx with rfl | hx
      · exact h0
      · exact hsq x hx
  have h3 : ∀ (l : List (NoisyFloat F)) (x : NoisyFloat F), XRat.rat 0 ≤ x.1 → (∀ s ∈ l, XRat.rat 0 ≤ s.1) →
      ∃ m, l.foldlM Scalar.add x = some m := by
    intro l
    induction l with
    | nil => intro x _ _; exact ⟨x, rfl⟩
    | cons y l ih =>
      intro x hx hl
      obtain ⟨z, hz, h0⟩ := F64.add_nonneg hR hx (hl y (by simp))
      obtain ⟨w, hw, rfl⟩ := NoisyFloat.add_eq_some hz
      obtain ⟨m, hm⟩ := ih w h0 fun s hs => hl s (by simp [hs])
      exact ⟨m, by rw [List.foldlM_cons, hw]; exact hm⟩
  obtain ⟨sq, e, hl, hsq⟩ := h2 a.toList
  unfold SVec.sqMag
  rw [e]
  cases sq with
  | nil => simp [SVec.toList] at hl; omega
  | cons x xs => exact h3 xs x (hsq x (by simp)) fun s hs => hsq s (by simp [hs])

/-- Distances to a point with finite coordinates are never NaN. -/
theorem NoisyFloat.distSq_isSome (hD : 0 < D) (a : SVec (NoisyFloat F) D) {p : SVec (NoisyFloat F) D}
    (hp : ∀ i, Scalar.Finite (p.get i)) : ∃ m, a.distSq p = some m := by
  unfold SVec.distSq SVec.sub
  rw [dif_pos fun i => NoisyFloat.sub_isSome (hp i)]
  exact NoisyFloat.sqMag_isSome hD _

/-! ### tests against boxes: it suffices that the origin is finite -/

theorem slabLoop_isSome' {R : Rounding} {nz : Fin D → Bool} {b : AABB (NoisyFloat F) D} {o : SVec (NoisyFloat F) D}
    (ho : ∀ i, Scalar.Finite (o.get i)) (d : SVec (NoisyFloat F) D) (dims : List (Fin D)) (x : F64 × F64) :
    (slabLoop R nz b o d dims x).isSome := by
  induction dims generalizing x with
  | nil => rfl
  | cons i dims ih =>
    rw [slabLoop, List.foldlM_cons]
    obtain ⟨u, hu⟩ := Option.isSome_iff_exists.1 (NoisyFloat.sub_isSome (a := b.min.get i) (ho i))
    obtain ⟨v, hv⟩ := Option.isSome_iff_exists.1 (NoisyFloat.sub_isSome (a := b.max.get i) (ho i))
    simp only [slab, hu, hv]
    exact ih _

theorem Line.intersectsBox_isSome' {R : Rounding} {nz : Fin D → Bool} {l : Line (NoisyFloat F) D}
    {b : AABB (NoisyFloat F) D} (h0 : ∀ i, Scalar.Finite (l.p0.get i)) : (l.intersectsBox R nz b).isSome := by
  have hs : (l.p1.sub l.p0).isSome := by
    unfold SVec.sub
    rw [dif_pos fun i => NoisyFloat.sub_isSome (h0 i)]
    rfl
  obtain ⟨d, hd⟩ := Option.isSome_iff_exists.1 hs
  obtain ⟨y, hy⟩ := Option.isSome_iff_exists.1
    (slabLoop_isSome' h0 d (List.finRange D) (F64.fin 0, F64.fin 1) (R := R) (nz := nz) (b := b))
  simp [Line.intersectsBox, Line.delta, hd, lineBoundsIntersect, hy]

theorem Ray.intersectsBox_isSome' (hD : 0 < D) {R : Rounding} {nz : Fin D → Bool} {r : Ray (NoisyFloat F) D}
    {b : AABB (NoisyFloat F) D} (h0 : ∀ i, Scalar.Finite (r.origin.get i)) : (r.intersectsBox R nz b).isSome := by
  unfold Ray.intersectsBox rayBoundsIntersect
  cases hd : List.finRange D with
  | nil => simp at hd; omega
  | cons i dims =>
    obtain ⟨u, hu⟩ := Option.isSome_iff_exists.1 (NoisyFloat.sub_isSome (a := b.min.get i) (h0 i))
    obtain ⟨v, hv⟩ := Option.isSome_iff_exists.1 (NoisyFloat.sub_isSome (a := b.max.get i) (h0 i))
    simp only [slab, hu, hv]
    obtain ⟨y, hy⟩ := Option.isSome_iff_exists.1
      (slabLoop_isSome' h0 r.n dims
        (F64.min (F64.mul R (some (Scalar.toX u)) (F64.recip R (nz i) (some (Scalar.toX (r.n.get i)))))
          (F64.mul R (some (Scalar.toX v)) (F64.recip R (nz i) (some (Scalar.toX (r.n.get i))))),
         F64.max (F64.mul R (some (Scalar.toX u)) (F64.recip R (nz i) (some (Scalar.toX (r.n.get i)))))
          (F64.mul R (some (Scalar.toX v)) (F64.recip R (nz i) (some (Scalar.toX (r.n.get i)))))) (R := R) (nz := nz) (b := b))
    simp [hy]

theorem Sphere.intersectsPoint_isSome' (hD : 0 < D) {R : Rounding} {s : Sphere (NoisyFloat F) D}
    {p : SVec (NoisyFloat F) D} (hc : ∀ i, Scalar.Finite (s.center.get i)) : (s.intersectsPoint R p).isSome := by
  have hs : (p.sub s.center).isSome := by
    unfold SVec.sub
    rw [dif_pos fun i => NoisyFloat.sub_isSome (hc i)]
    rfl
  obtain ⟨d, hd⟩ := Option.isSome_iff_exists.1 hs
  unfold Sphere.intersectsPoint
  simp only [hd]
  unfold SVec.sqMagF64
  cases hl : d.toList with
  | nil =>
    have := congrArg List.length hl
    simp [SVec.toList] at this
    omega
  | cons x xs => simp [hl]

/-! ### finite windows -/

theorem NoisyFloat.finite_of_mem {lo hi x : NoisyFloat F} (hlo : Scalar.Finite lo) (hhi : Scalar.Finite hi)
    (h1 : lo ≤ x) (h2 : x ≤ hi) : Scalar.Finite x := by
  obtain ⟨a, ha⟩ := hlo
  obtain ⟨b, hb⟩ := hhi
  have ha : lo.1 = XRat.rat a := ha
  have hb : hi.1 = XRat.rat b := hb
  have h1 : lo.1 ≤ x.1 := h1
  have h2 : x.1 ≤ hi.1 := h2
  rw [ha] at h1
  rw [hb] at h2
  rcases x.1.cases with h | h | ⟨q, h⟩
  · rw [h] at h1; exact absurd h1 (XRat.not_le_bot _)
  · rw [h] at h2; exact absurd h2 (XRat.not_top_le _)
  · exact ⟨q, h⟩

theorem NoisyFloat.subDefined {lo hi : NoisyFloat F} (hlo : Scalar.Finite lo) (hhi : Scalar.Finite hi) :
    SubDefined lo hi := fun _ _ _ _ h3 h4 => NoisyFloat.sub_isSome (NoisyFloat.finite_of_mem hlo hhi h3 h4)

/-- Coordinates of absolute value at most `2 ^ m` with `m + 1` below the greatest exponent: differences do not overflow. -/
theorem NoisyFloat.smallDiff {m : ℕ} (hF : F.emin ≤ (m + 1 : ℕ)) (hm : ((m + 1 : ℕ) : ℤ) < F.emax) {lo hi : NoisyFloat F}
    (hlo : XRat.rat (-pow2 m) ≤ lo.1) (hhi : hi.1 ≤ XRat.rat (pow2 m)) : SmallDiff (m + 1) lo hi := by
  intro x y h1 h2 h3 h4
  have e1 : XRat.rat (-pow2 m) ≤ x.1 := hlo.trans h1
  have e2 : x.1 ≤ XRat.rat (pow2 m) := le_trans (show x.1 ≤ hi.1 from h2) hhi
  have e3 : XRat.rat (-pow2 m) ≤ y.1 := hlo.trans h3
  have e4 : y.1 ≤ XRat.rat (pow2 m) := le_trans (show y.1 ≤ hi.1 from h4) hhi
  obtain ⟨a, ha⟩ : ∃ a, x.1 = XRat.rat a := by
    rcases x.1.cases with h | h | h
    · rw [h] at e1; exact absurd e1 (XRat.not_le_bot _)
    · rw [h] at e2; exact absurd e2 (XRat.not_top_le _)
    · exact h
  obtain ⟨b, hb⟩ : ∃ b, y.1 = XRat.rat b := by
    rcases y.1.cases with h | h | h
    · rw [h] at e3; exact absurd e3 (XRat.not_le_bot _)
    · rw [h] at e4; exact absurd e4 (XRat.not_top_le _)
    · exact h
  rw [ha] at e1 e2
  rw [hb] at e3 e4
  have f1 := XRat.rat_le.1 e1
  have f2 := XRat.rat_le.1 e2
  have f3 := XRat.rat_le.1 e3
  have f4 := XRat.rat_le.1 e4
  have hp : pow2 ((m + 1 : ℕ) : ℤ) = 2 * pow2 m := by
    rw [show ((m + 1 : ℕ) : ℤ) = 1 + (m : ℤ) by push_cast; ring, pow2_add]; rfl
  have hle : |a - b| ≤ pow2 ((m + 1 : ℕ) : ℤ) := by
    rw [hp, abs_le]
    constructor <;> linarith
  obtain ⟨g1, g2⟩ := ieee_bound (F := F) hF hm hle
  have : F64.sub (.ieee F) (some x.1) (some y.1) = some (XRat.rat (nearest F (a - b))) := by
    rw [ha, hb, F64.sub_rat, g1]
  obtain ⟨c, hc, hc'⟩ := NoisyFloat.sub_eq_some this
  exact ⟨c, _, hc, hc', g2⟩

end RTree
