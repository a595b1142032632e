import Verif.Proofs.Geom
import Mathlib.Tactic.Linarith
import Mathlib.Tactic.Ring
import Mathlib.Tactic.Positivity
/-! Distances of points and boxes. -/

namespace RTree

variable {N : Type} {D : Nat} [Scalar N]

instance : ExactScalar I32 where
  toX_eq _ := rfl
  le_iff a b := by
    show a.1 ≤ b.1 ↔ (a.1 : ℚ) ≤ b.1
    exact Int.cast_le.symm
  add_eq := by
    intro a b c h
    simp only [Scalar.add, I32.check] at h
    split at h
    · injection h with h; subst h; exact Int.cast_add _ _
    · cases h
  sub_eq := by
    intro a b c h
    simp only [Scalar.sub, I32.check] at h
    split at h
    · injection h with h; subst h; exact Int.cast_sub _ _
    · cases h
  mul_eq := by
    intro a b c h
    simp only [Scalar.mul, I32.check] at h
    split at h
    · injection h with h; subst h; exact Int.cast_mul _ _
    · cases h

/-- Exact arithmetic respects the order. -/
instance [ExactScalar N] : MonoScalar N where
  add_mono := by
    intro a a' b b' c c' ha hb hc hc'
    rw [ExactScalar.le_iff] at *
    rw [ExactScalar.add_eq hc, ExactScalar.add_eq hc']
    linarith
  sq_right := by
    intro p a a' c c' s s' hp ha hc hc' hs hs'
    rw [ExactScalar.le_iff] at *
    rw [ExactScalar.mul_eq hs, ExactScalar.mul_eq hs', ExactScalar.sub_eq hc, ExactScalar.sub_eq hc']
    nlinarith
  sq_left := by
    intro p a a' c c' s s' hp ha hc hc' hs hs'
    rw [ExactScalar.le_iff] at *
    rw [ExactScalar.mul_eq hs, ExactScalar.mul_eq hs', ExactScalar.sub_eq hc, ExactScalar.sub_eq hc']
    nlinarith

/-- The point of the box closest to `p` (for a box that is not inverted). -/
def AABB.closest (b : AABB N D) (p : SVec N D) : SVec N D := (p.cmax b.min).cmin b.max

theorem AABB.closest_mem {b : AABB N D} (h : b.Valid) (p : SVec N D) : AABB.Mem (b.closest p) b := fun i => by
  simp only [closest, SVec.cmin, SVec.cmax]
  exact ⟨le_min (le_max_right _ _) (h i), min_le_right _ _⟩

section Mono

variable [MonoScalar N]

theorem SVec.sub_get' {a b c : SVec N D} (h : a.sub b = some c) (i : Fin D) :
    Scalar.sub (a.get i) (b.get i) = some (c.get i) := by
  unfold SVec.sub at h
  split at h
  · rename_i hs
    injection h with h
    subst h
    exact (Option.some_get (hs i)).symm
  · cases h

theorem foldlM_add_mono {xs ys : List N} (h : List.Forall₂ (· ≤ ·) xs ys) {x y m n : N} (hxy : x ≤ y)
    (hm : xs.foldlM Scalar.add x = some m) (hn : ys.foldlM Scalar.add y = some n) : m ≤ n := by
  induction h generalizing x y with
  | nil =>
    rw [List.foldlM_nil] at hm hn
    injection hm with hm
    injection hn with hn
    exact hm ▸ hn ▸ hxy
  | cons hab _ ih =>
    rw [List.foldlM_cons] at hm hn
    obtain ⟨u, hu, hm⟩ := Option.bind_eq_some_iff.1 hm
    obtain ⟨v, hv, hn⟩ := Option.bind_eq_some_iff.1 hn
    exact ih (MonoScalar.add_mono hxy hab hu hv) hm hn

/-- The computed distance does not decrease if every coordinate moves away from `p`. -/
theorem SVec.distSq_mono {a a' p : SVec N D}
    (h : ∀ i, (p.get i ≤ a.get i ∧ a.get i ≤ a'.get i) ∨ (a'.get i ≤ a.get i ∧ a.get i ≤ p.get i)) {m n : N}
    (hm : a.distSq p = some m) (hn : a'.distSq p = some n) : m ≤ n := by
  unfold SVec.distSq at hm hn
  obtain ⟨c, hc, hm⟩ := Option.bind_eq_some_iff.1 hm
  obtain ⟨c', hc', hn⟩ := Option.bind_eq_some_iff.1 hn
  unfold SVec.sqMag at hm hn
  obtain ⟨sq, hsq, hm⟩ := Option.bind_eq_some_iff.1 hm
  obtain ⟨sq', hsq', hn⟩ := Option.bind_eq_some_iff.1 hn
  have key : ∀ (is : List (Fin D)) {sq sq' : List N}, ((is.map c.get).mapM fun v => Scalar.mul v v) = some sq →
      ((is.map c'.get).mapM fun v => Scalar.mul v v) = some sq' → List.Forall₂ (· ≤ ·) sq sq' := by
    intro is
    induction is with
    | nil =>
      intro sq sq' h1 h2
      simp at h1 h2
      subst h1 h2
      exact .nil
    | cons i is ih =>
      intro sq sq' h1 h2
      rw [List.map_cons, List.mapM_cons] at h1 h2
      obtain ⟨x, hx, h1⟩ := Option.bind_eq_some_iff.1 h1
      obtain ⟨xs, hxs, h1⟩ := Option.bind_eq_some_iff.1 h1
      obtain ⟨y, hy, h2⟩ := Option.bind_eq_some_iff.1 h2
      obtain ⟨ys, hys, h2⟩ := Option.bind_eq_some_iff.1 h2
      injection h1 with h1
      injection h2 with h2
      subst h1 h2
      refine .cons ?_ (ih hxs hys)
      rcases h i with ⟨e1, e2⟩ | ⟨e1, e2⟩
      · exact MonoScalar.sq_right e1 e2 (SVec.sub_get' hc i) (SVec.sub_get' hc' i) hx hy
      · exact MonoScalar.sq_left e1 e2 (SVec.sub_get' hc i) (SVec.sub_get' hc' i) hx hy
  have hle := key _ hsq hsq'
  cases hle with
  | nil => cases hm
  | cons hab hrest => exact foldlM_add_mono hrest hab hm hn

/-- No point of a box has a smaller computed distance to `p` than the box. -/
theorem AABB.distSq_le {b : AABB N D} {p q : SVec N D} (hq : AABB.Mem q b) {m n : N} (hm : b.distSq p = some m)
    (hn : q.distSq p = some n) : m ≤ n := by
  refine SVec.distSq_mono (fun i => ?_) hm hn
  obtain ⟨h1, h2⟩ := hq i
  simp only [SVec.cmin, SVec.cmax]
  rcases le_total (p.get i) (b.min.get i) with h3 | h3
  · rw [max_eq_right h3, min_eq_left (le_trans h1 h2)]
    exact .inl ⟨h3, h1⟩
  · rw [max_eq_left h3]
    rcases le_total (p.get i) (b.max.get i) with h4 | h4
    · rw [min_eq_left h4]
      rcases le_total (p.get i) (q.get i) with h5 | h5
      · exact .inl ⟨le_refl _, h5⟩
      · exact .inr ⟨h5, le_refl _⟩
    · rw [min_eq_right h4]
      exact .inr ⟨h2, h4⟩

end Mono

section Exact

variable [ExactScalar N]

theorem SVec.sub_get {a b c : SVec N D} (h : a.sub b = some c) (i : Fin D) :
    Scalar.toRat (c.get i) = Scalar.toRat (a.get i) - Scalar.toRat (b.get i) := by
  unfold SVec.sub at h
  split at h
  · rename_i hs
    injection h with h
    subst h
    exact ExactScalar.sub_eq (Option.some_get (hs i)).symm
  · cases h

theorem toRat_foldlM_add {xs : List N} {x y : N} (h : xs.foldlM Scalar.add x = some y) :
    Scalar.toRat y = Scalar.toRat x + (xs.map Scalar.toRat).sum := by
  induction xs generalizing x with
  | nil =>
    rw [List.foldlM_nil] at h
    injection h with h
    simp [h]
  | cons a xs ih =>
    rw [List.foldlM_cons] at h
    obtain ⟨z, hz, h⟩ := Option.bind_eq_some_iff.1 h
    rw [ih h, ExactScalar.add_eq hz, List.map_cons, List.sum_cons, add_assoc]

theorem SVec.sqMag_eq {a : SVec N D} {m : N} (h : a.sqMag = some m) :
    Scalar.toRat m = ∑ i, Scalar.toRat (a.get i) ^ 2 := by
  unfold SVec.sqMag at h
  obtain ⟨sq, hsq, h⟩ := Option.bind_eq_some_iff.1 h
  have key : ∀ {l : List N} {sq : List N}, (l.mapM fun v => Scalar.mul v v) = some sq →
      sq.map Scalar.toRat = l.map fun v => Scalar.toRat v ^ 2 := by
    intro l
    induction l with
    | nil => intro sq h; simp at h; subst h; rfl
    | cons v l ih =>
      intro sq h
      rw [List.mapM_cons] at h
      obtain ⟨x, hx, h⟩ := Option.bind_eq_some_iff.1 h
      obtain ⟨xs, hxs, h⟩ := Option.bind_eq_some_iff.1 h
      injection h with h
      subst h
      rw [List.map_cons, ih hxs, ExactScalar.mul_eq hx, List.map_cons, pow_two]
  have h1 := key hsq
  have h2 : Scalar.toRat m = (sq.map Scalar.toRat).sum := by
    cases sq with
    | nil => cases h
    | cons x xs => exact toRat_foldlM_add h
  rw [h2, h1, SVec.toList, List.map_map, Fin.sum_univ_def]
  rfl

theorem SVec.distSq_eq {a p : SVec N D} {m : N} (h : a.distSq p = some m) : Scalar.toRat m = sqDist a p := by
  unfold SVec.distSq at h
  obtain ⟨d, hd, h⟩ := Option.bind_eq_some_iff.1 h
  rw [SVec.sqMag_eq h, sqDist]
  exact Finset.sum_congr rfl fun i _ => by rw [SVec.sub_get hd i]

theorem AABB.closest_le {b : AABB N D} (p : SVec N D) {q : SVec N D} (hq : AABB.Mem q b) :
    sqDist (b.closest p) p ≤ sqDist q p := by
  refine Finset.sum_le_sum fun i _ => ?_
  obtain ⟨h1, h2⟩ := hq i
  have e1 := (ExactScalar.le_iff _ _).1 h1
  have e2 := (ExactScalar.le_iff _ _).1 h2
  simp only [closest, SVec.cmin, SVec.cmax]
  rcases le_total (p.get i) (b.min.get i) with h3 | h3
  · have e3 := (ExactScalar.le_iff _ _).1 h3
    rw [max_eq_right h3, min_eq_left (le_trans h1 h2)]
    nlinarith
  · have e3 := (ExactScalar.le_iff _ _).1 h3
    rw [max_eq_left h3]
    rcases le_total (p.get i) (b.max.get i) with h4 | h4
    · rw [min_eq_left h4]; simp; positivity
    · have e4 := (ExactScalar.le_iff _ _).1 h4
      rw [min_eq_right h4]
      nlinarith

theorem AABB.distSq_eq {b : AABB N D} {p : SVec N D} {m : N} (h : b.distSq p = some m) :
    Scalar.toRat m = sqDist (b.closest p) p := SVec.distSq_eq h

end Exact

/-! ### no overflow -/

namespace I32

theorem isSome_sub {a b : I32} (h : -2147483648 ≤ a.1 - b.1 ∧ a.1 - b.1 ≤ 2147483647) :
    Scalar.sub a b = some ⟨a.1 - b.1, h⟩ := by
  simp only [Scalar.sub, check]
  rw [dif_pos h]

theorem isSome_mul {a b : I32} (h : -2147483648 ≤ a.1 * b.1 ∧ a.1 * b.1 ≤ 2147483647) :
    Scalar.mul a b = some ⟨a.1 * b.1, h⟩ := by
  simp only [Scalar.mul, check]
  rw [dif_pos h]

theorem isSome_add {a b : I32} (h : -2147483648 ≤ a.1 + b.1 ∧ a.1 + b.1 ≤ 2147483647) :
    Scalar.add a b = some ⟨a.1 + b.1, h⟩ := by
  simp only [Scalar.add, check]
  rw [dif_pos h]

theorem mapM_sq {w : ℤ} (hw : w * w ≤ 2147483647) (l : List I32) (hl : ∀ v ∈ l, -w ≤ v.1 ∧ v.1 ≤ w) :
    ∃ sq, (l.mapM fun v => Scalar.mul v v) = some sq ∧ sq.length = l.length ∧
      ∀ s ∈ sq, 0 ≤ s.1 ∧ s.1 ≤ w * w := by
  induction l with
  | nil => exact ⟨[], by simp, rfl, by simp⟩
  | cons v l ih =>
    obtain ⟨sq, h1, h2, h3⟩ := ih fun v hv => hl v (List.mem_cons_of_mem _ hv)
    obtain ⟨hv1, hv2⟩ := hl v List.mem_cons_self
    have h4 : v.1 * v.1 ≤ w * w := by nlinarith
    have h5 : 0 ≤ v.1 * v.1 := mul_self_nonneg _
    have h6 : -2147483648 ≤ v.1 * v.1 ∧ v.1 * v.1 ≤ 2147483647 := ⟨by omega, by omega⟩
    refine ⟨⟨v.1 * v.1, h6⟩ :: sq, ?_, by simp [h2], ?_⟩
    · simp [List.mapM_cons, isSome_mul h6, h1]
    · intro s hs
      rcases List.mem_cons.1 hs with rfl | hs
      · exact ⟨h5, h4⟩
      · exact h3 s hs

theorem foldlM_add {w : ℤ} (xs : List I32) (x : I32) (hx : 0 ≤ x.1) (h0 : 0 ≤ w)
    (hxs : ∀ s ∈ xs, 0 ≤ s.1 ∧ s.1 ≤ w) (hb : x.1 + xs.length * w ≤ 2147483647) :
    ∃ y, xs.foldlM Scalar.add x = some y := by
  induction xs generalizing x with
  | nil => exact ⟨x, rfl⟩
  | cons a xs ih =>
    obtain ⟨ha1, ha2⟩ := hxs a List.mem_cons_self
    have hn : (0 : ℤ) ≤ (xs.length : ℤ) * w := mul_nonneg (by omega) h0
    have hb' : x.1 + ((xs.length : ℤ) + 1) * w ≤ 2147483647 := by simpa using hb
    have e : ((xs.length : ℤ) + 1) * w = xs.length * w + w := by ring
    rw [e] at hb'
    have h1 : -2147483648 ≤ x.1 + a.1 ∧ x.1 + a.1 ≤ 2147483647 := ⟨by omega, by omega⟩
    obtain ⟨y, hy⟩ := ih ⟨x.1 + a.1, h1⟩ (by simp; omega) (fun s hs => hxs s (List.mem_cons_of_mem _ hs)) (by simp; omega)
    refine ⟨y, ?_⟩
    rw [List.foldlM_cons, isSome_add h1]
    exact hy

/-- Distances between `i32` points with coordinates in `[lo, hi]` do not overflow if `D * (hi - lo)²` does not. -/
theorem distSq_isSome (hD : 0 < D) {lo hi : I32} (hw : D * ((hi.1 - lo.1) * (hi.1 - lo.1)) ≤ 2147483647) {a p : SVec I32 D}
    (ha : ∀ i, lo ≤ a.get i ∧ a.get i ≤ hi) (hp : ∀ i, lo ≤ p.get i ∧ p.get i ≤ hi) : ∃ m, a.distSq p = some m := by
  have hd : ∀ i, -(hi.1 - lo.1) ≤ (a.get i).1 - (p.get i).1 ∧ (a.get i).1 - (p.get i).1 ≤ hi.1 - lo.1 := by
    intro i
    have h1 : lo.1 ≤ (a.get i).1 := (ha i).1
    have h2 : (a.get i).1 ≤ hi.1 := (ha i).2
    have h3 : lo.1 ≤ (p.get i).1 := (hp i).1
    have h4 : (p.get i).1 ≤ hi.1 := (hp i).2
    omega
  generalize hi.1 - lo.1 = w at hw hd
  have hw1 : w * w ≤ 2147483647 := by
    have : (1 : ℤ) ≤ D := by exact_mod_cast hD
    nlinarith [mul_self_nonneg w]
  have hw2 : w ≤ 2147483647 := by nlinarith
  have hs : ∀ i, (Scalar.sub (a.get i) (p.get i)).isSome := fun i => by
    rw [isSome_sub ⟨by have := hd i; omega, by have := hd i; omega⟩]; rfl
  have hsub : ∃ c : SVec I32 D, a.sub p = some c ∧ ∀ i, (c.get i).1 = (a.get i).1 - (p.get i).1 := by
    refine ⟨⟨fun i => (Scalar.sub (a.get i) (p.get i)).get (hs i)⟩, by rw [SVec.sub, dif_pos hs], fun i => ?_⟩
    simp only
    have := isSome_sub (a := a.get i) (b := p.get i) ⟨by have := hd i; omega, by have := hd i; omega⟩
    simp [this]
  obtain ⟨c, hc, hcv⟩ := hsub
  obtain ⟨sq, h1, h2, h3⟩ := mapM_sq hw1 c.toList (by
    intro v hv
    simp only [SVec.toList, List.mem_map] at hv
    obtain ⟨i, _, rfl⟩ := hv
    rw [hcv]; exact hd i)
  have hlen : sq.length = D := by rw [h2]; simp [SVec.toList]
  have hne : ∃ x xs, sq = x :: xs := by
    cases sq with
    | nil => simp at hlen; omega
    | cons x xs => exact ⟨x, xs, rfl⟩
  obtain ⟨x, xs, rfl⟩ := hne
  have hx := h3 x List.mem_cons_self
  have hlen' : (D : ℤ) = xs.length + 1 := by rw [← hlen]; simp
  obtain ⟨y, hy⟩ := foldlM_add xs x hx.1 (mul_self_nonneg w) (fun s hs => h3 s (List.mem_cons_of_mem _ hs)) (by
    rw [hlen'] at hw
    have e : ((xs.length : ℤ) + 1) * (w * w) = xs.length * (w * w) + w * w := by ring
    rw [e] at hw
    omega)
  refine ⟨y, ?_⟩
  rw [SVec.distSq, hc]
  show c.sqMag = some y
  rw [SVec.sqMag, h1]
  exact hy

end I32

theorem arith_eq_ok {α : Type} {x : Option α} {a : α} : arith x = .ok a ↔ x = some a := by
  cases x <;> simp [arith]

end RTree
