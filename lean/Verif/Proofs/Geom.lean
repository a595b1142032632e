import Verif.SpecGeom
import Verif.Proofs.Float
import Verif.Spec
/-! Boxes honour the contracts of `Verif/Spec.lean`. -/

namespace RTree

variable {N : Type} {D : Nat} [Scalar N]

namespace SVec

@[simp] theorem allLe_iff {a b : SVec N D} : a.allLe b = true ↔ ∀ i, a.get i ≤ b.get i := by
  simp [allLe]

@[simp] theorem allGe_iff {a b : SVec N D} : a.allGe b = true ↔ ∀ i, b.get i ≤ a.get i := by
  simp [allGe]

end SVec

namespace AABB

theorem Le.refl (a : AABB N D) : a.Le a := fun _ => ⟨le_refl _, le_refl _⟩

theorem Le.trans {a b c : AABB N D} (h₁ : a.Le b) (h₂ : b.Le c) : a.Le c := fun i =>
  ⟨le_trans (h₂ i).1 (h₁ i).1, le_trans (h₁ i).2 (h₂ i).2⟩

theorem le_union_left (a b : AABB N D) : a.Le (a.union b) := fun i => by simp [union, SVec.cmin, SVec.cmax]

theorem le_union_right (a b : AABB N D) : b.Le (a.union b) := fun i => by simp [union, SVec.cmin, SVec.cmax]

theorem union_assoc (a b c : AABB N D) : (a.union b).union c = a.union (b.union c) := by
  simp [union, SVec.cmin, SVec.cmax, min_assoc, max_assoc]

theorem union_comm (a b : AABB N D) : a.union b = b.union a := by
  simp [union, SVec.cmin, SVec.cmax, min_comm, max_comm]

theorem union_self (a : AABB N D) : a.union a = a := by simp [union, SVec.cmin, SVec.cmax]

theorem empty_union_of {a : AABB N D} (h : ∀ i, a.min.get i ≤ Scalar.maxVal ∧ Scalar.minVal ≤ a.max.get i) :
    AABB.empty.union a = a := by
  ext i
  · simp only [union, empty, SVec.cmin, SVec.maxValue]
    exact min_eq_right (h i).1
  · simp only [union, empty, SVec.cmax, SVec.minValue]
    exact max_eq_right (h i).2

theorem empty_union [FullRange N] (a : AABB N D) : AABB.empty.union a = a :=
  empty_union_of fun _ => ⟨FullRange.le_maxVal _, FullRange.minVal_le _⟩

instance : ExactBounds (AABB N D) where
  union_assoc := union_assoc
  union_comm := union_comm
  union_self := union_self
  unionAll_eq _ := rfl

theorem normal_iff {a : AABB N D} : Normal a ↔ ∀ i, a.min.get i ≤ Scalar.maxVal ∧ Scalar.minVal ≤ a.max.get i := by
  refine ⟨fun h i => ?_, empty_union_of⟩
  have h' : AABB.empty.union a = a := h
  have h1 := congrArg (fun b : AABB N D => b.min.get i) h'
  have h2 := congrArg (fun b : AABB N D => b.max.get i) h'
  simp only [union, empty, SVec.cmin, SVec.maxValue, SVec.cmax, SVec.minValue] at h1 h2
  exact ⟨min_eq_right_iff.1 h1, max_eq_right_iff.1 h2⟩

theorem normal [FullRange N] (a : AABB N D) : Normal a := empty_union a

theorem le_unionAll {b : AABB N D} {bs : List (AABB N D)} (h : b ∈ bs) : b.Le (unionAll bs) := by
  have grow : ∀ (bs : List (AABB N D)) (a : AABB N D), a.Le (bs.foldl union a) := by
    intro bs
    induction bs with
    | nil => exact fun a => Le.refl a
    | cons c bs ih => exact fun a => (le_union_left a c).trans (ih _)
  suffices ∀ (bs : List (AABB N D)) (a : AABB N D), b ∈ bs → b.Le (bs.foldl union a) from this bs empty h
  intro bs
  induction bs with
  | nil => intro a h; cases h
  | cons c bs ih =>
    intro a h
    rcases List.mem_cons.1 h with rfl | h
    · exact (le_union_right a b).trans (grow bs _)
    · exact ih _ h

theorem intersectsBox_of_le {b c : AABB N D} (hv : c.Valid) (h : c.Le b) : b.intersectsBox c = true := by
  simp only [intersectsBox, Bool.and_eq_true, SVec.allLe_iff, SVec.allGe_iff]
  exact ⟨fun i => le_trans (h i).1 (hv i), fun i => le_trans (hv i) (h i).2⟩

instance : LawfulBounds (AABB N D) where
  le := Le
  le_refl := Le.refl
  le_trans := Le.trans
  le_union_left := le_union_left
  le_union_right := le_union_right
  le_unionAll := le_unionAll
  valid := Valid
  contains_of_le := intersectsBox_of_le
  intersects_of_le := intersectsBox_of_le

/-- All coordinates of the box lie in `[lo, hi]`. -/
def InWindow (lo hi : N) (b : AABB N D) : Prop := ∀ i,
  (lo ≤ b.min.get i ∧ b.min.get i ≤ hi) ∧ (lo ≤ b.max.get i ∧ b.max.get i ≤ hi)

theorem inWindow_union {lo hi : N} {a b : AABB N D} (ha : a.InWindow lo hi) (hb : b.InWindow lo hi) :
    (a.union b).InWindow lo hi := fun i => by
  have := ha i; have := hb i
  simp only [union, SVec.cmin, SVec.cmax]
  refine ⟨⟨le_min ?_ ?_, min_le_of_left_le ?_⟩, le_max_of_le_left ?_, max_le ?_ ?_⟩ <;> simp_all

theorem inWindow_unionAll {lo hi : N} (hlo : Scalar.minVal ≤ lo) (hhi : hi ≤ Scalar.maxVal) {bs : List (AABB N D)}
    (hne : bs ≠ []) (h : ∀ b ∈ bs, b.InWindow lo hi) : (unionAll bs).InWindow lo hi := by
  cases bs with
  | nil => exact absurd rfl hne
  | cons b bs =>
    have hb := h b List.mem_cons_self
    unfold unionAll
    rw [List.foldl_cons, empty_union_of fun i => ⟨le_trans (hb i).1.2 hhi, le_trans hlo (hb i).2.1⟩]
    have h' := fun x hx => h x (List.mem_cons_of_mem _ hx)
    clear h hne
    induction bs generalizing b with
    | nil => exact hb
    | cons c bs ih =>
      exact ih _ (inWindow_union hb (h' c List.mem_cons_self)) fun x hx => h' x (List.mem_cons_of_mem _ hx)

end AABB

/-- Differences of scalars between `lo` and `hi` do not overflow, and are at most `2 ^ m`. -/
def SmallDiff (m : ℕ) (lo hi : N) : Prop := ∀ x y : N, lo ≤ x → x ≤ hi → lo ≤ y → y ≤ hi →
  ∃ z q, Scalar.sub x y = some z ∧ Scalar.toX z = XRat.rat q ∧ |q| ≤ pow2 m

theorem foldlM_mul_bound {m k : ℕ} {a : ℚ} (ha : |a| ≤ pow2 (m * k : ℕ)) {ls : List XRat}
    (hl : ∀ l ∈ ls, ∃ q, l = XRat.rat q ∧ |q| ≤ pow2 m) (hk : m * (k + ls.length) ≤ 1023) :
    ∃ v, ls.foldlM (N64.mul .binary64) (XRat.rat a) = some (XRat.rat v) := by
  induction ls generalizing a k with
  | nil => exact ⟨a, rfl⟩
  | cons l ls ih =>
    obtain ⟨q, rfl, hq⟩ := hl l List.mem_cons_self
    have h1 : |a * q| ≤ pow2 (m * (k + 1) : ℕ) := by
      rw [abs_mul, show ((m * (k + 1) : ℕ) : ℤ) = (m * k : ℕ) + (m : ℕ) by push_cast; ring, pow2_add]
      exact mul_le_mul ha hq (abs_nonneg _) (pow2_pos _).le
    have h2 : m * (k + 1 + ls.length) ≤ 1023 := by
      rw [List.length_cons] at hk
      calc _ = m * (k + (ls.length + 1)) := by ring
        _ ≤ _ := hk
    have h3 : m * (k + 1) ≤ 1023 := le_trans (Nat.mul_le_mul_left m (Nat.le_add_right _ _)) h2
    obtain ⟨h4, h5⟩ := binary64_bound (by omega) (by exact_mod_cast h3) h1
    rw [List.foldlM_cons]
    have h6 : N64.mul .binary64 (XRat.rat a) (XRat.rat q) = some (XRat.rat (nearest .binary64 (a * q))) := by
      rw [← h4]; rfl
    rw [h6]
    exact ih h5 (fun l hl' => hl l (List.mem_cons_of_mem _ hl')) h2

namespace AABB

theorem lengths_bound {m : ℕ} {lo hi : N} (h : SmallDiff m lo hi) {b : AABB N D} (hb : b.InWindow lo hi) :
    ∃ l : List XRat, b.lengths = some l ∧ l.length = D ∧ ∀ x ∈ l, ∃ q, x = XRat.rat q ∧ |q| ≤ pow2 m := by
  have key : ∀ is : List (Fin D), ∃ l : List XRat,
      (is.mapM fun i => (Scalar.sub (b.max.get i) (b.min.get i)).map Scalar.toX) = some l ∧
        l.length = is.length ∧ ∀ x ∈ l, ∃ q, x = XRat.rat q ∧ |q| ≤ pow2 m := by
    intro is
    induction is with
    | nil => exact ⟨[], by simp, rfl, fun x hx => by cases hx⟩
    | cons i is ih =>
      obtain ⟨l, hl, hlen, hall⟩ := ih
      obtain ⟨z, q, hz, hq, hle⟩ := h (b.max.get i) (b.min.get i) (hb i).2.1 (hb i).2.2 (hb i).1.1 (hb i).1.2
      refine ⟨Scalar.toX z :: l, by simp [List.mapM_cons, hl, hz], by simp [hlen], fun x hx => ?_⟩
      rcases List.mem_cons.1 hx with rfl | hx
      · exact ⟨q, hq, hle⟩
      · exact hall x hx
  obtain ⟨l, hl, hlen, hall⟩ := key (List.finRange D)
  exact ⟨l, hl, by simpa using hlen, hall⟩

theorem volume_bound {m : ℕ} {lo hi : N} (hD : 0 < D) (hm : m * D ≤ 1023) (h : SmallDiff m lo hi) {b : AABB N D}
    (hb : b.InWindow lo hi) : ∃ v, b.volume = some (XRat.rat v) := by
  obtain ⟨l, hl, hlen, hall⟩ := lengths_bound h hb
  unfold volume
  rw [hl]
  cases l with
  | nil => simp at hlen; omega
  | cons x xs =>
    obtain ⟨q, rfl, hq⟩ := hall x List.mem_cons_self
    refine foldlM_mul_bound (k := 1) (by simpa using hq) (fun l hl => hall l (List.mem_cons_of_mem _ hl)) ?_
    rw [← hlen, List.length_cons] at hm
    rwa [add_comm] at hm

/-- If differences of scalars between `lo` and `hi` do not overflow and are small enough that the product of `D` of them
    does not overflow, then volumes of boxes in that window never panic. -/
@[reducible] def windowVolumeLaws (lo hi : N) (hlo : Scalar.minVal ≤ lo) (hhi : hi ≤ Scalar.maxVal) (hD : 0 < D) {m : ℕ}
    (hm : m * D ≤ 1023) (h : SmallDiff m lo hi) : VolumeLaws (AABB N D) where
  volOk := InWindow lo hi
  union := inWindow_union
  unionAll := inWindow_unionAll hlo hhi
  volume hb := let ⟨_, hv⟩ := volume_bound hD hm h hb; ⟨_, hv⟩
  sub := by
    intro a b u v ha hb hu hv
    obtain ⟨p, hp⟩ := volume_bound hD hm h ha
    obtain ⟨q, hq⟩ := volume_bound hD hm h hb
    have hu' : a.volume = some u := hu
    have hv' : b.volume = some v := hv
    rw [hp] at hu'
    rw [hq] at hv'
    injection hu' with hu'
    injection hv' with hv'
    subst hu' hv'
    exact ⟨_, F64.sub_rat _ _⟩

end AABB

instance [BEq (AABB N D)] [LawfulBEq (AABB N D)] : LawfulKey (AABB N D) (AABB N D) where
  bounds_eq h := by rw [eq_of_beq h]

instance [BEq (SVec N D)] [LawfulBEq (SVec N D)] : LawfulKey (SVec N D) (AABB N D) where
  bounds_eq h := by rw [eq_of_beq h]

instance : FullRange I32 := ⟨fun a => a.2.1, fun a => a.2.2⟩

/-- `i32` coordinates whose differences do not overflow. -/
theorem I32.window {lo hi : I32} (h : hi.1 - lo.1 ≤ 2147483647) : SmallDiff 31 lo hi := by
  intro x y h1 h2 h3 h4
  have h1 : lo.1 ≤ x.1 := h1
  have h2 : x.1 ≤ hi.1 := h2
  have h3 : lo.1 ≤ y.1 := h3
  have h4 : y.1 ≤ hi.1 := h4
  refine ⟨⟨x.1 - y.1, by omega⟩, ((x.1 - y.1 : ℤ) : ℚ), ?_, rfl, ?_⟩
  · simp only [Scalar.sub, I32.check]
    rw [dif_pos (by omega)]
  · rw [show pow2 (31 : ℕ) = ((2147483648 : ℤ) : ℚ) by rfl, ← Int.cast_abs, Int.cast_le, abs_le]
    omega

end RTree
