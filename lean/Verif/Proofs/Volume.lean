import Verif.Proofs.Sums
import Mathlib.Algebra.BigOperators.Fin
import Mathlib.Algebra.Order.BigOperators.Ring.Finset
/-! The volume of boxes, the length of segments. -/

namespace RTree

open XRat F64

variable {N : Type} {D : Nat} [Scalar N]

theorem F64.mul_comm' (R : Rounding) (x y : F64) : F64.mul R x y = F64.mul R y x := by
  rcases x with _ | x
  · rcases y with _ | y
    · rfl
    · rcases y.cases with rfl | rfl | ⟨b, rfl⟩ <;> rfl
  · rcases y with _ | y
    · rcases x.cases with rfl | rfl | ⟨b, rfl⟩ <;> rfl
    · rcases x.cases with rfl | rfl | ⟨a, rfl⟩ <;> rcases y.cases with rfl | rfl | ⟨b, rfl⟩ <;> first | rfl | skip
      rw [F64.mul_rat, F64.mul_rat, mul_comm]

theorem F64.mul_nonneg {R : Rounding} (hR : R.Lawful) {x y z : XRat} (hx : rat 0 ≤ x) (hy : rat 0 ≤ y)
    (h : F64.mul R (some x) (some y) = some z) : rat 0 ≤ z := by
  rcases x.cases with rfl | rfl | ⟨a, rfl⟩
  · exact absurd hx (not_le_bot _)
  · rcases y.cases with rfl | rfl | ⟨b, rfl⟩
    · exact absurd hy (not_le_bot _)
    · cases h; exact le_top' _
    · rcases (rat_le.1 hy).eq_or_lt with rfl | hb
      · rw [F64.inf_mul_zero (.inl rfl)] at h; cases h
      · rw [F64.mul_comm', F64.pos_mul_top (rat_lt.2 hb)] at h; cases h; exact le_top' _
  · rcases y.cases with rfl | rfl | ⟨b, rfl⟩
    · exact absurd hy (not_le_bot _)
    · rcases (rat_le.1 hx).eq_or_lt with rfl | hb
      · rw [F64.zero_mul_inf (.inl rfl)] at h; cases h
      · rw [F64.pos_mul_top (rat_lt.2 hb)] at h; cases h; exact le_top' _
    · rw [F64.mul_rat] at h
      cases h
      exact hR.nonneg (_root_.mul_nonneg (rat_le.1 hx) (rat_le.1 hy))

/-- Products of non-negative numbers respect the order. -/
theorem F64.mul_mono {R : Rounding} (hR : R.Lawful) {x y c d z w : XRat} (hx : rat 0 ≤ x) (hc : rat 0 ≤ c) (hxy : x ≤ y)
    (hcd : c ≤ d) (h : F64.mul R (some x) (some c) = some z) (h' : F64.mul R (some y) (some d) = some w) : z ≤ w := by
  cases hm : F64.mul R (some y) (some c) with
  | some u =>
    refine (F64.mul_mono_right hR hc hxy h hm).trans ?_
    rw [F64.mul_comm'] at hm h'
    exact F64.mul_mono_right hR (hx.trans hxy) hcd hm h'
  | none =>
    -- zero times infinity: either `y` is infinite or `c` is
    rcases y.cases with rfl | rfl | ⟨b, rfl⟩
    · exact absurd (hx.trans hxy) (not_le_bot _)
    · rcases d.cases with rfl | rfl | ⟨b, rfl⟩
      · exact absurd (hc.trans hcd) (not_le_bot _)
      · cases h'; exact le_top' _
      · rcases (rat_le.1 (hc.trans hcd)).eq_or_lt with rfl | hb
        · rw [F64.inf_mul_zero (.inl rfl)] at h'; cases h'
        · rw [F64.mul_comm', F64.pos_mul_top (rat_lt.2 hb)] at h'; cases h'; exact le_top' _
    · rcases c.cases with rfl | rfl | ⟨c, rfl⟩
      · exact absurd hc (not_le_bot _)
      · obtain rfl := XRat.top_le.1 hcd
        rw [hm] at h'; cases h'
      · rw [F64.mul_rat] at hm; cases hm

theorem foldlM_n64_mul_mono {R : Rounding} (hR : R.Lawful) {xs ys : List XRat} (h : List.Forall₂ (· ≤ ·) xs ys)
    (hxs : ∀ x ∈ xs, rat 0 ≤ x) {x y m n : XRat} (hx : rat 0 ≤ x) (hxy : x ≤ y) (hm : xs.foldlM (N64.mul R) x = some m)
    (hn : ys.foldlM (N64.mul R) y = some n) : rat 0 ≤ m ∧ m ≤ n := by
  induction h generalizing x y with
  | nil =>
    rw [List.foldlM_nil] at hm hn
    injection hm with hm
    injection hn with hn
    exact ⟨hm ▸ hx, hm ▸ hn ▸ hxy⟩
  | cons hab _ ih =>
    rw [List.foldlM_cons] at hm hn
    obtain ⟨u, hu, hm⟩ := Option.bind_eq_some_iff.1 hm
    obtain ⟨v, hv, hn⟩ := Option.bind_eq_some_iff.1 hn
    have h0 := hxs _ List.mem_cons_self
    exact ih (fun z hz => hxs z (List.mem_cons_of_mem _ hz)) (F64.mul_nonneg hR hx h0 hu) (F64.mul_mono hR hx h0 hxy hab hu hv) hm hn

theorem mapM_option_forall {α β : Type} {r : β → Prop} {f : α → Option β} {l : List α} {xs : List β}
    (hxs : l.mapM f = some xs) (h : ∀ a ∈ l, ∀ x, f a = some x → r x) : ∀ x ∈ xs, r x := by
  induction l generalizing xs with
  | nil => simp at hxs; subst hxs; intro x hx; cases hx
  | cons a l ih =>
    rw [List.mapM_cons] at hxs
    obtain ⟨x, hx, hxs⟩ := Option.bind_eq_some_iff.1 hxs
    obtain ⟨xs', hxs', hxs⟩ := Option.bind_eq_some_iff.1 hxs
    injection hxs with hxs
    subst hxs
    intro y hy
    rcases List.mem_cons.1 hy with rfl | hy
    · exact h a List.mem_cons_self _ hx
    · exact ih hxs' (fun b hb => h b (List.mem_cons_of_mem _ hb)) y hy

/-- Volumes of non-inverted boxes are non-negative and respect inclusion, whatever is rounded. -/
theorem AABB.volume_mono {R : Rounding} [FloatScalar R N] {a b : AABB N D} (hv : a.Valid) (hab : a.Le b) {v w : XRat}
    (ha : a.volume = some v) (hb : b.volume = some w) : rat 0 ≤ v ∧ v ≤ w := by
  have hR := FloatScalar.lawful (R := R) (N := N)
  unfold AABB.volume at ha hb
  obtain ⟨la, hla, ha⟩ := Option.bind_eq_some_iff.1 ha
  obtain ⟨lb, hlb, hb⟩ := Option.bind_eq_some_iff.1 hb
  have hle := mapM_forall₂ (r := fun x y : XRat => x ≤ y) hla hlb (by
    intro i _ x y hx hy
    obtain ⟨x', hx', rfl⟩ := Option.map_eq_some_iff.1 hx
    obtain ⟨y', hy', rfl⟩ := Option.map_eq_some_iff.1 hy
    exact FloatScalar.sub_mono (hab i).2 (hab i).1 hx' hy')
  have h0 := mapM_option_forall (r := fun x : XRat => rat 0 ≤ x) hla (by
    intro i _ x hx
    obtain ⟨x', hx', rfl⟩ := Option.map_eq_some_iff.1 hx
    exact F64.sub_nonneg hR ((FloatScalar.le_iff _ _).1 (hv i)) (FloatScalar.sub_eq hx'))
  cases hle with
  | nil => cases ha
  | cons h1 h2 =>
    exact foldlM_n64_mul_mono Rounding.binary64_lawful h2 (fun x hx => h0 x (List.mem_cons_of_mem _ hx))
      (h0 _ List.mem_cons_self) h1 ha hb

/-! ### integers -/

theorem NearSum.mul_int {k : ℕ} {q s : ℚ} (h : NearSum k q s) {z : ℤ} (hz : 0 ≤ z) : NearSum k (q * z) (s * z) := by
  obtain ⟨h1, h2, h3, h4⟩ := h
  have hz' : (0 : ℚ) ≤ z := by exact_mod_cast hz
  refine ⟨?_, ?_, ?_, mul_nonneg h4 hz'⟩
  · rw [mul_right_comm]; exact mul_le_mul_of_nonneg_right h1 hz'
  · rw [mul_right_comm]; exact mul_le_mul_of_nonneg_right h2 hz'
  · rcases h3 with rfl | h3
    · left; rw [zero_mul]
    · rcases hz.eq_or_lt with rfl | hz
      · left; norm_num
      · right
        have : (1 : ℚ) ≤ z := by exact_mod_cast hz
        nlinarith

theorem NearSum.eq_zero {k : ℕ} {q s : ℚ} (h : NearSum k q s) : q = 0 ↔ s = 0 := by
  obtain ⟨h1, h2, h3, h4⟩ := h
  have hu1 : pow2 (-53) ≤ 1 / 4 := by rw [pow2_eq]; norm_num
  have hp : 0 < (1 - pow2 (-53)) ^ k := pow_pos (by linarith) k
  constructor
  · rintro rfl
    by_contra hs
    have : 0 < s := lt_of_le_of_ne h4 (Ne.symm hs)
    nlinarith [mul_pos this hp]
  · rintro rfl
    rw [zero_mul] at h1 h2
    linarith

/-- The error of a computed product of integers; infinite products are not excluded. -/
theorem foldlM_mul_near {zs : List ℤ} (hzs : ∀ z ∈ zs, 0 ≤ z) {k : ℕ} {a s : ℚ} (ha : NearSum k a s) {q : ℚ}
    (h : (zs.map fun z : ℤ => rat (z : ℚ)).foldlM (N64.mul .binary64) (rat a) = some (rat q)) :
    NearSum (k + zs.length) q (s * (zs.prod : ℤ)) := by
  induction zs generalizing k a s with
  | nil =>
    rw [List.map_nil, List.foldlM_nil] at h
    injection h with h
    rw [← rat_inj.1 h]
    simpa using ha
  | cons z zs ih =>
    rw [List.map_cons, List.foldlM_cons] at h
    obtain ⟨w, hw, h⟩ := Option.bind_eq_some_iff.1 h
    have hz0 := hzs z List.mem_cons_self
    have hzs' : ∀ z ∈ zs, 0 ≤ z := fun x hx => hzs x (List.mem_cons_of_mem _ hx)
    rw [N64.mul, F64.mul_rat] at hw
    injection hw with hw
    have hn := (ha.mul_int hz0).round
    have hnn : 0 ≤ a * z := by rcases (ha.mul_int hz0).2.2.1 with h | h <;> linarith
    have htop : ∀ l : List ℤ, (∀ z ∈ l, 0 ≤ z) → (l.map fun z : ℤ => rat (z : ℚ)).foldlM (N64.mul .binary64) top ≠ some (rat q) := by
      intro l
      induction l with
      | nil => intro _ h; rw [List.map_nil, List.foldlM_nil] at h; injection h with h; cases h
      | cons x l ih' =>
        intro hl h
        rw [List.map_cons, List.foldlM_cons] at h
        obtain ⟨u, hu, h⟩ := Option.bind_eq_some_iff.1 h
        rcases (hl x List.mem_cons_self).eq_or_lt with rfl | hx
        · rw [N64.mul, show ((0 : ℤ) : ℚ) = 0 by norm_num, F64.inf_mul_zero (.inl rfl)] at hu; cases hu
        · rw [N64.mul, F64.mul_comm', F64.pos_mul_top (rat_lt.2 (by exact_mod_cast hx))] at hu
          cases hu
          exact ih' (fun z hz => hl z (List.mem_cons_of_mem _ hz)) h
    have hw' : w = rat (nearest .binary64 (a * z)) := by
      rcases w.cases with rfl | rfl | ⟨b, rfl⟩
      · have := Rounding.binary64_lawful.nonneg hnn
        rw [hw] at this
        exact absurd this (not_le_bot _)
      · exact absurd h (htop zs hzs')
      · rw [of_rnd_eq hw]
    rw [hw'] at h
    have := ih hzs' hn h
    rw [List.length_cons, List.prod_cons, show k + (zs.length + 1) = k + 1 + zs.length by omega, Int.cast_mul, ← mul_assoc]
    exact this

/-- A product of integers of at most `2 ^ 53` is computed exactly, if it is finite. -/
theorem foldlM_mul_exact {zs : List ℤ} (hzs : ∀ z ∈ zs, 0 ≤ z) {a : ℤ} (ha : 0 ≤ a) (hs : a * zs.prod ≤ 2 ^ 53)
    (hpos : 0 < zs.prod) :
    (zs.map fun z : ℤ => rat (z : ℚ)).foldlM (N64.mul .binary64) (rat a) = some (rat ((a * zs.prod : ℤ) : ℚ)) := by
  induction zs generalizing a with
  | nil => simp
  | cons z zs ih =>
    have hz0 := hzs z List.mem_cons_self
    have hzs' : ∀ z ∈ zs, 0 ≤ z := fun x hx => hzs x (List.mem_cons_of_mem _ hx)
    rw [List.prod_cons] at *
    have hp : 0 < zs.prod := pos_of_mul_pos_right hpos hz0
    rw [List.map_cons, List.foldlM_cons, N64.mul, F64.mul_rat, ← Int.cast_mul, binary64_intCast (by
      rw [abs_of_nonneg (mul_nonneg ha hz0)]
      have := mul_nonneg ha hz0
      rw [← mul_assoc] at hs
      nlinarith)]
    rw [← mul_assoc] at hs ⊢
    exact ih hzs' (mul_nonneg ha hz0) hs hp

/-- A computed product with a factor zero is zero, if it is not NaN. -/
theorem foldlM_mul_zero {zs : List ℤ} {x v : XRat} (hz : x = rat 0 ∨ (0 : ℤ) ∈ zs)
    (h : (zs.map fun z : ℤ => rat (z : ℚ)).foldlM (N64.mul .binary64) x = some v) : v = rat 0 := by
  induction zs generalizing x with
  | nil =>
    rw [List.map_nil, List.foldlM_nil] at h
    injection h with h
    rcases hz with rfl | hz
    · exact h.symm
    · cases hz
  | cons z zs ih =>
    rw [List.map_cons, List.foldlM_cons] at h
    obtain ⟨w, hw, h2⟩ := Option.bind_eq_some_iff.1 h
    clear h
    rcases hz with rfl | hz
    · refine ih (.inl ?_) h2
      rw [N64.mul, F64.mul_rat, zero_mul, Rounding.binary64_lawful.zero] at hw
      injection hw with hw
      exact hw.symm
    · rcases List.mem_cons.1 hz with rfl | hz
      · refine ih (.inl ?_) h2
        rw [N64.mul, show ((0 : ℤ) : ℚ) = 0 by norm_num] at hw
        rcases x.cases with rfl | rfl | ⟨a, rfl⟩
        · rw [F64.inf_mul_zero (.inr rfl)] at hw; cases hw
        · rw [F64.inf_mul_zero (.inl rfl)] at hw; cases hw
        · rw [F64.mul_rat, mul_zero, Rounding.binary64_lawful.zero] at hw
          injection hw with hw
          exact hw.symm
      · exact ih (.inr hz) h2

section Ints

variable [IntScalar N]

/-- The sides of a non-inverted box with integer coordinates. -/
theorem AABB.volume_int {b : AABB N D} (hb : b.Valid) {v : XRat} (h : b.volume = some v) :
    ∃ (z : ℤ) (zs : List ℤ), 0 ≤ z ∧ (∀ x ∈ zs, 0 ≤ x) ∧ zs.length + 1 = D ∧
      ((z * zs.prod : ℤ) : ℚ) = ∏ i, b.side i ∧ (zs.map fun z : ℤ => rat (z : ℚ)).foldlM (N64.mul .binary64) (rat z) = some v := by
  unfold AABB.volume at h
  obtain ⟨ls, hls, h⟩ := Option.bind_eq_some_iff.1 h
  have key : ∀ (l : List (Fin D)) (ls : List XRat),
      l.mapM (fun i => (Scalar.sub (b.max.get i) (b.min.get i)).map Scalar.toX) = some ls →
      ∃ zs : List ℤ, (∀ x ∈ zs, 0 ≤ x) ∧ zs.map (fun x : ℤ => (x : ℚ)) = l.map b.side ∧
        ls = zs.map fun x : ℤ => rat (x : ℚ) := by
    intro l
    induction l with
    | nil => intro ls h; simp at h; subst h; exact ⟨[], by simp, rfl, rfl⟩
    | cons i l ih =>
      intro ls h
      rw [List.mapM_cons] at h
      obtain ⟨d, hd, h⟩ := Option.bind_eq_some_iff.1 h
      obtain ⟨ls', hls', h⟩ := Option.bind_eq_some_iff.1 h
      injection h with h
      subst h
      obtain ⟨c, hc, rfl⟩ := Option.map_eq_some_iff.1 hd
      obtain ⟨z, e1, e2⟩ := IntScalar.int_eq c
      obtain ⟨zs, f1, f2, f3⟩ := ih ls' hls'
      have e3 : (z : ℚ) = b.side i := by rw [← e1, ExactScalar.sub_eq hc]; rfl
      refine ⟨z :: zs, fun x hx => ?_, by rw [List.map_cons, List.map_cons, f2, e3], by
        rw [f3, ExactScalar.toX_eq, e1]; rfl⟩
      rcases List.mem_cons.1 hx with rfl | hx
      · have : (0 : ℚ) ≤ (x : ℚ) := by
          rw [e3, AABB.side]
          linarith [(ExactScalar.le_iff _ _).1 (hb i)]
        exact_mod_cast this
      · exact f1 x hx
  obtain ⟨zs, f1, f2, f3⟩ := key _ _ hls
  have hprod : ((zs.prod : ℤ) : ℚ) = ∏ i, b.side i := by
    rw [Fin.prod_univ_def, ← f2]
    clear f1 f2 f3
    induction zs with
    | nil => simp
    | cons z zs ih => simp [ih]
  have hlen : zs.length = D := by
    have := congrArg List.length f2
    simpa using this
  cases zs with
  | nil => subst f3; cases h
  | cons z zs =>
    subst f3
    exact ⟨z, zs, f1 z List.mem_cons_self, fun x hx => f1 x (List.mem_cons_of_mem _ hx), hlen, by
      rw [← hprod, List.prod_cons], h⟩

theorem AABB.volume_int_near {b : AABB N D} (hb : b.Valid) {q : ℚ} (h : b.volume = some (rat q)) :
    NearSum (D - 1) q (∏ i, b.side i) := by
  obtain ⟨z, zs, hz, hzs, hl, hp, h⟩ := AABB.volume_int hb h
  have h0 : NearSum 0 (z : ℚ) z := by
    refine ⟨by simp, by simp, ?_, by exact_mod_cast hz⟩
    rcases hz.eq_or_lt with h | h
    · left; rw [← h]; rfl
    · right; exact_mod_cast h
  have := foldlM_mul_near hzs h0 h
  rwa [← Int.cast_mul, hp, show 0 + zs.length = D - 1 by omega] at this

theorem AABB.volume_int_exact {b : AABB N D} (hb : b.Valid) {v : XRat} (h : b.volume = some v)
    (hs : ∏ i, b.side i ≤ 2 ^ 53) : v = rat (∏ i, b.side i) := by
  obtain ⟨z, zs, hz, hzs, hl, hp, h'⟩ := AABB.volume_int hb h
  rw [← hp] at hs ⊢
  by_cases hz' : z * zs.prod = 0
  · rw [hz', show ((0 : ℤ) : ℚ) = 0 by norm_num]
    refine foldlM_mul_zero ?_ h'
    rcases mul_eq_zero.1 hz' with rfl | h0
    · left; norm_num
    · right; exact List.prod_eq_zero_iff.1 h0
  · have hpp : 0 ≤ zs.prod := List.prod_nonneg hzs
    rw [foldlM_mul_exact hzs hz (by exact_mod_cast hs) (lt_of_le_of_ne hpp fun e => hz' (by rw [← e, mul_zero]))] at h'
    injection h' with h'
    exact h'.symm

/-- A computed volume is zero iff a side is. -/
theorem AABB.volume_int_zero {b : AABB N D} (hb : b.Valid) {v : XRat} (h : b.volume = some v) :
    v = rat 0 ↔ ∃ i, b.side i = 0 := by
  rw [← (show ∏ i, b.side i = 0 ↔ ∃ i, b.side i = 0 by simp [Finset.prod_eq_zero_iff])]
  constructor
  · rintro rfl
    exact (AABB.volume_int_near hb h).eq_zero.1 rfl
  · intro h0
    rw [AABB.volume_int_exact hb h (by rw [h0]; norm_num), h0]

end Ints

end RTree
