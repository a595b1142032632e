import Verif.Model.Integers
import Verif.Proofs.Rounded
import Verif.Props.Nearest
import Mathlib.Data.Int.ModEq
/-! Machine integers: exact if nothing overflows, in a debug build; exact modulo `2 ^ BITS` in a release build. -/

namespace RTree

variable {T : IntTy} {pr : Profile} {D : ℕ}

namespace IntTy

theorem hi_eq (T : IntTy) : T.hi = T.lo + 2 ^ T.bits - 1 := rfl

theorem size (T : IntTy) : (1 : ℤ) < 2 ^ T.bits := by cases T <;> decide

theorem small (T : IntTy) : -2147483648 ≤ T.lo ∧ T.hi ≤ 4294967295 ∧ T.lo ≤ 0 ∧ 0 < T.hi ∧ (2 : ℤ) ^ T.bits ≤ 4294967296 := by
  cases T <;> decide

theorem neg_hi (T : IntTy) (h : T.lo ≠ 0) : T.lo = -T.hi - 1 := by cases T <;> revert h <;> decide

theorem wrap_modEq (T : IntTy) (x : ℤ) : T.wrap x ≡ x [ZMOD 2 ^ T.bits] := by
  unfold wrap
  have h := (Int.mod_modEq (x - T.lo) (2 ^ T.bits)).add_right T.lo
  simpa using h

/-- Numbers of the type that are congruent modulo `2 ^ BITS` are the same. -/
theorem eq_of_modEq {T : IntTy} {x y : ℤ} (hx : T.lo ≤ x ∧ x ≤ T.hi) (hy : T.lo ≤ y ∧ y ≤ T.hi)
    (h : x ≡ y [ZMOD 2 ^ T.bits]) : x = y := by
  have h1 := h.sub_right T.lo
  have e1 := Int.emod_eq_of_lt (a := x - T.lo) (b := 2 ^ T.bits) (by omega) (by rw [hi_eq] at hx; omega)
  have e2 := Int.emod_eq_of_lt (a := y - T.lo) (b := 2 ^ T.bits) (by omega) (by rw [hi_eq] at hy; omega)
  unfold Int.ModEq at h1
  omega

end IntTy

namespace MInt

theorem le_iff (a b : MInt T pr) : a ≤ b ↔ a.1 ≤ b.1 := Iff.rfl

theorem toX_def (a : MInt T pr) : Scalar.toX a = XRat.rat a.1 := rfl

theorem toRat_def (a : MInt T pr) : Scalar.toRat a = (a.1 : ℚ) := rfl

theorem result_debug {x : ℤ} (h : T.lo ≤ x ∧ x ≤ T.hi) : result T .debug x = some ⟨x, h⟩ := by simp only [result, dif_pos h]

theorem of_result_debug {x : ℤ} {c : MInt T .debug} (h : result T .debug x = some c) : c.1 = x := by
  by_cases hx : T.lo ≤ x ∧ x ≤ T.hi
  · rw [result_debug hx] at h
    injection h with h
    exact h ▸ rfl
  · rw [result, dif_neg hx] at h
    cases h

instance : ExactScalar (MInt T .debug) where
  toX_eq _ := rfl
  le_iff a b := by
    show a.1 ≤ b.1 ↔ (a.1 : ℚ) ≤ b.1
    exact Int.cast_le.symm
  add_eq {a b c} h := by
    show (c.1 : ℚ) = a.1 + b.1
    rw [of_result_debug h]; exact Int.cast_add _ _
  sub_eq {a b c} h := by
    show (c.1 : ℚ) = a.1 - b.1
    rw [of_result_debug h]; exact Int.cast_sub _ _
  mul_eq {a b c} h := by
    show (c.1 : ℚ) = a.1 * b.1
    rw [of_result_debug h]; exact Int.cast_mul _ _

instance : IntScalar (MInt T .debug) where
  int_eq a := ⟨a.1, rfl, by
    have := a.2
    have := T.small
    rw [abs_le]
    constructor <;> omega⟩

instance : FullRange (MInt T pr) := ⟨fun a => a.2.1, fun a => a.2.2⟩

end MInt

/-! ### volumes -/

namespace AABB

variable {N : Type} [Scalar N]

/-- The lengths of a box can be calculated and are at most `2 ^ m`. -/
def SmallSides (m : ℕ) (b : AABB N D) : Prop := ∀ i, ∃ z q, Scalar.sub (b.max.get i) (b.min.get i) = some z ∧
  Scalar.toX z = XRat.rat q ∧ |q| ≤ pow2 m

theorem lengths_of_sides {m : ℕ} {b : AABB N D} (h : b.SmallSides m) :
    ∃ l : List XRat, b.lengths = some l ∧ l.length = D ∧ ∀ x ∈ l, ∃ q, x = XRat.rat q ∧ |q| ≤ pow2 m := by
  have key : ∀ is : List (Fin D), ∃ l : List XRat,
      (is.mapM fun i => (Scalar.sub (b.max.get i) (b.min.get i)).map Scalar.toX) = some l ∧
        l.length = is.length ∧ ∀ x ∈ l, ∃ q, x = XRat.rat q ∧ |q| ≤ pow2 m := by
    intro is
    induction is with
    | nil => exact ⟨[], by simp, rfl, fun x hx => by cases hx⟩
    | cons i is ih =>
      obtain ⟨l, hl, hlen, hall⟩ := ih
      obtain ⟨z, q, hz, hq, hle⟩ := h i
      refine ⟨Scalar.toX z :: l, by simp [List.mapM_cons, hl, hz], by simp [hlen], fun x hx => ?_⟩
      rcases List.mem_cons.1 hx with rfl | hx
      · exact ⟨q, hq, hle⟩
      · exact hall x hx
  obtain ⟨l, hl, hlen, hall⟩ := key (List.finRange D)
  exact ⟨l, hl, by simpa using hlen, hall⟩

theorem volume_of_sides {m : ℕ} (hD : 0 < D) (hm : m * D ≤ 1023) {b : AABB N D} (h : b.SmallSides m) :
    ∃ v, b.volume = some (XRat.rat v) := by
  obtain ⟨l, hl, hlen, hall⟩ := lengths_of_sides h
  unfold volume
  rw [hl]
  cases l with
  | nil => simp at hlen; omega
  | cons x xs =>
    obtain ⟨q, rfl, hq⟩ := hall x List.mem_cons_self
    refine foldlM_mul_bound (k := 1) (by simpa using hq) (fun l hl => hall l (List.mem_cons_of_mem _ hl)) ?_
    rw [← hlen, List.length_cons] at hm
    rwa [add_comm] at hm

/-- If a property of boxes is closed under union and implies small sides, volumes of such boxes never panic. -/
@[reducible] def sidesVolumeLaws (ok : AABB N D → Prop) (hu : ∀ {a b}, ok a → ok b → ok (a.union b))
    (hall : ∀ {bs : List (AABB N D)}, bs ≠ [] → (∀ b ∈ bs, ok b) → ok (unionAll bs))
    (hD : 0 < D) {m : ℕ} (hm : m * D ≤ 1023) (h : ∀ b, ok b → b.SmallSides m) : VolumeLaws (AABB N D) where
  volOk := ok
  union := hu
  unionAll := hall
  volume hb := let ⟨_, hv⟩ := volume_of_sides hD hm (h _ hb); ⟨_, hv⟩
  sub := by
    intro a b u v ha hb hu hv
    obtain ⟨p, hp⟩ := volume_of_sides hD hm (h a ha)
    obtain ⟨q, hq⟩ := volume_of_sides hD hm (h b hb)
    have hu' : a.volume = some u := hu
    have hv' : b.volume = some v := hv
    rw [hp] at hu'
    rw [hq] at hv'
    injection hu' with hu'
    injection hv' with hv'
    subst hu' hv'
    exact ⟨_, F64.sub_rat _ _⟩

theorem valid_union {a b : AABB N D} (ha : a.Valid) : (a.union b).Valid := fun i =>
  le_trans (min_le_left _ _) (le_trans (ha i) (le_max_left _ _))

theorem valid_of_le {a b : AABB N D} (ha : a.Valid) (h : a.Le b) : b.Valid := fun i =>
  le_trans (h i).1 (le_trans (ha i) (h i).2)

theorem valid_unionAll {bs : List (AABB N D)} (hne : bs ≠ []) (h : ∀ b ∈ bs, b.Valid) : (unionAll bs).Valid := by
  cases bs with
  | nil => exact absurd rfl hne
  | cons b bs => exact valid_of_le (h b List.mem_cons_self) (le_unionAll List.mem_cons_self)

end AABB

namespace MInt

theorem abs_le_pow {x : ℤ} (h : -4294967296 ≤ x ∧ x ≤ 4294967296) : |(x : ℚ)| ≤ pow2 (32 : ℕ) := by
  rw [show pow2 (32 : ℕ) = ((4294967296 : ℤ) : ℚ) by rfl, ← Int.cast_abs, Int.cast_le, abs_le]
  exact h

/-- In a debug build, sides do not overflow if the box is not inverted and its sides fit the type. -/
theorem sides_debug {b : AABB (MInt T .debug) D} (h : ∀ i, T.lo ≤ (b.max.get i).1 - (b.min.get i).1 ∧
    (b.max.get i).1 - (b.min.get i).1 ≤ T.hi) : b.SmallSides 32 := fun i =>
  ⟨⟨_, h i⟩, _, result_debug (h i), rfl, abs_le_pow (by show _ ≤ (b.max.get i).1 - (b.min.get i).1 ∧ (b.max.get i).1 - (b.min.get i).1 ≤ _; have := h i; have := T.small; omega)⟩

/-- In a release build, sides are always numbers of the type. -/
theorem sides_release (b : AABB (MInt T .release) D) : b.SmallSides 32 := fun i =>
  ⟨⟨_, T.wrap_mem _⟩, _, rfl, rfl,
    abs_le_pow (by show _ ≤ T.wrap ((b.max.get i).1 - (b.min.get i).1) ∧ T.wrap ((b.max.get i).1 - (b.min.get i).1) ≤ _; have := T.wrap_mem ((b.max.get i).1 - (b.min.get i).1); have := T.small; omega)⟩

/-! ### distances -/

/-- The squared distance of two points, an integer. -/
def sqDistZ (a p : SVec (MInt T pr) D) : ℤ := ((List.finRange D).map fun i => ((a.get i).1 - (p.get i).1) ^ 2).sum

theorem sqDist_eq (a p : SVec (MInt T pr) D) : sqDist a p = (sqDistZ a p : ℚ) := by
  unfold sqDist sqDistZ
  rw [← Fin.sum_univ_def]
  push_cast
  rfl

section Release

theorem mapM_release (c : SVec (MInt T .release) D) (f : Fin D → ℤ)
    (hc : ∀ i, (c.get i).1 ≡ f i [ZMOD 2 ^ T.bits]) (is : List (Fin D)) :
    ∃ sq : List (MInt T .release), ((is.map c.get).mapM fun v => Scalar.mul v v) = some sq ∧ sq.length = is.length ∧
      (sq.map (·.val)).sum ≡ (is.map fun i => f i ^ 2).sum [ZMOD 2 ^ T.bits] := by
  induction is with
  | nil => exact ⟨[], by simp, rfl, by simp [Int.ModEq.refl]⟩
  | cons i is ih =>
    obtain ⟨sq, h1, h2, h3⟩ := ih
    refine ⟨⟨_, T.wrap_mem ((c.get i).1 * (c.get i).1)⟩ :: sq, ?_, by simp [h2], ?_⟩
    · rw [List.map_cons, List.mapM_cons, h1]; rfl
    · simp only [List.map_cons, List.sum_cons]
      refine ((T.wrap_modEq _).trans ?_).add h3
      rw [pow_two]
      exact (hc i).mul (hc i)

theorem foldlM_release (xs : List (MInt T .release)) (x : MInt T .release) :
    ∃ m, xs.foldlM Scalar.add x = some m ∧ m.1 ≡ x.1 + (xs.map (·.val)).sum [ZMOD 2 ^ T.bits] := by
  induction xs generalizing x with
  | nil => exact ⟨x, rfl, by simp [Int.ModEq.refl]⟩
  | cons a xs ih =>
    obtain ⟨m, h1, h2⟩ := ih ⟨_, T.wrap_mem (x.1 + a.1)⟩
    refine ⟨m, by rw [List.foldlM_cons]; exact h1, h2.trans ?_⟩
    simp only [List.map_cons, List.sum_cons]
    rw [← add_assoc]
    exact (T.wrap_modEq _).add_right _

/-- In a release build distances never panic, and are right modulo `2 ^ BITS`. -/
theorem distSq_release (hD : 0 < D) (a p : SVec (MInt T .release) D) :
    ∃ m, a.distSq p = some m ∧ m.1 ≡ sqDistZ a p [ZMOD 2 ^ T.bits] := by
  have hs : ∀ i, (Scalar.sub (a.get i) (p.get i)).isSome := fun i => rfl
  obtain ⟨sq, h1, h2, h3⟩ := mapM_release (⟨fun i => (Scalar.sub (a.get i) (p.get i)).get (hs i)⟩ : SVec (MInt T .release) D)
    (fun i => (a.get i).1 - (p.get i).1) (fun i => T.wrap_modEq _) (List.finRange D)
  unfold SVec.distSq SVec.sub
  rw [dif_pos hs]
  show ∃ m, SVec.sqMag _ = some m ∧ _
  unfold SVec.sqMag
  rw [SVec.toList, h1]
  cases sq with
  | nil => simp at h2; omega
  | cons x xs =>
    obtain ⟨m, h4, h5⟩ := foldlM_release xs x
    exact ⟨m, h4, h5.trans (by simpa [sqDistZ] using h3)⟩

/-- In a release build the calculated distance is the distance, if that fits the type. -/
theorem distSq_release_exact (hD : 0 < D) {a p : SVec (MInt T .release) D} (h : sqDist a p ≤ T.hi) :
    ∃ m, a.distSq p = some m ∧ Scalar.toRat m = sqDist a p := by
  obtain ⟨m, h1, h2⟩ := distSq_release hD a p
  refine ⟨m, h1, ?_⟩
  rw [sqDist_eq] at h ⊢
  have h3 : 0 ≤ sqDistZ a p := List.sum_nonneg fun x hx => by
    obtain ⟨i, -, rfl⟩ := List.mem_map.1 hx
    positivity
  have h4 : sqDistZ a p ≤ T.hi := by exact_mod_cast h
  rw [toRat_def, IntTy.eq_of_modEq m.2 ⟨by have := T.small; omega, h4⟩ h2]

end Release

section Debug

theorem mapM_debug (c : SVec (MInt T .debug) D) (is : List (Fin D)) (h : ∀ i ∈ is, (c.get i).1 ^ 2 ≤ T.hi) :
    ∃ sq : List (MInt T .debug), ((is.map c.get).mapM fun v => Scalar.mul v v) = some sq ∧
      sq.map (·.val) = is.map fun i => (c.get i).1 ^ 2 := by
  induction is with
  | nil => exact ⟨[], by simp, rfl⟩
  | cons i is ih =>
    obtain ⟨sq, h1, h2⟩ := ih fun j hj => h j (List.mem_cons_of_mem _ hj)
    have h3 := h i List.mem_cons_self
    rw [pow_two] at h3
    have h4 : T.lo ≤ (c.get i).1 * (c.get i).1 ∧ (c.get i).1 * (c.get i).1 ≤ T.hi :=
      ⟨le_trans T.small.2.2.1 (mul_self_nonneg _), h3⟩
    refine ⟨⟨_, h4⟩ :: sq, ?_, by simp [h2, pow_two]⟩
    rw [List.map_cons, List.mapM_cons, h1]
    show (do let x ← result T .debug _; _) = _
    rw [result_debug h4]
    rfl

theorem foldlM_debug (xs : List (MInt T .debug)) (x : MInt T .debug) (hx : 0 ≤ x.1) (hn : ∀ y ∈ xs, 0 ≤ y.1)
    (h : x.1 + (xs.map (·.val)).sum ≤ T.hi) : ∃ m, xs.foldlM Scalar.add x = some m := by
  induction xs generalizing x with
  | nil => exact ⟨x, rfl⟩
  | cons a xs ih =>
    have ha := hn a List.mem_cons_self
    have hs : 0 ≤ (xs.map (·.val)).sum := List.sum_nonneg fun y hy => by
      obtain ⟨z, hz, rfl⟩ := List.mem_map.1 hy
      exact hn z (List.mem_cons_of_mem _ hz)
    simp only [List.map_cons, List.sum_cons] at h
    have h1 : T.lo ≤ x.1 + a.1 ∧ x.1 + a.1 ≤ T.hi := ⟨le_trans T.small.2.2.1 (by omega), by omega⟩
    obtain ⟨m, hm⟩ := ih ⟨x.1 + a.1, h1⟩ (by show 0 ≤ x.1 + a.1; omega) (fun y hy => hn y (List.mem_cons_of_mem _ hy))
      (by show x.1 + a.1 + _ ≤ _; omega)
    refine ⟨m, ?_⟩
    rw [List.foldlM_cons]
    show (do let y ← result T .debug _; _) = _
    rw [result_debug h1]
    exact hm

theorem sq_le {a p : SVec (MInt T pr) D} (h : sqDist a p ≤ T.hi) (i : Fin D) : ((a.get i).1 - (p.get i).1) ^ 2 ≤ T.hi := by
  rw [sqDist_eq] at h
  have h : sqDistZ a p ≤ T.hi := by exact_mod_cast h
  refine le_trans (List.single_le_sum (fun x hx => ?_) _ (List.mem_map.2 ⟨i, List.mem_finRange i, rfl⟩)) h
  obtain ⟨j, -, rfl⟩ := List.mem_map.1 hx
  positivity

/-- A signed type has room for the differences whose squares it has room for. -/
theorem sub_signed (hT : T.lo < 0) {a p : SVec (MInt T pr) D} (h : sqDist a p ≤ T.hi) (i : Fin D) :
    T.lo ≤ (a.get i).1 - (p.get i).1 := by
  have h1 := sq_le h i
  have h2 := T.neg_hi hT.ne
  nlinarith

/-- In a debug build a distance that fits the type is calculated without panic if its differences fit the type. -/
theorem distSq_debug (hD : 0 < D) {a p : SVec (MInt T .debug) D} (hd : ∀ i, T.lo ≤ (a.get i).1 - (p.get i).1)
    (h : sqDist a p ≤ T.hi) : ∃ m, a.distSq p = some m := by
  have hsq := sq_le h
  rw [sqDist_eq] at h
  have h : sqDistZ a p ≤ T.hi := by exact_mod_cast h
  have hdi : ∀ i, T.lo ≤ (a.get i).1 - (p.get i).1 ∧ (a.get i).1 - (p.get i).1 ≤ T.hi := fun i =>
    ⟨hd i, by nlinarith [hsq i]⟩
  have hs : ∀ i, Scalar.sub (a.get i) (p.get i) = some ⟨_, hdi i⟩ := fun i => result_debug (hdi i)
  have hs' : ∀ i, (Scalar.sub (a.get i) (p.get i)).isSome := fun i => by rw [hs i]; rfl
  have hc : a.sub p = some ⟨fun i => ⟨_, hdi i⟩⟩ := by
    unfold SVec.sub
    rw [dif_pos hs']
    refine congrArg some (SVec.ext (funext fun i => ?_))
    simp only [hs i, Option.get_some]
  obtain ⟨sq, h1, h2⟩ := mapM_debug (⟨fun i => ⟨_, hdi i⟩⟩ : SVec (MInt T .debug) D) (List.finRange D) fun i _ => hsq i
  unfold SVec.distSq
  rw [hc]
  show ∃ m, SVec.sqMag _ = some m
  unfold SVec.sqMag
  rw [SVec.toList, h1]
  have hn : ∀ y ∈ sq, 0 ≤ y.1 := fun y hy => by
    have : y.1 ∈ sq.map (·.val) := List.mem_map.2 ⟨y, hy, rfl⟩
    rw [h2] at this
    obtain ⟨i, -, e⟩ := List.mem_map.1 this
    rw [← e]
    positivity
  cases sq with
  | nil =>
    have := congrArg List.length h2
    simp at this
    omega
  | cons x xs =>
    refine foldlM_debug xs x (hn x List.mem_cons_self) (fun y hy => hn y (List.mem_cons_of_mem _ hy)) ?_
    have : ((x :: xs).map (·.val)).sum ≤ T.hi := by rw [h2]; exact h
    simpa using this

end Debug

end MInt

end RTree
