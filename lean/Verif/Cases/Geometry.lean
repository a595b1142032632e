import Verif.Cases.Trees
import Verif.Props.Floats
import Verif.Props.Measures
import Verif.Props.Vectors
/-!
# The theorems about shapes and floating point numbers, applied to concrete cases

As `Verif/Cases/Trees.lean`.
-/

namespace RTree

open XRat

/-! ## A tree of floating point boxes -/

/-- A box with corners `(a, b)` and `(c, d)`. -/
def fbox (a b c d : N64) : AABB N64 2 := ⟨fpt a b, fpt c d⟩

/-- A history with a split, over boxes whose corners are not all integers. -/
def floatOps : List (Op (AABB N64 2) (AABB N64 2) Nat) :=
  [.insert (fbox (n64 0) (n64 0) (n64 (1 / 2)) (n64 1)) 1, .insert (fbox (n64 2) (n64 0) (n64 3) (n64 (1 / 4))) 2,
   .insert (fbox (n64 0) (n64 2) (n64 1) (n64 3)) 3, .insert (fbox (n64 (5 / 2)) (n64 2) (n64 3) (n64 3)) 4,
   .insert (fbox (n64 0) (n64 (-2)) (n64 0) (n64 2)) 5, .remove (fbox (n64 2) (n64 0) (n64 3) (n64 (1 / 4)))]

/-- The tree after `floatOps`. -/
def floatTree : Tree (AABB N64 2) (AABB N64 2) Nat := (run (Tree.new cfg42) floatOps).getD (Tree.new cfg42)

/-- Boxes in `[-4, 4]²`, not inverted. -/
def FloatKey (b : AABB N64 2) : Prop := (∀ i, (rat (-4) ≤ Scalar.toX (b.min.get i) ∧ Scalar.toX (b.min.get i) ≤ rat 4) ∧
  rat (-4) ≤ Scalar.toX (b.max.get i) ∧ Scalar.toX (b.max.get i) ≤ rat 4) ∧ ∀ i, b.min.get i ≤ b.max.get i

instance (b : AABB N64 2) : Decidable (FloatKey b) := inferInstanceAs (Decidable (_ ∧ _))

theorem floatOps_keys : ∀ op ∈ floatOps, ∀ k, op.inserts = some k → FloatKey k := by
  have : ∀ op ∈ floatOps, ∀ k ∈ op.inserts, FloatKey k := by decide +kernel
  intro op h k hk
  exact this op h k (by simp [hk])

theorem float_reachable : Reachable cfg42 FloatKey floatTree :=
  Reachable.run .new floatOps_keys (Res.ok_getD _ (by decide +kernel))

example : floatTree.level = 1 ∧ floatTree.entries.length = 4 := by decide +kernel

/-- The heaps used where a theorem allows any heap. -/
abbrev boxHeap64 : IterHeap (AABB N64 2) (AABB N64 2) Nat N64 := (listHeap N64).heap _

/-- See `boxHeap64`. -/
abbrev pointHeap64 : IterHeap (AABB N64 2) (SVec N64 2) Nat N64 := (listHeap N64).heap _

/-! ## Bounds, nearest neighbours, insertion -/

theorem near_moderate : ∀ op ∈ nearOps, ∀ k, op.inserts = some k → ∀ i,
    XRat.rat (-2 ^ 500) ≤ Scalar.toX (k.get i) ∧ Scalar.toX (k.get i) ≤ XRat.rat (2 ^ 500) := by
  have : ∀ op ∈ nearOps, ∀ k ∈ op.inserts, ∀ i,
    XRat.rat (-2 ^ 500) ≤ Scalar.toX (k.get i) ∧ Scalar.toX (k.get i) ≤ XRat.rat (2 ^ 500) := by decide +kernel
  intro op h k hk
  exact this op h k (by simp [hk])

/-- The keys of `nearTree` are finite. -/
theorem near_finite : Reachable cfg42 (fun k => ∀ i, Scalar.Finite (k.get i)) nearTree := by
  refine Reachable.run .new (fun op h k hk => ?_) near_run
  have : ∀ op ∈ nearOps, ∀ k ∈ op.inserts, ∀ i, Scalar.Finite (k.get i) := by decide +kernel
  exact this op h k (by simp [hk])

example := C19_noisy_float_bounds_exact (.inr rfl) (fun k hk i => ⟨(NoisyFloat.finite_iff.1 (hk i)).2, (NoisyFloat.finite_iff.1 (hk i)).1⟩) near_finite
  (n := nearTree.root) List.mem_cons_self
example := C61_points_defined (t := nearTree) (p := fpt (n64 0) (n64 (1 / 2))) (by decide) (by decide +kernel)
example := C61_boxes_defined (tb := floatTree) (p := fpt (n64 0) (n64 (1 / 2))) (by decide) (by decide +kernel)
example := C61_nearest_points (by decide) near_reachable pointHeap64 (p := fpt (n64 0) (n64 (1 / 2))) (by decide +kernel) near_iter
example := C61_nearest_boxes (by decide) (fun _ hk => hk.2) float_reachable boxHeap64 (p := fpt (n64 0) (n64 (1 / 2))) (by decide +kernel)
  float_reachable.iter_eq
example := C61_point_rank (k := fpt (n64 3) (n64 (1 / 2))) (p := fpt (n64 0) (n64 (1 / 4))) (m := n64 (9 + 1 / 16)) (by decide +kernel) (by decide +kernel)
example := C61_box_rank (k := fbox (n64 3) (n64 (1 / 2)) (n64 5) (n64 1)) (p := fpt (n64 0) (n64 (1 / 4))) (by unfold AABB.Valid; decide +kernel)
  (by decide +kernel) (by decide +kernel) (m := n64 (9 + 1 / 16)) (by decide +kernel) (by decide +kernel)
example := C62_no_panic_n64_partial (by decide) cfg42_sound.safe (m := 2) (by decide) (ops := floatOps) fun op h k hk i => by
  have := (floatOps_keys op h k hk).1 i
  norm_num
  exact this
example := C62_no_panic_n64_points_partial (by decide) cfg42_sound.safe (m := 500) (by decide) (ops := nearOps) near_moderate
example := C62_no_panic_n32_partial (D := 1) (by decide) cfg42_sound.safe (m := 100) (by decide) (by decide)
  (ops := ([.insert ⟨fpt1 (n32 (1 / 2)), fpt1 (n32 7)⟩ 1, .insert ⟨fpt1 (n32 (-3)), fpt1 (n32 (2 ^ 80))⟩ 2] : List (Op (AABB N32 1) (AABB N32 1) Nat)))
  (by have : ∀ op ∈ ([.insert ⟨fpt1 (n32 (1 / 2)), fpt1 (n32 7)⟩ 1, .insert ⟨fpt1 (n32 (-3)), fpt1 (n32 (2 ^ 80))⟩ 2] : List (Op (AABB N32 1) (AABB N32 1) Nat)),
        ∀ k ∈ op.inserts, ∀ i, (rat (-2 ^ 100) ≤ Scalar.toX (k.min.get i) ∧ Scalar.toX (k.min.get i) ≤ rat (2 ^ 100)) ∧
          rat (-2 ^ 100) ≤ Scalar.toX (k.max.get i) ∧ Scalar.toX (k.max.get i) ≤ rat (2 ^ 100) := by decide +kernel
      exact fun op h k hk => this op h k (by simp [hk]))

/-! ## Volumes and lengths -/

theorem bigBox_valid : bigBox.Valid := by unfold AABB.Valid; decide +kernel

theorem bigBox_volume : bigBox.volume = some (rat 9223372023969873920) := by decide +kernel

/-- A box inside `bigBox`. -/
def partBox : AABB I32 3 := ⟨⟨![i32 1, i32 2, i32 8]⟩, ⟨![i32 4, i32 6, i32 9]⟩⟩

theorem partBox_valid : partBox.Valid := by unfold AABB.Valid; decide +kernel

theorem partBox_volume : partBox.volume = some (rat 12) := by decide +kernel

example := C63_volume_nonneg bigBox_valid bigBox_volume
example := C63_volume_mono partBox_valid (b := bigBox) (by unfold AABB.Le; decide +kernel) partBox_volume bigBox_volume
example := C63_increase_nonneg partBox_valid (b := bigBox) (Res.ok_getD (rat 0) (by decide +kernel))
example := C63_volume_exact partBox_valid partBox_volume (by rw [Fin.prod_univ_three]; decide +kernel)
example := C63_volume_error bigBox_valid bigBox_volume
example := C63_volume_zero partBox_valid partBox_volume

theorem seg345_sq : seg345.sqLen .binary64 = some (F64.fin 25) := by decide +kernel

theorem seg345_dist : sqDist seg345.p1 seg345.p0 = ((5 : ℕ) : ℚ) ^ 2 := by rw [sqDist, Fin.sum_univ_two]; decide +kernel

theorem seg345_len : ∃ x, seg345.len .binary64 = some x :=
  (C64_len_defined (by decide) (I32.subDefined (lo := i32 (-100)) (hi := i32 100) (by decide)) (by decide +kernel) (by decide +kernel)).2

example := C64_sq_len_exact seg345_sq (by rw [seg345_dist]; norm_num)
example := C64_sq_len_error (by decide) seg345_sq
example := C64_len_exact seg345_len.choose_spec seg345_dist (by norm_num)
example := C64_len_error (by decide) seg345_len.choose_spec
example := C64_len_zero (by decide) seg345_sq seg345_len.choose_spec

end RTree
