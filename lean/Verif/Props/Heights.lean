import Verif.Proofs.Linear
import Verif.Props.Configs
/-!
# Heights for every safe configuration (C79)

`C24_log_height` needs `2 * min_children ≤ max_children`.  Configurations with greater `min_children` are accepted and safe
(C78), but the height need not be logarithmic.
-/

namespace RTree

/-- C79, as far as it is true: for every safe configuration, whatever the keys, the height is less than the number of
    entries. (It is logarithmic if there is room for two nodes of `min_children` children, see `C24_log_height`.) -/
theorem C79_height_lt_len_partial {B K V : Type} [Bounds B] [Volume B] [Bounded K B] [BEq K] {c : Config} {P : K → Prop}
    {t : Tree B K V} (hs : c.Safe) (h : Reachable c P t) (hl : 1 ≤ t.level) {n : Nat} (hn : t.len = .ok n) : t.level < n := by
  let _ : VolumeLaws B := trivialVolumeLaws
  obtain rfl : t.entries.length = n := by
    have := C08_len h h.iter_eq
    rw [this] at hn; simpa using hn
  exact (h.wide hs.1 hs.2).level_lt h.treeOk_any.1.ok (by rw [h.treeOk_any.2]; exact Nat.le_of_lt hs.1) hl

example : 1 < 9 := by
  have := C79_height_lt_len_partial cfg42_sound.safe sample_reachable (by rw [sample_level]) (C08_len sample_reachable sample_iter)
  rw [sample_level] at this
  exact this

open Linear in
/-- C79 is false: with `min_children = max_children = 2` the points `0`, `1`, …, `n - 1` on a line, inserted in this order, make a
    tree of height `n - 2` (for every `n` up to `2 ^ 31`, the number of such points with `i32` coordinates): it is a list. -/
theorem C79_logarithmic_refuted {V : Type} (v : V) (n : ℕ) (h2 : 2 < n) (hn : n ≤ 2 ^ 31) :
    ∃ t : Tree (AABB I32 1) (SVec I32 1) V,
      run (Tree.new ⟨2, 2⟩) ((List.range n).map fun i => .insert ⟨fun _ => coord i⟩ v) = .ok t ∧ t.level = n - 2 := by
  obtain ⟨l, rfl⟩ : ∃ l, n = l + 3 := ⟨n - 3, by omega⟩
  exact ⟨_, run_points v l (by omega), rfl⟩

/-- `coord i` is `i`. -/
theorem Linear.coord_val (i : ℕ) (h : i < 2 ^ 31) : (Linear.coord i).1 = i := by
  simp only [Linear.coord]; omega

example : Config.Safe ⟨2, 2⟩ := ⟨by decide, by decide⟩

/-- So no logarithmic bound holds for all safe configurations: not even `1000 * (log2 n + 1)`. -/
theorem C79_no_log_bound_refuted :
    ¬ ∀ (c : Config), c.Safe → ∀ (ops : List (Op (AABB I32 1) (SVec I32 1) Unit)) (t : Tree (AABB I32 1) (SVec I32 1) Unit),
      run (Tree.new c) ops = .ok t → t.level ≤ 1000 * (Nat.log2 ops.length + 1) := by
  intro h
  obtain ⟨t, ht, hl⟩ := C79_logarithmic_refuted () (2 ^ 31) (by norm_num) le_rfl
  have := h ⟨2, 2⟩ ⟨by decide, by decide⟩ _ t ht
  rw [hl, List.length_map, List.length_range, Nat.log2_two_pow] at this
  omega

end RTree
