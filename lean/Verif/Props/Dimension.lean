import Verif.Proofs.Linear
import Verif.Props.Structure
import Verif.Props.Core
/-!
# Dimension zero (C80)

`SVec<N, 0>` and `SAABB<N, 0>` are types like any other, and trees of them can be made; but such boxes have no volume, and every split
asks for volumes.
-/

namespace RTree

variable {N V : Type} [Scalar N]

/-- No box of dimension zero has a volume. -/
theorem volume_zero_dim (b : AABB N 0) : Volume.volume b = (none : Option (Volume.Vol (AABB N 0))) := rfl

theorem split_zero_dim {α : Type} {bf : α → AABB N 0} {m cap : Nat} {v : α} {vs : List α} {o : α} :
    split bf m cap (v :: vs) o = .error .arithmetic := by
  have hv : ∀ b : AABB N 0, arith (Volume.volume b) = (.error .arithmetic : Res (Volume.Vol (AABB N 0))) := fun _ => rfl
  have hw : worstCombination bf (v :: vs) o = .error .arithmetic := by
    unfold worstCombination
    simp [List.zipIdx_cons, worstWithOverflow, hv]
  unfold split seedSplitGroups
  rw [hw]
  rfl

/-- A leaf that is not full takes an entry, in dimension zero as in any other. -/
theorem run_zero_dim (c : Config) (es : List (SVec N 0 × V)) (h : es.length ≤ c.maxChildren) :
    ∃ b, run (Tree.new c) (es.map fun e => .insert e.1 e.2) =
      .ok (⟨⟨c.minChildren, c.maxChildren⟩, 0, .leaf b es⟩ : Tree (AABB N 0) (SVec N 0) V) := by
  induction es using List.reverseRecOn with
  | nil => exact ⟨Bounds.empty, rfl⟩
  | append_singleton es e ih =>
    rw [List.length_append, List.length_singleton] at h
    obtain ⟨b, hb⟩ := ih (by omega)
    unfold run at hb ⊢
    refine ⟨Bounds.union b (Bounded.bounds e.1), ?_⟩
    rw [List.map_append, List.foldlM_append, hb]
    simp only [List.map_cons, List.map_nil, List.foldlM_cons, List.foldlM_nil, ok_bind, Op.step]
    rw [Linear.insert_leaf e.1 e.2 (by show es.length ≠ c.maxChildren; omega)]
    rfl

/-- C80 is false: in dimension zero inserting one entry more than `max_children` panics, whatever the configuration. -/
theorem C80_zero_dimensions_refuted (c : Config) (hM : 1 ≤ c.maxChildren) (es : List (SVec N 0 × V))
    (h : es.length = c.maxChildren + 1) :
    run (Tree.new c : Tree (AABB N 0) (SVec N 0) V) (es.map fun e => .insert e.1 e.2) = .error .arithmetic := by
  obtain ⟨es, e, rfl⟩ : ∃ l e, es = l ++ [e] := ⟨es.dropLast, es.getLast (by rintro rfl; simp at h), (List.dropLast_append_getLast _).symm⟩
  rw [List.length_append, List.length_singleton] at h
  obtain ⟨b, hb⟩ := run_zero_dim c es (by omega)
  unfold run at hb ⊢
  rw [List.map_append, List.foldlM_append, hb]
  simp only [List.map_cons, List.map_nil, List.foldlM_cons, List.foldlM_nil, ok_bind, Op.step]
  obtain ⟨x, xs, rfl⟩ : ∃ x xs, es = x :: xs := by
    cases es with
    | nil => simp at h; omega
    | cons x xs => exact ⟨x, xs, rfl⟩
  unfold Tree.insert Tree.insertEntry insertNode
  dsimp only
  rw [if_neg (by simp [NodeEntry.targetLevel])]
  simp only [selfInsert, Node.leafChildren, ok_bind, Vec.tryPush]
  rw [if_pos (by show (x :: xs).length = c.maxChildren; omega)]
  simp only [split_zero_dim]
  rfl

/-- C80, as far as it is true: trees of dimension zero work as long as there are no more than `max_children` entries. (In dimensions
    1 to 33: `C02_no_panic_i32_boxes`.) -/
theorem C80_few_entries_partial (c : Config) (es : List (SVec N 0 × V)) (h : es.length ≤ c.maxChildren) :
    ∃ t : Tree (AABB N 0) (SVec N 0) V,
      run (Tree.new c) (es.map fun e => .insert e.1 e.2) = .ok t ∧ t.iter = .ok es ∧ t.len = .ok es.length := by
  obtain ⟨b, hb⟩ := run_zero_dim c es h
  have hr : Reachable c (fun _ : SVec N 0 => True) (⟨⟨c.minChildren, c.maxChildren⟩, 0, .leaf b es⟩ : Tree (AABB N 0) (SVec N 0) V) :=
    Reachable.run .new (fun _ _ _ _ => trivial) hb
  exact ⟨_, hb, C09_iter_exact hr, rfl⟩

example : run (Tree.new ⟨4, 2⟩ : Tree (AABB I32 0) (SVec I32 0) Nat) ([1, 2, 3, 4, 5].map fun v => .insert ⟨Fin.elim0⟩ v) =
    .error .arithmetic :=
  C80_zero_dimensions_refuted ⟨4, 2⟩ (by decide) ([1, 2, 3, 4, 5].map fun v => (⟨Fin.elim0⟩, v)) rfl

end RTree
