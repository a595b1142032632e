import Verif.Proofs.History
import Verif.Proofs.Geom
/-!
# Concrete trees

Trees of `i32` boxes in the plane, used to show that the hypotheses of the theorems are met and as
counterexamples.  They are evaluated by the kernel.
-/

namespace RTree

/-- An `i32` literal. -/
def i32 (a : ℤ) (h : -2147483648 ≤ a ∧ a ≤ 2147483647 := by decide) : I32 := ⟨a, h⟩

/-- A point in the plane. -/
def pt (a b : ℤ) (ha : -2147483648 ≤ a ∧ a ≤ 2147483647 := by decide)
    (hb : -2147483648 ≤ b ∧ b ≤ 2147483647 := by decide) : SVec I32 2 := ⟨![⟨a, ha⟩, ⟨b, hb⟩]⟩

/-- The box `[a, c] × [b, d]`. -/
def box (a b c d : ℤ) (ha : -2147483648 ≤ a ∧ a ≤ 2147483647 := by decide)
    (hb : -2147483648 ≤ b ∧ b ≤ 2147483647 := by decide)
    (hc : -2147483648 ≤ c ∧ c ≤ 2147483647 := by decide)
    (hd : -2147483648 ≤ d ∧ d ≤ 2147483647 := by decide) : AABB I32 2 :=
  ⟨⟨![⟨a, ha⟩, ⟨b, hb⟩]⟩, ⟨![⟨c, hc⟩, ⟨d, hd⟩]⟩⟩

/-- Trees with box keys. -/
abbrev BoxTree := Tree (AABB I32 2) (AABB I32 2) Nat

/-- Trees with point keys. -/
abbrev PointTree := Tree (AABB I32 2) (SVec I32 2) Nat

/-- A calculated value, with a default for a panic. -/
def Res.getD {α : Type} (x : Res α) (d : α) : α :=
  match x with
  | .ok a => a
  | .error _ => d

theorem Res.ok_getD {α : Type} {x : Res α} (d : α) (h : x.isOk = true) : x = .ok (x.getD d) := by
  cases x with
  | ok a => rfl
  | error e => simp [Except.isOk, Except.toBool] at h

/-- `RTreeConfig { max_children: 4, min_children: 2 }`. -/
def cfg42 : Config := { maxChildren := 4, minChildren := 2 }

theorem cfg42_sound : cfg42.Sound := .inl ⟨by decide, by decide⟩

/-- A history with splits, root growth, a removal and a replacement. -/
def sampleOps : List (Op (AABB I32 2) (AABB I32 2) Nat) :=
  [.insert (box 0 0 1 1) 1, .insert (box 2 0 3 1) 2, .insert (box 0 2 1 3) 3, .insert (box 2 2 3 3) 4,
   .insert (box 0 2 0 2) 5, .insert (box 1 3 1 3) 6, .insert (box 8 8 9 9) 7, .insert (box 9 9 12 12) 8,
   .insert (box 8 8 9 9) 9, .remove (box 2 0 3 1), .insertUnique (box 1 3 1 3) 60, .insertUnique (box 5 5 6 6) 10]

/-- The tree after `sampleOps`. -/
def sampleTree : BoxTree := (run (Tree.new cfg42) sampleOps).getD (Tree.new cfg42)

theorem sample_run : run (Tree.new cfg42) sampleOps = .ok sampleTree :=
  Res.ok_getD _ (by decide +kernel)

/-- Boxes with coordinates between -1000 and 1000 that are not inverted. -/
def SampleKey (b : AABB I32 2) : Prop := b.InWindow (i32 (-1000)) (i32 1000) ∧ b.Valid

instance (b : AABB I32 2) : Decidable (SampleKey b) :=
  inferInstanceAs (Decidable ((∀ i, _) ∧ ∀ i, _))

theorem box_valid {b : AABB I32 2} (h : decide (∀ i, b.min.get i ≤ b.max.get i) = true) :
    LawfulBounds.valid (Bounded.bounds b : AABB I32 2) :=
  (of_decide_eq_true h : ∀ i, b.min.get i ≤ b.max.get i)

/-- Volumes of boxes in the window never overflow. -/
@[reducible] def sampleLaws : VolumeLaws (AABB I32 2) :=
  AABB.windowVolumeLaws (i32 (-1000)) (i32 1000) (FullRange.minVal_le _) (FullRange.le_maxVal _) (by decide)
    (by decide) (I32.window (by decide))

theorem sampleOps_keys : ∀ op ∈ sampleOps, ∀ k, op.inserts = some k → SampleKey k := by
  have : ∀ op ∈ sampleOps, ∀ k ∈ op.inserts, SampleKey k := by decide +kernel
  intro op h k hk
  exact this op h k (by simp [hk])

theorem sample_reachable : Reachable cfg42 SampleKey sampleTree :=
  Reachable.run .new sampleOps_keys sample_run

theorem sample_level : sampleTree.level = 1 := by decide +kernel

/-- The entries of the sample tree, in iteration order. -/
def sampleEntries : List (AABB I32 2 × Nat) :=
  [(box 0 0 1 1, 1), (box 0 2 0 2, 5), (box 0 2 1 3, 3), (box 1 3 1 3, 60), (box 8 8 9 9, 9),
   (box 2 2 3 3, 4), (box 5 5 6 6, 10), (box 9 9 12 12, 8), (box 8 8 9 9, 7)]

theorem sample_iter : sampleTree.iter = .ok sampleEntries := by
  rw [Res.ok_getD (x := sampleTree.iter) [] (by decide +kernel)]
  congr 1
  decide +kernel

mutual
/-- Equality of nodes, as a test. -/
def Node.eqb {B K V : Type} [DecidableEq B] [DecidableEq K] [DecidableEq V] : Node B K V → Node B K V → Bool
  | .leaf b es, .leaf b' es' => decide (b = b') && decide (es = es')
  | .inner b cs, .inner b' cs' => decide (b = b') && eqbList cs cs'
  | _, _ => false
/-- See `Node.eqb`. -/
def eqbList {B K V : Type} [DecidableEq B] [DecidableEq K] [DecidableEq V] :
    List (Node B K V) → List (Node B K V) → Bool
  | [], [] => true
  | c :: cs, c' :: cs' => c.eqb c' && eqbList cs cs'
  | _, _ => false
end

mutual
theorem Node.eq_of_eqb {B K V : Type} [DecidableEq B] [DecidableEq K] [DecidableEq V] :
    ∀ {n m : Node B K V}, n.eqb m = true → n = m
  | .leaf b es, .leaf b' es', h => by simp [Node.eqb] at h; rw [h.1, h.2]
  | .inner b cs, .inner b' cs', h => by
    simp only [Node.eqb, Bool.and_eq_true, decide_eq_true_eq] at h
    rw [h.1, eq_of_eqbList h.2]
  | .leaf _ _, .inner _ _, h => by simp [Node.eqb] at h
  | .inner _ _, .leaf _ _, h => by simp [Node.eqb] at h
theorem eq_of_eqbList {B K V : Type} [DecidableEq B] [DecidableEq K] [DecidableEq V] :
    ∀ {cs ds : List (Node B K V)}, eqbList cs ds = true → cs = ds
  | [], [], _ => rfl
  | c :: cs, d :: ds, h => by
    simp only [eqbList, Bool.and_eq_true] at h
    rw [Node.eq_of_eqb h.1, eq_of_eqbList h.2]
  | [], _ :: _, h => by simp [eqbList] at h
  | _ :: _, [], h => by simp [eqbList] at h
end

end RTree
