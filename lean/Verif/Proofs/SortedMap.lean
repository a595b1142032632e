import Verif.Proofs.Sorted
/-!
Sorted iteration on a generic heap does not depend on the values, and a list implements a heap.
-/

namespace RTree

variable {B K V W S : Type}

mutual
/-- Renaming the values below a node. -/
def Node.mapV (f : V → W) : Node B K V → Node B K W
  | .leaf b es => .leaf b (es.map fun e => (e.1, f e.2))
  | .inner b cs => .inner b (mapVList f cs)
/-- See `Node.mapV`. -/
def mapVList (f : V → W) : List (Node B K V) → List (Node B K W)
  | [] => []
  | c :: cs => c.mapV f :: mapVList f cs
end

theorem mapVList_eq (f : V → W) (cs : List (Node B K V)) : mapVList f cs = cs.map (Node.mapV f) := by
  induction cs with
  | nil => simp [mapVList]
  | cons c cs ih => simp [mapVList, ih]

@[simp] theorem Node.bounds_mapV (f : V → W) (n : Node B K V) : (n.mapV f).bounds = n.bounds := by
  cases n <;> simp [Node.mapV, Node.bounds]

mutual
theorem Node.weight_mapV (f : V → W) (n : Node B K V) : (n.mapV f).weight = n.weight := by
  cases n with
  | leaf b es => simp [Node.mapV, Node.weight]
  | inner b cs => simp only [Node.mapV, Node.weight, weightList_mapV f cs]
theorem weightList_mapV (f : V → W) (cs : List (Node B K V)) : weightList (mapVList f cs) = weightList cs := by
  cases cs with
  | nil => simp [mapVList, weightList]
  | cons c cs => simp [mapVList, weightList, Node.weight_mapV f c, weightList_mapV f cs]
end

mutual
theorem Node.entries_mapV (f : V → W) (n : Node B K V) :
    (n.mapV f).entries = n.entries.map fun e => (e.1, f e.2) := by
  cases n with
  | leaf b es => simp [Node.mapV]
  | inner b cs => simp only [Node.mapV, entries_inner, entriesList_mapV f cs]
theorem entriesList_mapV (f : V → W) (cs : List (Node B K V)) :
    entriesList (mapVList f cs) = (entriesList cs).map fun e => (e.1, f e.2) := by
  cases cs with
  | nil => simp [mapVList]
  | cons c cs => simp [mapVList, Node.entries_mapV f c, entriesList_mapV f cs]
end

/-- Renaming the values of a tree. -/
def Tree.mapV (f : V → W) (t : Tree B K V) : Tree B K W := { alloc := t.alloc, level := t.level, root := t.root.mapV f }

/-- Renaming the values of an item. -/
def SortedItem.mapV (f : V → W) : SortedItem B K V → SortedItem B K W
  | .node n => .node (n.mapV f)
  | .entry e => .entry (e.1, f e.2)

variable [LE S]

namespace FilterSortedIter

variable (u : UniformHeap (Score S)) (r : Ranking B K (Option S)) (f : V → W)

/-- A heap of items, renamed. -/
abbrev mapH (h : (u.heap (SortedItem B K V)).H) : (u.heap (SortedItem B K W)).H := u.map (SortedItem.mapV f) h

theorem pushEntries_mapV (es : List (K × V)) (h : (u.heap (SortedItem B K V)).H) :
    pushEntries (u.heap _) r (es.map fun e => (e.1, f e.2)) (mapH u f h) = mapH u f <$> pushEntries (u.heap _) r es h := by
  unfold pushEntries
  induction es generalizing h with
  | nil => rfl
  | cons e es ih =>
    rw [List.map_cons, List.foldlM_cons, List.foldlM_cons]
    cases hr : r.rankKey e.1 with
    | error p => rfl
    | ok o =>
      cases o with
      | none => exact ih h
      | some m =>
        rw [ok_bind, ok_bind]
        have := ih ((u.heap _).push (⟨m, 0⟩, .entry e) h)
        rw [mapH, u.map_push] at this
        exact this

theorem pushNodes_mapV (l : Nat) (cs : List (Node B K V)) (h : (u.heap (SortedItem B K V)).H) :
    pushNodes (u.heap _) r l (cs.map (Node.mapV f)) (mapH u f h) = mapH u f <$> pushNodes (u.heap _) r l cs h := by
  unfold pushNodes
  induction cs generalizing h with
  | nil => rfl
  | cons c cs ih =>
    rw [List.map_cons, List.foldlM_cons, List.foldlM_cons]
    rw [Node.bounds_mapV]
    cases hr : r.boundsMin c.bounds with
    | error p => rfl
    | ok o =>
      cases o with
      | none => exact ih h
      | some m =>
        rw [ok_bind, ok_bind]
        have := ih ((u.heap _).push (⟨m, l⟩, .node c) h)
        rw [mapH, u.map_push] at this
        exact this

theorem nextLoop_mapV (fuel : Nat) (h : (u.heap (SortedItem B K V)).H) :
    nextLoop (u.heap _) r fuel (mapH u f h) =
      (fun x => (x.1.map fun e => (e.1, f e.2), mapH u f x.2)) <$> nextLoop (u.heap _) r fuel h := by
  induction fuel generalizing h with
  | zero => rfl
  | succ fuel ih =>
    unfold nextLoop
    rw [mapH, u.map_pop]
    cases (u.heap (SortedItem B K V)).pop h with
    | none => rfl
    | some x =>
      obtain ⟨⟨⟨m, level⟩, item⟩, h1⟩ := x
      simp only [Option.map_some]
      match level, item with
      | 0, .entry e => rfl
      | 0, .node n => rfl
      | 1, .entry e => rfl
      | l + 2, .entry e => rfl
      | 1, .node n =>
        cases n with
        | inner b cs => rfl
        | leaf b es =>
          simp only [SortedItem.mapV, SortedItem.getNode, Node.mapV, Node.leafChildren, ok_bind]
          have := pushEntries_mapV u r f es h1
          rw [mapH] at this
          rw [this]
          cases pushEntries (u.heap _) r es h1 with
          | error p => rfl
          | ok h2 => exact ih h2
      | l + 2, .node n =>
        cases n with
        | leaf b es => rfl
        | inner b cs =>
          simp only [SortedItem.mapV, SortedItem.getNode, Node.mapV, Node.innerChildren, ok_bind, mapVList_eq]
          have := pushNodes_mapV u r f (l + 1) cs h1
          rw [mapH] at this
          rw [this]
          cases pushNodes (u.heap _) r (l + 1) cs h1 with
          | error p => rfl
          | ok h2 => exact ih h2

theorem collectLoop_mapV (fuel n : Nat) (h : (u.heap (SortedItem B K V)).H) :
    collectLoop (u.heap _) r fuel n (mapH u f h) =
      (List.map fun e => (e.1, f e.2)) <$> collectLoop (u.heap _) r fuel n h := by
  induction n generalizing h with
  | zero => rfl
  | succ n ih =>
    unfold collectLoop
    rw [nextLoop_mapV]
    cases nextLoop (u.heap _) r fuel h with
    | error p => rfl
    | ok x =>
      obtain ⟨o, h'⟩ := x
      cases o with
      | none => rfl
      | some e =>
        simp only [map_eq_pure_bind, ok_bind, pure_eq_ok, Option.map_some]
        rw [ih]
        cases collectLoop (u.heap _) r fuel n h' <;> rfl

theorem new_mapV (level : Nat) (root : Node B K V) :
    new (u.heap _) r level (root.mapV f) = mapH u f <$> new (u.heap _) r level root := by
  unfold new
  rw [Node.bounds_mapV]
  cases r.boundsMin root.bounds with
  | error p => rfl
  | ok o =>
    cases o with
    | none => simp only [ok_bind, pure_eq_ok]; rw [← u.map_empty (SortedItem.mapV f)]; rfl
    | some m =>
      simp only [ok_bind, pure_eq_ok]
      rw [← u.map_empty (SortedItem.mapV f)]
      have := u.map_push (SortedItem.mapV f) (⟨m, level + 1⟩, SortedItem.node root) (u.heap (SortedItem B K V)).empty
      exact congrArg Except.ok this.symm

end FilterSortedIter

namespace Tree

variable (u : UniformHeap (Score S)) (r : Ranking B K (Option S)) (f : V → W)

theorem filterIterAscBy_mapV (t : Tree B K V) : (t.mapV f).filterIterAscBy (u.heap _) r =
    (List.map fun e => (e.1, f e.2)) <$> t.filterIterAscBy (u.heap _) r := by
  unfold filterIterAscBy
  simp only [Tree.mapV, FilterSortedIter.new_mapV, sortedFuel, Node.weight_mapV]
  cases FilterSortedIter.new (u.heap _) r t.level t.root with
  | error p => rfl
  | ok h => exact FilterSortedIter.collectLoop_mapV u r f _ _ h

theorem filterMinBy_mapV (t : Tree B K V) : (t.mapV f).filterMinBy (u.heap _) r =
    (Option.map fun e => (e.1, f e.2)) <$> t.filterMinBy (u.heap _) r := by
  unfold filterMinBy
  simp only [Tree.mapV, FilterSortedIter.new_mapV, sortedFuel, Node.weight_mapV]
  cases FilterSortedIter.new (u.heap _) r t.level t.root with
  | error p => rfl
  | ok h =>
    simp only [map_eq_pure_bind, ok_bind, pure_eq_ok]
    rw [FilterSortedIter.nextLoop_mapV]
    cases FilterSortedIter.nextLoop (u.heap _) r (t.root.weight + 1) h <;> rfl

end Tree

/-! ## Values together with their addresses -/

mutual
/-- The node with each value paired with its address. -/
def Node.paired (a : Nat) : Node B K V → Node B K (V × Nat)
  | .leaf b es => .leaf b ((es.zipIdx a).map fun e => (e.1.1, e.1.2, e.2))
  | .inner b cs => .inner b (pairedList a cs)
/-- See `Node.paired`. -/
def pairedList (a : Nat) : List (Node B K V) → List (Node B K (V × Nat))
  | [] => []
  | c :: cs => c.paired a :: pairedList (a + c.size) cs
end

omit [LE S] in
mutual
theorem Node.paired_fst (a : Nat) (n : Node B K V) : (n.paired a).mapV Prod.fst = n := by
  cases n with
  | leaf b es =>
    simp only [Node.paired, Node.mapV, List.map_map]
    have : ((fun e : K × (V × Nat) => (e.1, e.2.1)) ∘ fun e : (K × V) × Nat => (e.1.1, e.1.2, e.2)) = Prod.fst := rfl
    rw [this, List.zipIdx_map_fst]
  | inner b cs => simp only [Node.paired, Node.mapV, pairedList_fst a cs]
theorem pairedList_fst (a : Nat) (cs : List (Node B K V)) : mapVList Prod.fst (pairedList a cs) = cs := by
  cases cs with
  | nil => simp [pairedList, mapVList]
  | cons c cs => simp only [pairedList, mapVList, Node.paired_fst a c, pairedList_fst _ cs]
end

omit [LE S] in
mutual
theorem Node.paired_snd (a : Nat) (n : Node B K V) : (n.paired a).mapV Prod.snd = n.addressed a := by
  cases n with
  | leaf b es => simp [Node.paired, Node.mapV, Node.addressed]
  | inner b cs => simp only [Node.paired, Node.mapV, Node.addressed, pairedList_snd a cs]
theorem pairedList_snd (a : Nat) (cs : List (Node B K V)) : mapVList Prod.snd (pairedList a cs) = addressedList a cs := by
  cases cs with
  | nil => simp [pairedList, mapVList, addressedList]
  | cons c cs => simp only [pairedList, mapVList, addressedList, Node.paired_snd a c, pairedList_snd _ cs]
end

omit [LE S] in
mutual
theorem Node.entries_paired (a : Nat) (n : Node B K V) :
    (n.paired a).entries = (n.entries.zipIdx a).map fun e => (e.1.1, e.1.2, e.2) := by
  cases n with
  | leaf b es => simp [Node.paired]
  | inner b cs => simp only [Node.paired, entries_inner, entriesList_paired a cs]
theorem entriesList_paired (a : Nat) (cs : List (Node B K V)) :
    entriesList (pairedList a cs) = ((entriesList cs).zipIdx a).map fun e => (e.1.1, e.1.2, e.2) := by
  cases cs with
  | nil => simp [pairedList]
  | cons c cs =>
    simp [pairedList, Node.entries_paired a c, entriesList_paired _ cs, List.zipIdx_append, Node.size_eq c]
end

/-- The tree with each value paired with its address. -/
def Tree.paired (t : Tree B K V) : Tree B K (V × Nat) := { alloc := t.alloc, level := t.level, root := t.root.paired 0 }

omit [LE S] in
theorem Tree.paired_fst (t : Tree B K V) : t.paired.mapV Prod.fst = t := by
  simp [Tree.paired, Tree.mapV, Node.paired_fst]

omit [LE S] in
theorem Tree.paired_snd (t : Tree B K V) : t.paired.mapV Prod.snd = t.addressed := by
  simp [Tree.paired, Tree.mapV, Node.paired_snd, Tree.addressed]

omit [LE S] in
theorem Tree.entries_paired (t : Tree B K V) :
    t.paired.entries = t.entries.zipIdx.map fun e => (e.1.1, e.1.2, e.2) := t.root.entries_paired 0

omit [LE S] in
mutual
theorem Node.erase_mapV (f : V → W) (n : Node B K V) : (n.mapV f).erase = n.erase := by
  cases n with
  | leaf b es => simp [Node.mapV, Node.erase]
  | inner b cs => simp only [Node.mapV, Node.erase, eraseList_mapV f cs]
theorem eraseList_mapV (f : V → W) (cs : List (Node B K V)) : eraseList (mapVList f cs) = eraseList cs := by
  cases cs with
  | nil => simp [mapVList, eraseList]
  | cons c cs => simp only [mapVList, eraseList, Node.erase_mapV f c, eraseList_mapV f cs]
end

/-! ## A list as a heap -/

section ListHeap

variable {M T U : Type} [LE M] [Std.IsLinearPreorder M] [DecidableLE M]

instance : DecidableLE (Score M) := fun a b =>
  inferInstanceAs (Decidable (a.metric ≤ b.metric ∧ (b.metric ≤ a.metric → a.level ≤ b.level)))

omit [DecidableLE M] in
theorem Score.le_total (a b : Score M) : a ≤ b ∨ b ≤ a := by
  show (a.metric ≤ b.metric ∧ (b.metric ≤ a.metric → a.level ≤ b.level)) ∨
    (b.metric ≤ a.metric ∧ (a.metric ≤ b.metric → b.level ≤ a.level))
  have := Std.IsLinearPreorder.le_total a.metric b.metric
  have := Nat.le_total a.level b.level
  by_cases h1 : a.metric ≤ b.metric <;> by_cases h2 : b.metric ≤ a.metric <;> simp_all

omit [DecidableLE M] in
theorem Score.le_trans {a b c : Score M} (h1 : a ≤ b) (h2 : b ≤ c) : a ≤ c := by
  refine ⟨Std.IsPreorder.le_trans _ _ _ h1.1 h2.1, fun h => ?_⟩
  exact Nat.le_trans (h1.2 (Std.IsPreorder.le_trans _ _ _ h2.1 h)) (h2.2 (Std.IsPreorder.le_trans _ _ _ h h1.1))

/-- A first item of least score, and the others. -/
def popMin : List (Score M × T) → Option ((Score M × T) × List (Score M × T))
  | [] => none
  | x :: xs =>
    match popMin xs with
    | none => some (x, [])
    | some (y, ys) => if x.1 ≤ y.1 then some (x, y :: ys) else some (y, x :: ys)

omit [Std.IsLinearPreorder M] in
theorem popMin_none {xs : List (Score M × T)} (h : popMin xs = none) : xs = [] := by
  cases xs with
  | nil => rfl
  | cons x xs =>
    simp only [popMin] at h
    split at h
    · cases h
    · split at h <;> cases h

theorem popMin_some {xs : List (Score M × T)} {x : Score M × T} {ys : List (Score M × T)} (h : popMin xs = some (x, ys)) :
    xs.Perm (x :: ys) ∧ ∀ y ∈ xs, x.1 ≤ y.1 := by
  induction xs generalizing x ys with
  | nil => simp [popMin] at h
  | cons a xs ih =>
    simp only [popMin] at h
    split at h
    · rename_i hn
      have := popMin_none hn
      subst this
      simp only [Option.some.injEq, Prod.mk.injEq] at h
      obtain ⟨rfl, rfl⟩ := h
      refine ⟨.refl _, fun y hy => ?_⟩
      simp only [List.mem_singleton] at hy
      subst hy
      exact (Score.le_total _ _).elim id id
    · rename_i b bs hb
      obtain ⟨h1, h2⟩ := ih hb
      split at h
      · rename_i hle
        simp only [Option.some.injEq, Prod.mk.injEq] at h
        obtain ⟨rfl, rfl⟩ := h
        refine ⟨h1.cons a, fun y hy => ?_⟩
        rcases List.mem_cons.1 hy with rfl | hy
        · exact (Score.le_total _ _).elim id id
        · exact Score.le_trans hle (h2 y hy)
      · rename_i hle
        simp only [Option.some.injEq, Prod.mk.injEq] at h
        obtain ⟨rfl, rfl⟩ := h
        refine ⟨(h1.cons a).trans (.swap _ _ _), fun y hy => ?_⟩
        rcases List.mem_cons.1 hy with rfl | hy
        · exact (Score.le_total _ _).resolve_right hle
        · exact h2 y hy

omit [Std.IsLinearPreorder M] in
theorem popMin_map (f : T → U) (xs : List (Score M × T)) : popMin (xs.map fun x => (x.1, f x.2)) =
    (popMin xs).map fun r => ((r.1.1, f r.1.2), r.2.map fun x => (x.1, f x.2)) := by
  induction xs with
  | nil => rfl
  | cons x xs ih =>
    simp only [List.map_cons, popMin, ih]
    cases popMin xs with
    | none => rfl
    | some r =>
      obtain ⟨y, ys⟩ := r
      simp only [Option.map_some]
      split <;> rfl

/-- A list, searched for a least item, is a heap: the contract `Heap` can be met. -/
def listHeap (M : Type) [LE M] [Std.IsLinearPreorder M] [DecidableLE M] : UniformHeap (Score M) where
  heap T :=
    { H := List (Score M × T)
      empty := []
      push := fun x h => h ++ [x]
      pop := popMin
      items := id
      items_empty := rfl
      items_push := fun x h => by simp [List.perm_append_singleton]
      pop_none := popMin_none
      pop_some := popMin_some }
  map f h := h.map fun x => (x.1, f x.2)
  map_empty _ := rfl
  map_push f x h := by simp
  map_pop f h := popMin_map f h

end ListHeap

end RTree
