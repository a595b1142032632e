import Verif.Props.Boxes
import Verif.Proofs.On
/-!
# Joins (C16 - C18)

Two trees over possibly different bounds, keys and values.
-/

namespace RTree

variable {B0 B1 K0 K1 V0 V1 Q0 Q1 : Type} [Bounds B0] [Volume B0] [Bounded K0 B0] [BEq K0] [Bounds B1] [Volume B1]
  [Bounded K1 B1] [BEq K1]
variable {c0 c1 : Config} {P0 : K0 → Prop} {P1 : K1 → Prop} {t0 : Tree B0 K0 V0} {t1 : Tree B1 K1 V1}

/-! ## C16 -/

/-- C16: with a filter honouring its contract, `join` yields every pair of an entry of the one tree and an entry of the other
    whose keys pass the key test, each exactly once, and nothing else. -/
theorem C16_join_exact [Enclosure B0] [Enclosure B1] (h0 : Reachable c0 P0 t0) (h1 : Reachable c1 P1 t1)
    {borrow0 : K0 → Q0} {borrow1 : K1 → Q1} {f : JoinFilter B0 B1 Q0 Q1} (hf : f.Honours P0 P1 borrow0 borrow1)
    {es : List (K0 × V0)} {fs : List (K1 × V1)} (hes : t0.iter = .ok es) (hfs : t1.iter = .ok fs) :
    ∃ out, t0.join borrow0 borrow1 f t1 = .ok out ∧
      out.Perm ((es.flatMap fun a => fs.map fun b => (a, b)).filter fun x =>
        f.testKey (borrow0 x.1.1) (borrow1 x.2.1)) := by
  obtain rfl : t0.entries = es := by simpa [h0.iter_eq] using hes
  obtain rfl : t1.entries = fs := by simpa [h1.iter_eq] using hfs
  exact h0.join_on h1 h0.keys h1.keys (R0 := fun _ => True) (R1 := fun _ => True) (fun _ _ => trivial) (fun _ _ => trivial)
    fun k0 k1 b0 b1 hk0 hk1 _ _ => hf k0 k1 b0 b1 hk0 hk1

/-- C16, for a filter that need not honour its contract: `join` terminates without panic, and no pair is yielded more often
    than it occurs among the pairs that pass the key test. -/
theorem C16_join_sound (h0 : Reachable c0 P0 t0) (h1 : Reachable c1 P1 t1) (borrow0 : K0 → Q0) (borrow1 : K1 → Q1)
    (f : JoinFilter B0 B1 Q0 Q1) {es : List (K0 × V0)} {fs : List (K1 × V1)} (hes : t0.iter = .ok es)
    (hfs : t1.iter = .ok fs) :
    ∃ out pruned, t0.join borrow0 borrow1 f t1 = .ok out ∧
      (out ++ pruned).Perm ((es.flatMap fun a => fs.map fun b => (a, b)).filter fun x =>
        f.testKey (borrow0 x.1.1) (borrow1 x.2.1)) := by
  obtain rfl : t0.entries = es := by simpa [h0.iter_eq] using hes
  obtain rfl : t1.entries = fs := by simpa [h1.iter_eq] using hfs
  suffices h : ∃ pruned, ((if f.testBounds t0.root.bounds t1.root.bounds then
      joinMatching (fun x => f.testBounds x.1.bounds x.2.bounds) (fun x => f.testKey (borrow0 x.1.1) (borrow1 x.2.1))
        (max t0.level t1.level) (t0.root, t1.root) else []) ++ pruned).Perm
      ((pairs t0.entries t1.entries).filter fun x => f.testKey (borrow0 x.1.1) (borrow1 x.2.1)) by
    obtain ⟨pruned, hp⟩ := h
    exact ⟨_, pruned, Tree.join_of_shape borrow0 borrow1 f h0.shape h1.shape, hp.trans ((pairs_perm_product _ _).filter _)⟩
  split
  · exact joinMatching_subset (x := (t0.root, t1.root))
  · exact ⟨_, List.Perm.refl _⟩

/-! ## C17 -/

/-- C17: with a filter honouring its contract, `left_join` yields every entry of the left tree once, in iteration order,
    together with an iterator that yields exactly the entries of the right tree matching it, in iteration order. -/
theorem C17_left_join_exact [Enclosure B0] [Enclosure B1] [Bounded Q0 B0] (h0 : Reachable c0 P0 t0)
    (h1 : Reachable c1 P1 t1) {borrow0 : K0 → Q0} {borrow1 : K1 → Q1} (hb : LawfulBorrow borrow0)
    {f : JoinFilter B0 B1 Q0 Q1} (hf : f.Honours P0 P1 borrow0 borrow1) {es : List (K0 × V0)} {fs : List (K1 × V1)}
    (hes : t0.iter = .ok es) (hfs : t1.iter = .ok fs) :
    t0.leftJoin borrow0 borrow1 f t1 =
      .ok (es.map fun a => (a, fs.filter fun b => f.testKey (borrow0 a.1) (borrow1 b.1))) := by
  obtain rfl : t0.entries = es := by simpa [h0.iter_eq] using hes
  obtain rfl : t1.entries = fs := by simpa [h1.iter_eq] using hfs
  exact h0.leftJoin_on h1 h0.keys h1.keys (R0 := fun _ => True) (R1 := fun _ => True) (fun _ _ => trivial) (fun _ _ => trivial)
    (fun _ _ => trivial) hb fun k0 k1 b0 b1 hk0 hk1 _ _ => hf k0 k1 b0 b1 hk0 hk1

/-- C17, for a filter that need not honour its contract: `left_join` terminates without panic and yields every entry of the
    left tree once, in iteration order, with a subsequence of the entries of the right tree that pass the key test. -/
theorem C17_left_join_sound [Bounded Q0 B0] (h0 : Reachable c0 P0 t0) (h1 : Reachable c1 P1 t1) (borrow0 : K0 → Q0)
    (borrow1 : K1 → Q1) (f : JoinFilter B0 B1 Q0 Q1) {es : List (K0 × V0)} {fs : List (K1 × V1)} (hes : t0.iter = .ok es)
    (hfs : t1.iter = .ok fs) :
    ∃ out, t0.leftJoin borrow0 borrow1 f t1 = .ok out ∧ out.map Prod.fst = es ∧
      ∀ x ∈ out, x.2.Sublist (fs.filter fun b => f.testKey (borrow0 x.1.1) (borrow1 b.1)) := by
  obtain rfl : t0.entries = es := by simpa [h0.iter_eq] using hes
  obtain rfl : t1.entries = fs := by simpa [h1.iter_eq] using hfs
  have hsh : ∀ {B K V : Type}, NodeInv (Shape (B := B) (K := K) (V := V)) := ⟨fun h => h.leaf, fun h => h.inner⟩
  exact Tree.leftJoin_spec borrow0 borrow1 f hsh hsh (Rel := fun _ xs => xs.Sublist t1.entries)
    (M := fun e ms => ms.Sublist (t1.entries.filter fun b => f.testKey (borrow0 e.1) (borrow1 b.1)))
    (fun l l' nl nr e ys _ _ _ _ hr => (List.sublist_append_right _ _).trans hr)
    (by
      intro e rl its hi hall hr
      obtain ⟨ms, h1, h2⟩ := LeftJoinIter.collect_sound borrow1 (joiningFilter (borrow0 e.1) f) hsh hi hall
      exact ⟨ms, h1, h2.trans (List.Sublist.filter _ hr)⟩)
    h0.shape h1.shape (fun e he => List.Sublist.refl _)

/-! ## C18 -/

/-- C18: flattening `left_join` gives, up to order, what `join` gives. -/
theorem C18_join_left_join [Enclosure B0] [Enclosure B1] [Bounded Q0 B0] (h0 : Reachable c0 P0 t0)
    (h1 : Reachable c1 P1 t1) {borrow0 : K0 → Q0} {borrow1 : K1 → Q1} (hb : LawfulBorrow borrow0)
    {f : JoinFilter B0 B1 Q0 Q1} (hf : f.Honours P0 P1 borrow0 borrow1) :
    ∃ out lout, t0.join borrow0 borrow1 f t1 = .ok out ∧ t0.leftJoin borrow0 borrow1 f t1 = .ok lout ∧
      out.Perm (lout.flatMap fun x => x.2.map fun b => (x.1, b)) := by
  obtain ⟨out, o1, o2⟩ := C16_join_exact h0 h1 hf h0.iter_eq h1.iter_eq
  refine ⟨out, _, o1, C17_left_join_exact h0 h1 hb hf h0.iter_eq h1.iter_eq, o2.trans (List.Perm.of_eq ?_)⟩
  rw [List.filter_flatMap, List.flatMap_map]
  congr 1
  funext a
  rw [List.filter_map]
  rfl

/-! ## Concrete joins -/

/-- Boxes that intersect: bounds are tested for intersection. -/
def overlapFilter : JoinFilter (AABB I32 2) (AABB I32 2) (AABB I32 2) (AABB I32 2) :=
  ⟨AABB.intersectsBox, AABB.intersectsBox⟩

theorem overlapFilter_honours (P0 P1 : AABB I32 2 → Prop) : overlapFilter.Honours P0 P1 id id :=
  fun _ _ _ _ _ _ hk h0 h1 => C33_intersects_mono h0 h1 hk

/-- A tree that is a single leaf. -/
def smallTree : BoxTree :=
  (run (Tree.new cfg42) [.insert (box 0 0 2 2) 1, .insert (box 9 9 10 10) 2]).getD (Tree.new cfg42)

/-- A history building a taller tree. -/
def tallOps : List (Op (AABB I32 2) (AABB I32 2) Nat) :=
  [.insert (box 0 0 1 1) 1, .insert (box 10 0 11 1) 2, .insert (box 20 0 21 1) 3, .insert (box 30 0 31 1) 4,
   .insert (box 0 10 1 11) 5, .insert (box 10 10 11 11) 6, .insert (box 20 10 21 11) 7, .insert (box 30 10 31 11) 8,
   .insert (box 0 20 1 21) 9, .insert (box 10 20 11 21) 10, .insert (box 20 20 21 21) 11, .insert (box 30 20 31 21) 12,
   .insert (box 0 30 1 31) 13, .insert (box 10 30 11 31) 14, .insert (box 20 30 21 31) 15, .insert (box 30 30 31 31) 16]

/-- A taller tree. -/
def tallTree : BoxTree := (run (Tree.new cfg42) tallOps).getD (Tree.new cfg42)

theorem tall_run : run (Tree.new cfg42) tallOps = .ok tallTree := Res.ok_getD _ (by decide +kernel)

theorem small_reachable : Reachable cfg42 SampleKey smallTree := by
  refine Reachable.run .new (ops := [.insert (box 0 0 2 2) 1, .insert (box 9 9 10 10) 2]) ?_
    (Res.ok_getD _ (by decide +kernel))
  have : ∀ op ∈ ([.insert (box 0 0 2 2) 1, .insert (box 9 9 10 10) 2] : List (Op (AABB I32 2) (AABB I32 2) Nat)),
    ∀ k ∈ op.inserts, SampleKey k := by decide +kernel
  intro op h k hk
  exact this op h k (by simp [hk])

theorem tall_reachable : Reachable cfg42 SampleKey tallTree := by
  refine Reachable.run .new ?_ tall_run
  have : ∀ op ∈ tallOps, ∀ k ∈ op.inserts, SampleKey k := by decide +kernel
  intro op h k hk
  exact this op h k (by simp [hk])

/-- The three trees have heights 0, 1 and 2. -/
example : smallTree.level = 0 ∧ sampleTree.level = 1 ∧ tallTree.level = 2 := by decide +kernel

/-- A join of trees of heights 1 and 2. -/
example : ∃ out, sampleTree.join id id overlapFilter tallTree = .ok out ∧
    out.map (fun x => (x.1.2, x.2.2)) = [(1, 1), (8, 6)] := by
  have h : (sampleTree.join id id overlapFilter tallTree).isOk = true := by decide +kernel
  exact ⟨_, Res.ok_getD [] h, by decide +kernel⟩

/-- A left join of trees of heights 1 and 0. -/
example : ∃ out, sampleTree.leftJoin id id overlapFilter smallTree = .ok out ∧ out.map (fun x => (x.1.2, x.2.map Prod.snd)) =
    [(1, [1]), (5, [1]), (3, [1]), (60, []), (9, [2]), (4, [1]), (10, []), (8, [2]), (7, [2])] := by
  have h : (sampleTree.leftJoin id id overlapFilter smallTree).isOk = true := by decide +kernel
  exact ⟨_, Res.ok_getD [] h, by decide +kernel⟩

/-- The theorems apply to these trees. -/
example : ∃ out lout, tallTree.join id id overlapFilter sampleTree = .ok out ∧
    tallTree.leftJoin id id overlapFilter sampleTree = .ok lout ∧
    out.Perm (lout.flatMap fun x => x.2.map fun b => (x.1, b)) :=
  C18_join_left_join tall_reachable sample_reachable (fun _ => rfl) (overlapFilter_honours _ _)

end RTree
