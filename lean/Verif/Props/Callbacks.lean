import Verif.Proofs.CallsJoin
import Verif.Props.Join
/-!
# Iterators with user code that panics or answers inconsistently (C57, C58)
-/

namespace RTree.Calls

variable {B K V Q : Type} [Bounds B] [Volume B] [Bounded K B] [BEq K]
variable {c : Config} {P : K → Prop} {t : Tree B K V}

/-! ## C57: unordered iteration -/

/-- C57: making a filtered iterator asks the filter once, about the bounds of the root; then any number of calls of `next`, with panics of the filter caught,
    goes as told in `Story`: the crate never panics itself and has no undefined behaviour; entries come in the order of `iter`; an entry that does not come
    was turned down, or its bounds were, or it was lost to a panic of the filter, which costs one entry or the entries below one node. -/
theorem C57_filter_iter (h : Reachable c P t) (code : Nat → Option (SpatialFilter B Q)) (borrow : K → Q) (s₀ : TreeIter B K V) :
    match code 0 with
    | none => TreeIter.newFilter code t.level t.root s₀ 0 = (.error .user, s₀, 1)
    | some f => ∃ s, TreeIter.newFilter code t.level t.root s₀ 0 = (.ok (), s, 1) ∧
        ∀ k, ∃ outs s' n', TreeIter.nexts code borrow k s 1 = (.ok outs, s', n') ∧ outs.length = k ∧
          Story (iterQuery borrow t.nodes) code 1 (if f.testBounds t.root.bounds then t.entries else []) outs :=
  filter_iter_of_shape h.shape code borrow s₀

/-- C57: whatever the filter does, what `filter_iter` yields over its whole life, before and after panics, is part of what `iter` yields, in the same order; no
    entry comes twice; the crate does not panic. -/
theorem C57_sublist (h : Reachable c P t) (code : Nat → Option (SpatialFilter B Q)) (borrow : K → Q) {s₀ s s' : TreeIter B K V} {n n' k : Nat}
    {outs : List (Except Stop (Option (K × V)))} (hs : TreeIter.newFilter code t.level t.root s₀ 0 = (.ok (), s, n))
    (hk : TreeIter.nexts code borrow k s n = (.ok outs, s', n')) {es : List (K × V)} (hes : t.iter = .ok es) :
    (yields outs).Sublist es ∧ ∀ p, .error (.own p) ∉ outs := by
  obtain rfl : t.entries = es := by simpa [h.iter_eq] using hes
  exact sublist_of_shape h.shape code borrow hs hk

/-- C57: `filter_iter_mut` never hands out two references to the same value, whatever the filter does, also after panics of the filter. -/
theorem C57_no_alias (h : Reachable c P t) (code : Nat → Option (SpatialFilter B Q)) (borrow : K → Q) {s₀ s s' : TreeIter B K Nat} {n n' k : Nat}
    {outs : List (Except Stop (Option (K × Nat)))} (hs : TreeIter.newFilter code t.addressed.level t.addressed.root s₀ 0 = (.ok (), s, n))
    (hk : TreeIter.nexts code borrow k s n = (.ok outs, s', n')) : ((yields outs).map Prod.snd).Nodup :=
  t.addressed_nodup.sublist ((sublist_of_shape h.addressed_shape code borrow hs hk).1.map _)

/-- C57: with a filter that always answers the same and does not panic, this is `filter_iter` of the other theorems: the calls of `next` yield the same entries, and
    then `None`. -/
theorem C57_consistent_filter (f : SpatialFilter B Q) (borrow : K → Q) {es : List (K × V)} (hes : t.filterIter borrow f = .ok es) (s₀ : TreeIter B K V) :
    ∃ s s' n', TreeIter.newFilter (fun _ => some f) t.level t.root s₀ 0 = (.ok (), s, 1) ∧
      TreeIter.nexts (fun _ => some f) borrow (es.length + 1) s 1 = (.ok (es.map (fun e => .ok (some e)) ++ [.ok none]), s', n') := by
  rw [Tree.filterIter] at hes
  obtain ⟨s, h1, h2⟩ := bind_eq_ok.1 hes
  obtain ⟨s', n', h3⟩ := TreeIter.nexts_const f borrow _ 1 h2
  refine ⟨s, s', n', ?_, h3⟩
  rw [RTree.TreeIter.newFilter] at h1
  have h0 : ask (fun _ => some f) s₀ 0 = (.ok f, s₀, 1) := rfl
  rw [TreeIter.newFilter, bind_ok' h0]
  split at h1
  · next hb =>
    rw [if_pos hb]
    show (own (RTree.TreeIter.new t.level t.root) >>= put) s₀ 1 = _
    rw [h1]; rfl
  · next hb => rw [if_neg hb]; cases h1; rfl

/-- A filter that accepts everything but panics at its fourth and its seventh call. -/
def shaky : Nat → Option (SpatialFilter (AABB I32 2) (AABB I32 2)) := fun n => if n = 3 ∨ n = 6 then none else some (noFilter _ _)

/-- Eight calls of `next` on a tree with nine entries: `none` for a panic. -/
def shakyOuts : List (Option (Option Nat)) :=
  match TreeIter.newFilter shaky sampleTree.level sampleTree.root [] 0 with
  | (.ok (), s, n) => match TreeIter.nexts shaky id 8 s n with
    | (.ok outs, _, _) => outs.map fun o => match o with
      | .ok r => some (r.map Prod.snd)
      | .error _ => none
    | _ => []
  | _ => []

/-- The first panic costs one entry, the second one the three entries below a node (compare `sampleEntries`). -/
example : shakyOuts = [some (some 1), none, some (some 3), some (some 60), none, some (some 8), some (some 7), some none] := by decide +kernel

/-! ## C58: joins -/

section Join

variable {B0 B1 K0 K1 V0 V1 Q0 Q1 : Type} [Bounds B0] [Volume B0] [Bounded K0 B0] [BEq K0] [Bounds B1] [Volume B1] [Bounded K1 B1] [BEq K1]
variable {c0 c1 : Config} {P0 : K0 → Prop} {P1 : K1 → Prop} {t0 : Tree B0 K0 V0} {t1 : Tree B1 K1 V1}

/-- The join filter that accepts everything. -/
def acceptAll (B0 B1 Q0 Q1 : Type) : JoinFilter B0 B1 Q0 Q1 := ⟨fun _ _ => true, fun _ _ => true⟩

theorem join_acceptAll (h0 : Reachable c0 P0 t0) (h1 : Reachable c1 P1 t1) {borrow0 : K0 → Q0} {borrow1 : K1 → Q1} {all : List ((K0 × V0) × (K1 × V1))}
    (hall : t0.join borrow0 borrow1 (acceptAll B0 B1 Q0 Q1) t1 = .ok all) : allPairs (max t0.level t1.level) (t0.root, t1.root) = all := by
  rw [Tree.join_of_shape borrow0 borrow1 _ h0.shape h1.shape] at hall
  cases hall
  rfl

/-- C58: making a join asks the filter once, about the bounds of the roots; then any number of calls of `next`, with panics of the filter caught, goes as told in
    `Story`: the crate never panics itself and has no undefined behaviour; pairs come in the order in which the join yields them that accepts all pairs; a pair that
    does not come was turned down, or the bounds of nodes above it were, or it was lost to a panic, which costs one pair or the pairs below two nodes. -/
theorem C58_join (h0 : Reachable c0 P0 t0) (h1 : Reachable c1 P1 t1) (code : Nat → Option (JoinFilter B0 B1 Q0 Q1)) (borrow0 : K0 → Q0) (borrow1 : K1 → Q1)
    {all : List ((K0 × V0) × (K1 × V1))} (hall : t0.join borrow0 borrow1 (acceptAll B0 B1 Q0 Q1) t1 = .ok all) (s₀ : JoinIter B0 B1 K0 K1 V0 V1) :
    match code 0 with
    | none => JoinIter.new code t0.root t0.level t1.root t1.level s₀ 0 = (.error .user, s₀, 1)
    | some f => ∃ s, JoinIter.new code t0.root t0.level t1.root t1.level s₀ 0 = (.ok (), s, 1) ∧
        ∀ k, ∃ outs s' n', JoinIter.nexts code borrow0 borrow1 k s 1 = (.ok outs, s', n') ∧ outs.length = k ∧
          Story (joinQuery borrow0 borrow1 t0.nodes t1.nodes) code 1 (if f.testBounds t0.root.bounds t1.root.bounds then all else []) outs := by
  rw [← join_acceptAll h0 h1 hall]
  exact join_of_shape h0.shape h1.shape code borrow0 borrow1 s₀

/-- C58: whatever the filter does, what a join yields over its whole life, before and after panics, is part of all pairs, in a fixed order; no pair comes twice; the
    crate does not panic. -/
theorem C58_sublist (h0 : Reachable c0 P0 t0) (h1 : Reachable c1 P1 t1) (code : Nat → Option (JoinFilter B0 B1 Q0 Q1)) (borrow0 : K0 → Q0) (borrow1 : K1 → Q1)
    {s₀ s s' : JoinIter B0 B1 K0 K1 V0 V1} {n n' k : Nat} {outs : List (Except Stop (Option ((K0 × V0) × (K1 × V1))))}
    (hs : JoinIter.new code t0.root t0.level t1.root t1.level s₀ 0 = (.ok (), s, n)) (hk : JoinIter.nexts code borrow0 borrow1 k s n = (.ok outs, s', n'))
    {es : List (K0 × V0)} {fs : List (K1 × V1)} (hes : t0.iter = .ok es) (hfs : t1.iter = .ok fs) :
    (∃ all, all.Perm (es.flatMap fun a => fs.map fun b => (a, b)) ∧ (yields outs).Sublist all) ∧ ∀ p, .error (.own p) ∉ outs := by
  obtain rfl : t0.entries = es := by simpa [h0.iter_eq] using hes
  obtain rfl : t1.entries = fs := by simpa [h1.iter_eq] using hfs
  have hp0 : t0.level = max t0.level t1.level - (max t0.level t1.level - t0.level) := by omega
  have hp1 : t1.level = max t0.level t1.level - (max t0.level t1.level - t1.level) := by omega
  have hs0 := h0.shape
  have hs1 := h1.shape
  have key := join_of_shape hs0 hs1 code borrow0 borrow1 s₀
  rw [hp0] at hs0
  rw [hp1] at hs1
  cases hc : code 0 with
  | none => rw [hc] at key; rw [key] at hs; cases hs
  | some f =>
    rw [hc] at key
    obtain ⟨s₁, g1, g2⟩ := key
    rw [g1] at hs
    cases hs
    obtain ⟨outs', s'', n'', g3, -, g4⟩ := g2 k
    rw [hk] at g3
    cases g3
    refine ⟨⟨_, allPairs_perm (x := (t0.root, t1.root)) hs0 hs1, g4.sublist.trans ?_⟩, g4.no_own⟩
    split
    · exact List.Sublist.refl _
    · exact List.nil_sublist _

/-- C58: with a filter that always answers the same and does not panic, this is `join` of the other theorems. -/
theorem C58_consistent_filter (h0 : Reachable c0 P0 t0) (h1 : Reachable c1 P1 t1) (f : JoinFilter B0 B1 Q0 Q1) (borrow0 : K0 → Q0) (borrow1 : K1 → Q1)
    {es : List ((K0 × V0) × (K1 × V1))} (hes : t0.join borrow0 borrow1 f t1 = .ok es) (s₀ : JoinIter B0 B1 K0 K1 V0 V1) :
    ∃ s s' n', JoinIter.new (fun _ => some f) t0.root t0.level t1.root t1.level s₀ 0 = (.ok (), s, 1) ∧
      JoinIter.nexts (fun _ => some f) borrow0 borrow1 (es.length + 1) s 1 = (.ok (es.map (fun e => .ok (some e)) ++ [.ok none]), s', n') := by
  have ha : ask (fun _ => some f) s₀ 0 = (.ok f, s₀, 1) := rfl
  rw [Tree.join] at hes
  obtain ⟨it, g1, g2⟩ := bind_eq_ok.1 hes
  rw [RTree.JoinIter.new] at g1
  cases hb : f.testBounds t0.root.bounds t1.root.bounds with
  | false =>
    rw [hb] at g1
    cases g1
    refine ⟨⟨IterStack.emptyBox, 0, 0⟩, ⟨IterStack.emptyBox, 0, 0⟩, 1, ?_, ?_⟩
    · rw [JoinIter.new, bind_ok' ha, hb]; rfl
    · rw [JoinIter.nexts_empty]
      obtain rfl : es = [] := by
        have hn : ∀ fuel, RTree.JoinIter.nextLoop borrow0 borrow1 f 0 0 fuel 0 ([] : JoinIterStack B0 B1 K0 K1 V0 V1) = .ok (none, []) := by
          intro fuel; unfold RTree.JoinIter.nextLoop; simp
        simp only [IterStack.emptyBox, RTree.JoinIter.collectLoop, hn] at g2
        cases g2; rfl
      rfl
  | true =>
    rw [hb] at g1
    obtain ⟨lf, its, e1, e2, e3, e4, e5⟩ := JoinIter.start_of_shape h0.shape h1.shape
    have hp : max t0.level t1.level - t0.level = 0 ∨ max t0.level t1.level - t1.level = 0 := by omega
    simp only [Bool.not_true, Bool.false_eq_true, if_false, e1, ok_bind] at g1
    cases g1
    obtain ⟨s', n', g3⟩ := JoinIter.nexts_const f hp _ _ e2 e3 1 g2
    refine ⟨_, s', n', ?_, g3⟩
    rw [JoinIter.new, bind_ok' ha, hb]
    dsimp only
    show ((put _ >>= fun _ => own _ >>= fun stack => put _ : M _ _) s₀ 1 : _ × _ × _) = _
    rw [put_bind, e1, own_bind]; rfl

/-- A join filter that accepts everything but panics at its sixth and its eleventh call. -/
def shakyJoin : Nat → Option (JoinFilter (AABB I32 2) (AABB I32 2) (AABB I32 2) (AABB I32 2)) :=
  fun n => if n = 5 ∨ n = 10 then none else some (acceptAll _ _ _ _)

/-- Fourteen calls of `next`, on a join of trees with nine and two entries: `none` for a panic. -/
def shakyPairs : List (Option (Option (Nat × Nat))) :=
  match JoinIter.new shakyJoin sampleTree.root sampleTree.level smallTree.root smallTree.level ⟨[], 0, 0⟩ 0 with
  | (.ok (), s, n) => match JoinIter.nexts shakyJoin id id 14 s n with
    | (.ok outs, _, _) => outs.map fun o => match o with
      | .ok r => some (r.map fun x => (x.1.2, x.2.2))
      | .error _ => none
    | _ => []
  | _ => []

/-- The first panic costs one pair, the second one the six pairs below two nodes. -/
example : shakyPairs = [some (some (1, 1)), some (some (5, 1)), some (some (3, 1)), none, some (some (1, 2)), some (some (5, 2)), some (some (3, 2)),
    some (some (60, 2)), none, some (some (8, 1)), some (some (7, 1)), some (some (8, 2)), some (some (7, 2)), some none] := by decide +kernel

end Join

end RTree.Calls
