import Verif.Proofs.FusedLeft
import Verif.Props.Callbacks
import Verif.Props.LeftCalls
import Verif.Props.SortedCalls
/-!
# Exhausted iterators stay exhausted (C86)

The iterators of the crate are fused, although they do not say so: once `next` has answered `None`, it answers `None` ever after.  This holds even with user code that panics or
answers inconsistently, before and after, and user code is not called any more.
-/

namespace RTree.Calls

section Trees

variable {B K V Q : Type}

/-- C86: once `next` of an unordered iterator (`iter`, `iter_mut`, `filter_iter`, `filter_iter_mut`, or a right-hand iterator of a left join) has answered `None`,
    every later call answers `None`, does not call the filter, and leaves the iterator as it is; whatever panics came before, and whatever the filter would do now. -/
theorem C86_filter_iter {code : Nat → Option (SpatialFilter B Q)} {borrow : K → Q} {s s' : TreeIter B K V} {n n' : Nat}
    (h : TreeIter.next code borrow s n = (.ok none, s', n')) (code' : Nat → Option (SpatialFilter B Q)) (borrow' : K → Q) (k m : Nat) :
    TreeIter.nexts code' borrow' k s' m = (.ok (List.replicate k (.ok none)), s', m) :=
  TreeIter.nexts_done (TreeIter.done_of_next h) m k

variable {Mt : Type}

/-- C86: the same for `iter_asc_by` and `iter_asc_by_mut`: neither the ranking nor the order of its metric is called any more. -/
theorem C86_iter_asc_by {code : Nat → RankCode B K Mt Mt} {fuel n n' : Nat} {s s' : SortedHeap B K V Mt}
    (h : SortedIter.nextLoop code fuel s n = (.ok none, s', n')) (code' : Nat → RankCode B K Mt Mt) {fuel' : Nat} (hf : 0 < fuel') (k m : Nat) :
    SortedIter.nexts code' fuel' k s' m = (.ok (List.replicate k (.ok none)), s', m) := by
  rw [SortedIter.empty_of_none _ h]
  exact SortedIter.nexts_nil hf k m

/-- C86: the same for `filter_iter_asc_by` and `filter_iter_asc_by_mut`. -/
theorem C86_filter_iter_asc_by {code : Nat → RankCode B K (Option Mt) Mt} {fuel n n' : Nat} {s s' : SortedHeap B K V Mt}
    (h : FilterSortedIter.nextLoop code fuel s n = (.ok none, s', n')) (code' : Nat → RankCode B K (Option Mt) Mt) {fuel' : Nat} (hf : 0 < fuel') (k m : Nat) :
    FilterSortedIter.nexts code' fuel' k s' m = (.ok (List.replicate k (.ok none)), s', m) := by
  rw [FilterSortedIter.empty_of_none _ h]
  exact FilterSortedIter.nexts_nil hf k m

end Trees

section Joins

variable {B0 B1 K0 K1 V0 V1 Q0 Q1 : Type}

/-- C86: the same for `join`, of any two trees: once one of the calls of `next` has answered `None`, every later one does, without calling the filter. -/
theorem C86_join {code : Nat → Option (JoinFilter B0 B1 Q0 Q1)} {borrow0 : K0 → Q0} {borrow1 : K1 → Q1} {t0 : Tree B0 K0 V0} {t1 : Tree B1 K1 V1}
    {s₀ s s' : JoinIter B0 B1 K0 K1 V0 V1} {n₀ n n' k : Nat} {outs : List (Except Stop (Option ((K0 × V0) × (K1 × V1))))}
    (hs : JoinIter.new code t0.root t0.level t1.root t1.level s₀ n₀ = (.ok (), s, n)) (hk : JoinIter.nexts code borrow0 borrow1 k s n = (.ok outs, s', n'))
    (hnone : .ok none ∈ outs) (code' : Nat → Option (JoinFilter B0 B1 Q0 Q1)) (borrow0' : K0 → Q0) (borrow1' : K1 → Q1) (j m : Nat) :
    JoinIter.nexts code' borrow0' borrow1' j s' m = (.ok (List.replicate j (.ok none)), s', m) :=
  JoinIter.nexts_done (JoinIter.done_of_nexts k (JoinIter.new_padding hs) hk hnone) m j

end Joins

section LeftJoins

variable {BL BR KL KR VL VR QL QR : Type} [Bounds BL] [Volume BL] [Bounded KL BL] [BEq KL] [Bounds BR] [Volume BR] [Bounded KR BR] [BEq KR]
variable {cl cr : Config} {PL : KL → Prop} {PR : KR → Prop} {tl : Tree BL KL VL} {tr : Tree BR KR VR}

/-- C86: once `next` of a left join has answered `None`, then after any further calls of the left join and of the right-hand iterators it has yielded (`cmds'`), `next`
    answers `None` again, does not call user code, yields no new right-hand iterator, and does not touch those it has yielded. -/
theorem C86_left_join (hl : Reachable cl PL tl) (hr : Reachable cr PR tr) {code : Nat → Option (JoinCode BL BR QL QR)} {borrowL : KL → QL} {borrowR : KR → QR}
    {it : LeftJoinIter BL BR KL KR VL VR} (hit : RTree.LeftJoinIter.new tl.root tl.level tr.root tr.level = .ok it) (cmds : List LeftCmd) {outs s s' n n'}
    (hcalls : LeftSession.calls code borrowL borrowR cmds ⟨it, []⟩ 0 = (outs, s, n)) (hnone : LeftSession.call code borrowL borrowR s n .next = (.next (.ok none), s', n'))
    (code' : Nat → Option (JoinCode BL BR QL QR)) (cmds' : List LeftCmd) {outs' s'' m m'} (hcalls' : LeftSession.calls code' borrowL borrowR cmds' s' m = (outs', s'', m')) :
    ∃ join, LeftSession.call code' borrowL borrowR s'' m' .next = (.next (.ok none), ⟨join, s''.rights⟩, m') := by
  have hNL := closed_nodes tl
  have hNR := closed_nodes tr
  have f1 := LeftSession.Fit.calls (code := code) (borrowL := borrowL) (borrowR := borrowR) hNL hNR cmds (LeftSession.fit_new hl.shape hr.shape hit) 0
  rw [hcalls] at f1
  have f2 := f1.call (code := code) (borrowL := borrowL) (borrowR := borrowR) hNL hNR n .next
  rw [hnone] at f2
  have d := LeftSession.done_of_call hNL hNR f1 hnone
  have f3 := f2.calls (code := code') (borrowL := borrowL) (borrowR := borrowR) hNL hNR cmds' m
  have d3 := LeftSession.calls_done (code := code') (borrowL := borrowL) (borrowR := borrowR) hNL hNR cmds' f2 d m
  rw [hcalls'] at f3 d3
  obtain ⟨right, h⟩ := LeftSession.call_next_done (code := code') (borrowL := borrowL) (borrowR := borrowR) hNL hNR f3 d3 m'
  exact ⟨_, h⟩

omit [Bounds BL] [Volume BL] [Bounded KL BL] [BEq KL] [Bounds BR] [Volume BR] [Bounded KR BR] [BEq KR] in
/-- C86: once `next` of the right-hand iterator number `i` of a left join has answered `None`, then after any further calls of the left join and of its right-hand
    iterators (`cmds'`), it answers `None` again, does not call user code, and changes nothing. -/
theorem C86_left_join_right {code : Nat → Option (JoinCode BL BR QL QR)} {borrowL : KL → QL} {borrowR : KR → QR} {s s' : LeftSession BL BR KL KR VL VR} {i n n' : Nat}
    (hnone : LeftSession.call code borrowL borrowR s n (.right i) = (.right (.ok none), s', n'))
    (code' : Nat → Option (JoinCode BL BR QL QR)) (cmds' : List LeftCmd) {outs' s'' m m'} (hcalls' : LeftSession.calls code' borrowL borrowR cmds' s' m = (outs', s'', m')) :
    LeftSession.call code' borrowL borrowR s'' m' (.right i) = (.right (.ok none), s'', m') := by
  obtain ⟨x, h1, h2⟩ := LeftSession.done_of_right hnone
  have h3 := LeftSession.calls_keep_right (code := code') (borrowL := borrowL) (borrowR := borrowR) cmds' h1 h2 m
  rw [hcalls'] at h3
  exact LeftSession.call_right_done h3 h2 m'

end LeftJoins

/-! ## Concrete cases -/

/-- Does a call answer `None`? -/
def saysNone {S α : Type} : Except Stop (Option α) × S × Nat → Bool
  | (.ok none, _, _) => true
  | _ => false

theorem of_saysNone {S α : Type} {x : Except Stop (Option α) × S × Nat} (h : saysNone x = true) : x = (.ok none, x.2.1, x.2.2) := by
  match x with
  | (.ok none, _, _) => rfl
  | (.ok (some _), _, _) => cases h
  | (.error _, _, _) => cases h

/-- A filtered iterator over the sample tree after seven calls of `next`, two of which panicked. -/
def shakyEnd : TreeIter (AABB I32 2) (AABB I32 2) Nat × Nat :=
  (TreeIter.nexts shaky id 7 (TreeIter.newFilter shaky sampleTree.level sampleTree.root [] 0).2.1 1).2

/-- Then it answers `None`: from then on no filter is called, not even the one that always panics. -/
example (k m : Nat) : TreeIter.nexts (fun _ => none) id k (TreeIter.next shaky id shakyEnd.1 shakyEnd.2).2.1 m =
    (.ok (List.replicate k (.ok none)), (TreeIter.next shaky id shakyEnd.1 shakyEnd.2).2.1, m) :=
  C86_filter_iter (of_saysNone (by decide +kernel)) _ _ _ _

/-- A sorted iterator over the sample tree after nine calls of `next`, with ranks that change from call to call. -/
def wildEnd : SortedHeap (AABB I32 2) (AABB I32 2) Nat I32 × Nat :=
  (SortedIter.nexts wildRank sampleTree.sortedFuel 9 (SortedIter.new wildRank sampleTree.level sampleTree.root [] 0).2.1 1).2

example (k m : Nat) : SortedIter.nexts (shakyRank [m]) sampleTree.sortedFuel k (SortedIter.nextLoop wildRank sampleTree.sortedFuel wildEnd.1 wildEnd.2).2.1 m =
    (.ok (List.replicate k (.ok none)), (SortedIter.nextLoop wildRank sampleTree.sortedFuel wildEnd.1 wildEnd.2).2.1, m) :=
  C86_iter_asc_by (of_saysNone (by decide +kernel)) _ (by decide +kernel) _ _

/-- A filtering sorted iterator over the sample tree after the five entries in range. -/
def withinEnd : SortedHeap (AABB I32 2) (AABB I32 2) Nat I32 × Nat :=
  (FilterSortedIter.nexts withinCode sampleTree.sortedFuel 5 (FilterSortedIter.new withinCode sampleTree.level sampleTree.root [] 0).2.1 1).2

example (k m : Nat) : FilterSortedIter.nexts withinCode sampleTree.sortedFuel k (FilterSortedIter.nextLoop withinCode sampleTree.sortedFuel withinEnd.1 withinEnd.2).2.1 m =
    (.ok (List.replicate k (.ok none)), (FilterSortedIter.nextLoop withinCode sampleTree.sortedFuel withinEnd.1 withinEnd.2).2.1, m) :=
  C86_filter_iter_asc_by (of_saysNone (by decide +kernel)) _ (by decide +kernel) _ _

/-- Does a computation return? -/
def returns {S α : Type} : Except Stop α × S × Nat → Bool
  | (.ok _, _, _) => true
  | _ => false

/-- What it returns. -/
def returned {S α : Type} (d : α) : Except Stop α × S × Nat → α
  | (.ok a, _, _) => a
  | _ => d

theorem of_returns {S α : Type} (d : α) {x : Except Stop α × S × Nat} (h : returns x = true) : x = (.ok (returned d x), x.2.1, x.2.2) := by
  match x with
  | (.ok _, _, _) => rfl
  | (.error _, _, _) => cases h

/-- A join of the sample trees. -/
def shakyMade : Except Stop Unit × JoinIter (AABB I32 2) (AABB I32 2) (AABB I32 2) (AABB I32 2) Nat Nat × Nat :=
  JoinIter.new shakyJoin sampleTree.root sampleTree.level smallTree.root smallTree.level ⟨[], 0, 0⟩ 0

/-- Fourteen calls of `next`, two of which panic; the last one answers `None`. -/
def shakyRun : Except Stop (List (Except Stop (Option ((AABB I32 2 × Nat) × (AABB I32 2 × Nat))))) × JoinIter (AABB I32 2) (AABB I32 2) (AABB I32 2) (AABB I32 2) Nat Nat × Nat :=
  JoinIter.nexts shakyJoin id id 14 shakyMade.2.1 shakyMade.2.2

theorem none_mem {α : Type} {outs : List (Except Stop (Option α))} (h : (outs.any fun o => match o with | .ok none => true | _ => false) = true) : .ok none ∈ outs := by
  obtain ⟨o, h1, h2⟩ := List.any_eq_true.1 h
  match o, h1, h2 with
  | .ok none, h1, _ => exact h1

example (j m : Nat) : JoinIter.nexts (fun _ => none) id id j shakyRun.2.1 m = (.ok (List.replicate j (.ok none)), shakyRun.2.1, m) :=
  C86_join (t0 := sampleTree) (t1 := smallTree) (of_returns () (x := shakyMade) (by decide +kernel)) (of_returns [] (x := shakyRun) (by decide +kernel))
    (none_mem (by decide +kernel)) _ _ _ _ _

/-- What `next` of a left join answers, if that is `None`. -/
def leftNone {BL BR KL KR VL VR : Type} : LeftOut KL KR VL VR × LeftSession BL BR KL KR VL VR × Nat → Bool
  | (.next (.ok none), _, _) => true
  | _ => false

/-- What `next` of a right-hand iterator answers, if that is `None`. -/
def rightNone {BL BR KL KR VL VR : Type} : LeftOut KL KR VL VR × LeftSession BL BR KL KR VL VR × Nat → Bool
  | (.right (.ok none), _, _) => true
  | _ => false

theorem of_leftNone {BL BR KL KR VL VR : Type} {x : LeftOut KL KR VL VR × LeftSession BL BR KL KR VL VR × Nat} (h : leftNone x = true) : x = (.next (.ok none), x.2.1, x.2.2) := by
  match x with
  | (.next (.ok none), _, _) => rfl
  | (.next (.ok (some _)), _, _) => cases h
  | (.next (.error _), _, _) => cases h
  | (.right _, _, _) => cases h
  | (.nothing, _, _) => cases h

theorem of_rightNone {BL BR KL KR VL VR : Type} {x : LeftOut KL KR VL VR × LeftSession BL BR KL KR VL VR × Nat} (h : rightNone x = true) : x = (.right (.ok none), x.2.1, x.2.2) := by
  match x with
  | (.right (.ok none), _, _) => rfl
  | (.right (.ok (some _)), _, _) => cases h
  | (.right (.error _), _, _) => cases h
  | (.next _, _, _) => cases h
  | (.nothing, _, _) => cases h

/-- The left join of the sample trees, after fourteen of the calls of `shakyCmds`, two of which panicked. -/
def leftRun (it : LeftJoinIter (AABB I32 2) (AABB I32 2) (AABB I32 2) (AABB I32 2) Nat Nat) (k : Nat) := LeftSession.calls shakyLeft id id (shakyCmds.take k) ⟨it, []⟩ 0

/-- It is made; the fifteenth call, of `next`, answers `None`, and so does the fifth one, of the first right-hand iterator. -/
theorem leftRun_ends : ∃ it, RTree.LeftJoinIter.new sampleTree.root sampleTree.level smallTree.root smallTree.level = .ok it ∧
    leftNone (LeftSession.call shakyLeft id id (leftRun it 14).2.1 (leftRun it 14).2.2 .next) = true ∧
    rightNone (LeftSession.call shakyLeft id id (leftRun it 4).2.1 (leftRun it 4).2.2 (.right 0)) = true :=
  ⟨_, Res.ok_getD ⟨[], []⟩ (by decide +kernel), by decide +kernel, by decide +kernel⟩

theorem parts {α β γ : Type} (x : α × β × γ) : x = (x.1, x.2.1, x.2.2) := rfl

/-- After it, whatever happens: `None`, without a question. -/
example : ∃ s' : LeftSession (AABB I32 2) (AABB I32 2) (AABB I32 2) (AABB I32 2) Nat Nat, ∀ cmds' m, ∃ join,
    LeftSession.call (fun _ => none) id id (LeftSession.calls (fun _ => none) id id cmds' s' m).2.1 (LeftSession.calls (fun _ => none) id id cmds' s' m).2.2 .next =
      (.next (.ok none), ⟨join, (LeftSession.calls (fun _ => none) id id cmds' s' m).2.1.rights⟩, (LeftSession.calls (fun _ => none) id id cmds' s' m).2.2) := by
  obtain ⟨it, h1, h2, -⟩ := leftRun_ends
  exact ⟨_, fun cmds' m => C86_left_join sample_reachable small_reachable h1 (shakyCmds.take 14) (parts (leftRun it 14)) (of_leftNone h2) (fun _ => none) cmds' (parts _)⟩

example : ∃ s' : LeftSession (AABB I32 2) (AABB I32 2) (AABB I32 2) (AABB I32 2) Nat Nat, ∀ cmds' m,
    LeftSession.call (fun _ => none) id id (LeftSession.calls (fun _ => none) id id cmds' s' m).2.1 (LeftSession.calls (fun _ => none) id id cmds' s' m).2.2 (.right 0) =
      (.right (.ok none), (LeftSession.calls (fun _ => none) id id cmds' s' m).2) := by
  obtain ⟨it, h1, -, h3⟩ := leftRun_ends
  exact ⟨_, fun cmds' m => C86_left_join_right (of_rightNone h3) (fun _ => none) cmds' (parts _)⟩

end RTree.Calls
