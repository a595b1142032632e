import Verif.Proofs.CallsLeft
import Verif.Props.Callbacks
/-!
# Left joins with user code that panics or answers inconsistently (C65)
-/

namespace RTree.Calls

section

variable {BL BR KL KR VL VR QL QR : Type} [Bounds BL] [Volume BL] [Bounded KL BL] [BEq KL] [Bounds BR] [Volume BR] [Bounded KR BR] [BEq KR]
variable {cl cr : Config} {PL : KL → Prop} {PR : KR → Prop} {tl : Tree BL KL VL} {tr : Tree BR KR VR}

/-- C65: making a left join asks no user code.  Then any calls of `next`, of the left join and of the right-hand iterators it has yielded, in any order, with panics
    of user code caught, go as told in `LeftStory`: the crate never panics itself and has no undefined behaviour; the left entries come in the order of `iter`,
    whether or not the filter accepts anything; one that does not come was lost to a panic, which costs one left entry or those below one node; the right-hand
    iterator that comes with a left entry lacks only right entries that were turned down together with it by the bounds of a pair of nodes, and then is a filtered
    iterator as in C57, which is not disturbed by the left join or by the other right-hand iterators. -/
theorem C65_left_join (hl : Reachable cl PL tl) (hr : Reachable cr PR tr) (code : Nat → Option (JoinCode BL BR QL QR)) (borrowL : KL → QL) (borrowR : KR → QR)
    {es : List (KL × VL)} {rs : List (KR × VR)} (hes : tl.iter = .ok es) (hrs : tr.iter = .ok rs) :
    ∃ it, RTree.LeftJoinIter.new tl.root tl.level tr.root tr.level = .ok it ∧
      ∀ cmds, LeftStory code borrowL borrowR tl.nodes tr.nodes rs 0 es [] cmds (LeftSession.calls code borrowL borrowR cmds ⟨it, []⟩ 0).1 := by
  obtain rfl : tl.entries = es := by simpa [hl.iter_eq] using hes
  obtain rfl : tr.entries = rs := by simpa [hr.iter_eq] using hrs
  obtain ⟨it, h1, h2⟩ := session_of_shape hl.shape hr.shape code
  exact ⟨it, h1, fun cmds => calls_spec (closed_nodes tl) (closed_nodes tr) cmds h2⟩

/-- C65: whatever user code does, the left entries that come over the whole life of a left join, before and after panics, are part of what `iter` yields, in the same
    order, none twice; the right entries that come from one right-hand iterator are part of what `iter` of the right tree yields; the crate does not panic. -/
theorem C65_sublists (hl : Reachable cl PL tl) (hr : Reachable cr PR tr) (code : Nat → Option (JoinCode BL BR QL QR)) (borrowL : KL → QL) (borrowR : KR → QR)
    {es : List (KL × VL)} {rs : List (KR × VR)} (hes : tl.iter = .ok es) (hrs : tr.iter = .ok rs) {it : LeftJoinIter BL BR KL KR VL VR}
    (hit : RTree.LeftJoinIter.new tl.root tl.level tr.root tr.level = .ok it) {cmds : List LeftCmd} {outs : List (LeftOut KL KR VL VR)}
    (houts : (LeftSession.calls code borrowL borrowR cmds ⟨it, []⟩ 0).1 = outs) :
    (leftYields outs).Sublist es ∧ (∀ i, (rightYields i cmds outs).Sublist rs) ∧ ∀ p, .next (.error (.own p)) ∉ outs ∧ .right (.error (.own p)) ∉ outs := by
  obtain ⟨it', h1, h2⟩ := C65_left_join hl hr code borrowL borrowR hes hrs
  cases hit.symm.trans h1
  have h3 := h2 cmds
  rw [houts] at h3
  exact ⟨h3.left_sublist, fun i => h3.right_sublist i, h3.no_own⟩

/-- C65: if no user code panics, every left entry comes: as long as some remain, a call of `next` yields the next one. -/
theorem C65_no_panic_no_loss (hl : Reachable cl PL tl) (hr : Reachable cr PR tr) (code : Nat → Option (JoinCode BL BR QL QR)) (hcode : ∀ n, code n ≠ none)
    (borrowL : KL → QL) (borrowR : KR → QR) {es : List (KL × VL)} (hes : tl.iter = .ok es) {it : LeftJoinIter BL BR KL KR VL VR}
    (hit : RTree.LeftJoinIter.new tl.root tl.level tr.root tr.level = .ok it) {cmds : List LeftCmd} {outs : List (LeftOut KL KR VL VR)}
    (houts : (LeftSession.calls code borrowL borrowR cmds ⟨it, []⟩ 0).1 = outs) :
    leftYields outs = es.take (cmds.countP fun c => c matches .next) := by
  obtain ⟨it', h1, h2⟩ := C65_left_join hl hr code borrowL borrowR hes hr.iter_eq
  cases hit.symm.trans h1
  have h3 := h2 cmds
  rw [houts] at h3
  exact h3.left_take hcode

end

/-- C65: with user code that always answers the same and does not panic, this is `left_join` of the other theorems: whoever calls `next` of the left join, then
    `next` of the new right-hand iterator until it ends, and so on, gets exactly what `left_join` yields there. -/
theorem C65_consistent_filter {BL BR KL KR VL VR QL QR : Type} {tl : Tree BL KL VL} {tr : Tree BR KR VR} (f : JoinFilter BL BR QL QR) (borrowL : KL → QL) (borrowR : KR → QR) [Bounded QL BL]
    {out : List ((KL × VL) × List (KR × VR))} (hout : tl.leftJoin borrowL borrowR f tr = .ok out) :
    ∃ it, RTree.LeftJoinIter.new tl.root tl.level tr.root tr.level = .ok it ∧
      (LeftSession.calls (fun _ => some ⟨f, Bounded.bounds⟩) borrowL borrowR (drainCmds 0 out) ⟨it, []⟩ 0).1 = drainOuts out := by
  rw [Tree.leftJoin] at hout
  obtain ⟨it, h1, h2⟩ := bind_eq_ok.1 hout
  exact ⟨it, h1, calls_const f borrowL borrowR _ [] 0 h2⟩

/-- User code that accepts everything but panics at its seventh, its twelfth and its thirteenth call. -/
def shakyLeft : Nat → Option (JoinCode (AABB I32 2) (AABB I32 2) (AABB I32 2) (AABB I32 2)) :=
  fun n => if n = 6 ∨ n = 11 ∨ n = 12 then none else some ⟨acceptAll _ _ _ _, id⟩

/-- Some calls in an order that goes back and forth between the left join and the right-hand iterators. -/
def shakyCmds : List LeftCmd :=
  [.next, .right 0, .next, .right 0, .right 0, .next, .right 1, .right 1, .right 1, .next, .next, .next, .next, .right 4, .next, .right 2, .right 2]

/-- What the calls yield: values, `none` for a panic. -/
def shakyAnswers : List (Option (Option Nat)) :=
  match RTree.LeftJoinIter.new sampleTree.root sampleTree.level smallTree.root smallTree.level with
  | .ok it => (LeftSession.calls shakyLeft id id shakyCmds ⟨it, []⟩ 0).1.map fun o => match o with
    | .next (.ok r) => some (r.map Prod.snd)
    | .right (.ok r) => some (r.map Prod.snd)
    | _ => none
  | _ => []

/-- The panics cost one right entry, one left entry, and the three left entries below a node (compare `sampleEntries`). -/
example : shakyAnswers = [some (some 1), some (some 1), some (some 5), none, some none, some (some 3), some (some 1), some (some 2), some none,
    none, none, some (some 8), some (some 7), some (some 1), some none, some (some 1), some (some 2)] := by decide +kernel

end RTree.Calls
