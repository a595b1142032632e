import Verif.Proofs.DestructorSession
import Verif.Props.Drop
/-!
# Destructors that panic while a tree is dropped (C73)
-/

namespace RTree

open Raw

variable {B K V Q : Type}

section

variable [Bounds B] [Volume B] [Bounded K B] [BEq K] [Bounded Q B] [BEq Q]
variable {E : TEnv} {borrow : K → Q}

/-- C73, partially (the property itself is refuted below): run any session over any number of trees, in which any trees are dropped while any
    destructors of keys and values panic (and the client catches the panics), in raw memory, starting with no allocation.  Then

    * there is no undefined behaviour; the other trees and later commands are not affected: the replies are those of the same session on values;
    * dropping a tree runs the destructors of its entries leaf by leaf, each leaf from the last entry to the first, up to and including the pair
      one of whose destructors panics; if both panic the process is aborted;
    * no destructor runs twice: every key handed over has been dropped once, or is still in a tree, or belongs to a pair that came after the panic,
      and is never dropped then; likewise every value;
    * the blocks not freed are those of the nodes of the trees that are still there, and those of the nodes that contain (or come after) the pair whose
      destructor panicked. -/
theorem C73_panicking_destructors_partial (cmds : List (DCmd K V Q)) (hS : ∀ c, DCmd.cmd (Cmd.new c) ∈ cmds → Sizes E c.maxChildren) :
    match specSession (B := B) borrow [] cmds with
    | .error e => session E borrow ([] : List (Option (Raw.RTree B))) cmds [] = .error e ∧ UserPanic e
    | .ok (f', outs) => ∃ f evs h, session E borrow ([] : List (Option (Raw.RTree B))) cmds [] = .ok (f, evs, h) ∧
        evs.map DEvent.shown = outs.map DOut.shown ∧
        (outs.flatMap DOut.keys).Perm (evs.flatMap DEvent.keys ++ (outs.flatMap DOut.lost).map (·.1) ++ (remaining f').map (·.1)) ∧
        (outs.flatMap DOut.values).Perm (evs.flatMap DEvent.values ++ (outs.flatMap DOut.lost).map (·.2) ++ (remaining f').map (·.2)) ∧
        liveBlocks h = (remainingNodes f').length + (outs.map DOut.kept).sum := by
  have key := session_sim (E := E) borrow cmds (gs := []) (lk := []) (h := []) (fun t ht => by cases ht) .nil hS
  have e1 : Forest.absF ([] : Forest B K V) = [] := rfl
  have e2 : Forest.rawF ([] : Forest B K V) = [] := rfl
  rw [e1, e2] at key
  cases hx : specSession (B := B) borrow [] cmds with
  | error e => rw [hx] at key; exact key
  | ok r =>
    obtain ⟨f', outs⟩ := r
    rw [hx] at key
    obtain ⟨f, evs, h, gs, lk, h1, pr⟩ := key
    obtain rfl := pr.abs
    refine ⟨f, evs, h, h1, pr.shown, ?_, ?_, ?_⟩
    · rw [Forest.remaining_abs]
      have := pr.keys
      simpa [Forest.es] using this
    · rw [Forest.remaining_abs]
      have := pr.values
      simpa [Forest.es] using this
    · have hk : lk.length = (outs.map DOut.kept).sum := by simpa using pr.kept
      rw [← Forest.fps_nodes E, ← hk]
      have tr : Tr [] [] h (Forest.own E gs ++ lk.map leakC) := pr.tr
      have := length_filter_isSome tr.has.nodup (fun b hb => ?_) fun b hb hn => tr.step.dead b hb hn (.inr (Nat.zero_le _))
      · rw [fps_append, fps_leak, List.length_append] at this
        exact this
      · rw [fps_append, List.mem_append] at hb
        rcases hb with hb | hb
        · exact Forest.own_live tr.has.left b hb
        · obtain ⟨c, hc, hb⟩ := mem_fps.1 hb
          have hh := tr.has.right.holds c hc
          obtain ⟨b', _, rfl⟩ := List.mem_map.1 hc
          obtain rfl : b = b' := by simpa [leakC] using hb
          exact hh

end

mutual
theorem closings_count : ∀ (n : Node B K V) (o : Nat), (n.closings o).length = n.descendants.length + 1
  | .leaf _ _, _ => by rw [Node.closings, Node.descendants]; rfl
  | .inner _ cs, o => by
    rw [Node.closings, Node.descendants, List.length_append, closingsList_count cs o]
    rfl
theorem closingsList_count : ∀ (cs : List (Node B K V)) (o : Nat), (closingsList o cs).length = (descendantsList cs).length
  | [], _ => by rw [closingsList, descendantsList]; rfl
  | c :: cs, o => by
    rw [closingsList, descendantsList, List.length_append, List.length_cons, List.length_append, closings_count c, closingsList_count cs]
    omega
end

theorem root_closes_last (n : Node B K V) : n.dropOrder.length ∈ n.closings 0 := by
  rw [dropOrder_length]
  cases n with
  | leaf b es => simp [Node.closings, Node.leaves]
  | inner b cs => rw [Node.closings, Node.leaves, Nat.zero_add]; simp

/-- C73: whichever destructor panics, at least one block of the tree stays allocated for ever (the one of its root), and at most all of them do. -/
theorem C73_every_panic_leaks (t : Tree B K V) (bomb : Nat → Bool) {es lost : List (K × V)} {e : Ending}
    (h : dropPairs bomb 0 t.root.dropOrder = (es, e, lost)) (he : e ≠ .finished) :
    1 ≤ t.root.kept (es.length - 1) ∧ t.root.kept (es.length - 1) ≤ t.nodes.length ∧ lost.length + es.length = t.root.dropOrder.length ∧ 1 ≤ es.length := by
  have h1 := dropPairs_split bomb 0 t.root.dropOrder
  have h2 := dropPairs_pos (bomb := bomb) 0 t.root.dropOrder (by rw [h]; exact he)
  rw [h] at h1 h2
  have h3 := congrArg List.length h1
  rw [List.length_append] at h3
  simp only at h2 h3
  refine ⟨?_, ?_, by omega, h2⟩
  · rw [Node.kept]
    refine List.length_pos_of_mem (a := t.root.dropOrder.length) (List.mem_filter.2 ⟨root_closes_last t.root, ?_⟩)
    simp; omega
  · rw [Node.kept, Tree.nodes, List.length_cons, ← closings_count t.root 0]
    exact List.length_filter_le _ _

/-! ### The property fails -/

/-- `sampleProgram`, and then its three variables go out of scope; while the clone is dropped the first destructor of a value panics. -/
def sampleSession : List (DCmd (AABB I32 2) Nat (AABB I32 2)) :=
  sampleProgram.map .cmd ++ [.drop 2 fun n => n == 1, .drop 1 fun _ => false, .drop 0 fun _ => false]

theorem sampleSession_sizes : ∀ c, DCmd.cmd (Cmd.new c) ∈ sampleSession → Sizes sampleEnv c.maxChildren := by
  intro c hc
  refine sampleProgram_sizes c ?_
  simpa [sampleSession] using hc

/-- Its outcome on values. -/
def sessionOutcome : List (Option BoxTree) × List (DOut (AABB I32 2) Nat) :=
  (specSession (B := AABB I32 2) id [] sampleSession).getD ([], [])

theorem sampleSession_ok : specSession (B := AABB I32 2) id [] sampleSession = .ok (sessionOutcome.1, sessionOutcome.2) :=
  Res.ok_getD ([], []) (by decide +kernel)

theorem sampleSession_facts : remaining sessionOutcome.1 = [] ∧ (remainingNodes sessionOutcome.1).length = 0 ∧
    (sessionOutcome.2.flatMap DOut.lost).length = 5 ∧ (sessionOutcome.2.map DOut.kept).sum = 3 ∧
    (sessionOutcome.2.flatMap DOut.keys).length = 20 ∧ (sessionOutcome.2.flatMap DOut.values).length = 21 := by
  refine ⟨List.length_eq_zero_iff.1 ?_, ?_, ?_, ?_, ?_, ?_⟩ <;> decide +kernel

/-- C73 fails: when one destructor panics while a tree is dropped, the destructors of the remaining entries are never run, and memory is lost (the
    collections of the standard library run them and free the memory).  Here all three trees of a session are dropped in the end and one destructor panics,
    once; five keys and five values are never dropped and three blocks are never freed. -/
theorem C73_remaining_entries_dropped_refuted : ¬ ∀ (cmds : List (DCmd (AABB I32 2) Nat (AABB I32 2))), (∀ c, DCmd.cmd (Cmd.new c) ∈ cmds → Sizes sampleEnv c.maxChildren) →
    ∀ f' outs f evs h, specSession (B := AABB I32 2) id [] cmds = .ok (f', outs) → session (B := AABB I32 2) sampleEnv id [] cmds [] = .ok (f, evs, h) → remaining f' = [] →
      ((outs.flatMap DOut.keys).length = (evs.flatMap DEvent.keys).length ∨ liveBlocks h = (remainingNodes f').length) := by
  intro hall
  have key := C73_panicking_destructors_partial (B := AABB I32 2) (borrow := id) (E := sampleEnv) sampleSession sampleSession_sizes
  rw [sampleSession_ok] at key
  obtain ⟨f, evs, h, h1, _, hk, _, hb⟩ := key
  obtain ⟨f1, f2, f3, f4, f5, _⟩ := sampleSession_facts
  have h2 := hall sampleSession sampleSession_sizes _ _ _ _ _ sampleSession_ok h1 f1
  have h3 := hk.length_eq
  rw [f1] at h3
  simp only [List.length_append, List.length_map, List.map_nil, List.length_nil, f3, f5] at h3
  rw [f5, hb, f2, f4] at h2
  omega

/-- The destructors that run while the clone is dropped: those of one pair. -/
example : (sessionOutcome.2[22]?.map fun o => match o with | .dropped es e _ _ => (es.length, e == .panicked) | .out _ => (0, false)) = some (1, true) := by decide +kernel

end RTree
