import Verif.Proofs.HonestProgram
import Verif.Props.Drop
/-!
# With user code that behaves, unwinding changes nothing (C87)

`Verif/Model/Unwind.lean` models the crate with user code that may panic or answer anything at every call, with guards that run while a panic
unwinds, with bounds that own memory, with every allocation, read, write and call of a destructor in its place.
Here the user code behaves, and the crate does what the model on values says: the same replies, the same trees.
-/

namespace RTree.Unwind

open Raw

variable {B K V Q : Type} [Bounds B] [Volume B] [Bounded K B] [BEq K] [Bounded Q B] [BEq Q]
variable {E : TEnv} {borrow : K → Q}

/-- C87: run any program over any number of trees (creating, inserting, replacing, removing, reading, cloning and dropping them in any order),
    with user code that answers what the type class instances say, never panics, and whose clones equal the original.  If the program does not panic
    on values, then with all the unwinding machinery in place no call panics, every call gives the same reply,
    and what can be read from memory in the end are the same trees: the same nodes, bounds, keys, values, in the same order. -/
theorem C87_honest_program (cmds : List (Cmd K V Q)) (hS : ∀ c, Cmd.new c ∈ cmds → Sizes E c.maxChildren ∧ 2 ≤ c.maxChildren)
    {f : List (Option (Tree B K V))} {outs : List (Reply V × List K × List V)} (hr : specProgram borrow [] cmds = .ok (f, outs)) :
    ∃ vars w, run E cmds [] (start fun _ => some (honest borrow)) = (.ok (outs.map fun o => some o.1), vars, w) ∧
      (readVars Own.val E vars w.heap).map (·.1) = .ok f := by
  have key := program_sim (E := E) borrow cmds (gs := []) (h := []) (fun t ht => by cases ht) .nil fun c hc => (hS c hc).1
  have e1 : Forest.absF ([] : Forest B K V) = [] := rfl
  have e2 : Forest.rawF ([] : Forest B K V) = [] := rfl
  rw [e1, e2, hr] at key
  obtain ⟨⟨s, evs⟩, h, gs, h1, pr⟩ := key
  have A : Alike ⟨fun _ _ => False, fun _ => False⟩ ([] : Raw.Heap (Cell B K V)) (start (V := V) fun _ => some (honest borrow)).heap :=
    ⟨fun _ _ h => h.elim, fun _ _ h => h.elim, fun _ _ _ h => h.elim, fun _ _ _ h => h.elim, fun _ _ _ h => h.elim, fun _ h => h.elim, fun _ _ h => h.elim⟩
  rcases run_like (f := []) (f' := []) (E := E) (borrow := borrow) cmds .nil [] _ A rfl _ _ h1 with hf | ⟨L, rs, vars, w, _, h2, A2, _, hv, hrs⟩
  · obtain ⟨rs, gs', w, L, h3, _⟩ := run_outcome (E := E) (fun _ => some (honest borrow)) cmds fun c hc =>
      ⟨(hS c hc).1.node, (hS c hc).1.entry, (hS c hc).2⟩
    have h3 : run E cmds [] (start fun _ => some (honest borrow)) = _ := h3
    rw [h3] at hf
    cases hf
  · refine ⟨vars, w, h2.trans ?_, ?_⟩
    · rw [hrs]
      have h4 : evs.map (fun e => some e.reply) = (evs.map Event.reply).map some := by rw [List.map_map]; rfl
      have h5 : evs.map Event.reply = outs.map (·.1) := pr.reply
      rw [h4, h5, List.map_map]; rfl
    · obtain ⟨L3, b, g', _, h6, _, rfl⟩ := readVars_mem (E := E) hv _ _ A2 f h (by
        have h7 := readVars_ok (fun t ht => (pr.good t ht).1) pr.tr.has
        rw [pr.abs]
        rw [show s = _ from pr.raw]
        exact h7)
      rw [h6]; rfl

/-- Twenty pairs handed over, removals, a clone, a dropped tree; two trees are left. -/
example : ∃ vars w, run sampleEnv sampleProgram [] (start fun _ => some (honest (B := AABB I32 2) id)) =
      (.ok (sampleOutcome.2.map fun o => some o.1), vars, w) ∧
    (readVars Own.val sampleEnv vars w.heap).map (·.1) = .ok sampleOutcome.1 :=
  C87_honest_program sampleProgram (fun c hc => ⟨sampleProgram_sizes c hc, by
    simp only [sampleProgram, List.mem_cons, Cmd.new.injEq, reduceCtorEq, false_or, List.not_mem_nil, or_false] at hc
    rcases hc with rfl | rfl <;> decide⟩) sampleProgram_ok

end RTree.Unwind
