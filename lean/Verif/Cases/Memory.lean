import Verif.Cases.Calls
import Verif.Props.Memory
import Verif.Props.Stacks
import Verif.Props.RawLeft
import Verif.Props.ZeroSized
import Verif.Props.Destructors
import Verif.Props.Updates
import Verif.Props.Unwind
/-!
# The theorems about memory, applied to concrete cases

As `Verif/Cases/Trees.lean`.
-/

namespace RTree

/-! ## Vectors -/

namespace Raw

/-- A memory that is not empty. -/
def usedHeap : Raw.Heap Nat := [none, some ⟨8, [some 5]⟩]

example := C45_vector_refines_list (E := env8) (cap := 4) (by decide) (by decide) (by decide) someOps usedHeap
example := C45_life_by_drop (E := env8) (cap := 4) (by decide) (by decide) (by decide) (ops := someOps) rfl usedHeap
example := C45_clone (E := env8) (cap := 4) (by decide) (by decide) (by decide) (ops := someOps) rfl (· + 1) usedHeap
example := C45_size_hint (E := env8) (cap := 4) (by decide) (by decide) (by decide) (ops := someOps) rfl [true, false] usedHeap
example := C46_sized_partial (E := env8) (cap := 4) (by decide) (by decide) (by decide) (ops := someOps) rfl usedHeap
example := C53_new_partial (E := env8) (cap := 4) (by decide) (by decide) usedHeap
example := C53_new_partial (E := env8) (cap := 2 ^ 62) (by decide) (by decide) usedHeap

/-! ## Stacks -/

theorem stackCmds_fit : ∀ t code, (t, code) ∈ started stackCmds → (∃ (c : Config) (P : AABB I32 2 → Prop), Reachable c P t) ∧ (t.level + 1) * stackEnv.size ≤ stackEnv.maxBytes := by
  intro t code h
  simp only [stackCmds, started, List.mem_cons, Prod.mk.injEq, List.not_mem_nil, or_false] at h
  rcases h with ⟨rfl, _⟩ | ⟨rfl, _⟩
  · exact ⟨⟨_, _, sample_reachable⟩, by decide +kernel⟩
  · exact ⟨⟨_, _, small_reachable⟩, by decide +kernel⟩

theorem stackJoins_fit : ∀ t code, (t, code) ∈ started stackJoins → (∃ (c : Config) (P : AABB I32 2 → Prop), Reachable c P t.1) ∧ (∃ (c : Config) (P : AABB I32 2 → Prop), Reachable c P t.2) ∧
    (max t.1.level t.2.level + 1) * stackEnv.size ≤ stackEnv.maxBytes := by
  intro t code h
  simp only [stackJoins, started, List.mem_cons, Prod.mk.injEq, List.not_mem_nil, or_false] at h
  rcases h with ⟨rfl, _⟩ | ⟨rfl, _⟩
  · exact ⟨⟨_, _, sample_reachable⟩, ⟨_, _, small_reachable⟩, by decide +kernel⟩
  · exact ⟨⟨_, _, small_reachable⟩, ⟨_, _, sample_reachable⟩, by decide +kernel⟩

/-- The iterators of `stackCmds` over places. -/
def stackMuts : List (IterCmd (Tree (AABB I32 2) (AABB I32 2) Nat) (SpatialFilter (AABB I32 2) (AABB I32 2))) :=
  [.start sampleTree.addressed Calls.shaky, .next 0, .next 0, .start sampleTree.addressed (fun _ => some (noFilter _ _)), .next 1, .next 0, .drop 0]

theorem stackMuts_fit : ∀ t code, (t, code) ∈ started stackMuts → (∃ (V : Type) (c : Config) (P : AABB I32 2 → Prop) (t' : Tree (AABB I32 2) (AABB I32 2) V), Reachable c P t' ∧ t = t'.addressed) ∧
    (t.level + 1) * stackEnv.size ≤ stackEnv.maxBytes := by
  intro t code h
  simp only [stackMuts, started, List.mem_cons, Prod.mk.injEq, List.not_mem_nil, or_false] at h
  rcases h with ⟨rfl, _⟩ | ⟨rfl, _⟩ <;> exact ⟨⟨_, _, _, sampleTree, sample_reachable, rfl⟩, by decide +kernel⟩

theorem stackMuts_run : (∃ st, Session.run (treeKind stackEnv id id) ⟨[], [], []⟩ stackMuts = .ok st) :=
  ⟨_, Res.ok_getD ⟨[], [], []⟩ (by decide +kernel)⟩

example := C59_iterators (E := stackEnv) (by decide) (room := id) (fun _ => rfl) id [none] stackCmds stackCmds_fit
example := C59_no_alias (E := stackEnv) (by decide) (room := id) (fun _ => rfl) id [] stackMuts stackMuts_fit stackMuts_run.choose_spec
example := C59_joins (E := stackEnv) (by decide) (room := id) (fun _ => rfl) id id [none] stackJoins stackJoins_fit
example := C60_exact_capacity_partial (E := stackEnv) (by decide) (fun n => if n ≤ 2 then n else n + 7) id [none] stackCmds (by
  intro t code h
  refine ⟨(stackCmds_fit t code h).1, (stackCmds_fit t code h).2, ?_⟩
  simp only [stackCmds, started, List.mem_cons, Prod.mk.injEq, List.not_mem_nil, or_false] at h
  rcases h with ⟨rfl, _⟩ | ⟨rfl, _⟩ <;> decide +kernel)

/-! ## Left joins -/

theorem leftCmds_fit : ∀ tl tr code, (tl, tr, code) ∈ LeftRun.started leftCmds → (∃ (c : Config) (P : AABB I32 2 → Prop), Reachable c P tl) ∧
    (∃ (c : Config) (P : AABB I32 2 → Prop), Reachable c P tr) ∧ StacksFit leftEnv tl tr := by
  intro tl tr code h
  simp only [leftCmds, LeftRun.started, List.mem_cons, Prod.mk.injEq, List.not_mem_nil, or_false] at h
  rcases h with ⟨rfl, rfl, _⟩ | ⟨rfl, rfl, _⟩
  · exact ⟨⟨_, _, sample_reachable⟩, ⟨_, _, small_reachable⟩, by unfold StacksFit; decide +kernel⟩
  · exact ⟨⟨_, _, small_reachable⟩, ⟨_, _, sample_reachable⟩, by unfold StacksFit; decide +kernel⟩

example := C72_box_layout (value := ⟨120, 8⟩) (by decide) 1000000
example := C72_box_fields (value := ⟨120, 8⟩) (by decide)
example := C72_left_joins (J := leftEnv) (by decide) (by decide) (by decide) (by decide) (room := id) (fun _ => rfl) id id ⟨[], [none], ⟨[], []⟩⟩ rfl leftCmds leftCmds_fit

end Raw

/-! ## Programs -/

theorem sample_last : sampleOutcome.1[2]? = some (some sampleSecond) := variable_at _

example := C26_program_in_memory (B := AABB I32 2) (E := sampleEnv) (borrow := id) sampleProgram sampleProgram_sizes
example {rawVars mem evs} (h : Raw.program (B := AABB I32 2) sampleEnv id [] sampleProgram [] = .ok ((rawVars, evs), mem)) :=
  C26_drop_one (E := sampleEnv) sampleProgram sampleProgram_sizes sampleProgram_ok h sample_last
example := C46_sized_trees_partial (E := sampleEnv) (by decide) (by decide) (fun c hc => by
  have := sampleProgram_sizes c hc
  exact ⟨this.cap, this.nodeMax, this.entryMax⟩) sampleProgram_ok
example := C73_panicking_destructors_partial (B := AABB I32 2) (E := sampleEnv) (borrow := id) sampleSession sampleSession_sizes
example := C73_every_panic_leaks sampleTree (fun n => n == 3) (es := (dropPairs (fun n => n == 3) 0 sampleTree.root.dropOrder).1)
  (e := (dropPairs (fun n => n == 3) 0 sampleTree.root.dropOrder).2.1) (lost := (dropPairs (fun n => n == 3) 0 sampleTree.root.dropOrder).2.2) rfl (by decide +kernel)

example {rawVars mem} (S : Started sampleEnv id sampleProgram sampleOwner sampleCode sampleOutcome.1 rawVars mem) := C81_no_data_race S [(0, 0), (1, 3), (0, 2)]
example {rawVars mem} (S : Started sampleEnv id sampleProgram sampleOwner sampleCode sampleOutcome.1 rawVars mem) := C81_as_if_alone S [(0, 0), (1, 3), (0, 2)] (j := 0) rfl

theorem sample_calm : ∀ j cs, sampleCode[j]? = some cs →
    ∃ r, specThread id (handedTo sampleOwner none sampleOutcome.1) (handedTo sampleOwner (some j) sampleOutcome.1) cs = .ok r := by
  intro j cs hj
  match j with
  | 0 => cases hj; exact ⟨_, Res.ok_getD ([], []) (by decide +kernel)⟩
  | 1 => cases hj; exact ⟨_, Res.ok_getD ([], []) (by decide +kernel)⟩
  | j + 2 => cases hj

/-- By turns. -/
theorem turns_fair : ∀ j, j < sampleCode.length → ∀ n, ∃ m, n ≤ m ∧ ((fun m => (m % 2, 0) : Nat → Nat × Nat) m).1 = j := by
  intro j hj n
  have : sampleCode.length = 2 := rfl
  exact ⟨2 * n + j, by omega, by show (2 * n + j) % 2 = j; omega⟩

example {rawVars mem} (S : Started sampleEnv id sampleProgram sampleOwner sampleCode sampleOutcome.1 rawVars mem) :=
  C81_all_finish S (fun m => (m % 2, 0)) turns_fair sample_calm
example {rawVars mem results mem' n} (S : Started sampleEnv id sampleProgram sampleOwner sampleCode sampleOutcome.1 rawVars mem)
    (h : Raw.Pool.run ⟨mem, Raw.Steps.start sampleEnv id sampleOwner rawVars sampleCode⟩ ((List.range n).map fun m => (m % 2, 0)) = ⟨mem', List.map .done results⟩) :=
  C81_after_the_threads S _ h
example {rawVars mem} (R : Ran (B := AABB I32 2) sampleEnv id sampleProgram sampleOutcome.1 rawVars mem) := C83_iter R sample_last
example {rawVars mem} (R : Ran (B := AABB I32 2) sampleEnv id sampleProgram sampleOutcome.1 rawVars mem) := C83_filter_iter R sample_last Calls.cornerFilter

/-- References to the first and the fourth entry of the sample tree. -/
def sampleHolding : RTree.Holding (AABB I32 2) (AABB I32 2) Nat :=
  { tree := sampleTree, refs := [(box 0 0 1 1, 0), (box 1 3 1 3, 3)], replies := [], given := [] }

theorem sample_third : sampleTree.entries[3]? = some (box 1 3 1 3, 60) := by decide +kernel

example := C84_write sampleHolding (j := 1) rfl sample_third 61
example := C84_read sampleHolding (j := 1) rfl sample_third

/-! ## Panics -/

namespace Unwind

theorem busy_fit : ∀ c, Cmd.new c ∈ busyCmds → Fit toyEnv c.maxChildren := by
  intro c hc
  simp only [busyCmds, toyCmds, List.mem_cons, List.mem_append, List.not_mem_nil, or_false, Cmd.new.injEq, reduceCtorEq] at hc
  subst hc
  exact ⟨by decide, by decide, by decide⟩

/-- `busyCmds`, and the last tree is dropped. -/
def wholeCmds : List (Cmd Nat Nat Nat) := busyCmds ++ [.drop 1]

theorem whole_fit : ∀ c, Cmd.new c ∈ wholeCmds → Fit toyEnv c.maxChildren := by
  intro c hc
  simp only [wholeCmds, busyCmds, toyCmds, List.mem_cons, List.mem_append, List.not_mem_nil, or_false, Cmd.new.injEq, reduceCtorEq] at hc
  subst hc
  exact ⟨by decide, by decide, by decide⟩

/-- Whether everything returned, and which variables are in use. -/
def allReturned : Option (List Bool × List Bool) :=
  match run toyEnv wholeCmds [] (start fun _ => some toyCode) with
  | (.ok rs, f, _) => some (rs.map Option.isSome, f.map Option.isNone)
  | _ => none

theorem whole_returned : ∃ replies f w, run toyEnv wholeCmds [] (start fun _ => some toyCode) = (.ok replies, f, w) ∧ (∀ o ∈ replies, o.isSome) ∧ ∀ o ∈ f, o = none := by
  have key : allReturned = some (List.replicate 14 true, List.replicate 2 true) := by decide +kernel
  rw [allReturned] at key
  split at key
  next rs f w h =>
    simp only [Option.some.injEq, Prod.mk.injEq] at key
    refine ⟨rs, f, w, h, fun o ho => ?_, fun o ho => ?_⟩
    · have := List.mem_map_of_mem (f := Option.isSome) ho
      rw [key.1] at this
      exact List.eq_of_mem_replicate this
    · have := List.mem_map_of_mem (f := Option.isNone) ho
      rw [key.2] at this
      exact Option.isNone_iff_eq_none.1 (List.eq_of_mem_replicate this)
  next => cases key

example := C54_panic_safety_partial (E := toyEnv) (panicAt 30) busyCmds busy_fit
example {replies f w} (h : run toyEnv wholeCmds [] (start fun _ => some toyCode) = (.ok replies, f, w)) (hp : ∀ o ∈ replies, o.isSome) (hf : ∀ o ∈ f, o = none) :=
  C54_no_panic_no_leak_partial (E := toyEnv) (fun _ => some toyCode) wholeCmds whole_fit h hp hf
example {replies f w r f' w'} (h : run toyEnv toyCmds [] (start (panicAt 60)) = (.ok replies, f, w)) (h' : Cmd.run toyEnv (.insert 0 5 15) f w = (.ok r, f', w')) :=
  C55_calls_that_return (E := toyEnv) (panicAt 60) toyCmds toy_fit h (.insert 0 5 15) (fun _ hd => by cases hd) h'
/-- There is such a run: `C56_panicking_insert_loses_a_pair_refuted`. -/
example {replies f w f' w'} (h : run toyEnv toyCmds [] (start (panicAt 30)) = (.ok replies, f, w)) (h' : Cmd.run toyEnv (.insert 0 5 15) f w = (.error .panic, f', w')) :=
  C56_calls_that_panic_partial (E := toyEnv) (panicAt 30) toyCmds toy_fit h (.insert 0 5 15) (fun _ hd => by cases hd) h'

end Unwind

end RTree
