import Verif.Proofs.Forest
import Verif.Samples
/-!
# Ownership of keys, values and memory (C26)

Here the whole tree lives in raw memory (`Verif/Model/RawTree.lean` over `Verif/Model/FCVec.lean`): nodes are headers with a pointer
to a block of untagged children, `ptr::read` copies bits without giving up the original, and `drop`, `clone`, `try_unbranch`, the
splits and the re-insertion after `remove` free and allocate blocks as the code does.
-/

namespace RTree

open Raw

variable {B K V Q : Type} [Bounds B] [Volume B] [Bounded K B] [BEq K] [Bounded Q B] [BEq Q]
variable {E : TEnv} {borrow : K → Q}

/-- C26: run any program over any number of trees (creating, inserting, replacing, removing, reading, cloning and dropping them in any
    order, for any configurations and any trait implementations) in raw memory, starting with no allocation at all.  Provided key-value
    pairs are not zero-sized (see C46) and full vectors fit into memory:

    * it behaves as the same program on values: same replies, same contents; it panics exactly when that one does, and never with
      undefined behaviour;
    * every key handed over (by `insert`, `insert_unique`, `clone`) has been dropped once, or is still in a tree: never both, never
      twice, never lost;
    * every value handed over has been returned to the caller once, or dropped once, or is still in a tree;
    * the blocks not freed are the nodes of the trees that are still there, one block each. -/
theorem C26_program_in_memory (cmds : List (Cmd K V Q)) (hS : ∀ c, Cmd.new c ∈ cmds → Sizes E c.maxChildren) :
    match specProgram (B := B) borrow [] cmds with
    | .error e => program E borrow ([] : List (Option (Raw.RTree B))) cmds [] = .error e ∧ UserPanic e
    | .ok (f', outs) => ∃ f evs h, program E borrow ([] : List (Option (Raw.RTree B))) cmds [] = .ok ((f, evs), h) ∧
        evs.map Event.reply = outs.map (·.1) ∧
        (outs.flatMap fun o => o.2.1).Perm (evs.flatMap Event.keys ++ (remaining f').map (·.1)) ∧
        (outs.flatMap fun o => o.2.2).Perm ((evs.flatMap fun e => e.reply.returned ++ e.values) ++ (remaining f').map (·.2)) ∧
        liveBlocks h = (remainingNodes f').length := by
  have key := program_sim (E := E) borrow cmds (gs := []) (h := []) (fun t ht => by cases ht) .nil hS
  have e1 : Forest.absF ([] : Forest B K V) = [] := rfl
  have e2 : Forest.rawF ([] : Forest B K V) = [] := rfl
  rw [e1, e2] at key
  cases hx : specProgram (B := B) borrow [] cmds with
  | error e => rw [hx] at key; exact key
  | ok r =>
    obtain ⟨f', outs⟩ := r
    rw [hx] at key
    obtain ⟨⟨f, evs⟩, h, gs, h1, pr⟩ := key
    obtain rfl := pr.abs
    refine ⟨f, evs, h, h1, pr.reply, ?_, ?_, Forest.liveBlocks_eq pr.tr⟩
    · rw [Forest.remaining_abs]
      have := pr.keys
      simpa [Forest.es] using this
    · rw [Forest.remaining_abs]
      have := pr.values
      simpa [Forest.es] using this

/-- The commands that let all variables go out of scope. -/
def dropAll (n : Nat) : List (Cmd K V Q) := (List.range n).map .drop

theorem specProgram_append {f : List (Option (Tree B K V))} (cmds cmds' : List (Cmd K V Q)) :
    specProgram borrow f (cmds ++ cmds') = specProgram borrow f cmds >>= fun p => specProgram borrow p.1 cmds' >>= fun p' =>
      pure (p'.1, p.2 ++ p'.2) := by
  induction cmds generalizing f with
  | nil =>
    rw [List.nil_append, specProgram, ok_bind]
    simp only [List.nil_append]
    cases specProgram borrow f cmds' <;> rfl
  | cons c cmds ih =>
    rw [List.cons_append, specProgram, specProgram]
    cases c.spec borrow f with
    | error e => rfl
    | ok r =>
      rw [ok_bind, ok_bind]
      simp only [ih]
      cases specProgram borrow r.1 cmds with
      | error e => rfl
      | ok r' =>
        simp only [ok_bind, pure_eq_ok]
        cases specProgram borrow r'.1 cmds' <;> rfl

/-- Dropping hands over nothing and empties the variables. -/
theorem spec_dropAll (f : List (Option (Tree B K V))) :
    ∃ f' outs, specProgram (Q := Q) borrow f (dropAll f.length) = .ok (f', outs) ∧ (∀ o ∈ f', o = none) ∧ (∀ o ∈ outs, o.1 = .none ∧ o.2.1 = [] ∧ o.2.2 = []) := by
  have step : ∀ (f : List (Option (Tree B K V))) (i : Nat), Cmd.spec (Q := Q) borrow f (.drop i) = .ok (f.set i none, .none, [], []) := by
    intro f i
    rw [Cmd.spec]
    by_cases hi : ∃ t, f[i]? = some (some t)
    · obtain ⟨t, hi⟩ := hi
      rw [withTree_some hi]; rfl
    · rw [withTree_none fun t ht => hi ⟨t, ht⟩]
      have : f.set i none = f := by
        refine List.ext_getElem? fun j => ?_
        rw [List.getElem?_set]
        split
        next hj =>
          subst hj
          split
          next hl =>
            rw [List.getElem?_eq_getElem hl]
            cases hx : f[i] with
            | none => rfl
            | some t => exact absurd ⟨t, by rw [List.getElem?_eq_getElem hl, hx]⟩ hi
          next hl => rw [List.getElem?_eq_none (by omega)]
        next => rfl
      rw [this]; rfl
  have key : ∀ n (f : List (Option (Tree B K V))), ∃ f' outs, specProgram (Q := Q) borrow f (dropAll n) = .ok (f', outs) ∧ f'.length = f.length ∧
      (∀ i, i < n → ∀ o ∈ f'[i]?, o = none) ∧ (∀ o ∈ outs, o.1 = .none ∧ o.2.1 = [] ∧ o.2.2 = []) := by
    intro n
    induction n with
    | zero => exact fun f => ⟨f, [], rfl, rfl, by intro i hi; omega, by simp⟩
    | succ n ih =>
      intro f
      obtain ⟨f', outs, h1, hl, h2, h3⟩ := ih f
      refine ⟨f'.set n none, outs ++ [(.none, [], [])], ?_, by simpa using hl, ?_, ?_⟩
      · rw [dropAll, List.range_succ, List.map_append, specProgram_append]
        rw [dropAll] at h1
        rw [h1, ok_bind, List.map_cons, List.map_nil, specProgram]
        simp only [step, ok_bind, specProgram, pure_eq_ok]
      · intro i hi o ho
        rw [List.getElem?_set] at ho
        split at ho
        next => split at ho <;> simp_all
        next hne => exact h2 i (by omega) o ho
      · intro o ho
        rcases List.mem_append.1 ho with ho | ho
        · exact h3 o ho
        · simp at ho; subst ho; exact ⟨rfl, rfl, rfl⟩
  obtain ⟨f', outs, h1, hl, h2, h3⟩ := key f.length f
  refine ⟨f', outs, h1, ?_, h3⟩
  intro o ho
  obtain ⟨i, hi, rfl⟩ := List.mem_iff_getElem.1 ho
  exact h2 i (by omega) _ (by simp)

/-- C26: when at the end of any program all variables go out of scope, every key handed over has been dropped exactly once,
    every value handed over has been returned or dropped exactly once, and all memory has been freed. -/
theorem C26_drop_everything (cmds : List (Cmd K V Q)) (hS : ∀ c, Cmd.new c ∈ cmds → Sizes E c.maxChildren)
    {f' : List (Option (Tree B K V))} {outs : List (Reply V × List K × List V)} (hr : specProgram borrow [] cmds = .ok (f', outs)) :
    ∃ f evs h, program E borrow ([] : List (Option (Raw.RTree B))) (cmds ++ dropAll f'.length) [] = .ok ((f, evs), h) ∧
      (outs.flatMap fun o => o.2.1).Perm (evs.flatMap Event.keys) ∧
      (outs.flatMap fun o => o.2.2).Perm (evs.flatMap fun e => e.reply.returned ++ e.values) ∧
      ∀ b ∈ h, b = none := by
  obtain ⟨f₂, outs₂, h1, hnone, hout⟩ := spec_dropAll (Q := Q) (borrow := borrow) f'
  have key := C26_program_in_memory (B := B) (E := E) (borrow := borrow) (cmds ++ dropAll f'.length) (by
    intro c hc
    rcases List.mem_append.1 hc with hc | hc
    · exact hS c hc
    · simp [dropAll] at hc)
  rw [specProgram_append, hr, ok_bind] at key
  simp only [h1, ok_bind, pure_eq_ok] at key
  obtain ⟨f, evs, h, e1, _, hk, hv, hb⟩ := key
  have z1 : remaining f₂ = [] := by
    rw [remaining, List.flatMap_eq_nil_iff]
    intro o ho; rw [hnone o ho]; rfl
  have z2 : remainingNodes f₂ = [] := by
    rw [remainingNodes, List.flatMap_eq_nil_iff]
    intro o ho; rw [hnone o ho]; rfl
  have z3 : (outs₂.flatMap fun o => o.2.1) = [] := by
    rw [List.flatMap_eq_nil_iff]; exact fun o ho => (hout o ho).2.1
  have z4 : (outs₂.flatMap fun o => o.2.2) = [] := by
    rw [List.flatMap_eq_nil_iff]; exact fun o ho => (hout o ho).2.2
  rw [z1, List.map_nil, List.append_nil, List.flatMap_append, z3, List.append_nil] at hk
  rw [z1, List.map_nil, List.append_nil, List.flatMap_append, z4, List.append_nil] at hv
  refine ⟨f, evs, h, e1, hk, hv, ?_⟩
  rw [z2, List.length_nil, liveBlocks, List.length_eq_zero_iff, List.filter_eq_nil_iff] at hb
  intro b hb'
  have := hb b hb'
  cases b with
  | none => rfl
  | some x => exact absurd rfl this

/-- C26: dropping one tree drops each entry that `iter` yields once, and nothing else; it frees the blocks of its nodes and no others. -/
theorem C26_drop_one (cmds : List (Cmd K V Q)) (hS : ∀ c, Cmd.new c ∈ cmds → Sizes E c.maxChildren)
    {f' : List (Option (Tree B K V))} {outs : List (Reply V × List K × List V)} (hr : specProgram borrow [] cmds = .ok (f', outs))
    {f : List (Option (Raw.RTree B))} {evs : List (Event K V)} {h : Heap (Cell B K V)} (hp : program E borrow [] cmds [] = .ok ((f, evs), h))
    {i : Nat} {t : Tree B K V} (ht : f'[i]? = some (some t)) :
    ∃ es ev h', t.iter = .ok es ∧ Cmd.raw E borrow f (.drop i) h = .ok ((f.set i none, ev), h') ∧ ev.keys.Perm (es.map (·.1)) ∧
      ev.values.Perm (es.map (·.2)) ∧ liveBlocks h' + t.nodes.length = liveBlocks h := by
  have key := program_sim (E := E) borrow cmds (gs := []) (h := []) (fun t ht => by cases ht) .nil hS
  have e1 : Forest.absF ([] : Forest B K V) = [] := rfl
  have e2 : Forest.rawF ([] : Forest B K V) = [] := rfl
  rw [e1, e2, hr] at key
  obtain ⟨⟨f₁, evs₁⟩, h₁, gs, h1, pr⟩ := key
  rw [hp] at h1
  cases h1
  obtain rfl := pr.abs
  obtain rfl : f = _ := pr.raw
  simp only [Forest.absF, List.getElem?_map, Option.map_eq_some_iff] at ht
  obtain ⟨_, hi, g, rfl, rfl⟩ := ht
  obtain ⟨S, c, hreach⟩ := pr.good g (List.mem_of_getElem? hi)
  have H := pr.tr.has
  obtain ⟨ds, h', hd, hperm, tr⟩ := drop_tr g S (H.perm (Forest.own_get hi)).left
  have tr' := (pr.tr.app (Forest.own_get hi) tr).perm_right (Forest.own_set (List.getElem?_eq_some_iff.1 hi).1 none).symm
  have hpe : ds.Perm g.abs.entries := by rw [g.entries_abs]; exact hperm
  refine ⟨_, ⟨.none, ds.map (·.1), ds.map (·.2)⟩, h', hreach.iter_eq, ?_, hpe.map _, hpe.map _, ?_⟩
  · have hraw : (Forest.rawF gs)[i]? = some (some g.rawT) := by simp [Forest.rawF, hi]
    rw [Cmd.raw, withTree_some hraw, bind_ok hd]; rfl
  · rw [Forest.liveBlocks_eq tr', Forest.liveBlocks_eq pr.tr, ← Forest.fps_nodes E, ← Forest.fps_nodes E]
    have l1 := (fps_perm (Forest.own_get (E := E) hi)).length_eq
    have l2 := (fps_perm (Forest.own_set (E := E) (List.getElem?_eq_some_iff.1 hi).1 none)).length_eq
    have l3 : (fps (g.own E)).length = g.abs.nodes.length := fps_length E g.alloc.maxChildren g.level g.root
    rw [fps_append, List.length_append] at l1 l2
    rw [l1, l2, l3]
    simp; omega

/-! ### A program that meets the hypotheses -/

/-- `i32` boxes in the plane with `usize` values on a 64-bit machine: 32 bytes per node header, 24 per entry; zero-sized layouts are not
    allowed. -/
def sampleEnv : TEnv := { node := ⟨32, 9223372036854775807, false, fun _ => 0⟩, entry := ⟨24, 9223372036854775807, false, fun _ => 0⟩ }

/-- Two trees; the first splits twice and grows, loses entries, is cloned, and the original is dropped. -/
def sampleProgram : List (Cmd (AABB I32 2) Nat (AABB I32 2)) :=
  [.new cfg42, .insert 0 (box 0 0 1 1) 1, .insert 0 (box 2 0 3 1) 2, .insert 0 (box 0 2 1 3) 3, .insert 0 (box 2 2 3 3) 4,
   .new cfg42, .insert 1 (box 7 7 9 9) 70,
   .insert 0 (box 0 2 0 2) 5, .insert 0 (box 1 3 1 3) 6, .insert 0 (box 8 8 9 9) 7, .insert 0 (box 9 9 12 12) 8, .insert 0 (box 8 8 9 9) 9,
   .remove 0 (box 2 0 3 1), .insertUnique 0 (box 1 3 1 3) 60, .insertUnique 1 (box 5 5 6 6) 10, .clone 0, .drop 0,
   .remove 2 (box 0 0 1 1), .remove 2 (box 2 2 3 3), .replace 2 (box 1 3 1 3) 61, .len 2,
   .get 1 (box 7 7 9 9)]

theorem sampleProgram_sizes : ∀ c, Cmd.new c ∈ sampleProgram → Sizes sampleEnv c.maxChildren := by
  intro c hc
  have : c = cfg42 := by
    simp only [sampleProgram, List.mem_cons, Cmd.new.injEq, reduceCtorEq, false_or, List.not_mem_nil, or_false] at hc
    rcases hc with hc | hc <;> exact hc
  subst this
  exact ⟨by decide, by decide, by decide, by decide, by decide⟩

/-- The outcome of `sampleProgram` on values. -/
def sampleOutcome : List (Option BoxTree) × List (Reply Nat × List (AABB I32 2) × List Nat) :=
  (specProgram (B := AABB I32 2) id [] sampleProgram).getD ([], [])

theorem sampleProgram_ok : specProgram (B := AABB I32 2) id [] sampleProgram = .ok (sampleOutcome.1, sampleOutcome.2) :=
  Res.ok_getD ([], []) (by decide +kernel)

example : sampleOutcome.1.length = 3 ∧ (remaining sampleOutcome.1).length = 8 ∧
    (remainingNodes sampleOutcome.1).length = 4 ∧ (sampleOutcome.2.flatMap fun o => o.2.1).length = 20 := by decide +kernel

/-- All keys and values of the sample program are accounted for, and nothing is left when its variables go out of scope. -/
example : ∃ f evs h, program (B := AABB I32 2) sampleEnv id [] (sampleProgram ++ dropAll 3) [] = .ok ((f, evs), h) ∧
    (sampleOutcome.2.flatMap fun o => o.2.1).Perm (evs.flatMap Event.keys) ∧ ∀ b ∈ h, b = none := by
  obtain ⟨f, evs, h, h1, h2, _, h4⟩ := C26_drop_everything (E := sampleEnv) sampleProgram sampleProgram_sizes sampleProgram_ok
  have hlen : sampleOutcome.1.length = 3 := by decide +kernel
  rw [hlen] at h1
  exact ⟨f, evs, h, h1, h2, h4⟩

end RTree
