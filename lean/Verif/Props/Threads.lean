import Verif.Proofs.Handed
import Verif.Props.Drop
import Verif.Props.Nearest
import Verif.Props.Join
import Verif.Proofs.BinaryHeap
/-!
# C81: trees used by several threads
-/

namespace RTree

open Raw Raw.Forest

variable {B K V Q : Type} [Bounds B] [Volume B] [Bounded K B] [BEq K] [Bounded Q B] [BEq Q] {E : TEnv} {borrow : K → Q}

/-- Threads are started after the commands `setup`: `owner` says which variable is moved to which thread, the others are shared; `code` is what the
    threads do.  `vars` and `rawVars` are the variables after `setup`, on values and in memory, and `mem` is the memory. -/
structure Started (E : TEnv) (borrow : K → Q) (setup : List (Cmd K V Q)) (owner : Nat → Option Nat) (code : List (List (ThreadCmd B K V Q)))
    (vars : List (Option (Tree B K V))) (rawVars : List (Option (Raw.RTree B))) (mem : Raw.Heap (Cell B K V)) : Prop where
  sizes : ∀ c, Cmd.new c ∈ setup → Sizes E c.maxChildren
  onValues : ∃ outs, specProgram borrow [] setup = .ok (vars, outs)
  inMemory : ∃ evs, program E borrow [] setup [] = .ok ((rawVars, evs), mem)
  moved : ∀ i j, owner i = some j → j < code.length
  threadSizes : ∀ cs ∈ code, ∀ c, ThreadCmd.mine (.new c) ∈ cs → Sizes E c.maxChildren

section

variable {setup : List (Cmd K V Q)} {owner : Nat → Option Nat} {code : List (List (ThreadCmd B K V Q))}
  {vars : List (Option (Tree B K V))} {rawVars : List (Option (Raw.RTree B))} {mem : Raw.Heap (Cell B K V)}

theorem Started.inv (S : Started E borrow setup owner code vars rawVars mem) : ∃ gs : Forest B K V, vars = absF gs ∧ rawVars = rawF gs ∧ Good E gs ∧
    Tr [] [] mem (own E gs) ∧
    PoolInv (keep (fps (own E (handedTo owner none gs))) mem) (StartPost E borrow owner gs code) ⟨mem, Steps.start E borrow owner rawVars code⟩
      (fun j => keep (fps (own E (handedTo owner (some j) gs))) mem) := by
  have key := program_sim (E := E) borrow setup (gs := []) (h := []) (fun t ht => by cases ht) .nil S.sizes
  have e1 : Forest.absF ([] : Forest B K V) = [] := rfl
  have e2 : Forest.rawF ([] : Forest B K V) = [] := rfl
  obtain ⟨outs, h1⟩ := S.onValues
  obtain ⟨evs, h2⟩ := S.inMemory
  rw [e1, e2, h1] at key
  obtain ⟨⟨f₁, evs₁⟩, h₁, gs, h3, pr⟩ := key
  rw [h2] at h3
  cases h3
  obtain rfl := pr.abs
  obtain rfl : rawVars = _ := pr.raw
  exact ⟨gs, rfl, rfl, pr.good, pr.tr, start_inv borrow pr.good pr.tr owner code S.moved S.threadSizes⟩

/-- Whatever the scheduler and the allocator do, two threads never use the same block of memory at the same time, one of them to change or free it. -/
theorem C81_no_data_race (S : Started E borrow setup owner code vars rawVars mem) (schedule : List (Nat × Nat)) :
    ¬ (Pool.run ⟨mem, Steps.start E borrow owner rawVars code⟩ schedule).Race := by
  obtain ⟨gs, _, _, _, _, I⟩ := S.inv
  obtain ⟨g', I'⟩ := I.run (startPost_ub E borrow owner gs code) schedule
  exact I'.no_race (startPost_ub E borrow owner gs code)

/-- Whatever the scheduler and the allocator do, a thread that is done has got the answers it would have got alone, on trees that are values; the
    keys and values it was handed are those the crate has dropped, returned or still holds.  A thread that has panicked would have
    panicked alone, in the same documented way.  No thread runs into undefined behaviour. -/
theorem C81_as_if_alone (S : Started E borrow setup owner code vars rawVars mem) (schedule : List (Nat × Nat)) {j : Nat} {cs : List (ThreadCmd B K V Q)}
    (hj : code[j]? = some cs) :
    ∃ p, (Pool.run ⟨mem, Steps.start E borrow owner rawVars code⟩ schedule).threads[j]? = some p ∧
      (∀ f evs, p = .done (f, evs) → ∃ f' outs, specThread borrow (handedTo owner none vars) (handedTo owner (some j) vars) cs = .ok (f', outs) ∧
        evs.map ThreadEvent.answer = outs.map (·.1) ∧
        (outs.flatMap (fun o => o.2.1) ++ (remaining (handedTo owner (some j) vars)).map (·.1)).Perm (evs.flatMap ThreadEvent.keys ++ (remaining f').map (·.1)) ∧
        (outs.flatMap (fun o => o.2.2) ++ (remaining (handedTo owner (some j) vars)).map (·.2)).Perm
          ((evs.flatMap fun e => e.answer.returned ++ e.values) ++ (remaining f').map (·.2))) ∧
      ∀ e, p = .fail e → specThread borrow (handedTo owner none vars) (handedTo owner (some j) vars) cs = .error e ∧ UserPanic e := by
  obtain ⟨gs, rfl, rfl, _, _, I⟩ := S.inv
  obtain ⟨g', I'⟩ := I.run (startPost_ub E borrow owner gs code) schedule
  have hlt : j < code.length := (List.getElem?_eq_some_iff.1 hj).1
  have hl : j < (Pool.run ⟨mem, Steps.start E borrow owner (rawF gs) code⟩ schedule).threads.length := by
    rw [Pool.run_length]; simpa [Steps.start] using hlt
  have hp := List.getElem?_eq_getElem hl
  refine ⟨_, hp, ?_⟩
  have post := I'.post j _ hp (fun _ => 0)
  generalize (Pool.run ⟨mem, Steps.start E borrow owner (rawF gs) code⟩ schedule).threads[j] = p at post
  simp only [StartPost, ThreadPost, hj, Option.getD_some] at post
  refine ⟨?_, ?_⟩
  · rintro f evs rfl
    split at post
    next r hx =>
      obtain ⟨s', h', gs', e1, rel⟩ := post
      cases e1
      obtain ⟨f', outs⟩ := r
      obtain rfl : f' = _ := rel.abs
      refine ⟨_, outs, hx, rel.answer, ?_, ?_⟩
      · rw [remaining_abs, absF_handed, remaining_abs]; exact rel.keys
      · rw [remaining_abs, absF_handed, remaining_abs]; exact rel.values
    next => cases post.1
  · rintro e rfl
    split at post
    next => obtain ⟨_, _, _, h, _⟩ := post; cases h
    next e' hx =>
      obtain ⟨h, hu⟩ := post
      cases h
      exact ⟨hx, hu⟩

/-- A thread that the scheduler lets run again and again comes to an end, and if it does not panic when it is alone it ends with those answers. -/
theorem C81_threads_finish (S : Started E borrow setup owner code vars rawVars mem) (sched : Nat → Nat × Nat) {j : Nat} {cs : List (ThreadCmd B K V Q)}
    (hj : code[j]? = some cs) (fair : ∀ n, ∃ m, n ≤ m ∧ (sched m).1 = j) :
    ∃ n, match specThread borrow (handedTo owner none vars) (handedTo owner (some j) vars) cs with
      | .ok (_, outs) => ∃ f evs, (Pool.run ⟨mem, Steps.start E borrow owner rawVars code⟩ ((List.range n).map sched)).threads[j]? = some (.done (f, evs)) ∧
          evs.map ThreadEvent.answer = outs.map (·.1)
      | .error e => (Pool.run ⟨mem, Steps.start E borrow owner rawVars code⟩ ((List.range n).map sched)).threads[j]? = some (.fail e) := by
  obtain ⟨p₀, h0, _⟩ := C81_as_if_alone S [] hj
  obtain ⟨n, q, hq, hf⟩ := Pool.finishes ⟨mem, Steps.start E borrow owner rawVars code⟩ sched fair p₀ 0 h0
  refine ⟨n, ?_⟩
  obtain ⟨q', hq', h1, h2⟩ := C81_as_if_alone S ((List.range n).map sched) hj
  rw [hq] at hq'
  cases hq'
  cases q with
  | done r =>
    obtain ⟨f, evs⟩ := r
    obtain ⟨f', outs, hx, hr, _⟩ := h1 f evs rfl
    rw [hx]
    exact ⟨f, evs, hq, hr⟩
  | fail e =>
    obtain ⟨hx, _⟩ := h2 e rfl
    rw [hx]
    exact hq
  | look i k => cases hf
  | put i x k => cases hf
  | make b k => cases hf

theorem Pool.step_done {α β : Type} {P : Raw.Pool α β} {j : Nat} {r : β} (h : P.threads[j]? = some (.done r)) (m : Nat × Nat) :
    (P.step m).threads[j]? = some (.done r) := by
  by_cases hm : m.1 = j
  · obtain ⟨i, n⟩ := m
    subst hm
    exact Pool.step_this h
  · exact (Pool.step_other hm).trans h

/-- If no thread's code panics on values and the scheduler is fair to all threads, there comes a time when all threads are done. -/
theorem C81_all_finish (S : Started E borrow setup owner code vars rawVars mem) (sched : Nat → Nat × Nat)
    (fair : ∀ j, j < code.length → ∀ n, ∃ m, n ≤ m ∧ (sched m).1 = j)
    (calm : ∀ j cs, code[j]? = some cs → ∃ r, specThread borrow (handedTo owner none vars) (handedTo owner (some j) vars) cs = .ok r) :
    ∃ (n : Nat) (results : List (List (Option (Raw.RTree B)) × List (ThreadEvent K V))) (mem' : Raw.Heap (Cell B K V)),
      Pool.run ⟨mem, Steps.start E borrow owner rawVars code⟩ ((List.range n).map sched) = ⟨mem', results.map .done⟩ := by
  have stays : ∀ {j n m : Nat} {r : List (Option (Raw.RTree B)) × List (ThreadEvent K V)}, n ≤ m →
      (Pool.run ⟨mem, Steps.start E borrow owner rawVars code⟩ ((List.range n).map sched)).threads[j]? = some (.done r) →
      (Pool.run ⟨mem, Steps.start E borrow owner rawVars code⟩ ((List.range m).map sched)).threads[j]? = some (.done r) := by
    intro j n m r hnm h
    obtain ⟨d, rfl⟩ : ∃ d, m = n + d := ⟨m - n, by omega⟩
    clear hnm
    induction d with
    | zero => exact h
    | succ d ih => rw [← Nat.add_assoc, Pool.run_range_succ]; exact Pool.step_done ih _
  have first : ∀ i, i ≤ code.length → ∃ n, ∀ j, j < i → ∃ r,
      (Pool.run ⟨mem, Steps.start E borrow owner rawVars code⟩ ((List.range n).map sched)).threads[j]? = some (.done r) := by
    intro i
    induction i with
    | zero => intro _; exact ⟨0, fun j hj => absurd hj (Nat.not_lt_zero j)⟩
    | succ i ih =>
      intro hi
      obtain ⟨n, hn⟩ := ih (by omega)
      have hc : code[i]? = some code[i] := List.getElem?_eq_getElem hi
      obtain ⟨m, hm⟩ := C81_threads_finish S sched hc (fair i hi)
      obtain ⟨r, hr⟩ := calm i _ hc
      rw [hr] at hm
      obtain ⟨f, evs, hm, _⟩ := hm
      refine ⟨max n m, fun j hj => ?_⟩
      by_cases hji : j = i
      · subst hji; exact ⟨_, stays (Nat.le_max_right n m) hm⟩
      · obtain ⟨r, hr⟩ := hn j (by omega)
        exact ⟨r, stays (Nat.le_max_left n m) hr⟩
  obtain ⟨n, hn⟩ := first code.length (Nat.le_refl _)
  have hl : (Pool.run ⟨mem, Steps.start E borrow owner rawVars code⟩ ((List.range n).map sched)).threads.length = code.length := by
    rw [Pool.run_length]; exact List.length_mapIdx
  generalize hP : Pool.run ⟨mem, Steps.start E borrow owner rawVars code⟩ ((List.range n).map sched) = P at hn hl
  obtain ⟨mem', ps⟩ := P
  have : ∀ (ps : List (Prog (Cell B K V) (List (Option (Raw.RTree B)) × List (ThreadEvent K V)))), (∀ j, j < ps.length → ∃ r, ps[j]? = some (.done r)) →
      ∃ results, ps = List.map Prog.done results := by
    intro ps
    induction ps with
    | nil => intro _; exact ⟨[], rfl⟩
    | cons p ps ih =>
      intro h
      obtain ⟨r, hr⟩ := h 0 (Nat.succ_pos _)
      cases hr
      obtain ⟨rs, rfl⟩ := ih fun j hj => h (j + 1) (Nat.succ_lt_succ hj)
      exact ⟨r :: rs, rfl⟩
  obtain ⟨results, rfl⟩ := this ps fun j hj => hn j (hl ▸ hj)
  exact ⟨n, results, mem', hP⟩

/-- When all threads are done and their variables are handed back, the program goes on as if everything had been done by one thread: the variables
    are the shared ones, unchanged, and those each thread would have had alone; nothing else is left in memory; and whatever the program
    does next has the outcome it has on values. -/
theorem C81_after_the_threads (S : Started E borrow setup owner code vars rawVars mem) (schedule : List (Nat × Nat))
    {results : List (List (Option (Raw.RTree B)) × List (ThreadEvent K V))} {mem' : Raw.Heap (Cell B K V)}
    (hd : Pool.run ⟨mem, Steps.start E borrow owner rawVars code⟩ schedule = ⟨mem', results.map .done⟩) :
    ∃ fs : List (List (Option (Tree B K V))), fs.length = code.length ∧
      (∀ j cs f, code[j]? = some cs → fs[j]? = some f →
        ∃ outs, specThread borrow (handedTo owner none vars) (handedTo owner (some j) vars) cs = .ok (f, outs)) ∧
      liveBlocks mem' = (remainingNodes (handedTo owner none vars ++ fs.flatten)).length ∧
      ∀ cmds : List (Cmd K V Q), (∀ c, Cmd.new c ∈ cmds → Sizes E c.maxChildren) →
        match specProgram borrow (handedTo owner none vars ++ fs.flatten) cmds with
        | .error e => program E borrow (handedTo owner none rawVars ++ (results.map (·.1)).flatten) cmds mem' = .error e ∧ UserPanic e
        | .ok (f', outs) => ∃ f evs h, program E borrow (handedTo owner none rawVars ++ (results.map (·.1)).flatten) cmds mem' = .ok ((f, evs), h) ∧
            evs.map Event.reply = outs.map (·.1) ∧ liveBlocks h = (remainingNodes f').length := by
  obtain ⟨gs, rfl, rfl, hg, tr, I⟩ := S.inv
  obtain ⟨g', I'⟩ := I.run (startPost_ub E borrow owner gs code) schedule
  have hlen := Pool.run_length ⟨mem, Steps.start E borrow owner (rawF gs) code⟩ schedule
  rw [hd] at I' hlen
  obtain ⟨gss, e1, hspec, hgood, hhas, honly⟩ := join_inv borrow hg (handed_keep tr.has owner none) I' (results := results) rfl
  have hl : gss.length = code.length := by
    have := congrArg List.length e1
    simp [Steps.start] at this hlen
    omega
  have ea : handedTo owner none (absF gs) ++ (gss.map absF).flatten = absF (handedTo owner none gs ++ gss.flatten) := by
    rw [absF_handed]; simp only [absF, List.map_append, List.map_flatten]; rfl
  have er : handedTo owner none (rawF gs) ++ (results.map (·.1)).flatten = rawF (handedTo owner none gs ++ gss.flatten) := by
    rw [e1, rawF_handed]; simp only [rawF, List.map_append, List.map_flatten]; rfl
  have count : ∀ (h : Raw.Heap (Cell B K V)) (gs' : Forest B K V), Has h (own E gs') → (∀ a, Alive h a → a ∈ fps (own E gs')) →
      liveBlocks h = (remainingNodes (absF gs')).length := by
    intro h gs' H ho
    rw [← fps_nodes E]
    refine length_filter_isSome H.nodup (own_live H) fun b hb hn => ?_
    rcases not_alive (fun ha => hn (ho b ha)) with h1 | h1
    · exact absurd (List.getElem?_eq_none_iff.1 h1) (by omega)
    · exact h1
  refine ⟨gss.map absF, by rw [List.length_map, hl], ?_, ?_, ?_⟩
  · intro j cs f hj hf
    rw [List.getElem?_map, Option.map_eq_some_iff] at hf
    obtain ⟨gs', hgs, rfl⟩ := hf
    obtain ⟨outs, ho⟩ := hspec j gs' hgs
    rw [hj] at ho
    exact ⟨outs, ho⟩
  · rw [ea]; exact count mem' _ hhas honly
  · intro cmds hS
    rw [ea, er]
    have key := program_sim (E := E) borrow cmds hgood hhas hS
    cases hx : specProgram borrow (absF (handedTo owner none gs ++ gss.flatten)) cmds with
    | error e => rw [hx] at key; exact key
    | ok r =>
      obtain ⟨f', outs⟩ := r
      rw [hx] at key
      obtain ⟨⟨f, evs⟩, h, gs', e2, pr⟩ := key
      refine ⟨f, evs, h, e2, pr.reply, ?_⟩
      rw [pr.abs]
      have m : Mine E h gs' := Mine.step ⟨hhas, honly⟩ pr.tr
      exact count h gs' m.has m.only

end

/-- To run the single accesses of a command or of an iterator one after the other is to run the command of `Verif/Programs.lean`, the mutable iteration of
    `Verif/Updates.lean`, or the iterator of `Verif/Model/RawQuery.lean`, `Verif/Model/RawSorted.lean`, `Verif/Model/RawJoin.lean` or `Verif/Model/RawLeftTree.lean`, for any choices of the allocator.
    And a step of the scheduler is what running in one go does first. -/
theorem C81_steps_are_the_code (gap : Nat → Nat) (f : List (Option (Raw.RTree B))) (c : Cmd K V Q) :
    (Steps.cmd E borrow f c).run gap = Cmd.raw (E.placed gap) borrow f c ∧
    (∀ t : Raw.RTree B, (Steps.RTree.iter E t : Prog (Cell B K V) _).run gap = Raw.RTree.iter (E.placed gap) t) ∧
    (∀ (flt : SpatialFilter B Q) (t : Raw.RTree B), (Steps.RTree.filterIter E borrow flt t : Prog (Cell B K V) _).run gap = Raw.RTree.filterIter (E.placed gap) borrow flt t) ∧
    (∀ (S : Type) [LE S] (hp : RawHeap B K V S) (r : Ranking B K (Option S)) (k : Nat) (t : Raw.RTree B),
      (Steps.RTree.filterFirstAscBy E hp r k t).run gap = Raw.RTree.filterFirstAscBy (E.placed gap) hp r k t) ∧
    (∀ (flt : JoinFilter B B Q Q) (t u : Raw.RTree B), (Steps.RTree.join E borrow flt t u : Prog (Cell B K V) _).run gap = Raw.RTree.join (E.placed gap) borrow flt t u) ∧
    (∀ (flt : JoinFilter B B Q Q) (t u : Raw.RTree B),
      (Steps.RTree.leftJoin E borrow flt t u : Prog (Cell B K V) _).run gap = Raw.RTree.leftJoin (E.placed gap) borrow flt t u) ∧
    (∀ a : Act B K V Q, (Steps.act E borrow f a).run gap = Act.raw (E.placed gap) borrow f a) ∧
    ∀ (β : Type) (p : Prog (Cell B K V) β) (h : Raw.Heap (Cell B K V)), p.run gap h = (p.step (gap h.length) h).1.run gap (p.step (gap h.length) h).2 := by
  refine ⟨Steps.run_cmd borrow f c, Steps.RTree.run_iter E, Steps.RTree.run_filterIter E borrow, fun S _ hp r => Steps.RTree.run_filterFirstAscBy E hp r, Steps.RTree.run_join E borrow, Steps.RTree.run_leftJoin E borrow, Steps.run_act borrow f, fun β p h => ?_⟩
  cases p with
  | done b => rfl
  | fail e => rfl
  | make b k => rfl
  | look i k =>
    by_cases ha : Alive h i
    · obtain ⟨b, hb⟩ := ha
      simp only [Prog.run, Prog.step, hb]
    · rcases not_alive ha with h1 | h1 <;> simp only [Prog.run, Prog.step, h1] <;> rfl
  | put i x k =>
    by_cases ha : Alive h i
    · obtain ⟨b, hb⟩ := ha
      simp only [Prog.run, Prog.step, hb]
    · rcases not_alive ha with h1 | h1 <;> simp only [Prog.run, Prog.step, h1] <;> rfl

/-! ### A concrete case -/

/-- The second of three trees is moved to thread 0; the third is shared (the first has been dropped). -/
def sampleOwner : Nat → Option Nat := fun i => if i = 1 then some 0 else none

/-- The boxes within a distance of 5 of (6, 7), nearest first. -/
def sampleQuery : SortedQuery (AABB I32 2) (AABB I32 2) where
  S := I32
  heap := BinaryHeap.stdHeap I32
  ranking := within (pt 6 7) (i32 25)
  calmBounds b e h := by
    simp only [within, euclidBoxes] at h
    cases hx : (b.distSq (pt 6 7)) with
    | none => rw [hx] at h; cases h; exact .inr (.inr (.inr rfl))
    | some m => rw [hx] at h; cases h
  calmKey b e h := by
    simp only [within, euclidBoxes] at h
    cases hx : (b.distSq (pt 6 7)) with
    | none => rw [hx] at h; cases h; exact .inr (.inr (.inr rfl))
    | some m => rw [hx] at h; cases h

/-- Uses the newest reference and, a second time, the first one. -/
def threadClient : Client Nat := fun n => [.replace (n - 1) (500 + n), .read 0, .replace 0 n]

/-- Two threads.  The first changes its own tree, iterates over it and looks at the shared one; the second queries and clones the shared one and
    changes the clone, also in place, and joins the clone and the shared one, also by a left join. -/
def sampleCode : List (List (ThreadCmd (AABB I32 2) (AABB I32 2) Nat (AABB I32 2))) :=
  [[.mine (.insert 1 (box 1 1 2 2) 71), .shared 2 (.get (box 8 8 9 9)), .mine (.insert 1 (box 4 4 5 5) 72), .mine (.insert 1 (box 0 9 1 9) 73),
    .mine (.remove 1 (box 7 7 9 9)), .mine (.len 1), .shared 2 .len, .look 1 .iter, .join (.own 1) (.shared 2) overlapFilter,
    .update 1 (noFilter _ _) threadClient, .look 1 .iter, .update 2 (noFilter _ _) threadClient, .mine (.drop 1)],
   [.shared 2 (.filterIter (intersectsFilter AABB.intersectsBox AABB.intersectsBox (box 7 7 9 9))), .shared 2 .clone, .mine (.remove 3 (box 9 9 12 12)), .mine (.replace 3 (box 8 8 9 9) 100), .mine (.len 3), .shared 2 .len, .shared 2 (.get (box 8 8 9 9)),
    .sorted (.shared 2) sampleQuery 3, .sorted (.own 3) sampleQuery 10, .join (.shared 2) (.own 3) overlapFilter, .join (.shared 2) (.own 9) overlapFilter,
    .leftJoin (.own 3) (.shared 2) overlapFilter,
    .updateAsc 3 sampleQuery 2 threadClient, .look 3 .iter, .shared 2 .iter, .mine (.drop 3), .mine (.new cfg42), .mine (.insert 4 (box 3 3 4 4) 5)]]

theorem sampleCode_sizes : ∀ cs ∈ sampleCode, ∀ c, ThreadCmd.mine (.new c) ∈ cs → Sizes sampleEnv c.maxChildren := by
  intro cs hcs c hc
  have : c = cfg42 := by
    simp only [sampleCode, List.mem_cons, List.not_mem_nil, or_false] at hcs
    rcases hcs with rfl | rfl <;> simp only [List.mem_cons, ThreadCmd.mine.injEq, Cmd.new.injEq, reduceCtorEq, false_or, List.not_mem_nil, or_false] at hc
    exact hc
  subst this
  exact ⟨by decide, by decide, by decide, by decide, by decide⟩

/-- The threads can be started. -/
theorem sample_started : ∃ rawVars mem, Started sampleEnv id sampleProgram sampleOwner sampleCode sampleOutcome.1 rawVars mem := by
  obtain ⟨f, evs, h, h1, _⟩ : ∃ f evs h, program (B := AABB I32 2) sampleEnv id [] sampleProgram [] = .ok ((f, evs), h) ∧ True := by
    have := C26_program_in_memory (B := AABB I32 2) (E := sampleEnv) (borrow := id) sampleProgram sampleProgram_sizes
    rw [sampleProgram_ok] at this
    obtain ⟨f, evs, h, h1, _⟩ := this
    exact ⟨f, evs, h, h1, trivial⟩
  refine ⟨f, h, sampleProgram_sizes, ⟨_, sampleProgram_ok⟩, ⟨evs, h1⟩, ?_, sampleCode_sizes⟩
  intro i j hij
  simp only [sampleOwner] at hij
  split at hij
  · cases hij; decide
  · cases hij

/-- The numbers in an answer, for the examples. -/
def inAnswer {K : Type} : Answer K Nat → List Nat
  | .reply (.count n) => [n]
  | .reply (.moved o) => o.toList
  | .reply (.seen o) => o.toList
  | .listed es => es.map (·.2)
  | .paired ps => ps.flatMap fun p => [p.1.2, p.2.2]
  | .matched ms => ms.flatMap fun m => m.1.2 :: m.2.map (·.2)
  | .used rs => rs.flatMap fun r =>
    match r with
    | .moved o => o.toList
    | .seen o => o.toList
    | _ => []
  | _ => []

/-- What the first thread gets, alone. -/
example : ((specThread id (handedTo sampleOwner none sampleOutcome.1) (handedTo sampleOwner (some 0) sampleOutcome.1) (sampleCode[0]?.getD [])).getD ([], [])).2.map
    (fun o => inAnswer o.1) =
    [[], [7], [], [], [70], [4], [6], [72, 10, 71, 73], [71, 3], [72, 501, 501, 10, 1, 1, 71, 2, 2, 73, 3, 3],
      [4, 502, 503, 504], [], []] := by decide +kernel

/-- What the second thread gets, alone. -/
example : ((specThread id (handedTo sampleOwner none sampleOutcome.1) (handedTo sampleOwner (some 1) sampleOutcome.1) (sampleCode[1]?.getD [])).getD ([], [])).2.map
    (fun o => inAnswer o.1) =
    [[8, 7, 9], [], [8], [9], [5], [6], [7], [7, 9, 8], [100, 7],
      [61, 61, 3, 61, 5, 5, 3, 5, 61, 3, 5, 3, 3, 3, 8, 100, 7, 100, 9, 100, 8, 7, 7, 7, 9, 7], [],
      [61, 61, 3, 5, 5, 3, 3, 61, 5, 3, 100, 8, 7, 9, 7, 8, 7, 9],
      [100, 501, 501, 7, 1, 1], [61, 5, 3, 2, 502], [61, 5, 3, 8, 7, 9], [], [], []] := by decide +kernel

/-- The two threads take turns, in any memory the allocator likes: both end. -/
example : ∃ rawVars mem n f evs, (Pool.run ⟨mem, Steps.start sampleEnv id sampleOwner rawVars sampleCode⟩
    ((List.range n).map fun n => (n % 2, n % 3))).threads[1]? = some (.done (f, evs)) ∧ evs.length = 18 := by
  obtain ⟨rawVars, mem, S⟩ := sample_started
  obtain ⟨n, h⟩ := C81_threads_finish S (fun n => (n % 2, n % 3)) (j := 1) (cs := sampleCode[1]?.getD []) rfl (fun n => ⟨2 * n + 1, by omega, by simp⟩)
  have hok : ∃ f outs, specThread id (handedTo sampleOwner none sampleOutcome.1) (handedTo sampleOwner (some 1) sampleOutcome.1) (sampleCode[1]?.getD []) =
      .ok (f, outs) ∧ outs.length = 18 := by
    refine ⟨_, _, Res.ok_getD default (by decide +kernel), by decide +kernel⟩
  obtain ⟨f, outs, hok, hl⟩ := hok
  rw [hok] at h
  obtain ⟨f', evs, h1, h2⟩ := h
  refine ⟨rawVars, mem, n, f', evs, h1, ?_⟩
  have := congrArg List.length h2
  simpa [hl] using this

/-- There are races if a vector is given to two threads that both push: after one access each (looking where to write) and the
    first access of `write` they are about to change the same block. -/
example : Pool.Race (Pool.run (α := Nat) (β := Raw.FCVec) ⟨[some ⟨32, [none, none, none, none]⟩],
    [Steps.FCVec.push ⟨8, 100, false, fun _ => 0⟩ 4 ⟨⟨0, 0⟩, 0⟩ 5, Steps.FCVec.push ⟨8, 100, false, fun _ => 0⟩ 4 ⟨⟨0, 0⟩, 0⟩ 6]⟩
    [(0, 0), (1, 0), (0, 0), (1, 0), (1, 0), (0, 0)]) :=
  ⟨0, 1, _, _, 0, by decide, rfl, rfl, rfl, rfl⟩

end RTree
