import Verif.Proofs.Threads
import Verif.Proofs.RawLeftTreeRun
import Verif.Props.Threads
/-!
# C83: queries read the memory of the tree and change nothing
-/

namespace RTree

open Raw Raw.Forest

variable {B K V Q : Type} [Bounds B] [Volume B] [Bounded K B] [BEq K] [Bounded Q B] [BEq Q] {E : TEnv} {borrow : K → Q}

/-- After the commands `cmds` the variables are `vars` on values and `rawVars` in memory, and the memory is `mem`. -/
structure Ran (E : TEnv) (borrow : K → Q) (cmds : List (Cmd K V Q)) (vars : List (Option (Tree B K V))) (rawVars : List (Option (Raw.RTree B)))
    (mem : Raw.Heap (Cell B K V)) : Prop where
  sizes : ∀ c, Cmd.new c ∈ cmds → Sizes E c.maxChildren
  onValues : ∃ outs, specProgram borrow [] cmds = .ok (vars, outs)
  inMemory : ∃ evs, program E borrow [] cmds [] = .ok ((rawVars, evs), mem)

variable {cmds : List (Cmd K V Q)} {vars : List (Option (Tree B K V))} {rawVars : List (Option (Raw.RTree B))} {mem : Raw.Heap (Cell B K V)}

theorem Ran.tree (R : Ran E borrow cmds vars rawVars mem) {i : Nat} {t : Tree B K V} (hi : vars[i]? = some (some t)) :
    ∃ g : GTree B K V, t = g.abs ∧ rawVars[i]? = some (some g.rawT) ∧ Sizes E g.alloc.maxChildren ∧ Has mem (g.own E) ∧ ∃ c, Reachable c (fun _ => True) t := by
  have key := program_sim (E := E) borrow cmds (gs := []) (h := []) (fun t ht => by cases ht) .nil R.sizes
  have e1 : Forest.absF ([] : Forest B K V) = [] := rfl
  have e2 : Forest.rawF ([] : Forest B K V) = [] := rfl
  obtain ⟨outs, h1⟩ := R.onValues
  obtain ⟨evs, h2⟩ := R.inMemory
  rw [e1, e2, h1] at key
  obtain ⟨⟨f₁, evs₁⟩, h₁, gs, h3, pr⟩ := key
  rw [h2] at h3
  cases h3
  obtain rfl := pr.abs
  obtain rfl : rawVars = _ := pr.raw
  simp only [absF, List.getElem?_map, Option.map_eq_some_iff] at hi
  obtain ⟨o, ho, g, rfl, rfl⟩ := hi
  obtain ⟨S, hr⟩ := pr.good g (List.mem_of_getElem? ho)
  exact ⟨g, rfl, by simp [rawF, ho], S, (pr.tr.has.perm (own_get ho)).left, hr⟩

/-- `iter` run to its end in memory yields what it yields on values, and leaves the memory as it is. -/
theorem C83_iter (R : Ran E borrow cmds vars rawVars mem) {i : Nat} {t : Tree B K V} (hi : vars[i]? = some (some t)) :
    ∃ r es, rawVars[i]? = some (some r) ∧ t.iter = .ok es ∧ Raw.RTree.iter E r mem = .ok (es, mem) := by
  obtain ⟨g, rfl, h1, S, H, _, hr⟩ := R.tree hi
  obtain ⟨es, e1, e2⟩ := iter_ok g S H hr.shape
  exact ⟨_, es, h1, e1, e2⟩

/-- `filter_iter`, for any filter. -/
theorem C83_filter_iter (R : Ran E borrow cmds vars rawVars mem) {i : Nat} {t : Tree B K V} (hi : vars[i]? = some (some t)) (flt : SpatialFilter B Q) :
    ∃ r es, rawVars[i]? = some (some r) ∧ t.filterIter borrow flt = .ok es ∧ Raw.RTree.filterIter E borrow flt r mem = .ok (es, mem) := by
  obtain ⟨g, rfl, h1, S, H, _, hr⟩ := R.tree hi
  obtain ⟨es, e1, e2⟩ := filterIter_ok g S borrow flt H hr.shape
  exact ⟨_, es, h1, e1, e2⟩

/-- Sorted iteration (`iter_asc_by`, `filter_iter_asc_by`, `min_by`, `filter_min_by`), stopped after any number `k` of entries, with any ranking, even one that
    breaks its contract, and any priority queue.  If the ranking panics so does the iterator, in the same way; otherwise the entries are those yielded on values
    and the memory is as before. -/
theorem C83_sorted (R : Ran E borrow cmds vars rawVars mem) {i : Nat} {t : Tree B K V} (hi : vars[i]? = some (some t)) (q : SortedQuery B K) (k : Nat) :
    ∃ r, rawVars[i]? = some (some r) ∧
      match t.filterFirstAscBy (q.heap.heap _) q.ranking k with
      | .ok es => Raw.RTree.filterFirstAscBy E (q.heap.heap _) q.ranking k r mem = .ok (es, mem)
      | .error e => Raw.RTree.filterFirstAscBy E (q.heap.heap _) q.ranking k r mem = .error e ∧ UserPanic e := by
  obtain ⟨g, rfl, h1, S, H, _, hr⟩ := R.tree hi
  exact ⟨_, h1, filterFirstAscBy_sim g S q.heap ⟨q.calmBounds, q.calmKey⟩ k H⟩

/-- `join` of two of the trees, or of one with itself, for any filter. -/
theorem C83_join (R : Ran E borrow cmds vars rawVars mem) {i j : Nat} {t u : Tree B K V} (hi : vars[i]? = some (some t)) (hj : vars[j]? = some (some u))
    (flt : JoinFilter B B Q Q) :
    ∃ r s ps, rawVars[i]? = some (some r) ∧ rawVars[j]? = some (some s) ∧ t.join borrow borrow flt u = .ok ps ∧
      Raw.RTree.join E borrow flt r s mem = .ok (ps, mem) := by
  obtain ⟨g, rfl, h1, S, H, _, hr⟩ := R.tree hi
  obtain ⟨g', rfl, h1', S', H', _, hr'⟩ := R.tree hj
  obtain ⟨ps, e1, e2⟩ := join_ok g g' S S' borrow flt H H' hr.shape hr'.shape
  exact ⟨_, _, ps, h1, h1', e1, e2⟩

/-- `left_join` of two of the trees, or of one with itself, for any filter, with every right-hand iterator run to its end. -/
theorem C83_left_join (R : Ran E borrow cmds vars rawVars mem) {i j : Nat} {t u : Tree B K V} (hi : vars[i]? = some (some t)) (hj : vars[j]? = some (some u))
    (flt : JoinFilter B B Q Q) :
    ∃ r s out, rawVars[i]? = some (some r) ∧ rawVars[j]? = some (some s) ∧ t.leftJoin borrow borrow flt u = .ok out ∧
      Raw.RTree.leftJoin E borrow flt r s mem = .ok (out, mem) := by
  obtain ⟨g, rfl, h1, S, H, _, hr⟩ := R.tree hi
  obtain ⟨g', rfl, h1', S', H', _, hr'⟩ := R.tree hj
  obtain ⟨out, e1, _⟩ := C17_left_join_sound hr hr' borrow borrow flt hr.iter_eq hr'.iter_eq
  exact ⟨_, _, out, h1, h1', e1, leftJoin_ok g g' S S' borrow flt H H' e1⟩

/-! ### A concrete case -/

theorem variable_at {T : Type} {l : List (Option T)} {i : Nat} (h : (l[i]?).join.isSome = true) : l[i]? = some (some ((l[i]?).join.get h)) := by
  generalize l[i]? = x at h
  match x, h with
  | some (some t), _ => rfl

/-- The tree in variable 1 of the sample program. -/
def sampleFirst : BoxTree := (sampleOutcome.1[1]?).join.get (by decide +kernel)

/-- The tree in variable 2 of the sample program. -/
def sampleSecond : BoxTree := (sampleOutcome.1[2]?).join.get (by decide +kernel)

/-- The sample program can be run. -/
theorem sample_ran : ∃ rawVars mem, Ran (B := AABB I32 2) sampleEnv id sampleProgram sampleOutcome.1 rawVars mem := by
  obtain ⟨rawVars, mem, S⟩ := sample_started
  exact ⟨rawVars, mem, S.sizes, S.onValues, S.inMemory⟩

/-- Sorted iteration and a join over trees in memory. -/
example : ∃ (r u : Raw.RTree (AABB I32 2)) (mem : Raw.Heap (Cell (AABB I32 2) (AABB I32 2) Nat)) (es : List (AABB I32 2 × Nat)) (ps : List ((AABB I32 2 × Nat) × (AABB I32 2 × Nat))),
    Raw.RTree.filterFirstAscBy sampleEnv (sampleQuery.heap.heap _) sampleQuery.ranking 2 r mem = .ok (es, mem) ∧
    Raw.RTree.join sampleEnv id overlapFilter u r mem = .ok (ps, mem) ∧ es.map (·.2) = [7, 9] ∧ ps.length = 3 := by
  obtain ⟨rawVars, mem, R⟩ := sample_ran
  have h1 : sampleOutcome.1[1]? = some (some sampleFirst) := variable_at _
  have h2 : sampleOutcome.1[2]? = some (some sampleSecond) := variable_at _
  obtain ⟨r, e1, e2⟩ := C83_sorted R h2 sampleQuery 2
  obtain ⟨r₁, r₂, ps, e3, e4, e5, e6⟩ := C83_join R h1 h2 overlapFilter
  rw [e1] at e4
  cases e4
  have k1 : sampleSecond.filterFirstAscBy (sampleQuery.heap.heap _) sampleQuery.ranking 2 = .ok [(box 8 8 9 9, 7), (box 8 8 9 9, 9)] := by
    rw [Res.ok_getD (x := sampleSecond.filterFirstAscBy (sampleQuery.heap.heap _) sampleQuery.ranking 2) [] (by decide +kernel)]
    exact congrArg Except.ok (by decide +kernel)
  have k2 : (sampleFirst.join id id overlapFilter sampleSecond).map List.length = .ok 3 := by
    rw [Res.ok_getD (x := sampleFirst.join id id overlapFilter sampleSecond) [] (by decide +kernel)]
    exact congrArg Except.ok (by decide +kernel)
  rw [k1] at e2
  rw [e5] at k2
  exact ⟨r, r₁, mem, _, ps, e2, e6, by decide, by injection k2⟩

/-- A left join over trees in memory: the entry of the left tree that matches nothing is there too. -/
example : ∃ (r u : Raw.RTree (AABB I32 2)) (mem : Raw.Heap (Cell (AABB I32 2) (AABB I32 2) Nat)) (out : List ((AABB I32 2 × Nat) × List (AABB I32 2 × Nat))),
    Raw.RTree.leftJoin sampleEnv id overlapFilter r u mem = .ok (out, mem) ∧ out.map (fun x => x.2.length) = [3, 0] := by
  obtain ⟨rawVars, mem, R⟩ := sample_ran
  have h1 : sampleOutcome.1[1]? = some (some sampleFirst) := variable_at _
  have h2 : sampleOutcome.1[2]? = some (some sampleSecond) := variable_at _
  obtain ⟨r, u, out, _, _, e1, e2⟩ := C83_left_join R h1 h2 overlapFilter
  have k : (sampleFirst.leftJoin id id overlapFilter sampleSecond).map (fun out => out.map fun x => x.2.length) = .ok [3, 0] := by
    rw [Res.ok_getD (x := sampleFirst.leftJoin id id overlapFilter sampleSecond) [] (by decide +kernel)]
    exact congrArg Except.ok (by decide +kernel)
  rw [e1] at k
  exact ⟨r, u, mem, out, e2, by injection k⟩

end RTree
