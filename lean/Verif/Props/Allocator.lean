import Verif.Props.Space
import Verif.Proofs.Allocator
/-!
# Calls of the global allocator (C96)
-/

namespace RTree.Raw

variable {B K V Q : Type} [Bounds B] [Volume B] [Bounded K B] [BEq K] [Bounded Q B] [BEq Q]
variable {E : TEnv} {borrow : K → Q}

/-- C96: after any program, any further call that does not panic goes to the allocator for buffers of nodes as often as
    `Cmd.MayCall` says, wherever the allocator places its blocks:

    * `new` asks for one buffer;
    * `get`, writing through `get_mut`, `len` and `is_empty` neither ask for memory nor give any back, nor does an `insert_unique` that
      replaces a value ask for any;
    * `insert` and `insert_unique` give nothing back; they ask for at most as many buffers as the tree is high, or, if the tree grows,
      for exactly two more than it was high;
    * `remove` neither asks for a buffer nor gives one back if it finds nothing (its array of slots, node.rs 767-768, is not counted);
      otherwise it gives back at most one buffer per level and one for the root, and asks for at most the splits of what it inserts
      again;
    * `clone` asks for exactly one buffer per node and gives nothing back, `drop` gives back exactly one per node and asks for nothing.

    And what is live afterwards is what was live before, with the buffers asked for and without those given back. -/
theorem C96_calls (gap : Nat → Nat) (cmds : List (Cmd K V Q)) (hS : ∀ c, Cmd.new c ∈ cmds → Sizes E c.maxChildren)
    {f : List (Option (Tree B K V))} {outs : List (Reply V × List K × List V)} (hr : specProgram borrow [] cmds = .ok (f, outs))
    (cmd : Cmd K V Q) (hc : ∀ c, cmd = .new c → Sizes E c.maxChildren)
    {f' : List (Option (Tree B K V))} {reply : Reply V} {ks : List K} {vs : List V} (hn : cmd.spec borrow f = .ok (f', reply, ks, vs)) :
    ∃ v evs h r h', program (E.placed gap) borrow ([] : List (Option (Raw.RTree B))) cmds [] = .ok ((v, evs), h) ∧
      (Steps.cmd E borrow v cmd).run gap h = .ok (r, h') ∧ r.2.reply = reply ∧
      Cmd.MayCall f f' reply ((Steps.cmd E borrow v cmd).allocs gap h) ((Steps.cmd E borrow v cmd).deallocs gap h) cmd ∧
      liveBlocks h' + (Steps.cmd E borrow v cmd).deallocs gap h = liveBlocks h + (Steps.cmd E borrow v cmd).allocs gap h := by
  have key := program_sim (E := E.placed gap) borrow cmds (gs := []) (h := []) (fun t ht => by cases ht) .nil fun c h => (hS c h).placed
  have e1 : Forest.absF ([] : Forest B K V) = [] := rfl
  have e2 : Forest.rawF ([] : Forest B K V) = [] := rfl
  rw [e1, e2, hr] at key
  obtain ⟨⟨v, evs⟩, h, gs, h1, pr⟩ := key
  obtain rfl : f = Forest.absF gs := pr.abs
  obtain rfl : v = Forest.rawF gs := pr.raw
  have step := cmd_sim (E := E.placed gap) borrow pr.good pr.tr.has cmd fun c e => (hc c e).placed
  rw [hn] at step
  obtain ⟨r, h', h2, gs', st⟩ := step
  obtain rfl : f' = Forest.absF gs' := st.abs
  have hraw : r.1 = Forest.rawF gs' := st.raw
  have hrep : r.2.reply = reply := st.reply
  have h2' : (Steps.cmd E borrow (Forest.rawF gs) cmd).run gap h = .ok (r, h') := by rw [Steps.run_cmd]; exact h2
  have live := Prog.liveBlocks_run _ h2'
  have cost := Steps.cost_cmd borrow (Forest.rawF gs) cmd h r h' h2'
  refine ⟨_, evs, h, r, h', h1, h2', hrep, ?_, live⟩
  have l1 := Forest.liveBlocks_eq pr.tr
  have l2 := Forest.liveBlocks_eq (pr.tr.trans st.tr)
  have get : ∀ {gs : Forest B K V} {i : Nat} {t : Tree B K V}, (Forest.absF gs)[i]? = some (some t) →
      ∃ g, gs[i]? = some (some g) ∧ t = g.abs ∧ (Forest.rawF gs)[i]? = some (some g.rawT) := by
    intro gs i t ht
    simp only [Forest.absF, List.getElem?_map, Option.map_eq_some_iff] at ht
    obtain ⟨o, ho, g, rfl, rfl⟩ := ht
    exact ⟨g, ho, rfl, by simp [Forest.rawF, ho]⟩
  have two : ∀ {i : Nat} {t t' : Tree B K V} {P : Nat → Nat → Alloc → Prop}, (Forest.absF gs)[i]? = some (some t) →
      (Forest.absF gs')[i]? = some (some t') →
      (∀ u u' : Raw.RTree B, (Forest.rawF gs)[i]? = some (some u) → r.1[i]? = some (some u') → P u.level u'.level u.alloc) →
      P t.level t'.level t.alloc := by
    intro i t t' P ht ht' hP
    obtain ⟨g, -, rfl, hg⟩ := get ht
    obtain ⟨g', -, rfl, hg'⟩ := get ht'
    rw [← hraw] at hg'
    exact hP _ _ hg hg'
  cases cmd with
  | new c => exact cost
  | get i q => exact cost
  | replace i q w => exact cost
  | len i => exact cost
  | isEmpty i => exact cost
  | insert i k w => exact ⟨cost.1, fun t t' ht ht' =>
      two (P := fun x y _ => y = x ∧ _ ≤ x ∨ y = x + 1 ∧ _ = x + 2) ht ht' cost.2⟩
  | insertUnique i k w =>
    exact ⟨cost.1, fun w e => cost.2.1 w (hrep.trans e), fun t t' ht ht' =>
      two (P := fun x y _ => y = x ∧ _ ≤ x ∨ y = x + 1 ∧ _ = x + 2) ht ht' cost.2.2⟩
  | remove i q =>
    exact ⟨fun e => cost.1 (hrep.trans e), fun t t' ht ht' =>
      two (P := fun x y al => x ≤ y + 1 ∧ _ ≤ x + 1 ∧ _ ≤ x * (al.minChildren - 1) * (y + 1)) ht ht' cost.2⟩
  | clone i =>
    refine ⟨cost, fun t ht => ?_⟩
    rw [Cmd.spec, withTree_some ht] at hn
    obtain ⟨t', ht', hn⟩ := bind_eq_ok.1 hn
    obtain ⟨g, hg, rfl, -⟩ := get ht
    obtain ⟨c, hreach⟩ := (pr.good g (List.mem_of_getElem? hg)).2
    rw [C25_clone hreach] at ht'
    obtain rfl := Except.ok.inj ht'
    have hf : Forest.absF gs ++ [some g.abs] = Forest.absF gs' := congrArg Prod.fst (Except.ok.inj hn)
    have cost : (Steps.cmd E borrow (Forest.rawF gs) (.clone i)).deallocs gap h = 0 := cost
    have e : (remainingNodes (Forest.absF gs')).length = (remainingNodes (Forest.absF gs)).length + g.abs.nodes.length := by
      rw [← hf]; simp [remainingNodes]
    omega
  | drop i =>
    refine ⟨cost, fun t ht => ?_⟩
    rw [Cmd.spec, withTree_some ht] at hn
    have hf : (Forest.absF gs).set i none = Forest.absF gs' := congrArg Prod.fst (Except.ok.inj hn)
    have cost : (Steps.cmd E borrow (Forest.rawF gs) (.drop i)).allocs gap h = 0 := cost
    obtain ⟨hl, hi⟩ := List.getElem?_eq_some_iff.1 ht
    have e1 := (flatMap_get (fun o : Option (Tree B K V) => o.elim [] Tree.nodes) hl).length_eq
    have e2 := (flatMap_set (fun o : Option (Tree B K V) => o.elim [] Tree.nodes) hl none).length_eq
    rw [hf] at e2
    rw [hi] at e1
    rw [List.length_append] at e1 e2
    unfold remainingNodes at l1 l2
    have e3 : ((some t).elim [] Tree.nodes).length = t.nodes.length := rfl
    have e4 : ((none : Option (Tree B K V)).elim [] Tree.nodes).length = 0 := rfl
    omega

/-- C96: with sound configurations (at least two children per node, at most half of what fits), an insertion after
    which the tree holds `n` entries asks for at most `log₂ n` buffers. -/
theorem C96_insert_log [VolumeLaws B] (gap : Nat → Nat) (cmds : List (Cmd K V Q)) (hS : ∀ c, Cmd.new c ∈ cmds → Sizes E c.maxChildren)
    (hc : ∀ c, Cmd.new c ∈ cmds → c.Sound) (hk : ∀ cmd ∈ cmds, ∀ k, cmd.inserts = some k → VolumeLaws.volOk (Bounded.bounds k : B))
    {f : List (Option (Tree B K V))} {outs : List (Reply V × List K × List V)} (hr : specProgram borrow [] cmds = .ok (f, outs))
    {i : Nat} {k : K} {w : V} (hv : VolumeLaws.volOk (Bounded.bounds k : B)) {f' : List (Option (Tree B K V))} {reply : Reply V}
    {ks : List K} {vs : List V} {unique : Bool} (hn : Cmd.spec borrow f (if unique then .insertUnique i k w else .insert i k w) = .ok (f', reply, ks, vs))
    {t' : Tree B K V} (ht' : f'[i]? = some (some t')) {n : Nat} (hlen : t'.len = .ok n) :
    ∃ v evs h, program (E.placed gap) borrow ([] : List (Option (Raw.RTree B))) cmds [] = .ok ((v, evs), h) ∧
      (Steps.cmd E borrow v (if unique then .insertUnique i k w else .insert i k w)).allocs gap h ≤ Nat.log2 n ∧
      (Steps.cmd E borrow v (if unique then .insertUnique i k w else .insert i k w)).deallocs gap h = 0 := by
  obtain ⟨v, evs, h, r, h', h1, -, -, hcost, -⟩ := C96_calls gap cmds hS hr _ (fun c e => by cases unique <;> cases e) hn
  refine ⟨v, evs, h, h1, ?_⟩
  have hreach := specProgram_reachable (C := Config.Sound) (P := fun k => VolumeLaws.volOk (Bounded.bounds k : B))
    borrow (f := []) (fun t ht => by cases ht) hk hc hr
  have hreach' := Cmd.spec_reachable (C := Config.Sound) (P := fun k => VolumeLaws.volOk (Bounded.bounds k : B))
    borrow hreach _ (by cases unique <;> intro k' e <;> cases e <;> exact hv) (fun c e => by cases unique <;> cases e) hn
  obtain ⟨c, hs, hr'⟩ := hreach' t' (List.mem_of_getElem? ht')
  have hold : ∃ t, f[i]? = some (some t) := by
    rcases Classical.em (∃ t, f[i]? = some (some t)) with h | h
    · exact h
    · have hno : ∀ t, f[i]? ≠ some (some t) := fun t ht => h ⟨t, ht⟩
      have : f' = f := by
        cases unique
        · rw [if_neg (by decide), Cmd.spec, withTree_none hno] at hn
          exact (congrArg Prod.fst (Except.ok.inj hn)).symm
        · rw [if_pos rfl, Cmd.spec, withTree_none hno] at hn
          exact (congrArg Prod.fst (Except.ok.inj hn)).symm
      exact ⟨t', by rw [← this]; exact ht'⟩
  obtain ⟨t, ht⟩ := hold
  have hpow : 1 ≤ t'.level → t'.level + 1 ≤ Nat.log2 n := fun h0 => by
    have hp := C24_log_height_floor hs (fun _ h => h) hr' h0 hlen
    have h2 := Nat.pow_le_pow_left hs.floor_pos t'.level
    have hpos := Nat.pow_pos (n := t'.level) (show 0 < 2 by omega)
    exact (Nat.le_log2 (by omega)).2 (by rw [Nat.pow_succ]; omega)
  cases unique
  · have := hcost.2 t t' ht ht'
    exact ⟨by omega, hcost.1⟩
  · have := hcost.2.2 t t' ht ht'
    exact ⟨by omega, hcost.1⟩

/-! ### Concrete cases -/

theorem tree_at {T : Type} (f : List (Option T)) (i : Nat) (d : T) (h : (f[i]?.getD none).isSome = true) :
    f[i]? = some (some ((f[i]?.getD none).getD d)) := by
  cases hf : f[i]? with
  | none => rw [hf] at h; cases h
  | some o => cases o with
    | none => rw [hf] at h; cases h
    | some t => rfl

/-- Cloning the second tree of the sample program, which has three nodes, asks for three buffers, wherever they are placed. -/
example (gap : Nat → Nat) : ∃ v evs h, program (B := AABB I32 2) (sampleEnv.placed gap) id [] sampleProgram [] = .ok ((v, evs), h) ∧
    (Steps.cmd (Q := AABB I32 2) sampleEnv id v (.clone 2)).allocs gap h = 3 := by
  have hn : Cmd.spec (B := AABB I32 2) (Q := AABB I32 2) id sampleOutcome.1 (.clone 2) =
      .ok ((Cmd.spec (B := AABB I32 2) (Q := AABB I32 2) id sampleOutcome.1 (.clone 2)).getD ([], Reply.none, [], [])) :=
    Res.ok_getD ([], Reply.none, [], []) (by decide +kernel)
  obtain ⟨v, evs, h, r, h', h1, -, -, hc, -⟩ := C96_calls (E := sampleEnv) gap sampleProgram sampleProgram_sizes sampleProgram_ok (.clone 2)
    (fun c e => by cases e) hn
  refine ⟨v, evs, h, h1, (hc.2 ((sampleOutcome.1[2]?.getD none).getD sampleTree) (tree_at _ _ _ (by decide +kernel))).trans ?_⟩
  decide +kernel

/-- Dropping it gives three buffers back. -/
example (gap : Nat → Nat) : ∃ v evs h, program (B := AABB I32 2) (sampleEnv.placed gap) id [] sampleProgram [] = .ok ((v, evs), h) ∧
    (Steps.cmd (Q := AABB I32 2) sampleEnv id v (.drop 2)).deallocs gap h = 3 := by
  have hn : Cmd.spec (B := AABB I32 2) (Q := AABB I32 2) id sampleOutcome.1 (.drop 2) =
      .ok ((Cmd.spec (B := AABB I32 2) (Q := AABB I32 2) id sampleOutcome.1 (.drop 2)).getD ([], Reply.none, [], [])) :=
    Res.ok_getD ([], Reply.none, [], []) (by decide +kernel)
  obtain ⟨v, evs, h, r, h', h1, -, -, hc, -⟩ := C96_calls (E := sampleEnv) gap sampleProgram sampleProgram_sizes sampleProgram_ok (.drop 2)
    (fun c e => by cases e) hn
  refine ⟨v, evs, h, h1, (hc.2 ((sampleOutcome.1[2]?.getD none).getD sampleTree) (tree_at _ _ _ (by decide +kernel))).trans ?_⟩
  decide +kernel

/-- Four entries in one node that is full. -/
def fullProgram : List (Cmd (AABB I32 2) Nat (AABB I32 2)) :=
  [.new cfg42, .insert 0 (box 0 0 1 1) 1, .insert 0 (box 2 0 3 1) 2, .insert 0 (box 0 2 1 3) 3, .insert 0 (box 2 2 3 3) 4]

theorem fullProgram_cfg : ∀ c, Cmd.new c ∈ fullProgram → c = cfg42 := by
  intro c hc
  simpa only [fullProgram, List.mem_cons, Cmd.new.injEq, reduceCtorEq, List.not_mem_nil, or_false] using hc

/-- The tree that `fullProgram` makes. -/
def fullOutcome : List (Option BoxTree) × List (Reply Nat × List (AABB I32 2) × List Nat) :=
  (specProgram (B := AABB I32 2) id [] fullProgram).getD ([], [])

theorem fullProgram_ok : specProgram (B := AABB I32 2) id [] fullProgram = .ok (fullOutcome.1, fullOutcome.2) :=
  Res.ok_getD ([], []) (by decide +kernel)

/-- The tree after a fifth insertion. -/
def grownOutcome : List (Option BoxTree) × Reply Nat × List (AABB I32 2) × List Nat :=
  (Cmd.spec (B := AABB I32 2) (Q := AABB I32 2) id fullOutcome.1 (.insert 0 (box 0 2 0 2) 5)).getD ([], Reply.none, [], [])

theorem grown_ok : Cmd.spec (B := AABB I32 2) (Q := AABB I32 2) id fullOutcome.1 (.insert 0 (box 0 2 0 2) 5) = .ok grownOutcome :=
  Res.ok_getD ([], Reply.none, [], []) (by decide +kernel)

/-- The fifth insertion splits the root and asks for exactly two buffers: that of the sibling and that of the new root. -/
example (gap : Nat → Nat) : ∃ v evs h, program (B := AABB I32 2) (sampleEnv.placed gap) id [] fullProgram [] = .ok ((v, evs), h) ∧
    (Steps.cmd (Q := AABB I32 2) sampleEnv id v (.insert 0 (box 0 2 0 2) 5)).allocs gap h = 2 := by
  obtain ⟨v, evs, h, r, h', h1, -, -, hc, -⟩ := C96_calls (E := sampleEnv) gap fullProgram
    (fun c hc => by
      obtain rfl := fullProgram_cfg c hc
      exact ⟨by decide, by decide, by decide, by decide, by decide⟩) fullProgram_ok (.insert 0 (box 0 2 0 2) 5)
    (fun c e => by cases e) grown_ok
  refine ⟨v, evs, h, h1, ?_⟩
  have := hc.2 ((fullOutcome.1[0]?.getD none).getD sampleTree) ((grownOutcome.1[0]?.getD none).getD sampleTree) (tree_at _ _ _ (by decide +kernel)) (tree_at _ _ _ (by decide +kernel))
  have e1 : ((fullOutcome.1[0]?.getD none).getD sampleTree).level = 0 := by decide +kernel
  have e2 : ((grownOutcome.1[0]?.getD none).getD sampleTree).level = 1 := by decide +kernel
  rw [e1, e2] at this
  omega

/-- Which is the bound by the logarithm: `log₂ 5 = 2`. -/
example (gap : Nat → Nat) : ∃ v evs h, program (B := AABB I32 2) (sampleEnv.placed gap) id [] fullProgram [] = .ok ((v, evs), h) ∧
    (Steps.cmd (Q := AABB I32 2) sampleEnv id v (.insert 0 (box 0 2 0 2) 5)).allocs gap h ≤ Nat.log2 5 := by
  let _ := sampleLaws
  obtain ⟨v, evs, h, h1, h2, -⟩ := C96_insert_log (E := sampleEnv) gap fullProgram
    (fun c hc => by
      obtain rfl := fullProgram_cfg c hc
      exact ⟨by decide, by decide, by decide, by decide, by decide⟩)
    (fun c hc => by obtain rfl := fullProgram_cfg c hc; exact cfg42_sound)
    (fun cmd hc k hk => by
      have : ∀ k ∈ fullProgram.filterMap Cmd.inserts, SampleKey k := by decide +kernel
      exact (this k (List.mem_filterMap.2 ⟨cmd, hc, hk⟩)).1)
    fullProgram_ok (i := 0) (k := box 0 2 0 2) (w := 5)
    (have : SampleKey (box 0 2 0 2) := by decide +kernel
     this.1) (unique := false) grown_ok
    (t' := (grownOutcome.1[0]?.getD none).getD sampleTree) (tree_at _ _ _ (by decide +kernel)) (n := 5) (by decide +kernel)
  exact ⟨v, evs, h, h1, h2⟩

end RTree.Raw
