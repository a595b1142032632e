import Verif.Proofs.HonestStrip
import Verif.Props.Honest
/-!
# After panics and lies, what can be read from memory is all that matters (C88)
-/

namespace RTree.Unwind

open Raw

variable {B K V Q : Type} [Bounds B] [Volume B] [Bounded K B] [BEq K] [Bounded Q B] [BEq Q]
variable {E : TEnv} {borrow : K → Q}

/-- Full vectors fit into memory, and nodes have room for two children. -/
abbrev Roomy (E : TEnv) (n : Nat) : Prop := Sizes E n ∧ 2 ≤ n

theorem Roomy.fit (n : Nat) (h : Roomy E n) : Fit E n := ⟨h.1.node, h.1.entry, h.2⟩

theorem erased_sized {gs : GF B K V} (hg : Good (Roomy E) gs) : Raw.Sized E (eraseF gs) := by
  intro t ht
  obtain ⟨o, ho, he⟩ := List.mem_map.1 ht
  cases o with
  | none => cases he
  | some G => cases he; exact (hg G ho).1

/-- The trees can be read. -/
theorem read_state {gs : GF B K V} {h : Raw.Heap (UCell B K V)} (hg : Good (Roomy E) gs) (H : Has h (chunksT (ownF E gs))) :
    (readVars Own.val E (rawF gs) h).map (·.1) = .ok (Raw.Forest.absF (eraseF gs)) := by
  obtain ⟨L, h', A, hv, H'⟩ := strip_state H
  obtain ⟨L3, b, g', _, h6, _, rfl⟩ := readVars_mem (E := E) hv _ _ A _ h' (readVars_ok (erased_sized hg) H')
  rw [h6]; rfl

/-- C88: in any program, with user code that may panic at any call and answer anything at any call, with panics caught and the trees used further:
    a call, whether it returns or panics, leaves every tree but the one it works on exactly as it was: the same nodes with the same bounds,
    the same pairs, in the same order. -/
theorem C88_other_trees (code : Nat → Option (Code B K V Q)) (cmds : List (Cmd K V Q)) (hS : ∀ c, Cmd.new c ∈ cmds → Sizes E c.maxChildren ∧ 2 ≤ c.maxChildren)
    {replies : List (Option (Reply V))} {f : Vars B} {w : World B K V Q} (hr : run E cmds [] (start code) = (.ok replies, f, w))
    (c : Cmd K V Q) (hc : ∀ d, c = .new d → Sizes E d.maxChildren ∧ 2 ≤ d.maxChildren) {r : Except Stop (Reply V)} {f' : Vars B} {w' : World B K V Q}
    (hx : Cmd.run E c f w = (r, f', w')) :
    ∃ F F' : List (Option (Tree B K V)), (readVars Own.val E f w.heap).map (·.1) = .ok F ∧ (readVars Own.val E f' w'.heap).map (·.1) = .ok F' ∧
      ∀ j, j < F.length → target c ≠ some j → F'[j]? = F[j]? := by
  obtain ⟨rs, gs, w₀, L, hr', hg, _, g⟩ := run_outcome_of (E := E) (Z := Roomy E) Roomy.fit code cmds hS
  rw [hr] at hr'
  cases hr'
  have H := g.tr.has
  rw [chunksT_append] at H
  have hgiven : chunksT (givenT (B := B) c) = [] := by cases c <;> rfl
  have key := cmd_spec (E := E) Roomy.fit hg c hc (.refl _) w (by rw [chunksT_append, hgiven, List.append_nil]; exact H.left)
  rw [hx] at key
  have done : ∀ {P : GF B K V → List (Thing B K V) → Prop} {R'}, FWhole E (Roomy E) P f' R' → (∀ gs' W, P gs' W → Kept (target c) gs gs') → Go w (ownF E gs ++ givenT c) w' R' →
      ∃ F F' : List (Option (Tree B K V)), (readVars Own.val E (rawF gs) w.heap).map (·.1) = .ok F ∧ (readVars Own.val E f' w'.heap).map (·.1) = .ok F' ∧
      ∀ j, j < F.length → target c ≠ some j → F'[j]? = F[j]? := by
    rintro P R' ⟨gs', W, hg', rfl, hp, hP⟩ hk hgo
    have H' := (hgo.perm_right hp).tr.has
    rw [chunksT_append] at H'
    refine ⟨_, _, read_state hg H.left, read_state hg' H'.left, fun j hj ht => ?_⟩
    rw [Raw.Forest.absF, Raw.Forest.absF, eraseF, eraseF] at *
    simp only [List.length_map] at hj
    simp only [List.getElem?_map, hk gs' W hP j hj ht]
  cases r with
  | ok r =>
    obtain ⟨R', h2, h3⟩ := key
    exact done h2 (fun _ _ h => h.2.2) h3
  | error e =>
    cases e with
    | panic =>
      obtain ⟨R', h2, h3⟩ := key
      exact done h2 (fun _ _ h => h.2) h3
    | fatal => exact key.elim

/-- C88: run any program, with user code that may panic at any call and answer anything at any call, and catch the panics.  The trees that are left, in
    whatever state, can be read from memory.  If from then on user code behaves, then any further program does with these trees what the program on
    values does with what was read: the same replies, and the same trees in the end (unless the program on values panics). -/
theorem C88_recovery (code : Nat → Option (Code B K V Q)) (cmds : List (Cmd K V Q)) (hS : ∀ c, Cmd.new c ∈ cmds → Sizes E c.maxChildren ∧ 2 ≤ c.maxChildren)
    {replies : List (Option (Reply V))} {f : Vars B} {w : World B K V Q} (hr : run E cmds [] (start code) = (.ok replies, f, w))
    (cmds' : List (Cmd K V Q)) (hS' : ∀ c, Cmd.new c ∈ cmds' → Sizes E c.maxChildren ∧ 2 ≤ c.maxChildren) :
    ∃ F : List (Option (Tree B K V)), (readVars Own.val E f w.heap).map (·.1) = .ok F ∧
      ∀ {F' : List (Option (Tree B K V))} {outs : List (Reply V × List K × List V)}, specProgram borrow F cmds' = .ok (F', outs) →
        ∃ f' w', run E cmds' f { w with code := fun _ => some (honest borrow) } = (.ok (outs.map fun o => some o.1), f', w') ∧
          (readVars Own.val E f' w'.heap).map (·.1) = .ok F' := by
  obtain ⟨rs, gs, w₀, L, hr', hg, _, g⟩ := run_outcome_of (E := E) (Z := Roomy E) Roomy.fit code cmds hS
  rw [hr] at hr'
  cases hr'
  have H := g.tr.has
  rw [chunksT_append] at H
  refine ⟨_, read_state hg H.left, fun {F' outs} hs => ?_⟩
  obtain ⟨L, h', A, hv, H'⟩ := strip_state H.left
  obtain ⟨⟨s, evs⟩, h₁, gs', h1, rfl, h3, h4, h5, h6⟩ := program_any (E := E) borrow cmds' (erased_sized hg) H' (fun c hc => (hS' c hc).1) hs
  rcases run_like (E := E) (borrow := borrow) cmds' hv h' { w with code := fun _ => some (honest borrow) } A rfl _ _ h1 with hf | ⟨L2, rs2, f', w', _, h2, A2, _, hv2, hrs⟩
  · have hgiven : chunksT (cmds'.flatMap (givenT (B := B))) = [] := by
      clear hf hs h1 hS' h4
      induction cmds' with
      | nil => rfl
      | cons c cmds' ih =>
        rw [List.flatMap_cons, chunksT_append, ih]
        cases c <;> rfl
    have key := run_spec (E := E) Roomy.fit cmds' hg hS' (.refl _) { w with code := fun _ => some (honest borrow) }
      (by rw [chunksT_append, hgiven, List.append_nil]; exact H.left)
    rcases hx : run E cmds' (rawF gs) { w with code := fun _ => some (honest borrow) } with ⟨r, f', w'⟩
    rw [hx] at key hf
    dsimp only at hf
    subst hf
    exact key.elim
  · refine ⟨f', w', h2.trans ?_, ?_⟩
    · rw [hrs]
      have h7 : evs.map (fun e => some e.reply) = (evs.map Event.reply).map some := by rw [List.map_map]; rfl
      rw [h7, show evs.map Event.reply = _ from h4, List.map_map]; rfl
    · obtain ⟨L3, b, g', _, h8, _, rfl⟩ := readVars_mem (E := E) hv2 _ _ A2 _ h₁ (by
        have h7 := readVars_ok h5 h6
        rw [show s = _ from h3]
        exact h7)
      rw [h8]; rfl

/-- The call number 33 of user code panics, all others behave. -/
def onePanic : Nat → Option (Code (AABB I32 2) (AABB I32 2) Nat (AABB I32 2)) := fun n => if n = 33 then none else some (honest id)

/-- The trees that are left after the sample program, with one panic. -/
def leftTrees : List (Option BoxTree) :=
  Res.getD ((readVars Own.val sampleEnv (run sampleEnv sampleProgram [] (start onePanic)).2.1
    (run sampleEnv sampleProgram [] (start onePanic)).2.2.heap).map (·.1)) []

/-- A further program on these trees: another five insertions, removals, a clone, and everything is dropped but the clone. -/
def furtherProgram : List (Cmd (AABB I32 2) Nat (AABB I32 2)) :=
  [.insert 1 (box 0 0 1 1) 21, .insert 2 (box 2 0 3 1) 22, .insert 1 (box 0 2 1 3) 23, .insert 1 (box 2 2 3 3) 24, .insert 1 (box 5 2 6 3) 25,
   .remove 1 (box 5 5 6 6), .remove 2 (box 2 2 3 3), .get 2 (box 8 8 9 9), .clone 1, .drop 1, .drop 2]

/-- The outcome of the further program on values. -/
def furtherOutcome : List (Option BoxTree) × List (Reply Nat × List (AABB I32 2) × List Nat) :=
  (specProgram (B := AABB I32 2) id leftTrees furtherProgram).getD ([], [])

theorem ok_parts {α β : Type} {x : Res (α × β)} (d : α × β) (h : x.isOk = true) : x = .ok ((x.getD d).1, (x.getD d).2) :=
  Res.ok_getD d h

theorem furtherProgram_ok : specProgram (B := AABB I32 2) id leftTrees furtherProgram = .ok (furtherOutcome.1, furtherOutcome.2) :=
  ok_parts ([], []) (by decide +kernel)

theorem leftTrees_ok {replies : List (Option (Reply Nat))} {f : Vars (AABB I32 2)} {w : World (AABB I32 2) (AABB I32 2) Nat (AABB I32 2)}
    (h : run sampleEnv sampleProgram [] (start onePanic) = (.ok replies, f, w)) : (readVars Own.val sampleEnv f w.heap).map (·.1) = .ok leftTrees := by
  have key : Except.isOk ((readVars Own.val sampleEnv (run sampleEnv sampleProgram [] (start onePanic)).2.1
    (run sampleEnv sampleProgram [] (start onePanic)).2.2.heap).map (·.1)) = true := by decide +kernel
  have := Res.ok_getD [] key
  rw [h] at this
  rw [leftTrees, h]
  exact this

theorem sampleProgram_roomy : ∀ c, Cmd.new c ∈ sampleProgram → Sizes sampleEnv c.maxChildren ∧ 2 ≤ c.maxChildren := fun c hc =>
  ⟨sampleProgram_sizes c hc, by
    simp only [sampleProgram, List.mem_cons, Cmd.new.injEq, reduceCtorEq, false_or, List.not_mem_nil, or_false] at hc
    rcases hc with rfl | rfl <;> decide⟩

theorem furtherProgram_roomy : ∀ c, Cmd.new c ∈ furtherProgram → Sizes sampleEnv c.maxChildren ∧ 2 ≤ c.maxChildren := fun c hc => by
  simp only [furtherProgram, List.mem_cons, reduceCtorEq, List.not_mem_nil, or_false] at hc

/-- One call of the sample program panics; the further program does with what is left what the program on values does. -/
example : ∃ replies f w, run sampleEnv sampleProgram [] (start onePanic) = (.ok replies, f, w) ∧
    ∃ f' w', run sampleEnv furtherProgram f { w with code := fun _ => some (honest id) } = (.ok (furtherOutcome.2.map fun o => some o.1), f', w') ∧
      (readVars Own.val sampleEnv f' w'.heap).map (·.1) = .ok furtherOutcome.1 := by
  obtain ⟨replies, gs, w, _, hr, _⟩ := run_outcome_of (E := sampleEnv) (Z := Roomy sampleEnv) Roomy.fit onePanic sampleProgram sampleProgram_roomy
  refine ⟨_, _, _, hr, ?_⟩
  obtain ⟨F, h1, h2⟩ := C88_recovery (borrow := id) onePanic sampleProgram sampleProgram_roomy hr furtherProgram furtherProgram_roomy
  rw [leftTrees_ok hr] at h1
  obtain rfl := Except.ok.inj h1
  exact h2 furtherProgram_ok

/-- What the calls of the further program give back, and the number of pairs in the tree that is left. -/
example : furtherOutcome.2.map (fun o => o.2.2) = [[21], [22], [23], [24], [25], [], [], [], [70, 25, 24, 21, 23], [], []] ∧
    furtherOutcome.1.map (fun t => t.map fun t => t.len.getD 0) = [none, none, none, some 5] := by decide +kernel

/-- In whatever way the trees have been left by the sample program, an insertion into the second changes nothing about the third. -/
example : ∃ replies f w r f' w', run sampleEnv sampleProgram [] (start onePanic) = (.ok replies, f, w) ∧
    Cmd.run sampleEnv (.insert 1 (box 0 0 1 1) 21) f w = (r, f', w') ∧
    ∃ F F' : List (Option BoxTree), (readVars Own.val sampleEnv f w.heap).map (·.1) = .ok F ∧ (readVars Own.val sampleEnv f' w'.heap).map (·.1) = .ok F' ∧
      F.length = 3 ∧ F'[2]? = F[2]? := by
  obtain ⟨replies, gs, w, _, hr, _⟩ := run_outcome_of (E := sampleEnv) (Z := Roomy sampleEnv) Roomy.fit onePanic sampleProgram sampleProgram_roomy
  obtain ⟨F, F', h1, h2, h3⟩ := C88_other_trees onePanic sampleProgram sampleProgram_roomy hr (.insert 1 (box 0 0 1 1) 21)
    (fun d h => by cases h) (r := _) (f' := _) (w' := _) rfl
  refine ⟨_, _, _, _, _, _, hr, rfl, F, F', h1, h2, ?_, ?_⟩
  · rw [leftTrees_ok hr] at h1
    obtain rfl := Except.ok.inj h1
    decide +kernel
  · have hl : F.length = 3 := by
      rw [leftTrees_ok hr] at h1
      obtain rfl := Except.ok.inj h1
      decide +kernel
    exact h3 2 (by rw [hl]; decide) (by decide)

end RTree.Unwind

