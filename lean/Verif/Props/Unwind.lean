import Verif.Proofs.UnwindProg
import Verif.Samples
/-!
# Panics in user code, and user code that lies (C54)

The model is `Verif/Model/Unwind.lean`: trees in raw memory, user code that can panic at every call and answer anything at every call,
panics that unwind (running the destructors of the local variables) and are caught by the caller, who goes on using the trees.
-/

namespace RTree.Unwind

open Raw

variable {B K V Q : Type} {E : TEnv}

/-! ### Specification -/

/-- No memory is allocated, nothing has been dropped or cloned yet; `code` is what user code will do. -/
def start (code : Nat → Option (Code B K V Q)) : World B K V Q := { heap := [], keys := [], values := [], madeKeys := [], madeValues := [], code := code }

/-- The key the caller hands over. -/
def givenKeys : Cmd K V Q → List K
  | .insert _ k _ => [k]
  | .insertUnique _ k _ => [k]
  | _ => []

/-- The value the caller hands over. -/
def givenValues : Cmd K V Q → List V
  | .insert _ _ v => [v]
  | .insertUnique _ _ v => [v]
  | .replace _ _ v => [v]
  | _ => []

/-- The values the caller got back. -/
def returned (replies : List (Option (Reply V))) : List V := replies.flatMap fun o => o.elim [] Reply.returned

/-- The contents of all variables, read from memory. -/
def contents (E : TEnv) : Vars B → Raw.M (UCell B K V) (Contents K V)
  | [] => pure []
  | none :: f => do
    let X ← contents E f
    pure (none :: X)
  | some t :: f => do
    let es ← walk E t.level t.root
    let X ← contents E f
    pure (some es :: X)

/-- All pairs in the trees. -/
def pairs (X : Contents K V) : List (K × V) := X.flatMap fun o => o.getD []

/-! ### Proof -/

theorem keysT_given (cmds : List (Cmd K V Q)) : keysT (cmds.flatMap (givenT (B := B))) = cmds.flatMap givenKeys := by
  rw [keysT_flatMap]
  congr 1; funext c; cases c <;> rfl

theorem valsT_given (cmds : List (Cmd K V Q)) : valsT (cmds.flatMap (givenT (B := B))) = cmds.flatMap givenValues := by
  rw [valsT_flatMap]
  congr 1; funext c; cases c <;> rfl

theorem keysT_vals (vs : List V) : keysT (vs.map (Thing.val (B := B) (K := K))) = [] := by
  induction vs with
  | nil => rfl
  | cons v vs ih => rw [List.map_cons, keysT_val, ih]

theorem valsT_vals (vs : List V) : valsT (vs.map (Thing.val (B := B) (K := K))) = vs := by
  induction vs with
  | nil => rfl
  | cons v vs ih => rw [List.map_cons, valsT_val, ih]

theorem keysT_returned (rs : List (Option (Reply V))) : keysT (rs.flatMap fun o => o.elim [] (returnedT (B := B) (K := K))) = [] := by
  rw [keysT_flatMap, List.flatMap_eq_nil_iff]
  intro o _
  cases o with
  | none => rfl
  | some r => exact keysT_vals _

theorem valsT_returned (rs : List (Option (Reply V))) : valsT (rs.flatMap fun o => o.elim [] (returnedT (B := B) (K := K))) = returned rs := by
  rw [valsT_flatMap, returned]
  congr 1; funext o
  cases o with
  | none => rfl
  | some r => exact valsT_vals _

theorem chunksT_vals (vs : List V) : chunksT (vs.map (Thing.val (B := B) (K := K))) = [] := by
  induction vs with
  | nil => rfl
  | cons v vs ih => rw [List.map_cons, chunksT_val, ih]

theorem chunksT_returned (rs : List (Option (Reply V))) : chunksT (rs.flatMap fun o => o.elim [] (returnedT (B := B) (K := K))) = [] := by
  induction rs with
  | nil => rfl
  | cons o rs ih =>
    rw [List.flatMap_cons, chunksT_append, ih, List.append_nil]
    cases o with
    | none => rfl
    | some r => exact chunksT_vals _

theorem contents_read {Z : Nat → Prop} (hF : ∀ n, Z n → Fit E n) {gs : GF B K V} (hg : Good Z gs) {h : Raw.Heap (UCell B K V)} (H : Has h (chunksT (ownF E gs))) :
    contents E (rawF gs) h = .ok (contF gs, h) ∧ keysT (ownF E gs) = (pairs (contF gs)).map (·.1) ∧ valsT (ownF E gs) = (pairs (contF gs)).map (·.2) := by
  induction gs with
  | nil => exact ⟨rfl, rfl, rfl⟩
  | cons o gs ih =>
    have e : ownF E (o :: gs) = o.elim [] (treeT E) ++ ownF E gs := rfl
    rw [e, chunksT_append] at H
    obtain ⟨h1, h2, h3⟩ := ih (fun G hG => hg G (List.mem_cons_of_mem _ hG)) H.right
    cases o with
    | none =>
      refine ⟨?_, h2, h3⟩
      show contents E (none :: rawF gs) h = _
      rw [contents, bind_ok h1]; rfl
    | some G =>
      have ep : pairs (contF (some G :: gs)) = entsT G ++ pairs (contF gs) := rfl
      refine ⟨?_, ?_, ?_⟩
      · show contents E (some (rawT G) :: rawF gs) h = _
        have hw : walk E (rawT G).level (rawT G).root h = .ok (ents G.level G.g, h) := walk_read (hF _ (hg G List.mem_cons_self)) G.level G.g h H.left
        rw [contents, bind_ok hw, bind_ok h1]; rfl
      · rw [e, ep, keysT_append, List.map_append, h2]; congr 1; exact keysT_tree E G
      · rw [e, ep, valsT_append, List.map_append, h3]; congr 1; exact valsT_tree E G

/-- Everything about a program with caught panics. -/
theorem run_outcome_of {Z : Nat → Prop} (hF : ∀ n, Z n → Fit E n) (code : Nat → Option (Code B K V Q)) (cmds : List (Cmd K V Q)) (hS : ∀ c, Cmd.new c ∈ cmds → Z c.maxChildren) :
    ∃ rs gs w L, run E cmds [] (start code) = (.ok rs, rawF gs, w) ∧ Good Z gs ∧ ((∀ o ∈ rs, o.isSome) → L = []) ∧
      Go (start code) (cmds.flatMap givenT) w (ownF E gs ++ (L ++ rs.flatMap fun o => o.elim [] returnedT)) := by
  have key := run_spec (E := E) (B := B) hF cmds (gs := []) (fun G hG => by cases hG) hS (.refl _) (start code) (by
    have : chunksT (cmds.flatMap (givenT (B := B))) = [] := by
      induction cmds with
      | nil => rfl
      | cons c cmds ih =>
        rw [List.flatMap_cons, chunksT_append, ih fun d hd => hS d (List.mem_cons_of_mem _ hd)]
        cases c <;> rfl
    show Has _ (chunksT ([] ++ cmds.flatMap (givenT (B := B))))
    rw [List.nil_append, this]
    exact .nil)
  change Post _ _ _ _ (run E cmds [] (start code)) at key
  rcases hr : run E cmds [] (start code) with ⟨r, f, w⟩
  rw [hr] at key
  cases r with
  | ok rs =>
    obtain ⟨R', ⟨gs, _, hg, rfl, hp, L, rfl, hL⟩, g⟩ := key
    exact ⟨rs, gs, w, L, rfl, hg, hL, g.perm_right hp⟩
  | error e =>
    cases e with
    | panic => obtain ⟨_, h, _⟩ := key; exact h.elim
    | fatal => exact key.elim

theorem run_outcome (code : Nat → Option (Code B K V Q)) (cmds : List (Cmd K V Q)) (hS : ∀ c, Cmd.new c ∈ cmds → Fit E c.maxChildren) :
    ∃ rs gs w L, run E cmds [] (start code) = (.ok rs, rawF gs, w) ∧ Good (Fit E) gs ∧ ((∀ o ∈ rs, o.isSome) → L = []) ∧
      Go (start code) (cmds.flatMap givenT) w (ownF E gs ++ (L ++ rs.flatMap fun o => o.elim [] returnedT)) := run_outcome_of (fun _ h => h) code cmds hS

/-- C54: run any program over any number of trees, with user code that may panic at any call and answer anything at any call, catch every panic
    and go on using the trees.  Provided pairs are not zero-sized and nodes have room for two children:

    * there is no undefined behaviour: no use of freed memory, nothing dropped twice (the program comes to an end and all trees can be read);
    * every key handed over or made by `Clone` has been dropped once, or is in a tree, or has been leaked;
    * every value handed over or made by `Clone` has been dropped once, or returned once, or is in a tree, or has been leaked;
    * nothing is leaked if no call panicked. -/
theorem C54_panic_safety_partial (code : Nat → Option (Code B K V Q)) (cmds : List (Cmd K V Q)) (hS : ∀ c, Cmd.new c ∈ cmds → Fit E c.maxChildren) :
    ∃ (replies : List (Option (Reply V))) (f : Vars B) (w : World B K V Q) (X : Contents K V) (leakedKeys : List K) (leakedValues : List V),
      run E cmds [] (start code) = (.ok replies, f, w) ∧
      contents E f w.heap = .ok (X, w.heap) ∧
      (cmds.flatMap givenKeys ++ w.madeKeys).Perm (w.keys ++ (pairs X).map (·.1) ++ leakedKeys) ∧
      (cmds.flatMap givenValues ++ w.madeValues).Perm (w.values ++ returned replies ++ (pairs X).map (·.2) ++ leakedValues) ∧
      ((∀ o ∈ replies, o.isSome) → leakedKeys = [] ∧ leakedValues = []) := by
  obtain ⟨rs, gs, w, L, hr, hg, hL, g⟩ := run_outcome (E := E) code cmds hS
  have H := g.tr.has
  rw [chunksT_append] at H
  obtain ⟨h1, h2, h3⟩ := contents_read (fun _ h => h) hg H.left
  refine ⟨rs, rawF gs, w, contF gs, keysT L, valsT L, hr, h1, ?_, ?_, ?_⟩
  · have := g.keys
    rw [keysT_append, keysT_append, keysT_returned, keysT_given, h2] at this
    change ((pairs (contF gs)).map (fun e : K × V => e.1) ++ (keysT L ++ []) ++ w.keys ++ []).Perm (cmds.flatMap givenKeys ++ [] ++ w.madeKeys) at this
    perms [this]
  · have := g.values
    rw [valsT_append, valsT_append, valsT_returned, valsT_given, h3] at this
    change ((pairs (contF gs)).map (fun e : K × V => e.2) ++ (valsT L ++ returned rs) ++ w.values ++ []).Perm (cmds.flatMap givenValues ++ [] ++ w.madeValues) at this
    perms [this]
  · intro h
    rw [hL h]; exact ⟨rfl, rfl⟩

/-- C54: if no call panicked and all variables have gone out of scope then all memory has been freed, also that of the bounds; every key handed over
    or made by `Clone` has been dropped exactly once, every value has been dropped or returned exactly once.  User code may have answered anything. -/
theorem C54_no_panic_no_leak_partial (code : Nat → Option (Code B K V Q)) (cmds : List (Cmd K V Q)) (hS : ∀ c, Cmd.new c ∈ cmds → Fit E c.maxChildren)
    {replies : List (Option (Reply V))} {f : Vars B} {w : World B K V Q} (hr : run E cmds [] (start code) = (.ok replies, f, w))
    (hp : ∀ o ∈ replies, o.isSome) (hf : ∀ o ∈ f, o = none) :
    (∀ b ∈ w.heap, b = none) ∧ (cmds.flatMap givenKeys ++ w.madeKeys).Perm w.keys ∧
      (cmds.flatMap givenValues ++ w.madeValues).Perm (w.values ++ returned replies) := by
  obtain ⟨rs, gs, w', L, hr', hg, hL, g⟩ := run_outcome (E := E) code cmds hS
  rw [hr] at hr'
  cases hr'
  obtain rfl := hL hp
  have ho : ownF E gs = [] := by
    rw [ownF, List.flatMap_eq_nil_iff]
    intro o ho
    cases o with
    | none => rfl
    | some G =>
      have := hf (some (rawT G)) (by rw [rawF]; exact List.mem_map_of_mem (f := fun o => o.map rawT) ho)
      cases this
  rw [ho, List.nil_append, List.nil_append] at g
  refine ⟨?_, ?_, ?_⟩
  · intro b hb
    obtain ⟨i, hi, rfl⟩ := List.getElem_of_mem hb
    have := g.tr.step.dead i hi (by rw [chunksT_returned]; simp) (.inr (Nat.zero_le _))
    rw [List.getElem?_eq_getElem hi] at this
    exact Option.some.inj this
  · have := g.keys
    rw [keysT_returned, keysT_given] at this
    change ([] ++ w.keys ++ []).Perm (cmds.flatMap givenKeys ++ [] ++ w.madeKeys) at this
    perms [this]
  · have := g.values
    rw [valsT_returned, valsT_given] at this
    change (returned replies ++ w.values ++ []).Perm (cmds.flatMap givenValues ++ [] ++ w.madeValues) at this
    perms [this]

/-- Everything about one more call. -/
theorem call_outcome (code : Nat → Option (Code B K V Q)) (cmds : List (Cmd K V Q)) (hS : ∀ c, Cmd.new c ∈ cmds → Fit E c.maxChildren)
    {replies : List (Option (Reply V))} {f : Vars B} {w : World B K V Q} (hr : run E cmds [] (start code) = (.ok replies, f, w))
    (c : Cmd K V Q) (hc : ∀ d, c = .new d → Fit E d.maxChildren) :
    ∃ (X : Contents K V) (r : Except Stop (Reply V)) (f' : Vars B) (w' : World B K V Q) (X' : Contents K V),
      contents E f w.heap = .ok (X, w.heap) ∧ Cmd.run E c f w = (r, f', w') ∧ contents E f' w'.heap = .ok (X', w'.heap) ∧
      (match r with
        | .ok r => Effect X c r X'
        | .error .panic => Survived X c X'
        | .error .fatal => False) := by
  obtain ⟨rs, gs, w₀, L, hr', hg, _, g⟩ := run_outcome (E := E) code cmds hS
  rw [hr] at hr'
  cases hr'
  have H := g.tr.has
  rw [chunksT_append] at H
  obtain ⟨h1, -, -⟩ := contents_read (fun _ h => h) hg H.left
  have hgiven : chunksT (givenT (B := B) c) = [] := by cases c <;> rfl
  have key := cmd_spec (E := E) (fun _ h => h) hg c hc (.refl _) w (by rw [chunksT_append, hgiven, List.append_nil]; exact H.left)
  rcases hx : Cmd.run E c (rawF gs) w with ⟨r, f', w'⟩
  rw [hx] at key
  have read : ∀ {P : GF B K V → List (Thing B K V) → Prop} {R'}, FWhole E (Fit E) P f' R' → Go w (ownF E gs ++ givenT c) w' R' →
      ∃ gs' W, contents E f' w'.heap = .ok (contF gs', w'.heap) ∧ P gs' W := by
    rintro P R' ⟨gs', W, hg', rfl, hp, hP⟩ hgo
    have H' := (hgo.perm_right hp).tr.has
    rw [chunksT_append] at H'
    exact ⟨gs', W, (contents_read (fun _ h => h) hg' H'.left).1, hP⟩
  cases r with
  | ok r =>
    obtain ⟨R', h2, h3⟩ := key
    obtain ⟨gs', W, h4, h5⟩ := read h2 h3
    exact ⟨contF gs, _, f', w', contF gs', h1, rfl, h4, h5.2.1⟩
  | error e =>
    cases e with
    | panic =>
      obtain ⟨R', h2, h3⟩ := key
      obtain ⟨gs', W, h4, h5⟩ := read h2 h3
      exact ⟨contF gs, _, f', w', contF gs', h1, rfl, h4, h5.1⟩
    | fatal => exact key.elim

/-- C55: in any program, with user code that may panic at any call and answer anything at any call, with panics caught and the trees used
    further: a call that returns has done its job (`Effect`), whatever user code answered.  `insert` added the pair; `insert_unique` added the pair or
    replaced one value, which it returns; `remove` removed one pair, whose value it returns, or none; `get` returns a value of the tree; `len`
    is the number of pairs; a clone has as many pairs; nothing else has changed. -/
theorem C55_calls_that_return (code : Nat → Option (Code B K V Q)) (cmds : List (Cmd K V Q)) (hS : ∀ c, Cmd.new c ∈ cmds → Fit E c.maxChildren)
    {replies : List (Option (Reply V))} {f : Vars B} {w : World B K V Q} (hr : run E cmds [] (start code) = (.ok replies, f, w))
    (c : Cmd K V Q) (hc : ∀ d, c = .new d → Fit E d.maxChildren) {r : Reply V} {f' : Vars B} {w' : World B K V Q} (hx : Cmd.run E c f w = (.ok r, f', w')) :
    ∃ X X' : Contents K V, contents E f w.heap = .ok (X, w.heap) ∧ contents E f' w'.heap = .ok (X', w'.heap) ∧ Effect X c r X' := by
  obtain ⟨X, r', f'', w'', X', h1, h2, h3, h4⟩ := call_outcome code cmds hS hr c hc
  rw [hx] at h2
  cases h2
  exact ⟨X, X', h1, h3, h4⟩

/-- C56: a call that panics leaves all other trees as they were; `get`, `get_mut`, `len`, `is_empty` and `clone` leave all trees as they were; `insert`,
    `insert_unique` and `remove` can lose pairs of the tree they work on, but invent or duplicate none (`Survived`). -/
theorem C56_calls_that_panic_partial (code : Nat → Option (Code B K V Q)) (cmds : List (Cmd K V Q)) (hS : ∀ c, Cmd.new c ∈ cmds → Fit E c.maxChildren)
    {replies : List (Option (Reply V))} {f : Vars B} {w : World B K V Q} (hr : run E cmds [] (start code) = (.ok replies, f, w))
    (c : Cmd K V Q) (hc : ∀ d, c = .new d → Fit E d.maxChildren) {e : Stop} {f' : Vars B} {w' : World B K V Q} (hx : Cmd.run E c f w = (.error e, f', w')) :
    ∃ X X' : Contents K V, contents E f w.heap = .ok (X, w.heap) ∧ contents E f' w'.heap = .ok (X', w'.heap) ∧ Survived X c X' := by
  obtain ⟨X, r', f'', w'', X', h1, h2, h3, h4⟩ := call_outcome code cmds hS hr c hc
  rw [hx] at h2
  cases h2
  cases e with
  | panic => exact ⟨X, X', h1, h3, h4⟩
  | fatal => exact h4.elim

/-! ### Concrete programs -/

/-- User code for keys that are points on a line, with honest intervals; the seeds of a split are the first two children, and all others
    go to the first group. -/
def toyCode : Code (Nat × Nat) Nat Nat Nat where
  empty := (0, 0)
  union a b := (min a.1 b.1, max a.2 b.2)
  unionAll bs := bs.foldl (fun a b => (min a.1 b.1, max a.2 b.2)) (0, 0)
  contains a b := a.1 ≤ b.1 && b.2 ≤ a.2
  intersects a b := a.1 ≤ b.2 && b.1 ≤ a.2
  bounds k := (k, k)
  boundsQ k := (k, k)
  eq := (· == ·)
  eqQ := (· == ·)
  borrow := id
  cloneKey := id
  cloneValue := id
  select _ _ := some 0
  worst _ _ := some (0, 1)
  choice _ _ _ _ _ _ := some (true, 0)
  dropKey _ := some true
  dropBounds _ := some true

/-- Sizes on a 64-bit machine. -/
def toyEnv : TEnv := { node := ⟨32, 9223372036854775807, false, fun _ => 0⟩, entry := ⟨24, 9223372036854775807, false, fun _ => 0⟩ }

/-- The call number `n` of user code panics. -/
def panicAt (n : Nat) : Nat → Option (Code (Nat × Nat) Nat Nat Nat) := fun m => if m = n then none else some toyCode

/-- A tree with four pairs, which fill the root. -/
def toyCmds : List (Cmd Nat Nat Nat) := [.new ⟨4, 2⟩, .insert 0 0 10, .insert 0 9 19, .insert 0 3 13, .insert 0 4 14]

instance : DecidableEq (List (Nat × Nat)) := instDecidableEqList
instance : DecidableEq (Option (List (Nat × Nat))) := fun a b => a.instDecidableEq b
instance : DecidableEq (Contents Nat Nat) := instDecidableEqList

/-- The result of a program, without the memory. -/
def summary (code : Nat → Option (Code (Nat × Nat) Nat Nat Nat)) (cmds : List (Cmd Nat Nat Nat)) :
    Option (List Bool × Option (Contents Nat Nat)) :=
  match run toyEnv cmds [] (start code) with
  | (.ok rs, f, w) => some (rs.map Option.isSome, match contents toyEnv f w.heap with
    | .ok (X, _) => some X
    | .error _ => none)
  | _ => none

/-- The programs below meet the hypotheses. -/
theorem toy_fit : ∀ c, Cmd.new c ∈ toyCmds → Fit toyEnv c.maxChildren := by
  intro c hc
  simp only [toyCmds, List.mem_cons, List.not_mem_nil, or_false, Cmd.new.injEq, reduceCtorEq] at hc
  subst hc
  exact ⟨by decide, by decide, by decide⟩

/-- A program with 13 calls in which nothing panics: it splits a root, clones, removes, reinserts and drops. -/
def busyCmds : List (Cmd Nat Nat Nat) := toyCmds ++ [.insert 0 5 15, .clone 0, .insert 1 6 16, .remove 0 9, .insertUnique 1 3 33, .replace 1 4 44, .drop 0, .remove 1 7]

example : summary (fun _ => some toyCode) busyCmds =
    some (List.replicate 13 true, some [none, some [(0, 10), (6, 16), (3, 33), (4, 44), (9, 19), (5, 15)]]) := by decide +kernel

/-- The same program with a panic in the split: the third last call of user code before the tree is whole again. -/
example : summary (panicAt 30) busyCmds =
    some ([true, true, true, true, true, false, true, true, true, true, true, true, true], some [none, some [(0, 10), (6, 16), (3, 33), (4, 44), (5, 15)]]) := by
  decide +kernel

/-- A program and one more call, which panics: the contents before and after that call. -/
def lastCall (code : Nat → Option (Code (Nat × Nat) Nat Nat Nat)) (cmds : List (Cmd Nat Nat Nat)) (c : Cmd Nat Nat Nat) : Option (List Bool × Contents Nat Nat × Contents Nat Nat) :=
  match run toyEnv cmds [] (start code) with
  | (.ok rs, f, w) => match Cmd.run toyEnv c f w with
    | (.error .panic, f', w') => match contents toyEnv f w.heap, contents toyEnv f' w'.heap with
      | .ok (X, _), .ok (X', _) => some (rs.map Option.isSome, X, X')
      | _, _ => none
    | _ => none
  | _ => none

/-- The call number `n` of user code, if it is a destructor, panics. -/
def panicInDrop (n : Nat) : Nat → Option (Code (Nat × Nat) Nat Nat Nat) := fun m =>
  some (if m = n then { toyCode with dropKey := fun _ => some false, dropBounds := fun _ => some false } else toyCode)

/-- The destructor of the key panics in a removal: the pair is gone nevertheless. -/
example : lastCall (panicInDrop 27) toyCmds (.remove 0 9) =
    some (List.replicate 5 true, [some [(0, 10), (9, 19), (3, 13), (4, 14)]], [some [(0, 10), (4, 14), (3, 13)]]) := by decide +kernel

/-- The destructor of the bounds in a local variable panics in an insertion that has split the root: what had been split off is lost. -/
example : lastCall (panicInDrop 38) toyCmds (.insert 0 5 15) =
    some (List.replicate 5 true, [some [(0, 10), (9, 19), (3, 13), (4, 14)]], [some [(0, 10), (5, 15), (3, 13), (4, 14)]]) := by decide +kernel

/-- C56 as stated, without exceptions, is false: an insertion into a full root that panics while the root is split loses a pair that was in the tree before
    (here with the key 9), although it keeps the new one. -/
theorem C56_panicking_insert_loses_a_pair_refuted :
    ∃ (f f' : Vars (Nat × Nat)) (w w' : World (Nat × Nat) Nat Nat Nat) (replies : List (Option (Reply Nat))) (h h' : Raw.Heap (UCell (Nat × Nat) Nat Nat)),
      run toyEnv toyCmds [] (start (panicAt 30)) = (.ok replies, f, w) ∧ replies.map Option.isSome = List.replicate 5 true ∧
      Cmd.run toyEnv (.insert 0 5 15) f w = (.error .panic, f', w') ∧
      contents toyEnv f w.heap = .ok ([some [(0, 10), (9, 19), (3, 13), (4, 14)]], h) ∧
      contents toyEnv f' w'.heap = .ok ([some [(0, 10), (5, 15), (3, 13), (4, 14)]], h') := by
  have key : lastCall (panicAt 30) toyCmds (.insert 0 5 15) =
      some (List.replicate 5 true, [some [(0, 10), (9, 19), (3, 13), (4, 14)]], [some [(0, 10), (5, 15), (3, 13), (4, 14)]]) := by decide +kernel
  rw [lastCall] at key
  split at key
  next rs f w h1 =>
    split at key
    next f' w' h2 =>
      split at key
      next X h X' h' h3 h4 =>
        simp only [Option.some.injEq, Prod.mk.injEq] at key
        obtain ⟨k1, rfl, rfl⟩ := key
        exact ⟨f, f', w, w', rs, h, h', h1, k1, h2, h3, h4⟩
      next => cases key
    next => cases key
  next => cases key

/-- Does a program end in undefined behaviour? -/
def isFatal (code : Nat → Option (Code (Nat × Nat) Nat Nat Nat)) (cmds : List (Cmd Nat Nat Nat)) : Bool :=
  match run toyEnv cmds [] (start code) with
  | (.error .fatal, _, _) => true
  | _ => false

/-- C54 as stated, for every configuration, is false: with room for one child per node, the push that adds the second child of a new root panics, and the old
    root has two owners then; dropping both frees its memory twice. -/
theorem C54_one_child_double_free_refuted :
    (run toyEnv [.new ⟨1, 0⟩, .insert 0 1 1, .insert 0 2 2, .drop 0] [] (start fun _ => some toyCode)).1 = .error .fatal := by
  have key : isFatal (fun _ => some toyCode) [.new ⟨1, 0⟩, .insert 0 1 1, .insert 0 2 2, .drop 0] = true := by decide +kernel
  rw [isFatal] at key
  split at key
  next h => rw [h]
  next => cases key

end RTree.Unwind
