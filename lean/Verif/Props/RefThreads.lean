import Verif.Proofs.RefThreads
import Verif.Props.Updates
/-!
# C85: the references of one mutable iteration may be used by several threads at once

The client and the threads are in `Verif/RefThreads.lean`.
-/

namespace RTree

open Raw Raw.Forest

variable {B K V Q : Type} [Bounds B] [Volume B] [Bounded K B] [BEq K] [Bounded Q B] [BEq Q] {E : TEnv} {borrow : K → Q}

/-- Thread `i`, as far as the schedule lets it go, if it were alone and had the values `cells` for itself. -/
def RefThread.separate (owner : Nat → Nat) (code : Nat → RefCode V) (schedule : List Nat) (cells : List V) (i : Nat) : RefThread V × List V :=
  RefThread.runAlone (fun j => owner j == i) (code i) cells (schedule.count i)

/-- What it means that threads do not notice each other.  `addrs` are the positions of the entries to which references have been handed out, `cells` the values there before. -/
structure Separate (owner : Nat → Nat) (code : Nat → RefCode V) (schedule : List Nat) (addrs : List Nat) (before after : List (K × V)) (cells : List V) (ts : Nat → RefThread V) : Prop where
  /-- the values handed out -/
  handed : cells.map some = addrs.map fun a => (before[a]?).map (·.2)
  /-- every thread sees what it would see alone -/
  threads : ∀ i, ts i = (RefThread.separate owner code schedule cells i).1
  /-- a value handed out is what its owner has made of it -/
  values : ∀ j a, addrs[j]? = some a → (after[a]?).map (·.2) = (RefThread.separate owner code schedule cells (owner j)).2[j]?
  /-- nothing else changes -/
  others : ∀ a, a ∉ addrs → after[a]? = before[a]?
  keys : after.map (·.1) = before.map (·.1)

/-- From the end of the iteration on. -/
theorem Follow.separate {c : Config} {t : GTree B K V} {h h' : Raw.Heap (Cell B K V)} {s : Raw.Holding K V} {u : RTree.Holding B K V} (Z : Sizes E t.alloc.maxChildren)
    (F : Follow E c t h s u h') (hn : (u.refs.map Prod.snd).Nodup) (owner : Nat → Nat) (code : Nat → RefCode V) (schedule : List Nat) :
    ∃ ts mem es cells, refRun E owner s.refs code schedule (fun _ => .start) h' = .ok (ts, mem) ∧ Raw.RTree.iter E t.rawT mem = .ok (es, mem) ∧
      Separate owner code schedule (u.refs.map Prod.snd) u.tree.entries es cells ts := by
  obtain ⟨g, F⟩ := F
  have hent : u.tree.entries = ents t.level g := by rw [F.abs]; exact GTree.entries_abs _
  have hrefs : s.refs.map (fun r => some r.2) = (u.refs.map Prod.snd).map fun a => (places t.level t.root)[a]? := by
    have := congrArg (List.map Prod.snd) F.refs
    simpa [List.map_map, Function.comp_def] using this
  have hin : ∀ a ∈ u.refs.map Prod.snd, ∃ k v, (ents t.level g)[a]? = some (k, v) := by
    intro a ha
    have h1 : (places t.level t.root)[a]? ∈ (u.refs.map Prod.snd).map fun a => (places t.level t.root)[a]? := List.mem_map.2 ⟨a, ha, rfl⟩
    rw [← hrefs] at h1
    obtain ⟨r, _, h2⟩ := List.mem_map.1 h1
    rw [← places_skel, ← F.skel, places_skel] at h2
    obtain ⟨k, v, h3, _⟩ := place_at (E := E) (cap := t.alloc.maxChildren) t.level g a r.2 h2.symm
    exact ⟨k, v, h3⟩
  have hcells : ∀ l : List Nat, (∀ a ∈ l, ∃ k v, (ents t.level g)[a]? = some (k, v)) → ∃ cells : List V, cells.map some = l.map fun a => ((ents t.level g)[a]?).map (·.2) := by
    intro l
    induction l with
    | nil => exact fun _ => ⟨[], rfl⟩
    | cons a l ih =>
      intro hl
      obtain ⟨cells, hc⟩ := ih fun a ha => hl a (List.mem_cons_of_mem _ ha)
      obtain ⟨k, v, hv⟩ := hl a List.mem_cons_self
      exact ⟨v :: cells, by simp [hc, hv]⟩
  obtain ⟨cells, hc⟩ := hcells _ hin
  have hlen : cells.length = (u.refs.map Prod.snd).length := by simpa using congrArg List.length hc
  have P : ∃ g, Apart E c t h u.tree.entries owner (u.refs.map Prod.snd) (fun _ => .start) (fun i => RefThread.runAlone (fun j => owner j == i) (code i) cells 0) h' g := by
    refine ⟨g, F.skel, F.tr, by rw [← F.abs]; exact F.reach, fun _ => rfl, fun _ => hlen, fun j a ha => ?_, fun _ _ => by rw [hent], by rw [hent], fun i j old new hx => ?_⟩
    · show _ = cells[j]?
      have := congrArg (·[j]?) hc
      simp only [List.getElem?_map] at this
      rw [show u.refs[j]?.map Prod.snd = some a by rw [← List.getElem?_map]; exact ha] at this
      cases hx : cells[j]? with
      | none => rw [hx] at this; cases this
      | some v => rw [hx] at this; simpa using this.symm
    · exact absurd hx (by show (none : Option (Nat × V × V)) ≠ _; exact fun h => by cases h)
  obtain ⟨ts, mem, e1, g', P'⟩ := schedule_sim Z hrefs hn code cells schedule (fun _ => 0) P
  obtain ⟨es, e2, e3⟩ := iter_ok ⟨t.alloc, t.level, g'⟩ Z P'.tr.has P'.reach.shape
  have hraw : (GTree.mk t.alloc t.level g').rawT = t.rawT := by rw [GTree.rawT, GTree.rawT, ← raw_skel, P'.skel, raw_skel]
  rw [hraw] at e3
  have h4 : (GTree.abs ⟨t.alloc, t.level, g'⟩).entries = ents t.level g' := GTree.entries_abs _
  have hes : es = ents t.level g' := by
    rw [P'.reach.iter_eq] at e2
    cases e2
    exact h4
  subst hes
  have hz : ∀ i, (fun _ => 0 : Nat → Nat) i + schedule.count i = schedule.count i := fun i => Nat.zero_add _
  simp only [Nat.zero_add] at P'
  exact ⟨ts, mem, _, cells, e1, e3, by rw [hent]; exact hc, P'.same, P'.cells, P'.others, P'.keys⟩

variable {cmds : List (Cmd K V Q)} {vars : List (Option (Tree B K V))} {rawVars : List (Option (Raw.RTree B))} {mem : Raw.Heap (Cell B K V)}

/-- C85: `iter_mut` or `filter_iter_mut` is run, with any filter and with any use of the references meanwhile; then the references are handed out to threads in any way, and the threads
    read and write through them in any way that may depend on what they have seen.  For every schedule: there is no undefined behaviour; every thread gets the answers that it would get
    alone; and afterwards the tree holds, at each value handed out, what the owner of the reference has made of it, and otherwise exactly what it held before. -/
theorem C85_threads (R : Ran E borrow cmds vars rawVars mem) {i : Nat} {t : Tree B K V} (hi : vars[i]? = some (some t)) (flt : SpatialFilter B Q) (client : Client V)
    (owner : Nat → Nat) (code : Nat → RefCode V) (schedule : List Nat) :
    ∃ r s mem' refs, rawVars[i]? = some (some r) ∧ t.filterIterMut borrow flt = .ok refs ∧
      Raw.RTree.filterIterMut E borrow flt (Raw.Holding.yield E client) r ⟨[], []⟩ mem = .ok (s, mem') ∧
      ∃ ts mem'' es cells, refRun E owner s.refs code schedule (fun _ => .start) mem' = .ok (ts, mem'') ∧ Raw.RTree.iter E r mem'' = .ok (es, mem'') ∧
        Separate owner code schedule (refs.map Prod.snd) (refs.foldl (Holding.yield client) ⟨t, [], [], []⟩).tree.entries es cells ts := by
  obtain ⟨g, rfl, h1, S, H, c, hr⟩ := R.tree hi
  obtain ⟨refs, s, mem', e1, e2, F⟩ := filterIterMut_sim g S (yield_sim (c := c) S mem client) borrow flt hr.addressed_shape (Follow.init H hr)
  obtain ⟨refs', e3, hn⟩ := C28_no_alias hr borrow flt
  rw [e1] at e3
  cases e3
  have h2 := Holding.refs_yields client refs ⟨g.abs, [], [], []⟩
  simp only [List.nil_append] at h2
  obtain ⟨ts, mem'', es, cells, k1, k2, k3⟩ := Follow.separate S F (by rw [h2]; exact hn) owner code schedule
  rw [h2] at k3
  exact ⟨_, s, mem', refs, h1, e1, e2, ts, mem'', es, cells, k1, k2, k3⟩

/-- C85: the same for sorted mutable iteration, stopped after any number of references, with any ranking, even one that breaks its contract, and any priority queue. -/
theorem C85_sorted (R : Ran E borrow cmds vars rawVars mem) {i : Nat} {t : Tree B K V} (hi : vars[i]? = some (some t)) (q : SortedQuery B K) (k : Nat) (client : Client V)
    {refs : List (K × Nat)} (hq : t.filterFirstAscByMut (q.heap.heap _) q.ranking k = .ok refs) (owner : Nat → Nat) (code : Nat → RefCode V) (schedule : List Nat) :
    ∃ r s mem', rawVars[i]? = some (some r) ∧
      Raw.RTree.filterFirstAscByMut E (q.heap.heap _) q.ranking (Raw.Holding.yield E client) k r ⟨[], []⟩ mem = .ok (s, mem') ∧
      ∃ ts mem'' es cells, refRun E owner s.refs code schedule (fun _ => .start) mem' = .ok (ts, mem'') ∧ Raw.RTree.iter E r mem'' = .ok (es, mem'') ∧
        Separate owner code schedule (refs.map Prod.snd) (refs.foldl (Holding.yield client) ⟨t, [], [], []⟩).tree.entries es cells ts := by
  obtain ⟨g, rfl, h1, S, H, c, hr⟩ := R.tree hi
  have key := filterFirstAscByMut_sim g S (yield_sim (c := c) S mem client) q.heap ⟨q.calmBounds, q.calmKey⟩ k H (Follow.init H hr)
  rw [hq] at key
  obtain ⟨s, mem', e2, F⟩ := key
  obtain ⟨others, hp⟩ := Tree.filterFirstAscBy_sub hq
  have hn := (hp.map Prod.snd).nodup_iff.1 g.abs.addressed_nodup
  rw [List.map_append] at hn
  have h2 := Holding.refs_yields client refs ⟨g.abs, [], [], []⟩
  simp only [List.nil_append] at h2
  obtain ⟨ts, mem'', es, cells, k1, k2, k3⟩ := Follow.separate S F (by rw [h2]; exact (List.nodup_append.1 hn).1) owner code schedule
  rw [h2] at k3
  exact ⟨_, s, mem', h1, e2, ts, mem'', es, cells, k1, k2, k3⟩

/-! ### No data races -/

omit [Bounds B] [Volume B] [Bounded K B] [BEq K] [Bounded Q B] [BEq Q] in
/-- References at different places, handed out in any way: no two threads ever hold references to the same place. -/
theorem held_apart {refs : List (K × Place)} (hn : (refs.map fun x => Place.loc x.2).Nodup) (owner : Nat → Nat) {i i' j j' : Nat} {p p' : Place} (hne : i ≠ i')
    (h1 : heldBy owner refs i j = some p) (h2 : heldBy owner refs i' j' = some p') : p.loc ≠ p'.loc := by
  rw [heldBy] at h1 h2
  split at h1
  next ho =>
    split at h2
    next ho' =>
      intro hl
      have e1 : (refs.map fun x => Place.loc x.2)[j]? = some p.loc := by
        rw [List.getElem?_map]
        cases hx : refs[j]? with
        | none => rw [hx] at h1; cases h1
        | some r => rw [hx] at h1; cases h1; rfl
      have e2 : (refs.map fun x => Place.loc x.2)[j']? = some p'.loc := by
        rw [List.getElem?_map]
        cases hx : refs[j']? with
        | none => rw [hx] at h2; cases h2
        | some r => rw [hx] at h2; cases h2; rfl
      obtain ⟨l1, g1⟩ := List.getElem?_eq_some_iff.1 e1
      obtain ⟨l2, g2⟩ := List.getElem?_eq_some_iff.1 e2
      have : j = j' := (List.getElem_inj hn).1 (g1.trans (hl.trans g2.symm))
      exact hne (ho.symm.trans (this ▸ ho'))
    next => cases h2
  next => cases h1

/-- C85: no data race is possible: what two different threads can access through the references handed out to them are different places in memory. -/
theorem C85_no_race (R : Ran E borrow cmds vars rawVars mem) {i : Nat} {t : Tree B K V} (hi : vars[i]? = some (some t)) (flt : SpatialFilter B Q) (client : Client V) (owner : Nat → Nat) :
    ∃ r s mem', rawVars[i]? = some (some r) ∧ Raw.RTree.filterIterMut E borrow flt (Raw.Holding.yield E client) r ⟨[], []⟩ mem = .ok (s, mem') ∧
      ∀ i i' j j' p p', i ≠ i' → heldBy owner s.refs i j = some p → heldBy owner s.refs i' j' = some p' → p.loc ≠ p'.loc := by
  obtain ⟨r, s, mem', refs, h1, _, h3, _, h5⟩ := C84_no_alias R hi flt client
  exact ⟨r, s, mem', h1, h3, fun _ _ _ _ _ _ hne => held_apart h5 owner hne⟩

/-- C85: the same for sorted mutable iteration. -/
theorem C85_sorted_no_race (R : Ran E borrow cmds vars rawVars mem) {i : Nat} {t : Tree B K V} (hi : vars[i]? = some (some t)) (q : SortedQuery B K) (k : Nat) (client : Client V)
    {refs : List (K × Nat)} (hq : t.filterFirstAscByMut (q.heap.heap _) q.ranking k = .ok refs) (owner : Nat → Nat) :
    ∃ r s mem', rawVars[i]? = some (some r) ∧ Raw.RTree.filterFirstAscByMut E (q.heap.heap _) q.ranking (Raw.Holding.yield E client) k r ⟨[], []⟩ mem = .ok (s, mem') ∧
      ∀ i i' j j' p p', i ≠ i' → heldBy owner s.refs i j = some p → heldBy owner s.refs i' j' = some p' → p.loc ≠ p'.loc := by
  obtain ⟨r, h1, h2⟩ := C84_sorted_no_alias R hi q k client
  rw [hq] at h2
  obtain ⟨s, mem', h3, _, h5⟩ := h2
  exact ⟨r, s, mem', h1, h3, fun _ _ _ _ _ _ hne => held_apart h5 owner hne⟩

/-! ### What a thread alone does -/

omit [Bounds B] [Volume B] [Bounded K B] [BEq K] [Bounded Q B] [BEq Q] in
theorem RefThread.alone_inv (mine : Nat → Bool) (code : RefCode V) (cells : List V) : ∀ n,
    let s := RefThread.runAlone mine code cells n
    (∀ j old new, s.1.pending = some (j, old, new) → mine j = true ∧ s.2[j]? = some old) ∧ (s.1.given ++ cells).Perm (s.1.replies.flatMap Reply.returned ++ s.2) ∧
      ∀ j, mine j = false → s.2[j]? = cells[j]?
  | 0 => ⟨(fun _ _ _ h => by cases h), .refl _, fun _ _ => rfl⟩
  | n + 1 => by
    obtain ⟨h1, h2, h3⟩ := RefThread.alone_inv mine code cells n
    rw [RefThread.runAlone]
    generalize RefThread.runAlone mine code cells n = s at h1 h2 h3 ⊢
    dsimp only at h1 h2 h3 ⊢
    rw [RefThread.alone]
    cases hp : s.1.pending with
    | some x =>
      obtain ⟨j, old, new⟩ := x
      obtain ⟨hm, hj⟩ := h1 j old new hp
      dsimp only
      refine ⟨(fun _ _ _ h => by cases h), ?_, fun l hl => ?_⟩
      · obtain ⟨hlt, hget⟩ := List.getElem?_eq_some_iff.1 hj
        have e : s.2.Perm (old :: s.2.eraseIdx j) := by rw [← hget]; exact (List.getElem_cons_eraseIdx_perm hlt).symm
        have e' : (s.2.set j new).Perm (new :: s.2.eraseIdx j) := by
          have := (List.getElem_cons_eraseIdx_perm (l := s.2.set j new) (n := j) (by simpa using hlt)).symm
          rwa [List.getElem_set_self, List.eraseIdx_set_eq] at this
        simp only [List.flatMap_append, List.flatMap_cons, List.flatMap_nil, Reply.returned, Option.toList, List.append_nil]
        perms [h2, e, e']
      · rw [List.getElem?_set, if_neg (fun h => by subst h; rw [hm] at hl; cases hl)]
        exact h3 l hl
    | none =>
      cases code s.1.replies with
      | none => exact ⟨h1, h2, h3⟩
      | some x =>
        cases x with
        | read j =>
          dsimp only
          split
          next v hm hj =>
            refine ⟨(fun _ _ _ h => by rw [hp] at h; cases h), ?_, h3⟩
            simpa [Reply.returned] using h2
          next => exact ⟨h1, h2, h3⟩
        | replace j new =>
          dsimp only
          split
          next old hm hj =>
            refine ⟨fun _ _ _ h => ?_, h2, h3⟩
            cases h
            exact ⟨hm, hj⟩
          next => exact ⟨h1, h2, h3⟩

omit [Bounds B] [Volume B] [Bounded K B] [BEq K] [Bounded Q B] [BEq Q] in
/-- C85: no value is lost or duplicated by a thread alone, at any point: the values it has given away (written) and those that were there are
    those it has got back and those that are there; and it has not touched what it does not own. -/
theorem C85_account (mine : Nat → Bool) (code : RefCode V) (cells : List V) (n : Nat) :
    ((RefThread.runAlone mine code cells n).1.given ++ cells).Perm
        ((RefThread.runAlone mine code cells n).1.replies.flatMap Reply.returned ++ (RefThread.runAlone mine code cells n).2) ∧
      ∀ j, mine j = false → (RefThread.runAlone mine code cells n).2[j]? = cells[j]? :=
  (RefThread.alone_inv mine code cells n).2

omit [Bounds B] [Volume B] [Bounded K B] [BEq K] [Bounded Q B] [BEq Q] in
/-- C85: two accesses of a thread that is not in the middle of anything and whose next step is `mem::replace(r, v)` write `v` and give back what was there. -/
theorem C85_replace (mine : Nat → Bool) (code : RefCode V) {s : RefThread V} {cells : List V} {j : Nat} {v old : V} (hp : s.pending = none)
    (hc : code s.replies = some (.replace j v)) (hm : mine j = true) (hj : cells[j]? = some old) :
    RefThread.alone mine code (RefThread.alone mine code (s, cells)) = (⟨s.replies ++ [.moved (some old)], none, s.given ++ [v]⟩, cells.set j v) := by
  have h1 : RefThread.alone mine code (s, cells) = ({ s with pending := some (j, old, v) }, cells) := by
    rw [RefThread.alone]; dsimp only; rw [hp]; dsimp only; rw [hc]; dsimp only; rw [hm, hj]
  rw [h1, RefThread.alone]

omit [Bounds B] [Volume B] [Bounded K B] [BEq K] [Bounded Q B] [BEq Q] in
/-- C85: an access of a thread whose next step is a read shows the value. -/
theorem C85_read (mine : Nat → Bool) (code : RefCode V) {s : RefThread V} {cells : List V} {j : Nat} {v : V} (hp : s.pending = none)
    (hc : code s.replies = some (.read j)) (hm : mine j = true) (hj : cells[j]? = some v) :
    RefThread.alone mine code (s, cells) = ({ s with replies := s.replies ++ [.seen (some v)] }, cells) := by
  rw [RefThread.alone]; dsimp only; rw [hp]; dsimp only; rw [hc]; dsimp only; rw [hm, hj]

/-! ### Concrete cases -/

/-- The number of answers so far decides: thread `i` reads reference `i`, replaces it by what it has read plus 10, and reads it again. -/
def sampleRefCode (i : Nat) : RefCode Nat := fun rs =>
  match rs with
  | [] => some (.read i)
  | [.seen (some v)] => some (.replace i (v + 10))
  | [_, _] => some (.read i)
  | _ => none

/-- Two threads, their accesses mixed. -/
def sampleMix : List Nat := [0, 1, 0, 1, 1, 0, 1, 0]

/-- Thread 0 alone reads 3, replaces it by 13 and reads 13. -/
example : (RefThread.separate id sampleRefCode sampleMix [3, 5, 8] 0).1.replies.flatMap Reply.shown = [3, 13] ∧
    (RefThread.separate id sampleRefCode sampleMix [3, 5, 8] 0).2 = [13, 5, 8] := by decide +kernel

/-- The references that `iter_mut` yields for the second sample tree. -/
def sampleSecondRefs : List (AABB I32 2 × Nat) := (sampleSecond.filterIterMut id ⟨fun _ => true, fun _ => true⟩).getD []

theorem sampleSecond_refs : sampleSecond.filterIterMut id ⟨fun _ => true, fun _ => true⟩ = .ok sampleSecondRefs := Res.ok_getD [] (by decide +kernel)

/-- The six references of the second sample tree are handed out to six threads, two of which run, their accesses mixed: each sees its own write, their two values change and the
    others do not. -/
example : ∃ (r : Raw.RTree (AABB I32 2)) (s : Raw.Holding (AABB I32 2) Nat) (ts : Nat → RefThread Nat) (mem' mem'' : Raw.Heap (Cell (AABB I32 2) (AABB I32 2) Nat)) (es : List (AABB I32 2 × Nat)),
    refRun sampleEnv id s.refs sampleRefCode sampleMix (fun _ => .start) mem' = .ok (ts, mem'') ∧ Raw.RTree.iter sampleEnv r mem'' = .ok (es, mem'') ∧
    (ts 0).replies.flatMap Reply.shown = [61, 71] ∧ (ts 1).replies.flatMap Reply.shown = [5, 15] ∧ (es[0]?).map (·.2) = some 71 ∧ (es[1]?).map (·.2) = some 15 ∧
    (es[2]?).map (·.2) = some 3 := by
  obtain ⟨rawVars, mem, R⟩ := sample_ran
  have h2 : sampleOutcome.1[2]? = some (some sampleSecond) := variable_at _
  obtain ⟨r, s, mem', refs, h1, e1, h3, ts, mem'', es, cells, h4, h5, S⟩ := C85_threads R h2 ⟨fun _ => true, fun _ => true⟩ (fun _ => []) id sampleRefCode sampleMix
  rw [sampleSecond_refs] at e1
  cases e1
  have hc : cells = [61, 5, 3, 8, 7, 9] := by
    have h6 := S.handed.trans (show _ = [61, 5, 3, 8, 7, 9].map some by decide +kernel)
    exact (List.map_inj_right (fun _ _ h => Option.some.inj h)).1 h6
  subst hc
  have a0 : (sampleSecondRefs.map Prod.snd)[0]? = some 0 := by decide +kernel
  have a1 : (sampleSecondRefs.map Prod.snd)[1]? = some 1 := by decide +kernel
  have a2 : (sampleSecondRefs.map Prod.snd)[2]? = some 2 := by decide +kernel
  refine ⟨r, s, ts, mem', mem'', es, h4, h5, ?_, ?_, (S.values 0 0 a0).trans ?_, (S.values 1 1 a1).trans ?_, (S.values 2 2 a2).trans ?_⟩
  · rw [S.threads 0]; decide +kernel
  · rw [S.threads 1]; decide +kernel
  all_goals decide +kernel

/-- A sorted iteration stopped after three references, handed out in turn to two threads. -/
example {rawVars : List (Option (Raw.RTree (AABB I32 2)))} {mem : Raw.Heap (Cell (AABB I32 2) (AABB I32 2) Nat)} (R : Ran sampleEnv id sampleProgram sampleOutcome.1 rawVars mem) :=
  C85_sorted R (variable_at (i := 2) (by decide +kernel)) sampleQuery 3 sampleClient (Res.ok_getD [] (by decide +kernel)) (· % 2) sampleRefCode sampleMix

/-- No races there. -/
example {rawVars : List (Option (Raw.RTree (AABB I32 2)))} {mem : Raw.Heap (Cell (AABB I32 2) (AABB I32 2) Nat)} (R : Ran sampleEnv id sampleProgram sampleOutcome.1 rawVars mem) :=
  C85_sorted_no_race R (variable_at (i := 2) (by decide +kernel)) sampleQuery 3 sampleClient (Res.ok_getD [] (by decide +kernel)) (· % 2)

example {rawVars : List (Option (Raw.RTree (AABB I32 2)))} {mem : Raw.Heap (Cell (AABB I32 2) (AABB I32 2) Nat)} (R : Ran sampleEnv id sampleProgram sampleOutcome.1 rawVars mem) :=
  C85_no_race R (variable_at (i := 2) (by decide +kernel)) ⟨fun _ => true, fun _ => true⟩ sampleClient id

/-- Thread 1 replaces reference 1. -/
example := C85_replace (fun j => j == 1) (sampleRefCode 1) (s := ⟨[.seen (some 5)], none, []⟩) (cells := [3, 5, 8]) (j := 1) (v := 15) (old := 5) rfl rfl rfl rfl

/-- Thread 1 reads reference 1. -/
example := C85_read (fun j => j == 1) (sampleRefCode 1) (s := .start) (cells := [3, 5, 8]) (j := 1) (v := 5) rfl rfl rfl rfl

end RTree
