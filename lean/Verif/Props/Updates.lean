import Verif.Proofs.Updates
import Verif.Proofs.SortedSub
import Verif.Props.Reading
/-!
# C84: references handed out by mutable iteration

The trees are in raw memory (`Verif/Model/RawTree.lean`, `Verif/Model/RawMut.lean`), and a reference is a pointer into a block.  The client keeps every reference it receives and reads and
writes through any of them, in any order, also between two calls of `next` (`Verif/Updates.lean`).
-/

namespace RTree

open Raw Raw.Forest

variable {B K V Q : Type} [Bounds B] [Volume B] [Bounded K B] [BEq K] [Bounded Q B] [BEq Q] {E : TEnv} {borrow : K → Q}

/-- C84: run any program over any number of trees that, besides all the calls of C26, iterates mutably over trees (`iter_mut`, `filter_iter_mut`, `iter_asc_by_mut`, `filter_iter_asc_by_mut`,
    `min_by_mut`, `filter_min_by_mut`, stopped at any point) and uses the references in any way, for any filters and rankings.  Provided key-value pairs are not zero-sized and full vectors fit
    into memory, every read through a reference gives what it gives on values, the program panics exactly when it does on values, and never with undefined behaviour; every key and every value
    handed over is accounted for exactly once; and the blocks not freed are the nodes of the trees that are still there. -/
theorem C84_program (as : List (Act B K V Q)) (hS : ∀ c, Act.cmd (.new c) ∈ as → Sizes E c.maxChildren) :
    match specActs (B := B) borrow [] as with
    | .error e => acts E borrow ([] : List (Option (Raw.RTree B))) as [] = .error e ∧ UserPanic e
    | .ok (f', outs) => ∃ f evs h, acts E borrow ([] : List (Option (Raw.RTree B))) as [] = .ok ((f, evs), h) ∧
        evs.map (·.1) = outs.map (·.1) ∧
        (outs.flatMap fun o => o.2.1).Perm ((evs.flatMap fun e => e.2.1) ++ (remaining f').map (·.1)) ∧
        (outs.flatMap fun o => o.2.2).Perm ((evs.flatMap fun e => e.1.flatMap Reply.returned ++ e.2.2) ++ (remaining f').map (·.2)) ∧
        liveBlocks h = (remainingNodes f').length := by
  have key := acts_sim (E := E) borrow as (gs := []) (h := []) (fun t ht => by cases ht) .nil (by
    intro a ha
    cases a with
    | cmd c =>
      cases c with
      | new c => exact hS c ha
      | _ => trivial
    | _ => trivial)
  have e1 : Forest.absF ([] : Forest B K V) = [] := rfl
  have e2 : Forest.rawF ([] : Forest B K V) = [] := rfl
  rw [e1, e2] at key
  cases hx : specActs (B := B) borrow [] as with
  | error e => rw [hx] at key; exact key
  | ok r =>
    obtain ⟨f', outs⟩ := r
    rw [hx] at key
    obtain ⟨⟨f, evs⟩, h, gs, h1, pr⟩ := key
    obtain rfl := pr.abs
    refine ⟨f, evs, h, h1, pr.replies, ?_, ?_, Forest.liveBlocks_eq pr.tr⟩
    · rw [Forest.remaining_abs]
      have := pr.keys
      simpa [Forest.es] using this
    · rw [Forest.remaining_abs]
      have := pr.values
      simpa [Forest.es] using this

/-! ### No two references to the same value -/

omit [Bounds B] [Volume B] [Bounded K B] [BEq K] [Bounded Q B] [BEq Q] in
theorem Holding.refs_use (u : RTree.Holding B K V) (x : RefUse V) : (u.use x).refs = u.refs := by
  cases x with
  | read j => rw [Holding.use]; split <;> rfl
  | replace j v => rw [Holding.use]; split <;> rfl

omit [Bounds B] [Volume B] [Bounded K B] [BEq K] [Bounded Q B] [BEq Q] in
theorem Holding.refs_uses : ∀ (xs : List (RefUse V)) (u : RTree.Holding B K V), (xs.foldl Holding.use u).refs = u.refs
  | [], _ => rfl
  | x :: xs, u => (Holding.refs_uses xs _).trans (u.refs_use x)

omit [Bounds B] [Volume B] [Bounded K B] [BEq K] [Bounded Q B] [BEq Q] in
theorem Holding.refs_yields (client : Client V) : ∀ (refs : List (K × Nat)) (u : RTree.Holding B K V), (refs.foldl (Holding.yield client) u).refs = u.refs ++ refs
  | [], u => (List.append_nil _).symm
  | r :: refs, u => by
    rw [List.foldl_cons, Holding.refs_yields client refs, Holding.yield, Holding.refs_uses]
    simp

theorem locs_nodup {P : List Place} (hP : (P.map Place.loc).Nodup) : ∀ (xs : List (K × Place)) (ys : List (K × Nat)),
    xs.map (fun r => (r.1, some r.2)) = ys.map (fun r => (r.1, P[r.2]?)) → (ys.map Prod.snd).Nodup → (xs.map fun x => Place.loc x.2).Nodup
  | [], _, _, _ => .nil
  | x :: xs, [], h, _ => by cases h
  | x :: xs, y :: ys, h, hn => by
    simp only [List.map_cons, List.cons.injEq, Prod.mk.injEq] at h
    rw [List.map_cons, List.nodup_cons] at hn ⊢
    refine ⟨fun hm => hn.1 ?_, locs_nodup hP xs ys h.2 hn.2⟩
    obtain ⟨x', hx', e⟩ := List.mem_map.1 hm
    have hx'' : (x'.1, some x'.2) ∈ xs.map (fun r => (r.1, some r.2)) := List.mem_map.2 ⟨x', hx', rfl⟩
    rw [h.2] at hx''
    obtain ⟨y', hy', e'⟩ := List.mem_map.1 hx''
    simp only [Prod.mk.injEq] at e'
    have h1 : (P.map Place.loc)[y.2]? = some (Place.loc x.2) := by rw [List.getElem?_map, ← h.1.2]; rfl
    have h2 : (P.map Place.loc)[y'.2]? = some (Place.loc x'.2) := by rw [List.getElem?_map, e'.2]; rfl
    rw [e] at h2
    obtain ⟨l1, g1⟩ := List.getElem?_eq_some_iff.1 h1
    obtain ⟨l2, g2⟩ := List.getElem?_eq_some_iff.1 h2
    have : y'.2 = y.2 := (List.getElem_inj hP).1 (g2.trans g1.symm)
    exact List.mem_map.2 ⟨y', hy', this⟩

theorem Follow.locs {c : Config} {t : GTree B K V} {h h' : Raw.Heap (Cell B K V)} {s : Raw.Holding K V} {u : RTree.Holding B K V} (F : Follow E c t h s u h')
    (hn : (u.refs.map Prod.snd).Nodup) : (s.refs.map fun x => Place.loc x.2).Nodup ∧ s.refs.map Prod.fst = u.refs.map Prod.fst := by
  obtain ⟨g, F⟩ := F
  have hP := places_nodup (E := E) (cap := t.alloc.maxChildren) t.level g F.tr.has.nodup
  rw [← places_skel, F.skel, places_skel] at hP
  refine ⟨locs_nodup hP _ _ F.refs hn, ?_⟩
  have := congrArg (List.map Prod.fst) F.refs
  simpa [List.map_map, Function.comp_def] using this

variable {cmds : List (Cmd K V Q)} {vars : List (Option (Tree B K V))} {rawVars : List (Option (Raw.RTree B))} {mem : Raw.Heap (Cell B K V)}

/-- C84: all references that one iteration of `iter_mut` or `filter_iter_mut` hands out, with any filter, point to different values in memory, and come with the keys of the entries that
    `filter_iter_mut` yields on values, whatever the client does with them meanwhile. -/
theorem C84_no_alias (R : Ran E borrow cmds vars rawVars mem) {i : Nat} {t : Tree B K V} (hi : vars[i]? = some (some t)) (flt : SpatialFilter B Q) (client : Client V) :
    ∃ r s mem' refs, rawVars[i]? = some (some r) ∧ t.filterIterMut borrow flt = .ok refs ∧
      Raw.RTree.filterIterMut E borrow flt (Raw.Holding.yield E client) r ⟨[], []⟩ mem = .ok (s, mem') ∧
      s.refs.map Prod.fst = refs.map Prod.fst ∧ (s.refs.map fun x => Place.loc x.2).Nodup := by
  obtain ⟨g, rfl, h1, S, H, c, hr⟩ := R.tree hi
  obtain ⟨refs, s, mem', e1, e2, F⟩ := filterIterMut_sim g S (yield_sim (c := c) S mem client) borrow flt hr.addressed_shape (Follow.init H hr)
  obtain ⟨refs', e3, hn⟩ := C28_no_alias hr borrow flt
  rw [e1] at e3
  cases e3
  have h2 := Holding.refs_yields client refs ⟨g.abs, [], [], []⟩
  simp only [List.nil_append] at h2
  obtain ⟨h3, h4⟩ := Follow.locs F (by rw [h2]; exact hn)
  exact ⟨_, s, mem', refs, h1, e1, e2, by rw [h4, h2], h3⟩

/-- C84: the same for sorted mutable iteration, with any ranking (even one that breaks its contract), any priority queue and any number of calls of `next`. -/
theorem C84_sorted_no_alias (R : Ran E borrow cmds vars rawVars mem) {i : Nat} {t : Tree B K V} (hi : vars[i]? = some (some t)) (q : SortedQuery B K) (k : Nat) (client : Client V) :
    ∃ r, rawVars[i]? = some (some r) ∧
      match t.filterFirstAscByMut (q.heap.heap _) q.ranking k with
      | .ok refs => ∃ s mem', Raw.RTree.filterFirstAscByMut E (q.heap.heap _) q.ranking (Raw.Holding.yield E client) k r ⟨[], []⟩ mem = .ok (s, mem') ∧
          s.refs.map Prod.fst = refs.map Prod.fst ∧ (s.refs.map fun x => Place.loc x.2).Nodup
      | .error e => Raw.RTree.filterFirstAscByMut E (q.heap.heap _) q.ranking (Raw.Holding.yield E client) k r ⟨[], []⟩ mem = .error e ∧ UserPanic e := by
  obtain ⟨g, rfl, h1, S, H, c, hr⟩ := R.tree hi
  refine ⟨_, h1, ?_⟩
  have key := filterFirstAscByMut_sim g S (yield_sim (c := c) S mem client) q.heap ⟨q.calmBounds, q.calmKey⟩ k H (Follow.init H hr)
  cases hx : g.abs.filterFirstAscByMut (q.heap.heap _) q.ranking k with
  | error e => rw [hx] at key; exact key
  | ok refs =>
    rw [hx] at key
    obtain ⟨s, mem', e2, F⟩ := key
    obtain ⟨others, hp⟩ := Tree.filterFirstAscBy_sub hx
    have hn := (hp.map Prod.snd).nodup_iff.1 g.abs.addressed_nodup
    rw [List.map_append] at hn
    have h2 := Holding.refs_yields client refs ⟨g.abs, [], [], []⟩
    simp only [List.nil_append] at h2
    obtain ⟨h3, h4⟩ := Follow.locs F (by rw [h2]; exact (List.nodup_append.1 hn).1)
    exact ⟨s, mem', e2, by rw [h4, h2], h3⟩

/-! ### What the uses mean on values -/

omit [Bounds B] [Volume B] [Bounded K B] [BEq K] [Bounded Q B] [BEq Q] in
/-- C84: a value written through a reference is what that reference refers to afterwards; the other values, all keys and the structure of the tree are as before; and the old value is
    moved to the client. -/
theorem C84_write (u : RTree.Holding B K V) {j : Nat} {r : K × Nat} (hj : u.refs[j]? = some r) {old : K × V} (hv : u.tree.entries[r.2]? = some old) (v : V) :
    (u.use (.replace j v)).tree.entries = u.tree.entries.set r.2 (old.1, v) ∧ (u.use (.replace j v)).replies = u.replies ++ [.moved (some old.2)] ∧
      (u.use (.replace j v)).tree.erase = u.tree.erase := by
  have e : u.use (.replace j v) =
      { u with tree := u.tree.modifyAt r.2 fun _ => v, replies := u.replies ++ [.moved (u.value r.2)], given := u.given ++ [v] } := by
    rw [Holding.use, hj]
  rw [e]
  refine ⟨?_, ?_, Tree.erase_modifyAt _ _ _⟩
  · show (u.tree.modifyAt r.2 fun _ => v).entries = _
    rw [Tree.entries_modifyAt]
    refine List.ext_getElem? fun i => ?_
    rw [List.getElem?_modify, List.getElem?_set]
    obtain ⟨hl, _⟩ := List.getElem?_eq_some_iff.1 hv
    by_cases hi : r.2 = i
    · subst hi; simp [hl, (List.getElem?_eq_some_iff.1 hv).2]
    · simp [hi]
  · show u.replies ++ [.moved (u.value r.2)] = _
    rw [Holding.value, hv]; rfl

omit [Bounds B] [Volume B] [Bounded K B] [BEq K] [Bounded Q B] [BEq Q] in
/-- C84: reading through a reference shows the value it refers to and changes nothing. -/
theorem C84_read (u : RTree.Holding B K V) {j : Nat} {r : K × Nat} (hj : u.refs[j]? = some r) {e : K × V} (hv : u.tree.entries[r.2]? = some e) :
    u.use (.read j) = { u with replies := u.replies ++ [.seen (some e.2)] } := by
  rw [Holding.use, hj]
  show { u with replies := u.replies ++ [Reply.seen (u.value r.2)] } = _
  rw [Holding.value, hv]; rfl

/-! ### Concrete cases -/

/-- The values a client has read. -/
def Reply.shown {V : Type} : Reply V → List V
  | .seen o => o.toList
  | _ => []

/-- When it has the second reference, the client writes through the first, reads through both, writes through the second and reads through the first. -/
def sampleClient : Client Nat := fun n => if n = 2 then [.replace 0 100, .read 0, .read 1, .replace 1 200, .read 0] else []

/-- The sample program of C26, and then two mutable iterations over the tree in variable 2. -/
def sampleActs : List (Act (AABB I32 2) (AABB I32 2) Nat (AABB I32 2)) :=
  sampleProgram.map .cmd ++ [.update 2 ⟨fun _ => true, fun _ => true⟩ sampleClient, .updateAsc 2 sampleQuery 2 sampleClient]

/-- The outcome of `sampleActs` on values. -/
def sampleUpdated : List (Option BoxTree) × List (List (Reply Nat) × List (AABB I32 2) × List Nat) :=
  (specActs (B := AABB I32 2) id [] sampleActs).getD ([], [])

theorem sampleActs_ok : specActs (B := AABB I32 2) id [] sampleActs = .ok (sampleUpdated.1, sampleUpdated.2) :=
  Res.ok_getD ([], []) (by decide +kernel)

theorem sampleActs_sizes : ∀ c, Act.cmd (.new c) ∈ sampleActs → Sizes sampleEnv c.maxChildren := by
  intro c hc
  refine sampleProgram_sizes c ?_
  rcases List.mem_append.1 hc with hc | hc
  · obtain ⟨x, hx, e⟩ := List.mem_map.1 hc
    cases e
    exact hx
  · rcases List.mem_cons.1 hc with e | hc
    · cases e
    · rcases List.mem_cons.1 hc with e | hc
      · cases e
      · cases hc

/-- In memory the client reads its own writes, each through the right reference, gets the old values back, and no block is lost. -/
example : ∃ f evs h, acts (B := AABB I32 2) sampleEnv id [] sampleActs [] = .ok ((f, evs), h) ∧
    ((evs.map (·.1)).flatten.flatMap Reply.shown) = [70, 100, 5, 100, 100, 9, 100] ∧
    ((evs.map (·.1)).flatten.flatMap Reply.returned) = [2, 6, 1, 4, 60, 61, 5, 7, 9] ∧ liveBlocks h = 4 := by
  have key := C84_program (E := sampleEnv) (borrow := id) sampleActs sampleActs_sizes
  rw [sampleActs_ok] at key
  obtain ⟨f, evs, h, h1, h2, _, _, h5⟩ := key
  refine ⟨f, evs, h, h1, ?_, ?_, ?_⟩
  · rw [h2]; decide +kernel
  · rw [h2]; decide +kernel
  · rw [h5]; decide +kernel

/-- Six references at six places, and two of a sorted iteration. -/
example : ∃ (r : Raw.RTree (AABB I32 2)) (mem : Raw.Heap (Cell (AABB I32 2) (AABB I32 2) Nat)) (s s' : Raw.Holding (AABB I32 2) Nat) (m m' : Raw.Heap _),
    Raw.RTree.filterIterMut sampleEnv id ⟨fun _ => true, fun _ => true⟩ (Raw.Holding.yield sampleEnv sampleClient) r ⟨[], []⟩ mem = .ok (s, m) ∧
    s.refs.length = 6 ∧ (s.refs.map fun x => Place.loc x.2).Nodup ∧
    Raw.RTree.filterFirstAscByMut sampleEnv (sampleQuery.heap.heap _) sampleQuery.ranking (Raw.Holding.yield sampleEnv sampleClient) 2 r ⟨[], []⟩ mem = .ok (s', m') ∧
    s'.refs.length = 2 ∧ (s'.refs.map fun x => Place.loc x.2).Nodup := by
  obtain ⟨rawVars, mem, R⟩ := sample_ran
  have h2 : sampleOutcome.1[2]? = some (some sampleSecond) := variable_at _
  obtain ⟨r, s, m, refs, e1, e2, e3, e4, e5⟩ := C84_no_alias R h2 ⟨fun _ => true, fun _ => true⟩ sampleClient
  obtain ⟨r', e6, e7⟩ := C84_sorted_no_alias R h2 sampleQuery 2 sampleClient
  rw [e1] at e6
  cases e6
  have k1 : (sampleSecond.filterIterMut id ⟨fun _ => true, fun _ => true⟩).map List.length = .ok 6 := by
    rw [Res.ok_getD (x := sampleSecond.filterIterMut id ⟨fun _ => true, fun _ => true⟩) [] (by decide +kernel)]
    exact congrArg Except.ok (by decide +kernel)
  have k2 := Res.ok_getD (x := sampleSecond.filterFirstAscByMut (sampleQuery.heap.heap _) sampleQuery.ranking 2) [] (by decide +kernel)
  rw [k2] at e7
  obtain ⟨s', m', e8, e9, e10⟩ := e7
  rw [e2] at k1
  have k3 : refs.length = 6 := by injection k1
  have l1 := congrArg List.length e4
  have l2 := congrArg List.length e9
  rw [List.length_map, List.length_map] at l1 l2
  exact ⟨r, mem, s, s', m, m', e3, l1.trans k3, e5, e8, l2.trans (by decide +kernel), e10⟩

end RTree
