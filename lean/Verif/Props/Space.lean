import Verif.Props.Limits
import Verif.Props.Drop
import Verif.Proofs.Space
/-!
# Memory is linear in the number of entries (C77)
-/

namespace RTree

variable {B K V Q : Type} [Bounds B] [Volume B] [Bounded K B] [BEq K]
variable {c : Config} {P : K → Prop} {t : Tree B K V}

theorem Config.Sound.floor_pos (hs : c.Sound) : 2 ≤ Alloc.floor ⟨c.minChildren, c.maxChildren⟩ := by
  unfold Alloc.floor
  rcases hs with ⟨h1, h2⟩ | ⟨h1, h2⟩
  · rw [if_pos h2]; exact h1
  · dsimp only
    split <;> omega

/-- C77 for every sound configuration: all nodes but the root, times one less than the number of children they keep, are no more
    than the entries. -/
theorem C77_nodes_floor [VolumeLaws B] (hs : c.Sound) (hP : ∀ k, P k → VolumeLaws.volOk (Bounded.bounds k : B))
    (h : Reachable c P t) {n : Nat} (hn : t.len = .ok n) :
    (Alloc.floor ⟨c.minChildren, c.maxChildren⟩ - 1) * (t.nodes.length - 1) ≤ n ∧ t.nodes.length ≤ n + 1 := by
  obtain ⟨ht, -⟩ := h.treeOk_sound hs hP
  obtain rfl : t.entries.length = n := by
    have := C08_len h h.iter_eq
    rw [this] at hn; simpa using hn
  have hf := hs.floor_pos
  have h1 := ht.ok.space (by rw [h.treeOk_any.2]; omega)
  rw [h.treeOk_any.2] at h1
  have e : t.nodes.length - 1 = t.root.descendants.length := by simp [Tree.nodes]
  have e2 : t.nodes.length = t.root.descendants.length + 1 := by simp [Tree.nodes]
  unfold Tree.entries
  refine ⟨by rw [e]; omega, ?_⟩
  have := Nat.mul_le_mul_right t.root.descendants.length (show 1 ≤ Alloc.floor ⟨c.minChildren, c.maxChildren⟩ - 1 by omega)
  omega

/-- C77: if `2 ≤ min_children` and `2 * min_children ≤ max_children`, a tree with `n` entries has at most
    `1 + n / (min_children - 1)` nodes. -/
theorem C77_nodes_linear [VolumeLaws B] (h2 : 2 ≤ c.minChildren) (hm : 2 * c.minChildren ≤ c.maxChildren)
    (hP : ∀ k, P k → VolumeLaws.volOk (Bounded.bounds k : B)) (h : Reachable c P t) {n : Nat} (hn : t.len = .ok n) :
    t.nodes.length ≤ 1 + n / (c.minChildren - 1) := by
  have h1 := (C77_nodes_floor (.inl ⟨h2, hm⟩) hP h hn).1
  simp only [Alloc.floor, if_pos hm] at h1
  have : t.nodes.length - 1 ≤ n / (c.minChildren - 1) := (Nat.le_div_iff_mul_le (by omega)).2 (by rw [Nat.mul_comm]; exact h1)
  omega

example : sampleTree.nodes.length ≤ 1 + 9 / 1 := by
  let _ := sampleLaws
  exact C77_nodes_linear (c := cfg42) (P := SampleKey) (by decide) (by decide) (fun _ hk => hk.1) sample_reachable
    (C08_len sample_reachable sample_iter)

/-- C77 needs a sound configuration: with `min_children = 0` a tree without entries can have several nodes. -/
theorem C77_needs_sound : ∃ t : BoxTree, Reachable cfg20 (fun _ => True) t ∧ t.len = .ok 0 ∧ t.nodes.length = 3 := by
  refine ⟨hollowTree, Reachable.run .new (fun _ _ _ _ => trivial) (Res.ok_getD _ (by decide +kernel)), ?_, by decide +kernel⟩
  rw [Res.ok_getD (x := hollowTree.len) 7 (by decide +kernel)]
  congr 1; decide +kernel

namespace Raw

variable [Bounded Q B] [BEq Q] {E : TEnv} {borrow : K → Q}

/-- C77: at the end of any program over any number of trees, whatever their configurations, the bytes allocated and not freed are
    exactly those of the nodes of the trees that are left: room for `max_children` entries per leaf node, for `max_children` nodes
    per inner node. -/
theorem C77_bytes (cmds : List (Cmd K V Q)) (hS : ∀ c, Cmd.new c ∈ cmds → Sizes E c.maxChildren)
    {f' : List (Option (Tree B K V))} {outs : List (Reply V × List K × List V)} (hr : specProgram borrow [] cmds = .ok (f', outs)) :
    ∃ f evs h, program E borrow ([] : List (Option (Raw.RTree B))) cmds [] = .ok ((f, evs), h) ∧
      liveBytes h = (f'.map fun o => o.elim 0 (Tree.bytes E)).sum := by
  have key := program_sim (E := E) borrow cmds (gs := []) (h := []) (fun t ht => by cases ht) .nil hS
  have e1 : Forest.absF ([] : Forest B K V) = [] := rfl
  have e2 : Forest.rawF ([] : Forest B K V) = [] := rfl
  rw [e1, e2, hr] at key
  obtain ⟨⟨f, evs⟩, h, gs, h1, pr⟩ := key
  obtain rfl := pr.abs
  exact ⟨f, evs, h, h1, Forest.liveBytes_eq pr.tr⟩

theorem tree_bytes_le {s : Nat} (h1 : E.entry.size ≤ s) (h2 : E.node.size ≤ s) (t : Tree B K V) :
    t.bytes E ≤ t.alloc.maxChildren * s * t.nodes.length := by
  unfold Tree.bytes
  generalize t.nodes = ns
  induction ns with
  | nil => exact Nat.zero_le _
  | cons n ns ih =>
    rw [List.map_cons, List.sum_cons, List.length_cons, Nat.mul_add, Nat.mul_one]
    have : n.bytes E t.alloc.maxChildren ≤ t.alloc.maxChildren * s := by
      cases n
      · exact Nat.mul_le_mul_left _ h1
      · exact Nat.mul_le_mul_left _ h2
    omega

/-- C77: if all trees are made with sound configurations of at most `m` children, and neither a node nor an entry is larger than `s`
    bytes, then at the end of any program the bytes in use are at most `m * s` for each tree and each entry that is left.  The memory
    of removed entries is not kept. -/
theorem C77_bytes_linear [VolumeLaws B] (cmds : List (Cmd K V Q)) {m s : Nat}
    (hS : ∀ c, Cmd.new c ∈ cmds → Sizes E c.maxChildren) (hc : ∀ c, Cmd.new c ∈ cmds → c.Sound ∧ c.maxChildren ≤ m)
    (hk : ∀ cmd ∈ cmds, ∀ k, cmd.inserts = some k → VolumeLaws.volOk (Bounded.bounds k : B))
    (h1 : E.entry.size ≤ s) (h2 : E.node.size ≤ s)
    {f' : List (Option (Tree B K V))} {outs : List (Reply V × List K × List V)} (hr : specProgram borrow [] cmds = .ok (f', outs)) :
    ∃ f evs h, program E borrow ([] : List (Option (Raw.RTree B))) cmds [] = .ok ((f, evs), h) ∧
      liveBytes h ≤ m * s * (liveTrees f' + (remaining f').length) := by
  obtain ⟨f, evs, h, hp, hb⟩ := C77_bytes cmds hS hr
  refine ⟨f, evs, h, hp, ?_⟩
  rw [hb]
  have hreach := specProgram_reachable (C := fun c => c.Sound ∧ c.maxChildren ≤ m) (P := fun k => VolumeLaws.volOk (Bounded.bounds k : B))
    borrow (f := []) (fun t ht => by cases ht) hk hc hr
  clear hr hb hp
  induction f' with
  | nil => exact Nat.zero_le _
  | cons o fs ih =>
    have ih := ih fun t ht => hreach t (List.mem_cons_of_mem _ ht)
    rw [List.map_cons, List.sum_cons]
    cases o with
    | none => simpa [liveTrees, remaining] using ih
    | some t =>
      obtain ⟨c, ⟨hs, hm⟩, hr⟩ := hreach t (List.mem_cons_self ..)
      have a1 := (C77_nodes_floor hs (fun _ h => h) hr (C08_len hr hr.iter_eq)).2
      have a2 := tree_bytes_le h1 h2 t
      have a3 : t.alloc.maxChildren ≤ m := by rw [hr.treeOk_any.2]; exact hm
      have a4 : t.bytes E ≤ m * s * (t.entries.length + 1) :=
        a2.trans (Nat.mul_le_mul (Nat.mul_le_mul_right _ a3) a1)
      have e1 : liveTrees (some t :: fs) = liveTrees fs + 1 := rfl
      have e2 : (remaining (some t :: fs)).length = t.entries.length + (remaining fs).length := by
        simp [remaining]
      rw [e1, e2]
      have : m * s * (liveTrees fs + 1 + (t.entries.length + (remaining fs).length)) =
          m * s * (t.entries.length + 1) + m * s * (liveTrees fs + (remaining fs).length) := by
        rw [← Nat.mul_add]; congr 1; omega
      rw [this]
      exact Nat.add_le_add a4 ih

/-- The sample program ends with two trees and eight entries in 416 bytes. -/
example : ∃ f evs h, program (B := AABB I32 2) sampleEnv id [] sampleProgram [] = .ok ((f, evs), h) ∧
    liveBytes h = 416 := by
  obtain ⟨f, evs, h, h1, h2⟩ := C77_bytes (E := sampleEnv) sampleProgram sampleProgram_sizes sampleProgram_ok
  refine ⟨f, evs, h, h1, h2.trans ?_⟩
  decide +kernel

/-- It satisfies the hypotheses of the linear bound. -/
example : ∃ f evs h, program (B := AABB I32 2) sampleEnv id [] sampleProgram [] = .ok ((f, evs), h) ∧
    liveBytes h ≤ 4 * 32 * (liveTrees sampleOutcome.1 + (remaining sampleOutcome.1).length) := by
  let _ := sampleLaws
  refine C77_bytes_linear (E := sampleEnv) sampleProgram sampleProgram_sizes (fun c hc => ?_) (fun cmd hc k hk => ?_) (by decide) (by decide)
    sampleProgram_ok
  · have : c = cfg42 := by
      simp only [sampleProgram, List.mem_cons, Cmd.new.injEq, reduceCtorEq, false_or, List.not_mem_nil, or_false] at hc
      rcases hc with hc | hc <;> exact hc
    subst this
    exact ⟨cfg42_sound, by decide⟩
  · have : ∀ k ∈ sampleProgram.filterMap Cmd.inserts, SampleKey k := by decide +kernel
    exact (this k (List.mem_filterMap.2 ⟨cmd, hc, hk⟩)).1

end Raw

end RTree
