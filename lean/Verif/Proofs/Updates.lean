import Verif.Updates
import Verif.Proofs.RawMut
import Verif.Proofs.Forest
/-!
# Programs that change values in place: memory and values agree
-/

namespace RTree.Raw

variable {B K V Q S σ τ : Type} {E : TEnv} {h : Heap (Cell B K V)}

/-- The memory of a tree in which values may have been changed. -/
def MutInv (E : TEnv) (t : GTree B K V) (h : Heap (Cell B K V)) : Prop :=
  ∃ g' : G B K V t.level, skel t.level g' = skel t.level t.root ∧ Has h (chunks E t.alloc.maxChildren t.level g')

theorem at_root (t : GTree B K V) : At E t.alloc.maxChildren (MutInv E t) (places t.level t.root) t.level (skel t.level t.root) 0 where
  mem := fun hI => hI
  pos := fun j _ => by rw [Nat.zero_add, places_skel]

theorem addressed_weight (a : Nat) (n : Node B K V) : (n.addressed a).weight = n.weight := by
  rw [← Node.paired_snd, Node.weight_mapV]
  have := Node.weight_mapV Prod.fst (n.paired a)
  rw [Node.paired_fst] at this
  exact this.symm

section Trees

variable {R : σ → τ → Heap (Cell B K V) → Prop} {step : σ → K × Place → TM B K V σ} {stepv : τ → K × Nat → τ}

theorem filterIterMut_sim (t : GTree B K V) (Z : Sizes E t.alloc.maxChildren) (W : StepSim (MutInv E t) (places t.level t.root) R step stepv) (borrow : K → Q) (f : SpatialFilter B Q)
    (hsh : Shape t.abs.addressed.level t.abs.addressed.root) {s : σ} {u : τ} (hR : R s u h) :
    ∃ refs s' h', t.abs.filterIterMut borrow f = .ok refs ∧ RTree.filterIterMut E borrow f step t.rawT s h = .ok (s', h') ∧ R s' (refs.foldl stepv u) h' := by
  have hv := Tree.filterIter_of_shape borrow f hsh
  rw [Tree.filterIterMut, hv]
  have e1 : t.abs.addressed.root = (node t.level t.root).addressed 0 := rfl
  have hb : ((node t.level t.root).addressed 0).bounds = (raw t.root).bounds := by
    obtain ⟨a, l, r⟩ := t
    cases l <;> rfl
  have e2 : t.rawT.root = raw t.root := rfl
  rw [RTree.filterIterMut, e1, hb, e2]
  by_cases ht : f.testBounds (raw t.root).bounds = true
  · obtain ⟨s', h', e3, e4⟩ := mutNode_ok W Z borrow f t.level (skel t.level t.root) 0 s u h (at_root t) hR
    rw [addressed_skel] at e4
    rw [if_pos ht, if_pos ht]
    exact ⟨_, s', h', rfl, e3, e4⟩
  · rw [if_neg ht, if_neg ht]
    exact ⟨_, s, h, rfl, rfl, hR⟩

variable [LE S] {r : Ranking B K (Option S)}

theorem filterFirstAscByMut_sim (t : GTree B K V) (Z : Sizes E t.alloc.maxChildren) (W : StepSim (MutInv E t) (places t.level t.root) R step stepv) (u : UniformHeap (Score S))
    (hr : Calm r) (k : Nat) (H : Has h (t.own E)) {s : σ} {x : τ} (hR : R s x h) :
    match t.abs.filterFirstAscByMut (u.heap _) r k with
    | .ok refs => ∃ s' h', RTree.filterFirstAscByMut E (u.heap _) r step k t.rawT s h = .ok (s', h') ∧ R s' (refs.foldl stepv x) h'
    | .error e => RTree.filterFirstAscByMut E (u.heap _) r step k t.rawT s h = .error e ∧ UserPanic e := by
  have hw := weight_le t.level t.root H
  have e1 : t.abs.addressed.root = (node t.level t.root).addressed 0 := rfl
  have hb : ((node t.level t.root).addressed 0).bounds = (raw t.root).bounds := by
    obtain ⟨a, l, r⟩ := t
    cases l <;> rfl
  have e2 : t.rawT.root = raw t.root := rfl
  have e3 : t.rawT.sortedFuel = (t.alloc.maxChildren + 1) ^ (t.level + 1) + 1 := rfl
  have e4 : t.abs.addressed.sortedFuel = (node t.level t.root).weight + 1 := by
    show ((node t.level t.root).addressed 0).weight + 1 = _
    rw [addressed_weight]
  rw [Tree.filterFirstAscByMut, Tree.filterFirstAscBy, RTree.filterFirstAscByMut, FilterSortedIter.new, SortedMut.new, e1, e2, hb]
  cases hm : r.boundsMin (raw t.root).bounds with
  | error e => exact ⟨bind_err rfl, hr.1 _ _ hm⟩
  | ok o =>
    cases o with
    | none =>
      have := takeLoopMut_sim (u := u) (fuel := t.abs.addressed.sortedFuel) (fuel' := t.rawT.sortedFuel) W Z hr k (u.heap (GItemMut B K)).empty s x h hR
        (by rw [(u.heap _).items_empty]; intro x hx; cases hx) (by rw [(u.heap _).items_empty, e4]; simp [mutWeight]) (by rw [(u.heap _).items_empty, e3]; simp [mutWeight])
      rw [u.map_empty, u.map_empty] at this
      exact this
    | some m =>
      obtain ⟨h1, h2⟩ := queueMut_push (E := E) (cap := t.alloc.maxChildren) (Inv := MutInv E t) (P := places t.level t.root) (u := u) (gq := (u.heap (GItemMut B K)).empty)
        (by rw [(u.heap _).items_empty]; intro x hx; cases hx) (x := (⟨m, t.level + 1⟩, .node t.level (skel t.level t.root) 0)) ⟨rfl, at_root t⟩
      have e5 : (GItemMut.node t.level (skel t.level t.root) 0 : GItemMut B K).val.weight = (node t.level t.root).weight := by
        show ((node t.level (skel t.level t.root)).addressed 0).weight = _
        rw [addressed_skel, addressed_weight]
      rw [(u.heap _).items_empty] at h2
      simp only [mutWeight, List.map_nil, List.sum_nil, Nat.add_zero] at h2
      have := takeLoopMut_sim (u := u) (fuel := t.abs.addressed.sortedFuel) (fuel' := t.rawT.sortedFuel) W Z hr k _ s x h hR h1
        (by rw [e4]; simp only [mutWeight, h2, e5]; omega) (by rw [e3]; simp only [mutWeight, h2, e5]; omega)
      have e6 : GItemMut.val (GItemMut.node t.level (skel t.level t.root) 0 : GItemMut B K) = .node ((node t.level t.root).addressed 0) := by
        rw [GItemMut.val, addressed_skel]
      rw [u.map_push, u.map_push, u.map_empty, u.map_empty, e6] at this
      exact this

end Trees

/-! ### What the client does -/

section

variable [Bounds B] [Volume B] [Bounded K B] [BEq K]

/-- A client in memory and on values: the tree is now `⟨t.alloc, t.level, g⟩`. -/
structure Follows (E : TEnv) (c : Config) (t : GTree B K V) (h₀ : Heap (Cell B K V)) (s : Holding K V) (u : RTree.Holding B K V) (h : Heap (Cell B K V)) (g : G B K V t.level) : Prop where
  abs : u.tree = GTree.abs ⟨t.alloc, t.level, g⟩
  skel : skel t.level g = skel t.level t.root
  tr : Tr h₀ (t.own E) h (GTree.own E ⟨t.alloc, t.level, g⟩)
  replies : s.replies = u.replies
  refs : s.refs.map (fun r => (r.1, some r.2)) = u.refs.map fun r => (r.1, (places t.level t.root)[r.2]?)
  keys : ((ents t.level g).map (·.1)).Perm (t.es.map (·.1))
  values : (u.given ++ t.es.map (·.2)).Perm (s.replies.flatMap Reply.returned ++ (ents t.level g).map (·.2))
  reach : Reachable c (fun _ => True) u.tree

/-- There is such a tree. -/
def Follow (E : TEnv) (c : Config) (t : GTree B K V) (h₀ : Heap (Cell B K V)) (s : Holding K V) (u : RTree.Holding B K V) (h : Heap (Cell B K V)) : Prop :=
  ∃ g, Follows E c t h₀ s u h g

theorem Follow.init {c : Config} {t : GTree B K V} (H : Has h (t.own E)) (hr : Reachable c (fun _ => True) t.abs) : Follow E c t h ⟨[], []⟩ ⟨t.abs, [], [], []⟩ h :=
  ⟨t.root, rfl, rfl, .refl H, rfl, rfl, .refl _, .refl _, hr⟩

/-- What a reference refers to, in memory and on values. -/
theorem Follows.ref {c : Config} {t : GTree B K V} {h₀ : Heap (Cell B K V)} {s : Holding K V} {u : RTree.Holding B K V} {g : G B K V t.level} (F : Follows E c t h₀ s u h g)
    (j : Nat) : match s.refs[j]?, u.refs[j]? with
    | some r, some r' => (places t.level g)[r'.2]? = some r.2
    | none, none => True
    | _, _ => False := by
  have := congrArg (·[j]?) F.refs
  simp only [List.getElem?_map] at this
  rw [← places_skel, ← F.skel, places_skel] at this
  cases h1 : s.refs[j]? <;> cases h2 : u.refs[j]? <;> rw [h1, h2] at this
  · trivial
  · cases this
  · cases this
  · simp only [Option.map_some, Option.some.injEq, Prod.mk.injEq] at this
    exact this.2.symm

theorem use_sim {c : Config} {t : GTree B K V} (Z : Sizes E t.alloc.maxChildren) {h₀ : Heap (Cell B K V)} {s : Holding K V} {u : RTree.Holding B K V}
    (F : Follow E c t h₀ s u h) (x : RefUse V) : ∃ s' h', Holding.use E s x h = .ok (s', h') ∧ Follow E c t h₀ s' (u.use x) h' := by
  obtain ⟨g, F⟩ := F
  have hent : u.tree.entries = ents t.level g := by rw [F.abs]; exact GTree.entries_abs _
  cases x with
  | read j =>
    have hj := F.ref j
    rw [Holding.use, RTree.Holding.use]
    cases h1 : s.refs[j]? with
    | none =>
      cases h2 : u.refs[j]? with
      | none => exact ⟨s, h, rfl, g, F⟩
      | some r' => rw [h1, h2] at hj; exact hj.elim
    | some r =>
      cases h2 : u.refs[j]? with
      | none => rw [h1, h2] at hj; exact hj.elim
      | some r' =>
        rw [h1, h2] at hj
        obtain ⟨k, v, he, hp⟩ := place_at (E := E) (cap := t.alloc.maxChildren) t.level g r'.2 r.2 hj
        obtain ⟨k', e0⟩ := place_read Z F.tr.has hp
        have hv : u.value r'.2 = some v := by rw [RTree.Holding.value, hent, he]; rfl
        dsimp only
        rw [bind_ok e0, hv]
        refine ⟨_, _, rfl, g, F.abs, F.skel, F.tr, by rw [F.replies], F.refs, F.keys, ?_, F.reach⟩
        have := F.values
        simpa [Reply.returned] using this
  | replace j w =>
    have hj := F.ref j
    rw [Holding.use, RTree.Holding.use]
    cases h1 : s.refs[j]? with
    | none =>
      cases h2 : u.refs[j]? with
      | none => exact ⟨s, h, rfl, g, F⟩
      | some r' => rw [h1, h2] at hj; exact hj.elim
    | some r =>
      cases h2 : u.refs[j]? with
      | none => rw [h1, h2] at hj; exact hj.elim
      | some r' =>
        rw [h1, h2] at hj
        obtain ⟨k, v, he, hp⟩ := place_at (E := E) (cap := t.alloc.maxChildren) t.level g r'.2 r.2 hj
        obtain ⟨h', _, _, e0, ⟨g', hn, hs, rfl, rfl⟩, tr, hk, hvs⟩ := place_write Z F.tr.has hp w
        have hv : u.value r'.2 = some v := by rw [RTree.Holding.value, hent, he]; rfl
        dsimp only
        rw [bind_ok e0, hv]
        have htree : u.tree.modifyAt r'.2 (fun _ => w) = GTree.abs ⟨t.alloc, t.level, g'⟩ := by
          rw [F.abs, Tree.modifyAt, GTree.abs, GTree.abs]
          simp only [hn]
        refine ⟨_, _, rfl, g', htree, hs.trans F.skel, F.tr.trans tr, by rw [F.replies], F.refs, hk.trans F.keys, ?_, .modifyAt _ _ F.reach⟩
        have h3 := F.values
        simp only [List.flatMap_append, List.flatMap_cons, List.flatMap_nil, Reply.returned, Option.toList, List.append_nil]
        perms [h3, hvs]

theorem uses_sim {c : Config} {t : GTree B K V} (Z : Sizes E t.alloc.maxChildren) {h₀ : Heap (Cell B K V)} : ∀ (xs : List (RefUse V)) {s : Holding K V} {u : RTree.Holding B K V}
    {h : Heap (Cell B K V)}, Follow E c t h₀ s u h → ∃ s' h', xs.foldlM (Holding.use E) s h = .ok (s', h') ∧ Follow E c t h₀ s' (xs.foldl RTree.Holding.use u) h'
  | [], s, u, h, F => ⟨s, h, rfl, F⟩
  | x :: xs, s, u, h, F => by
    obtain ⟨s₁, h₁, e1, F₁⟩ := use_sim Z F x
    rw [List.foldlM_cons, bind_ok e1, List.foldl_cons]
    exact uses_sim Z xs F₁

theorem yield_sim {c : Config} {t : GTree B K V} (Z : Sizes E t.alloc.maxChildren) (h₀ : Heap (Cell B K V)) (client : Client V) :
    StepSim (MutInv E t) (places t.level t.root) (Follow E c t h₀) (Holding.yield E client) (RTree.Holding.yield client) where
  inv := fun ⟨g, F⟩ => ⟨g, F.skel, F.tr.has⟩
  sim := by
    intro s u h k a p ⟨g, F⟩ hp
    rw [Holding.yield, RTree.Holding.yield]
    have hlen : s.refs.length = u.refs.length := by simpa using congrArg List.length F.refs
    rw [hlen]
    refine uses_sim Z _ ⟨g, F.abs, F.skel, F.tr, F.replies, ?_, F.keys, F.values, F.reach⟩
    simp only [List.map_append, List.map_cons, List.map_nil, F.refs, hp]

open Forest

/-- One action: the memory it leaves, and the accounts. -/
structure ActRel (E : TEnv) (h : Heap (Cell B K V)) (gs : Forest B K V) (r : List (Option (Tree B K V)) × List (Reply V) × List K × List V)
    (s : List (Option (RTree B)) × List (Reply V) × List K × List V) (h' : Heap (Cell B K V)) (gs' : Forest B K V) : Prop where
  abs : r.1 = absF gs'
  raw : s.1 = rawF gs'
  replies : s.2.1 = r.2.1
  good : Good E gs'
  tr : Tr h (own E gs) h' (own E gs')
  keys : (r.2.2.1 ++ (es gs).map (·.1)).Perm (s.2.2.1 ++ (es gs').map (·.1))
  values : (r.2.2.2 ++ (es gs).map (·.2)).Perm (s.2.1.flatMap Reply.returned ++ s.2.2.2 ++ (es gs').map (·.2))

/-- An action with its outcome. -/
def ActSim (E : TEnv) (h : Heap (Cell B K V)) (gs : Forest B K V) (x : Res (List (Option (Tree B K V)) × List (Reply V) × List K × List V))
    (y : Res ((List (Option (RTree B)) × List (Reply V) × List K × List V) × Heap (Cell B K V))) : Prop :=
  match x with
  | .ok r => ∃ s h' gs', y = .ok (s, h') ∧ ActRel E h gs r s h' gs'
  | .error e => y = .error e ∧ UserPanic e

theorem withTree_act {gs : Forest B K V} (hg : Good E gs) (H : Has h (own E gs)) (i : Nat)
    {x : Tree B K V → Res (List (Option (Tree B K V)) × List (Reply V) × List K × List V)}
    {y : RTree B → TM B K V (List (Option (RTree B)) × List (Reply V) × List K × List V)}
    (key : ∀ t c, gs[i]? = some (some t) → Sizes E t.alloc.maxChildren → Reachable c (fun _ => True) t.abs → Has h (t.own E) → ActSim E h gs (x t.abs) (y t.rawT h)) :
    ActSim E h gs (withTree (absF gs) i ([], [], []) x) (withTree (rawF gs) i ([], [], []) y h) := by
  by_cases hi : ∃ t, gs[i]? = some (some t)
  · obtain ⟨t, hi⟩ := hi
    have h1 : (absF gs)[i]? = some (some t.abs) := by simp [absF, hi]
    have h2 : (rawF gs)[i]? = some (some t.rawT) := by simp [rawF, hi]
    rw [withTree_some h1, withTree_some h2]
    obtain ⟨S, c, hr⟩ := hg t (List.mem_of_getElem? hi)
    exact key t c hi S hr (H.perm (own_get hi)).left
  · have h1 : ∀ t, (absF gs)[i]? ≠ some (some t) := by
      intro t ht
      simp only [absF, List.getElem?_map, Option.map_eq_some_iff] at ht
      obtain ⟨o, ho, t', rfl, _⟩ := ht
      exact hi ⟨t', ho⟩
    have h2 : ∀ t, (rawF gs)[i]? ≠ some (some t) := by
      intro t ht
      simp only [rawF, List.getElem?_map, Option.map_eq_some_iff] at ht
      obtain ⟨o, ho, t', rfl, _⟩ := ht
      exact hi ⟨t', ho⟩
    rw [withTree_none h1, withTree_none h2]
    exact ⟨_, h, gs, rfl, rfl, rfl, rfl, hg, .refl H, .refl _, .refl _⟩

/-- When the client is done with the references. -/
theorem Follow.act {gs : Forest B K V} (hg : Good E gs) (H : Has h (own E gs)) {i : Nat} {t : GTree B K V} {c : Config} (hi : gs[i]? = some (some t))
    (Z : Sizes E t.alloc.maxChildren) {s : Holding K V} {u : RTree.Holding B K V} {h' : Heap (Cell B K V)} (F : Follow E c t h s u h') :
    ∃ gs', ActRel E h gs ((absF gs).set i (some u.tree), u.replies, [], u.given) (rawF gs, s.replies, [], []) h' gs' := by
  obtain ⟨g, F⟩ := F
  have hraw : (GTree.mk t.alloc t.level g).rawT = t.rawT := by
    rw [GTree.rawT, GTree.rawT, ← raw_skel, F.skel, raw_skel]
  refine ⟨gs.set i (some ⟨t.alloc, t.level, g⟩), ?_, ?_, F.replies, ?_, own_step H hi F.tr, ?_, ?_⟩
  · show (absF gs).set i (some u.tree) = _
    rw [← absF_set, Option.map_some, ← F.abs]
  · show rawF gs = _
    rw [← rawF_set, Option.map_some, hraw, rawF]
    obtain ⟨hl, he⟩ := List.getElem?_eq_some_iff.1 hi
    refine (List.ext_getElem? fun j => ?_).symm
    rw [List.getElem?_set]
    split
    next hj => subst hj; rw [List.getElem?_map, hi, if_pos (by simpa using hl)]; rfl
    next => rfl
  · exact hg.set i Z (c := c) (by rw [← F.abs]; exact F.reach)
  · exact acct (·.1) hi (some ⟨t.alloc, t.level, g⟩) (g := []) (d := []) F.keys.symm
  · refine acct (·.2) hi (some ⟨t.alloc, t.level, g⟩) ?_
    simp only [List.append_nil]
    exact F.values

variable [Bounded Q B] [BEq Q]

/-- What the variables in an action must satisfy: full vectors fit into memory. -/
def actFits (E : TEnv) : Act B K V Q → Prop
  | .cmd (.new c) => Sizes E c.maxChildren
  | _ => True

theorem act_sim (borrow : K → Q) {gs : Forest B K V} (hg : Good E gs) (H : Has h (own E gs)) (a : Act B K V Q) (hS : actFits E a) :
    ActSim E h gs (a.spec borrow (absF gs)) (Act.raw E borrow (rawF gs) a h) := by
  cases a with
  | cmd cmd =>
    have h1 := cmd_sim borrow hg H cmd (fun c hc => by subst hc; exact hS)
    rw [Act.spec, Act.raw]
    cases hx : cmd.spec borrow (absF gs) with
    | error e =>
      have hu := spec_err borrow (f := absF gs) (by
        intro t ht
        simp only [absF, List.mem_map, Option.map_eq_some_iff] at ht
        obtain ⟨_, ho, t', rfl, rfl⟩ := ht
        exact (hg t' ho).2) cmd hx
      rw [hx] at h1
      refine ⟨?_, hu⟩
      rcases hu with rfl | rfl | rfl | rfl <;> exact bind_err h1
    | ok r =>
      rw [hx] at h1
      obtain ⟨s, h₁, e1, gs₁, st⟩ := h1
      refine ⟨_, h₁, gs₁, bind_ok e1, st.abs, st.raw, ?_, st.good, st.tr, st.keys, ?_⟩
      · show [s.2.reply] = [r.2.1]
        rw [st.reply]
      · have := st.values
        simpa using this
  | update i f client =>
    refine withTree_act hg H i fun t c hi Z hr Ht => ?_
    obtain ⟨refs, s', h', e1, e2, F⟩ := filterIterMut_sim t Z (yield_sim (c := c) Z h client) borrow f hr.addressed_shape (Follow.init Ht hr)
    rw [e1, ok_bind, bind_ok e2]
    obtain ⟨gs', A⟩ := F.act hg H hi Z
    exact ⟨_, h', gs', rfl, A⟩
  | updateAsc i q k client =>
    refine withTree_act hg H i fun t c hi Z hr Ht => ?_
    have key := filterFirstAscByMut_sim t Z (yield_sim (c := c) Z h client) q.heap ⟨q.calmBounds, q.calmKey⟩ k Ht (Follow.init Ht hr)
    cases hx : t.abs.filterFirstAscByMut (q.heap.heap _) q.ranking k with
    | error e =>
      rw [hx] at key
      exact ⟨bind_err key.1, key.2⟩
    | ok refs =>
      rw [hx] at key
      obtain ⟨s', h', e2, F⟩ := key
      rw [ok_bind, bind_ok e2]
      obtain ⟨gs', A⟩ := F.act hg H hi Z
      exact ⟨_, h', gs', rfl, A⟩

/-- What is known after several actions. -/
structure ActsRel (E : TEnv) (h : Heap (Cell B K V)) (gs : Forest B K V) (f : List (Option (Tree B K V))) (outs : List (List (Reply V) × List K × List V))
    (s : List (Option (RTree B)) × List (List (Reply V) × List K × List V)) (h' : Heap (Cell B K V)) (gs' : Forest B K V) : Prop where
  abs : f = absF gs'
  raw : s.1 = rawF gs'
  replies : s.2.map (·.1) = outs.map (·.1)
  good : Good E gs'
  tr : Tr h (own E gs) h' (own E gs')
  keys : (outs.flatMap (·.2.1) ++ (es gs).map (·.1)).Perm (s.2.flatMap (·.2.1) ++ (es gs').map (·.1))
  values : (outs.flatMap (·.2.2) ++ (es gs).map (·.2)).Perm ((s.2.flatMap fun e => e.1.flatMap Reply.returned ++ e.2.2) ++ (es gs').map (·.2))

theorem acts_sim (borrow : K → Q) : ∀ (as : List (Act B K V Q)) {gs : Forest B K V} {h : Heap (Cell B K V)}, Good E gs → Has h (own E gs) → (∀ a ∈ as, actFits E a) →
    match specActs borrow (absF gs) as with
    | .ok (f, outs) => ∃ s h' gs', acts E borrow (rawF gs) as h = .ok (s, h') ∧ ActsRel E h gs f outs s h' gs'
    | .error e => acts E borrow (rawF gs) as h = .error e ∧ UserPanic e
  | [], gs, h, hg, H, _ => ⟨_, _, gs, rfl, rfl, rfl, rfl, hg, .refl H, .refl _, .refl _⟩
  | a :: as, gs, h, hg, H, hS => by
    have h1 := act_sim borrow hg H a (hS a List.mem_cons_self)
    rw [specActs, acts]
    cases hx : a.spec borrow (absF gs) with
    | error e => rw [hx] at h1; exact ⟨bind_err h1.1, h1.2⟩
    | ok r =>
      rw [hx] at h1
      obtain ⟨s, h₁, gs₁, e1, st⟩ := h1
      obtain ⟨f₁, o⟩ := r
      obtain ⟨rf₁, ev⟩ := s
      obtain rfl : f₁ = absF gs₁ := st.abs
      obtain rfl : rf₁ = rawF gs₁ := st.raw
      have ih := acts_sim borrow as st.good st.tr.has (fun c hc => hS c (List.mem_cons_of_mem _ hc))
      rw [ok_bind, bind_ok e1]
      simp only
      cases hy : specActs borrow (absF gs₁) as with
      | error e => rw [hy] at ih; exact ⟨bind_err ih.1, ih.2⟩
      | ok r =>
        obtain ⟨f, outs⟩ := r
        rw [hy] at ih
        obtain ⟨⟨rf, evs⟩, h₂, gs₂, e2, pr⟩ := ih
        refine ⟨(rf, ev :: evs), h₂, gs₂, by rw [bind_ok e2]; rfl, pr.abs, pr.raw, ?_, pr.good, st.tr.trans pr.tr, ?_, ?_⟩
        · rw [List.map_cons, List.map_cons, ← pr.replies, ← st.replies]
        · rw [List.flatMap_cons, List.flatMap_cons]
          have hk1 := st.keys
          have hk2 := pr.keys
          simp only at hk1 hk2 ⊢
          exact program_sim.chain hk1 hk2
        · rw [List.flatMap_cons, List.flatMap_cons]
          have hk1 := st.values
          have hk2 := pr.values
          simp only at hk1 hk2 ⊢
          exact program_sim.chain hk1 hk2

end

end RTree.Raw
