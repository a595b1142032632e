import Verif.Proofs.Forest
import Verif.SpaceSpec
/-!
# Counting nodes and bytes (C77)
-/

namespace RTree

variable {B K V Q : Type}

section

variable [Bounds B] [Volume B] [Bounded K B]

/-- Nodes with at least `f` children each are fewer than their entries. -/
theorem Ok.space [VolumeLaws B] {rel : B → List B → Prop} {a : Alloc} {l : Nat} {n : Node B K V}
    (hf : 1 ≤ a.floor) (h : Ok rel a True l n) : (a.floor - 1) * n.descendants.length + n.fanout ≤ n.entries.length := by
  induction l generalizing n with
  | zero => obtain ⟨b, es, rfl, _⟩ := h.leaf; simp [Node.fanout, Node.descendants]
  | succ l ih =>
    obtain ⟨b, cs, rfl, _, _, hcs⟩ := h.inner
    have key : ∀ cs : List (Node B K V), (∀ c ∈ cs, ChildOk rel a True l c) →
        (a.floor - 1) * (descendantsList cs).length + cs.length ≤ (entriesList cs).length := by
      intro cs
      induction cs with
      | nil => simp [descendantsList]
      | cons c cs ihc =>
        intro hcs
        have hc := hcs c (by simp)
        have h1 := ih hc.1
        have h2 := ihc fun x hx => hcs x (by simp [hx])
        have h3 := (hc.2.1 trivial).1
        simp only [List.length_cons, entriesList_cons, List.length_append, descendantsList, Nat.mul_add, Nat.mul_one]
        generalize a.floor = f at *
        omega
    simpa [Node.fanout, Node.descendants] using key cs hcs

end

namespace Raw

/-- The bytes of the block with the given number. -/
def bytesAt {α : Type} (h : Heap α) (b : Nat) : Nat := (h[b]?).join.elim 0 Block.bytes

theorem sum_filter_zero (g : Nat → Nat) (p : Nat → Bool) : ∀ l : List Nat, (∀ b ∈ l, p b = false → g b = 0) →
    ((l.filter p).map g).sum = (l.map g).sum
  | [], _ => rfl
  | b :: l, h => by
    have ih := sum_filter_zero g p l fun x hx => h x (List.mem_cons_of_mem _ hx)
    rw [List.filter_cons]
    cases hp : p b with
    | true => simp only [if_true, List.map_cons, List.sum_cons, ih]
    | false =>
      have := h b (by simp) hp
      simp only [List.map_cons, List.sum_cons, ih, this, Nat.zero_add, Bool.false_eq_true, if_false]

theorem liveBytes_sum {α : Type} {h : Heap α} {bs : List Nat} (hn : bs.Nodup) (hb : ∀ b ∈ bs, b < h.length)
    (hd : ∀ b, b < h.length → b ∉ bs → h[b]? = some none) : liveBytes h = (bs.map (bytesAt h)).sum := by
  classical
  have e : h = (List.range h.length).map fun b => (h[b]?).join := by
    refine List.ext_getElem? fun i => ?_
    rw [List.getElem?_map]
    by_cases hi : i < h.length
    · rw [List.getElem?_range hi, Option.map_some, List.getElem?_eq_getElem hi]; rfl
    · rw [List.getElem?_eq_none (by omega), List.getElem?_eq_none (by simpa using hi)]; rfl
  have e2 : liveBytes h = ((List.range h.length).map (bytesAt h)).sum := by
    show (h.map _).sum = _
    conv => lhs; rw [e]
    rw [List.map_map]; rfl
  rw [e2, ← sum_filter_zero (bytesAt h) (fun b => decide (b ∈ bs)) (List.range h.length) (fun b hb hm => by
    rw [bytesAt, hd b (List.mem_range.1 hb) (of_decide_eq_false hm)]; rfl)]
  refine List.Perm.sum_nat (List.Perm.map _ ?_)
  rw [List.perm_ext_iff_of_nodup (List.nodup_range.filter _) hn]
  intro b
  simp only [List.mem_filter, List.mem_range, decide_eq_true_iff]
  exact ⟨fun h => h.2, fun hm => ⟨hb b hm, hm⟩⟩

theorem vec_bytes {E : Env} {cap : Nat} {h : Heap (Cell B K V)} {v : FCVec} {l : List (Cell B K V)} (H : Owns E cap h v l) :
    ((vecC E cap v l).fp.map (bytesAt h)).sum = cap * E.size := by
  obtain ⟨s, ⟨h1, _⟩, _⟩ := H.mem
  show bytesAt h v.buf.block + 0 = _
  rw [bytesAt, h1]; rfl

theorem sum_append_nat (a b : List Nat) : (a ++ b).sum = a.sum + b.sum := by simp

/-- The blocks of a node and of the nodes below it. -/
theorem chunks_bytes (E : TEnv) (cap : Nat) {h : Heap (Cell B K V)} : ∀ (l : Nat) (g : G B K V l), (∀ c ∈ chunks E cap l g, c.holds h) →
    ((fps (chunks E cap l g)).map (bytesAt h)).sum =
      (node l g).bytes E cap + ((node l g).descendants.map (Node.bytes E cap)).sum
  | 0, g, H => by
    have : chunksL (B := B) E cap 0 g.kids = [] := by
      rw [chunksL, List.flatMap_eq_nil_iff]
      intro x _; rfl
    have hv := vec_bytes (H _ (List.mem_cons_self ..))
    rw [chunks, this, node, Node.descendants]
    rw [fps_cons, List.map_append, sum_append_nat, hv]
    rfl
  | l + 1, g, H => by
    have hv := vec_bytes (H _ (List.mem_cons_self ..))
    rw [chunks, node, Node.descendants, fps_cons, List.map_append, sum_append_nat, hv]
    have H2 : ∀ c ∈ chunksL E cap (l + 1) g.kids, c.holds h := fun c hc => H c (List.mem_cons_of_mem _ hc)
    have : ((fps (chunksL E cap (l + 1) g.kids)).map (bytesAt h)).sum = ((descendantsList (g.kids.map (node l))).map (Node.bytes E cap)).sum := by
      revert H2
      induction g.kids with
      | nil => intro _; rfl
      | cons c cs ih =>
        intro H2
        rw [chunksL, List.flatMap_cons] at H2
        have h1 := chunks_bytes E cap l c fun x hx => H2 x (List.mem_append_left _ hx)
        have h2 := ih fun x hx => H2 x (List.mem_append_right _ hx)
        rw [chunksL, List.flatMap_cons, fps_append, List.map_append, sum_append_nat, List.map_cons, descendantsList, List.map_cons,
          List.map_append, List.sum_cons, sum_append_nat, h2, chunksI_succ, h1]
        omega
    rw [this]; rfl

namespace Forest

variable {E : TEnv} {h : Heap (Cell B K V)}

theorem own_bytes [Bounds B] [Volume B] [Bounded K B] [BEq K] (gs : Forest B K V) (H : ∀ c ∈ own E gs, c.holds h) :
    ((fps (own E gs)).map (bytesAt h)).sum = ((absF gs).map fun o => o.elim 0 (Tree.bytes E)).sum := by
  induction gs with
  | nil => rfl
  | cons o gs ih =>
    have e1 : own E (o :: gs) = o.elim [] (GTree.own E) ++ own E gs := rfl
    have e2 : absF (o :: gs) = o.map GTree.abs :: absF gs := rfl
    rw [e1] at H
    rw [e1, e2, fps_append, List.map_append, sum_append_nat, List.map_cons, List.sum_cons, ih fun c hc => H c (List.mem_append_right _ hc)]
    congr 1
    cases o with
    | none => rfl
    | some t =>
      have := chunks_bytes E t.alloc.maxChildren t.level t.root fun c hc => H c (List.mem_append_left _ hc)
      show ((fps (chunks E t.alloc.maxChildren t.level t.root)).map (bytesAt h)).sum = _
      rw [this]; rfl

/-- Starting from an empty memory, the bytes in use are those of the nodes of the trees. -/
theorem liveBytes_eq [Bounds B] [Volume B] [Bounded K B] [BEq K] {gs : Forest B K V} (t : Tr [] [] h (own E gs)) :
    liveBytes h = ((absF gs).map fun o => o.elim 0 (Tree.bytes E)).sum := by
  rw [← own_bytes gs t.has.holds]
  refine liveBytes_sum t.has.nodup (fun b hb => ?_) fun b hb hn => t.step.dead b hb hn (.inr (Nat.zero_le _))
  obtain ⟨x, hx⟩ := own_live t.has b hb
  exact (List.getElem?_eq_some_iff.1 hx).1

end Forest

end Raw

/-! ### Trees of a program -/

section

variable [Bounds B] [Volume B] [Bounded K B] [BEq K] [Bounded Q B] [BEq Q]

/-- What a command leaves in the variables was reached by the calls of the API. -/
theorem Cmd.spec_reachable {P : K → Prop} {C : Config → Prop} (borrow : K → Q) {f : List (Option (Tree B K V))}
    (hf : ∀ t, some t ∈ f → ∃ c, C c ∧ Reachable c P t) (cmd : Cmd K V Q) (hk : ∀ k, cmd.inserts = some k → P k)
    (hc : ∀ c, cmd = .new c → C c) {f' : List (Option (Tree B K V))} {r : Reply V × List K × List V}
    (h : cmd.spec borrow f = .ok (f', r)) : ∀ t, some t ∈ f' → ∃ c, C c ∧ Reachable c P t := by
  have set : ∀ (i : Nat) (o : Option (Tree B K V)), (∀ t, o = some t → ∃ c, C c ∧ Reachable c P t) →
      ∀ t, some t ∈ f.set i o → ∃ c, C c ∧ Reachable c P t := fun i o ho t ht => by
    rcases List.mem_or_eq_of_mem_set ht with h | h
    · exact hf t h
    · exact ho t h.symm
  have app : ∀ t' : Tree B K V, (∃ c, C c ∧ Reachable c P t') → ∀ t, some t ∈ f ++ [some t'] → ∃ c, C c ∧ Reachable c P t := fun t' ho t ht => by
    rcases List.mem_append.1 ht with h | h
    · exact hf t h
    · simp at h; subst h; exact ho
  have wt : ∀ {i : Nat} {d : Reply V × List K × List V} {g : Tree B K V → Res (List (Option (Tree B K V)) × Reply V × List K × List V)},
      withTree f i d g = .ok (f', r) → f' = f ∨ ∃ t, some t ∈ f ∧ g t = .ok (f', r) := fun {i d g} h => by
    unfold withTree at h
    split at h
    next t ht => exact .inr ⟨t, List.mem_of_getElem? ht, h⟩
    next => cases h; exact .inl rfl
  cases cmd with
  | new c => cases h; exact app _ ⟨c, hc c rfl, .new⟩
  | insert i k v =>
    rcases wt h with rfl | ⟨t, ht, h⟩
    · exact hf
    · obtain ⟨c, hC, hr⟩ := hf t ht
      obtain ⟨t', h1, h2⟩ := bind_eq_ok.1 h
      cases h2
      exact set i _ fun _ e => by cases e; exact ⟨c, hC, .insert hr (hk k rfl) h1⟩
  | insertUnique i k v =>
    rcases wt h with rfl | ⟨t, ht, h⟩
    · exact hf
    · obtain ⟨c, hC, hr⟩ := hf t ht
      obtain ⟨⟨t', o⟩, h1, h2⟩ := bind_eq_ok.1 h
      cases h2
      exact set i _ fun _ e => by cases e; exact ⟨c, hC, .insertUnique hr (hk k rfl) h1⟩
  | remove i q =>
    rcases wt h with rfl | ⟨t, ht, h⟩
    · exact hf
    · obtain ⟨c, hC, hr⟩ := hf t ht
      obtain ⟨⟨t', o⟩, h1, h2⟩ := bind_eq_ok.1 h
      cases h2
      exact set i _ fun _ e => by cases e; exact ⟨c, hC, .remove borrow hr h1⟩
  | get i q =>
    rcases wt h with rfl | ⟨t, ht, h⟩
    · exact hf
    · obtain ⟨o, h1, h2⟩ := bind_eq_ok.1 h
      cases h2; exact hf
  | replace i q v =>
    rcases wt h with rfl | ⟨t, ht, h⟩
    · exact hf
    · obtain ⟨c, hC, hr⟩ := hf t ht
      obtain ⟨o, h1, h2⟩ := bind_eq_ok.1 h
      cases o with
      | none => cases h2; exact hf
      | some p =>
        obtain ⟨old, back⟩ := p
        cases h2
        exact set i _ fun _ e => by cases e; exact ⟨c, hC, .getMut borrow v hr h1⟩
  | len i =>
    rcases wt h with rfl | ⟨t, ht, h⟩
    · exact hf
    · obtain ⟨o, h1, h2⟩ := bind_eq_ok.1 h
      cases h2; exact hf
  | isEmpty i =>
    rcases wt h with rfl | ⟨t, ht, h⟩
    · exact hf
    · obtain ⟨o, h1, h2⟩ := bind_eq_ok.1 h
      cases h2; exact hf
  | clone i =>
    rcases wt h with rfl | ⟨t, ht, h⟩
    · exact hf
    · obtain ⟨c, hC, hr⟩ := hf t ht
      obtain ⟨t', h1, h2⟩ := bind_eq_ok.1 h
      cases h2
      exact app _ ⟨c, hC, .clone hr h1⟩
  | drop i =>
    rcases wt h with rfl | ⟨t, ht, h⟩
    · exact hf
    · cases h
      exact set i _ fun _ e => by cases e

theorem specProgram_reachable {P : K → Prop} {C : Config → Prop} (borrow : K → Q) : ∀ {cmds : List (Cmd K V Q)} {f f' : List (Option (Tree B K V))}
    {outs : List (Reply V × List K × List V)}, (∀ t, some t ∈ f → ∃ c, C c ∧ Reachable c P t) →
    (∀ cmd ∈ cmds, ∀ k, cmd.inserts = some k → P k) → (∀ c, Cmd.new c ∈ cmds → C c) →
    specProgram borrow f cmds = .ok (f', outs) → ∀ t, some t ∈ f' → ∃ c, C c ∧ Reachable c P t
  | [], _, _, _, hf, _, _, h => by cases h; exact hf
  | cmd :: cmds, f, f', outs, hf, hk, hc, h => by
    obtain ⟨⟨f₁, r⟩, h1, h2⟩ := bind_eq_ok.1 h
    obtain ⟨⟨f₂, rs⟩, h3, h4⟩ := bind_eq_ok.1 h2
    cases h4
    exact specProgram_reachable borrow
      (cmd.spec_reachable borrow hf (hk cmd (by simp)) (fun c e => hc c (by simp [e])) h1)
      (fun cmd' hm => hk cmd' (List.mem_cons_of_mem _ hm)) (fun c hm => hc c (List.mem_cons_of_mem _ hm)) h3

end

end RTree
