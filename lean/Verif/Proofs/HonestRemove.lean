import Verif.Proofs.HonestUnique
/-!
# Removal, with user code that behaves
-/

set_option linter.unusedSectionVars false

namespace RTree.Unwind

open Raw

variable {B K V Q σ τ α β γ δ : Type} [Bounds B] [Volume B] [Bounded K B] [BEq K] [Bounded Q B] [BEq Q] {borrow : K → Q} {L L' : Links} {E : TEnv} {a : Alloc}

variable {s : σ} {e : Env} {v v' : FCVec} {n : RNode B} {n' : UNode B}

/-! ### A child that has been written is read -/

theorem bind_ok_inv {ι : Type} {x : Raw.M ι α} {f : α → Raw.M ι β} {h g : Raw.Heap ι} {r : β} (ex : (x >>= f) h = .ok (r, g)) :
    ∃ a h', x h = .ok (a, h') ∧ f a h' = .ok (r, g) := by
  cases hx : x h with
  | error e => rw [Raw.bind_err hx] at ex; cases ex
  | ok q => rw [Raw.bind_ok hx] at ex; exact ⟨q.1, q.2, rfl, ex⟩

theorem ite_ok_inv {ι : Type} {c : Prop} [Decidable c] {x : Raw.M ι α} {p : Panic} {h g : Raw.Heap ι} {r : α} (ex : (if c then x else Raw.panic p) h = .ok (r, g)) :
    c ∧ x h = .ok (r, g) := by
  by_cases hc : c
  · rw [if_pos hc] at ex; exact ⟨hc, ex⟩
  · rw [if_neg hc] at ex; cases ex

theorem block_eq {ι : Type} {p : Ptr} {h g : Raw.Heap ι} {k : Block ι} (ex : block p h = .ok (k, g)) : h[p.block]? = some (some k) ∧ g = h := by
  unfold block at ex
  split at ex
  · rename_i hb; cases ex; exact ⟨hb, rfl⟩
  · cases ex

theorem write_read {ι : Type} {p : Ptr} {c old : ι} {h g : Raw.Heap ι} {u : Unit} (hr : Raw.read e p h = .ok (old, h)) (ex : write e p c h = .ok (u, g)) :
    Raw.read e p g = .ok (c, g) := by
  unfold write at ex
  obtain ⟨k, h5, e5, e4⟩ := bind_ok_inv ex
  obtain ⟨hk, rfl⟩ := block_eq e5
  obtain ⟨hb, e4⟩ := ite_ok_inv e4
  unfold setSlots at e4
  obtain ⟨k2, h6, e6, e4⟩ := bind_ok_inv e4
  obtain ⟨hk2, rfl⟩ := block_eq e6
  rw [hk] at hk2
  cases hk2
  cases e4
  unfold Raw.read at hr
  obtain ⟨k3, h7, e7, e8⟩ := bind_ok_inv hr
  obtain ⟨hk3, rfl⟩ := block_eq e7
  rw [hk] at hk3
  cases hk3
  obtain ⟨-, e8⟩ := ite_ok_inv e8
  have hlen : p.block < h7.length := by
    by_cases hlt : p.block < h7.length
    · exact hlt
    · rw [List.getElem?_eq_none (by omega)] at hk; cases hk
  have hslot : p.off / e.size < k.slots.length := by
    by_cases hlt : p.off / e.size < k.slots.length
    · exact hlt
    · rw [List.getElem?_eq_none (by omega)] at e8; cases e8
  unfold Raw.read
  rw [Raw.bind_ok (b := ⟨k.bytes, k.slots.set (p.off / e.size) (some c)⟩) (h' := _) (by unfold block; rw [List.getElem?_set_self hlen])]
  rw [if_pos hb]
  rw [List.getElem?_set_self hslot]
  rfl

theorem write_add {ι : Type} {p q r : Ptr} {i : Nat} {c : ι} {h g : Raw.Heap ι} {u : Unit} (ha : add e q i h = .ok (r, h)) (ex : write e p c h = .ok (u, g)) :
    add e q i g = .ok (r, g) := by
  unfold write at ex
  obtain ⟨k, h5, e5, e4⟩ := bind_ok_inv ex
  obtain ⟨hk, rfl⟩ := block_eq e5
  obtain ⟨hb, e4⟩ := ite_ok_inv e4
  unfold setSlots at e4
  obtain ⟨k2, h6, e6, e4⟩ := bind_ok_inv e4
  obtain ⟨hk2, rfl⟩ := block_eq e6
  rw [hk] at hk2
  cases hk2
  cases e4
  unfold add at ha ⊢
  obtain ⟨k3, h7, e7, e8⟩ := bind_ok_inv ha
  obtain ⟨hk3, rfl⟩ := block_eq e7
  obtain ⟨hb3, e8⟩ := ite_ok_inv e8
  cases e8
  by_cases hpq : p.block = q.block
  · rw [← hpq, hk] at hk3
    cases hk3
    have hlen : q.block < h7.length := by
      by_cases hlt : q.block < h7.length
      · exact hlt
      · rw [hpq, List.getElem?_eq_none (by omega)] at hk; cases hk
    rw [Raw.bind_ok (b := ⟨k.bytes, k.slots.set (p.off / e.size) (some c)⟩) (h' := _) (by unfold block; rw [hpq, List.getElem?_set_self hlen])]
    rw [if_pos hb3, hpq]
    rfl
  · rw [Raw.bind_ok (b := k3) (h' := _) (by unfold block; rw [List.getElem?_set_ne hpq, hk3])]
    rw [if_pos hb3]
    rfl

theorem put_read {i : Nat} {c : RNode B} {h g : Raw.Heap (Cell B K V)} {u : Unit} (ex : putNode E v i c h = .ok (u, g)) : nodeAt E v i g = .ok (c, g) := by
  unfold putNode FCVec.set at ex
  obtain ⟨u1, h1, e1, e2⟩ := bind_ok_inv ex
  cases e2
  obtain ⟨hi, e1⟩ := ite_ok_inv e1
  obtain ⟨p, h2, e2, e1⟩ := bind_ok_inv e1
  obtain ⟨old, h3, e3, e1⟩ := bind_ok_inv e1
  obtain ⟨u2, h4, e4, e5⟩ := bind_ok_inv e1
  cases e5
  have hh2 := reads_add _ _ h p h2 e2
  subst hh2
  have hh3 := reads_read _ _ _ h3 e3
  subst hh3
  unfold nodeAt FCVec.get
  rw [Raw.bind_ok (b := .node c) (h' := g)]
  · rfl
  rw [if_pos hi]
  rw [Raw.bind_ok (write_add e2 e4)]
  exact write_read e3 e4

/-! ### Working on a child -/

/-- Corresponding slots. -/
abbrev SameR (L : Links) (r r' : RSlots) : Prop := Pairs (Option.Rel (SameV L)) r r'

theorem slots_mono {r r' : RSlots} (h : SameR L r r') (l : L.Le L') : SameR L' r r' := Pairs.mono h fun _ _ x => rel_mono x fun _ _ y => y.mono l

/-- What a removal yields. -/
abbrev Removed (L : Links) (z : RNode B × Option (K × V) × RSlots) (s' : Removing B) (b : Option V) : Prop :=
  SameN L z.1 s'.1 ∧ SameR L z.2.2 s'.2 ∧ b = z.2.1.map (·.2)

theorem onChildR_like {X : RNode B → Raw.M (Cell B K V) (RNode B × Option (K × V) × RSlots)} {i : Nat} {y : U B K V Q (Removing B) (Option V)} {r' : RSlots} (hn : SameN L n n')
    (hX : ∀ L' c c', L.Le L' → SameN L' c c' → Like borrow L' (X c) y (c', r') Removed) :
    Like borrow L (nodeAt E n.vec i >>= fun c => X c >>= fun z => putNode E n.vec i z.1 >>= fun _ => pure z) (onChildR E i y) (n', r')
      fun L' z s' b => s'.1 = n' ∧ SameR L' z.2.2 s'.2 ∧ b = z.2.1.map (·.2) := by
  intro m w A hw r g ex
  obtain ⟨c, h1, e1, ex⟩ := bind_ok_inv ex
  obtain ⟨z, h2, e2, ex⟩ := bind_ok_inv ex
  obtain ⟨u, h3, e3, ex⟩ := bind_ok_inv ex
  cases ex
  obtain ⟨L1, c', m1, l1, h4, A1, hc⟩ := nodeAt_mem hn.vec i m w.heap A c h1 e1
  unfold onChildR
  dsimp only
  rw [h4]
  dsimp only
  rcases hX L1 c c' l1 hc h1 { w with heap := m1 } A1 hw r h2 e2 with hfatal | ⟨L2, b, s', w', l2, h5, A2, hw2, h6, h7, h8⟩
  · left
    split
    · exact hfatal
    · rfl
  · rw [h5]
    dsimp only
    obtain ⟨L3, _, m3, l3, h9, A3, -⟩ := putNode_mem ((hn.mono l1).mono l2).vec i h6 h2 w'.heap A2 u g e3
    rw [h9]
    exact .inr ⟨L3, b, (n', s'.2), { w' with heap := m3 }, (l1.trans l2).trans l3, rfl, A3, hw2, rfl, slots_mono h7 l3, h8⟩

/-! ### The loop over the children -/

/-- What follows the loop. -/
def afterLoop (E : TEnv) (bounds : B) (z : FCVec × Option (K × V) × RSlots) : Raw.M (Cell B K V) (RNode B × Option (K × V) × RSlots) :=
  match z.2.1 with
  | some e => do
    let cs ← nodes E z.1
    pure (⟨Bounds.unionAll (cs.map RNode.bounds), z.1⟩, some e, z.2.2)
  | none => pure (⟨bounds, z.1⟩, none, z.2.2)

/-- What happens when the entry was in the child at index `i`. -/
def taken (E : TEnv) (a : Alloc) (l i : Nat) (v : FCVec) (e : K × V) (r : RSlots) : Raw.M (Cell B K V) (RNode B × Option (K × V) × RSlots) := do
  let child ← nodeAt E v i
  let x ← (if child.vec.len < a.minChildren then do
      let x ← v.swapRemove E.node i
      let child ← lift x.2.asNode
      let r ← lift (Raw.onUnderfull l child.vec r)
      pure (x.1, r)
    else pure (v, r) : Raw.M (Cell B K V) (FCVec × RSlots))
  let cs ← nodes E x.1
  pure (⟨Bounds.unionAll (cs.map RNode.bounds), x.1⟩, some e, x.2)

theorem loop_step {l i : Nat} {q : Q} {bounds : B} {r : RSlots} {rec : RNode B → RSlots → Raw.M (Cell B K V) (RNode B × Option (K × V) × RSlots)} :
    (Raw.removeLoop E a l q rec (i + 1) v r >>= afterLoop E bounds) = nodeAt E v i >>= fun c0 =>
      if Bounds.intersects c0.bounds (Bounded.bounds q) then
        (nodeAt E v i >>= fun c => rec c r >>= fun z => putNode E v i z.1 >>= fun _ => pure z) >>= fun z =>
          match z.2.1 with
          | some e => taken E a l i v e z.2.2
          | none => Raw.removeLoop E a l q rec i v z.2.2 >>= afterLoop E bounds
      else Raw.removeLoop E a l q rec i v r >>= afterLoop E bounds := by
  rw [Raw.removeLoop, bind_assoc']
  funext h
  cases h1 : (nodeAt E v i : Raw.M (Cell B K V) _) h with
  | error e => rw [Raw.bind_err h1, Raw.bind_err h1]
  | ok c =>
    have hh := reads_nodeAt _ _ h c.1 c.2 h1
    rw [Raw.bind_ok h1, Raw.bind_ok h1]
    cases Bounds.intersects c.1.bounds (Bounded.bounds q : B) with
    | false => rfl
    | true =>
      rw [if_pos rfl, if_pos rfl, bind_assoc', bind_assoc', hh, Raw.bind_ok (b := c.1) (h' := c.2) h1, hh]
      rw [bind_assoc']
      cases h2 : rec c.1 r h with
      | error e => rw [Raw.bind_err h2, Raw.bind_err h2]
      | ok z =>
        rw [Raw.bind_ok h2, Raw.bind_ok h2]
        obtain ⟨⟨child, found, r⟩, h'⟩ := z
        dsimp only
        rw [bind_assoc', bind_assoc']
        cases h3 : (putNode E v i child : Raw.M (Cell B K V) _) h' with
        | error e => rw [Raw.bind_err h3, Raw.bind_err h3]
        | ok z =>
          rw [Raw.bind_ok h3, Raw.bind_ok h3]
          have h4 := put_read (u := z.1) h3
          cases found with
          | none => rfl
          | some e =>
            dsimp only
            show _ = taken E a l i v e r z.2
            unfold taken
            rw [Raw.bind_ok h4]
            by_cases hc : child.vec.len < a.minChildren
            · rw [if_pos hc, if_pos hc]
              rw [bind_assoc', bind_assoc']
              refine congrFun ?_ _
              congr 1; funext x
              rw [bind_assoc', bind_assoc']
              congr 1; funext y
              rw [bind_assoc', bind_assoc']
              rfl
            · rw [if_neg hc, if_neg hc]; rfl

theorem unmem_lift {x : Raw.M (Cell B K V) α} {y : U B K V Q σ β} {P : Links → α → σ → β → Prop} (h : Like borrow L (x >>= Pure.pure) y s P) : Like borrow L x y s P :=
  Like.of_eq (raw_pure x).symm h

theorem grown_like {b0 : B} {e : K × V} {r r' : RSlots} (hn : SameN L ⟨b0, v⟩ n') (hr : SameR L r r') :
    Like (Q := Q) borrow L (do
      let cs ← nodes E v
      pure (⟨Bounds.unionAll (cs.map RNode.bounds), v⟩, some e, r) : Raw.M (Cell B K V) (RNode B × Option (K × V) × RSlots)) (do
      let n ← onFst place
      let cs ← mem (nodes E n.vec)
      let b ← user fun c => some (c.unionAll (cs.map fun n => n.bounds.val))
      onFst (setBounds b (pure ()))) (n', r') fun L' z s' _ => SameN L' z.1 s'.1 ∧ SameR L' z.2.2 s'.2 ∧ z.2.1 = some e := by
  refine .idle (.onFst .place) ?_
  refine (Like.mem (nodes_mem hn.vec)).bind ?_
  rintro L3 cs _ cs' l3 ⟨rfl, hcs⟩
  refine .idle (.user (b := Bounds.unionAll (cs.map RNode.bounds)) ?_) ?_
  · rw [hcs.map_eq (f := RNode.bounds) (g := fun n => n.bounds.val) fun _ _ h => h.val]; rfl
  refine Like.final (Like.onFst (setBounds_only (hn.mono l3) _ _)) ?_
  rintro L4 s4 _ l4 ⟨h1, h2⟩
  exact ⟨h1, by rw [h2]; exact slots_mono (slots_mono hr l3) l4, rfl⟩

theorem taken_like {l i : Nat} {e : K × V} {r r' : RSlots} (hn : SameN L n n') (hr : SameR L r r') :
    Like (Q := Q) borrow L (taken E a l i n.vec e r) (afterRemove E a l i e.2 >>= fun _ => pure (some e.2)) (n', r') Removed := by
  unfold taken
  refine unmem_lift ?_
  refine Like.bind (P := fun L' z s' _ => SameN L' z.1 s'.1 ∧ SameR L' z.2.2 s'.2 ∧ z.2.1 = some e) ?_ ?_
  rotate_left
  · rintro L1 z s1 _ l1 ⟨h1, h2, h3⟩
    exact .pure ⟨h1, h2, by rw [h3]; rfl⟩
  unfold afterRemove
  refine .guarded (.idle (.onFst .place) ?_)
  refine (Like.mem (nodeAt_mem hn.vec i)).bind ?_
  rintro L1 c _ c' l1 ⟨rfl, hc⟩
  have hn := hn.mono l1
  have hr := slots_mono hr l1
  by_cases hlen : c.vec.len < a.minChildren
  rotate_left
  · rw [if_neg hlen]
    dsimp only
    rw [if_neg (by rw [hc.vec.len]; exact hlen)]
    exact grown_like hn hr
  · rw [if_pos hlen]
    dsimp only
    rw [if_pos (by rw [hc.vec.len]; exact hlen), bind_assoc']
    refine (Like.onFst (onVec_like hn (P := fun L' => SameC L') (swapRemove_mem hn.vec i))).bind ?_
    rintro L2 x ⟨n2, r2⟩ cell l2 ⟨⟨hn2, hcell⟩, rfl⟩
    rw [bind_assoc']
    refine (Like.mem (asNode_mem hcell)).bind ?_
    rintro L3 d _ d' l3 ⟨rfl, hd⟩
    refine Like.skip (dropBounds_only hd.box) ?_
    rintro L4 _ _ l4 rfl
    refine .idle (.destroyed rfl) ?_
    have hr := slots_mono (slots_mono (slots_mono hr l2) l3) l4
    rw [bind_assoc']
    refine .rskip fun r3 hr3 => ?_
    unfold Raw.onUnderfull at hr3
    by_cases hl : l < r.length
    · rw [if_pos hl] at hr3
      cases hr3
      refine Like.skip (P := fun L' s' _ => SameN L' ⟨n.bounds, x.1⟩ s'.1 ∧ SameR L' (r.set l (some d.vec)) s'.2) ?_ ?_
      · refine Like.mono (Like.onSnd (P := fun L' _ s' _ => SameR L' (r.set l (some d.vec)) s') ?_) fun L5 _ s5 _ l5 h => ⟨?_, h.2⟩
        · unfold onUnderfull
          refine .idle .place (.idle (.panicIf (by rw [← hr.length]; exact not_not_intro hl)) ?_)
          intro m w A hw u g ex
          cases ex
          exact .inr ⟨L4, (), _, w, .refl _, rfl, A, hw, hr.set l (.some (hd.mono l4).vec)⟩
        · rw [h.1]; exact ((hn2.mono l3).mono l4).mono l5
      · rintro L5 ⟨n5, r5⟩ _ l5 ⟨h1, h2⟩
        exact grown_like h1 h2
    · rw [if_neg hl] at hr3; cases hr3

theorem removeLoop_like {l : Nat} {q : Q} {rec : RNode B → RSlots → Raw.M (Cell B K V) (RNode B × Option (K × V) × RSlots)} {rec' : U B K V Q (Removing B) (Option V)}
    (hrec : ∀ {L n n' r r'}, SameN L n n' → SameR L r r' → Like borrow L (rec n r) rec' (n', r') Removed)
    (i : Nat) {r r' : RSlots} (hn : SameN L n n') (hr : SameR L r r') :
    Like borrow L (Raw.removeLoop E a l q rec i n.vec r >>= afterLoop E n.bounds) (removeLoop E a l q rec' i) (n', r') Removed := by
  induction i generalizing L n' r r' with
  | zero => exact .pure ⟨hn, hr, rfl⟩
  | succ i ih =>
    rw [loop_step]
    unfold removeLoop
    refine .idle (.onFst .place) ?_
    refine (Like.mem (nodeAt_mem hn.vec i)).bind ?_
    rintro L1 c _ c' l1 ⟨rfl, hc⟩
    have hn := hn.mono l1
    have hr := slots_mono hr l1
    refine .idle (.user (b := Bounds.intersects c.bounds (Bounded.bounds q)) (by rw [hc.val]; rfl)) ?_
    refine .ite .rfl (fun _ => ?_) (fun _ => ih hn hr)
    refine (onChildR_like hn fun L2 c c' l2 hc => hrec hc (slots_mono hr l2)).bind ?_
    rintro L2 z ⟨n2, r2⟩ b l2 ⟨hs, hr2, hb⟩
    dsimp only at hs hr2 hb
    subst hs
    have hn := hn.mono l2
    cases hz : z.2.1 with
    | none =>
      rw [hz] at hb
      subst hb
      exact ih hn hr2
    | some e =>
      rw [hz] at hb
      subst hb
      exact taken_like hn hr2

theorem removeNode_like {q : Q} (level : Nat) {r r' : RSlots} (hn : SameN L n n') (hr : SameR L r r') :
    Like borrow L (Raw.removeNode E a borrow q level n r) (removeNode E a q level : U B K V Q (Removing B) (Option V)) (n', r') Removed := by
  induction level generalizing L n n' r r' with
  | zero =>
    unfold Raw.removeNode removeNode
    refine .idle (.onFst .place) ?_
    refine (Like.mem (entries_mem hn.vec)).bind ?_
    rintro L1 _ _ es l1 ⟨rfl, rfl⟩
    have hn := hn.mono l1
    have hr := slots_mono hr l1
    refine .idle (position_zero es) ?_
    show Like borrow L1 (match es.findIdx? (fun e => borrow e.1 == q) with | some i => _ | none => _) _ _ _
    change Like borrow L1 _ (match es.findIdx? (fun e => borrow e.1 == q) with | some i => _ | none => _) _ _
    cases es.findIdx? (fun e => borrow e.1 == q) with
    | none => exact .pure ⟨hn, hr, rfl⟩
    | some i =>
      dsimp only
      refine (Like.onFst (onVec_like hn (P := fun L' => SameC L') (swapRemove_mem hn.vec i))).bind ?_
      rintro L2 ⟨v2, cell2⟩ ⟨n2, r2⟩ cell l2 ⟨⟨hn2, hcell⟩, rfl⟩
      dsimp only at hn2 hcell ⊢
      refine (Like.mem (asEntry_mem hcell)).bind ?_
      rintro L3 _ _ e l3 ⟨rfl, rfl⟩
      refine .idle (.dropKey _) (.idle (.destroyed rfl) ?_)
      have hn2 := hn2.mono l3
      have hr := slots_mono (slots_mono hr l2) l3
      refine unmem_lift ?_
      refine Like.bind (P := fun L' z s' _ => SameN L' z.1 s'.1 ∧ SameR L' z.2.2 s'.2 ∧ z.2.1 = some e) (.guarded (.idle (.onFst .place) ?_)) ?_
      · refine (Like.mem (entries_mem hn2.vec)).bind ?_
        rintro L4 _ _ fs l4 ⟨rfl, rfl⟩
        refine .idle (.user (b := Bounds.unionAll (fs.map entryBounds)) rfl) ?_
        refine Like.final (Like.onFst (setBounds_only (hn2.mono l4) _ _)) ?_
        rintro L5 s5 _ l5 ⟨h1, h2⟩
        exact ⟨h1, by rw [h2]; exact slots_mono (slots_mono hr l4) l5, rfl⟩
      · rintro L4 z s4 _ l4 ⟨h1, h2, h3⟩
        exact .pure ⟨h1, h2, by rw [h3]; rfl⟩
  | succ l ih =>
    have eq : Raw.removeNode E a borrow q (l + 1) n r = Raw.removeLoop E a l q (Raw.removeNode E a borrow q l) n.vec.len n.vec r >>= afterLoop (K := K) (V := V) E n.bounds := rfl
    refine Like.of_eq eq ?_
    unfold removeNode
    refine .idle (.onFst .place) ?_
    rw [hn.vec.len]
    exact removeLoop_like (fun h1 h2 => ih h1 h2) _ hn hr

end RTree.Unwind
