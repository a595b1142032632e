import Verif.Proofs.HonestSplit
/-!
# Insertion and look-up, with user code that behaves
-/

set_option linter.unusedSectionVars false

namespace RTree.Unwind

open Raw

variable {B K V Q σ τ α β γ δ : Type} [Bounds B] [Volume B] [Bounded K B] [BEq K] [Bounded Q B] [BEq Q] {borrow : K → Q} {L L' : Links} {E : TEnv} {a : Alloc}

variable {s : σ} {e : Env} {v v' : FCVec} {n : RNode B} {n' : UNode B}

/-- Corresponding entries. -/
inductive SameE (L : Links) : REntry B K V → REntry (Own B) K V → Prop
  | inner (l : Nat) {n n'} (h : SameN L n n') : SameE L (.inner l n) (.inner l n')
  | leaf (k v) : SameE L (.leaf k v) (.leaf k v)

/-- Corresponding nodes split off. -/
def SameT (L : Links) (x : Nat × RNode B) (y : Nat × UNode B) : Prop := y.1 = x.1 ∧ SameN L x.2 y.2

theorem SameE.mono {x : REntry B K V} {y : REntry (Own B) K V} (h : SameE L x y) (l : L.Le L') : SameE L' x y := by
  cases h with
  | inner i h => exact .inner i (h.mono l)
  | leaf k v => exact .leaf k v

theorem SameT.mono {x : Nat × RNode B} {y : Nat × UNode B} (h : SameT L x y) (l : L.Le L') : SameT L' x y := ⟨h.1, h.2.mono l⟩

theorem SameE.bounds {x : REntry B K V} {y : REntry (Own B) K V} (h : SameE L x y) : (honest (V := V) borrow).entryBounds y = x.bounds := by
  cases h with
  | inner i h => exact h.val
  | leaf k v => rfl

theorem SameE.target {x : REntry B K V} {y : REntry (Own B) K V} (h : SameE L x y) : y.targetLevel = x.targetLevel := by cases h <;> rfl

/-- What an insertion into a node yields. -/
abbrev Grown (L : Links) (r : RNode B × Option (Nat × RNode B)) (s' : UNode B) (b : Option (Nat × UNode B)) : Prop :=
  SameN L r.1 s' ∧ Option.Rel (SameT L) r.2 b

theorem afterPush_like {bounds : B} {l : Nat} {o : Option (Cell B K V)} {o' : Option (UCell B K V)} (hn : SameN L n n') (ho : Option.Rel (SameC L) o o') :
    Like (Q := Q) borrow L (match o with
      | some o => do
        let r ← Raw.split e Cell.bounds a.minChildren a.maxChildren n.vec o
        pure (⟨r.bounds1, r.values⟩, some (l, ⟨r.bounds2, r.group2⟩))
      | none => pure (⟨Bounds.union n.bounds bounds, n.vec⟩, none)) (afterPush E e a l bounds o') n' Grown := by
  cases ho with
  | none =>
    unfold afterPush
    refine .idle .place (.idle (.user (b := Bounds.union n.bounds bounds) (by rw [hn.val]; rfl)) ?_)
    refine Like.skip (setBounds_only hn _ _) fun L1 s1 _ l1 h1 => .pure ⟨h1, .none⟩
  | some ho =>
    unfold afterPush
    refine (split_like hn ho).bind ?_
    rintro L1 r n' ⟨⟨b1, b2⟩, g⟩ l1 ⟨hn, hg, hb⟩
    cases hb
    refine Like.skip (newBounds_only _) ?_
    rintro L2 n' ob l2 ⟨rfl, hv, hb⟩
    have hn := hn.mono l2
    refine Like.skip (setBounds_only hn _ _) fun L3 s3 _ l3 h3 => .pure ⟨h3, .some ⟨rfl, ?_⟩⟩
    exact ⟨hv, l3.box _ hb, (hg.mono l2).mono l3⟩

theorem selfInsert_like {level : Nat} {entry : REntry B K V} {entry' : REntry (Own B) K V} (hn : SameN L n n') (he : SameE L entry entry') :
    Like (Q := Q) borrow L (Raw.selfInsert E a level n entry) (selfInsert E a level entry') n' Grown := by
  unfold selfInsert
  refine .idle (.guarded (.user (b := entry.bounds) (by rw [he.bounds]))) (returning_like ?_)
  cases he with
  | inner i h =>
    cases level with
    | zero => exact .panic
    | succ l =>
      unfold Raw.selfInsert
      dsimp only
      by_cases hl : l ≠ i
      · rw [Raw.panicIf, if_pos hl]; intro m w _ _ r g ex; cases ex
      rw [Raw.panicIf, if_neg hl]
      refine .idle (.guarded (.panicIf hl)) ?_
      refine Like.of_eq (x' := Raw.pushNode E a l n _ _) rfl ?_
      unfold Raw.pushNode
      refine (onVec_like hn (P := fun L' => Option.Rel (SameC L')) (tryPush_mem _ hn.vec (.node h))).bind ?_
      rintro L1 ⟨w, o⟩ n' o' l1 ⟨hn, ho⟩
      dsimp only at hn ho ⊢
      cases ho with
      | none => exact afterPush_like hn .none
      | some ho => exact .rskip fun _ _ => afterPush_like hn (.some ho)
  | leaf k x =>
    cases level with
    | succ l => exact .panic
    | zero =>
      unfold Raw.selfInsert Raw.pushEntry
      dsimp only
      refine (onVec_like hn (P := fun L' => Option.Rel (SameC L')) (tryPush_mem _ hn.vec (.entry (k, x)))).bind ?_
      rintro L1 ⟨w, o⟩ n' o' l1 ⟨hn, ho⟩
      dsimp only at hn ho ⊢
      exact afterPush_like hn ho

/-! ### Reading does not change memory -/

/-- `x` leaves memory as it is. -/
def Reads (x : Raw.M (Cell B K V) α) : Prop := ∀ h r g, x h = .ok (r, g) → g = h

theorem Reads.bind {x : Raw.M (Cell B K V) α} {f : α → Raw.M (Cell B K V) β} (hx : Reads x) (hf : ∀ c, Reads (f c)) : Reads (x >>= f) := by
  intro h r g e
  cases hy : x h with
  | error e' => rw [Raw.bind_err hy] at e; cases e
  | ok q =>
    rw [Raw.bind_ok hy] at e
    rw [hf _ _ _ _ e, hx h q.1 q.2 hy]

theorem reads_pure (c : α) : Reads (pure c : Raw.M (Cell B K V) α) := by intro h r g e; cases e; rfl
theorem reads_panic (p : Panic) : Reads (Raw.panic p : Raw.M (Cell B K V) α) := by intro h r g e; cases e
theorem reads_lift (c : Res α) : Reads (lift c : Raw.M (Cell B K V) α) := by intro h r g e; cases c <;> cases e; rfl

theorem reads_block (p : Ptr) : Reads (block p : Raw.M (Cell B K V) _) := by
  intro h r g e
  unfold block at e
  split at e <;> cases e
  rfl

theorem reads_add (p : Ptr) (i : Nat) : Reads (add e p i : Raw.M (Cell B K V) _) := by
  unfold add
  refine (reads_block p).bind fun k => ?_
  split
  · exact reads_pure _
  · exact reads_panic _

theorem reads_read (p : Ptr) : Reads (Raw.read e p : Raw.M (Cell B K V) _) := by
  unfold Raw.read
  refine (reads_block p).bind fun k => ?_
  split
  · split
    · exact reads_pure _
    · exact reads_panic _
  · exact reads_panic _

theorem reads_nodeAt (v : FCVec) (i : Nat) : Reads (nodeAt E v i : Raw.M (Cell B K V) _) := by
  unfold nodeAt FCVec.get
  refine Reads.bind ?_ fun c => reads_lift _
  split
  · exact (reads_add _ _).bind fun p => reads_read p
  · exact reads_panic _

theorem nodeAt_twice (v : FCVec) (i : Nat) (f : RNode B → Raw.M (Cell B K V) α) :
    (nodeAt E v i >>= f) = (nodeAt E v i >>= fun _ => nodeAt E v i) >>= f := by
  funext h
  rw [bind_assoc']
  cases hx : (nodeAt E v i : Raw.M (Cell B K V) _) h with
  | error e => rw [Raw.bind_err hx, Raw.bind_err hx]
  | ok r =>
    have := reads_nodeAt v i h r.1 r.2 hx
    rw [Raw.bind_ok hx, Raw.bind_ok (b := r.1) (h' := r.2) hx, Raw.bind_ok (b := r.1) (h' := r.2)]
    rw [this, hx, ← this]

theorem onChild_like {ρ : Type} {X : RNode B → Raw.M (Cell B K V) ρ} {fst : ρ → RNode B} {i : Nat} {y : U B K V Q (UNode B) β} (hn : SameN L n n') {P : Links → ρ → β → Prop}
    (hP : ∀ {L L' : Links} {r b}, P L r b → L.Le L' → P L' r b)
    (hX : ∀ L' c c', L.Le L' → SameN L' c c' → Like borrow L' (X c) y c' fun L'' r s' b => SameN L'' (fst r) s' ∧ P L'' r b) :
    Like borrow L (nodeAt E n.vec i >>= fun c => X c >>= fun r => putNode E n.vec i (fst r) >>= fun _ => pure r) (onChild E i y) n' fun L' r s' b => s' = n' ∧ P L' r b := by
  intro m w A hw r g ex
  cases h1 : (nodeAt E n.vec i : Raw.M (Cell B K V) _) m with
  | error e => rw [Raw.bind_err h1] at ex; cases ex
  | ok q =>
    rw [Raw.bind_ok h1] at ex
    obtain ⟨L1, c', m1, l1, h2, A1, hc⟩ := nodeAt_mem hn.vec i m w.heap A q.1 q.2 h1
    cases h3 : X q.1 q.2 with
    | error e => rw [Raw.bind_err h3] at ex; cases ex
    | ok p =>
      rw [Raw.bind_ok h3] at ex
      cases h4 : (putNode E n.vec i (fst p.1) : Raw.M (Cell B K V) _) p.2 with
      | error e => rw [Raw.bind_err h4] at ex; cases ex
      | ok z =>
        rw [Raw.bind_ok h4] at ex
        cases ex
        unfold onChild
        rw [h2]
        dsimp only
        rcases hX L1 q.1 c' l1 hc q.2 { w with heap := m1 } A1 hw p.1 p.2 h3 with hfatal | ⟨L2, b, s', w', l2, h5, A2, hw2, h6, h7⟩
        · left
          split
          · exact hfatal
          · rfl
        · rw [h5]
          dsimp only
          obtain ⟨L3, _, m3, l3, h8, A3, -⟩ := putNode_mem ((hn.mono l1).mono l2).vec i h6 p.2 w'.heap A2 z.1 z.2 h4
          rw [h8]
          exact .inr ⟨L3, b, n', { w' with heap := m3 }, (l1.trans l2).trans l3, rfl, A3, hw2, rfl, hP h7 l3⟩

theorem afterChild_like {bounds : B} {l : Nat} {o : Option (Nat × RNode B)} {o' : Option (Nat × UNode B)} (hn : SameN L n n') (ho : Option.Rel (SameT L) o o') :
    Like (K := K) (V := V) (Q := Q) borrow L (match o with
      | some s => do
        let children ← nodes E n.vec
        Raw.selfInsert E a (l + 1) ⟨Bounds.unionAll (children.map RNode.bounds), n.vec⟩ (.inner s.1 s.2)
      | none => pure (⟨Bounds.union n.bounds bounds, n.vec⟩, none)) (afterChild E a l bounds o') n' Grown := by
  cases ho with
  | none =>
    unfold afterChild
    refine .idle .place (.idle (.user (b := Bounds.union n.bounds bounds) (by rw [hn.val]; rfl)) ?_)
    refine Like.skip (setBounds_only hn _ _) fun L1 s1 _ l1 h1 => .pure ⟨h1, .none⟩
  | @some x y ho =>
    obtain ⟨i, x⟩ := x
    obtain ⟨j, y⟩ := y
    obtain ⟨hij, hxy⟩ := ho
    dsimp only at hij hxy
    subst hij
    unfold afterChild
    refine .idle .place ?_
    refine (Like.guarded (Like.mem (nodes_mem hn.vec))).bind ?_
    rintro L1 cs n' cs' l1 ⟨rfl, hcs⟩
    have hn := hn.mono l1
    refine .idle (.guarded (.user (b := Bounds.unionAll (cs.map RNode.bounds)) ?_)) ?_
    · rw [hcs.map_eq (f := RNode.bounds) (g := fun n => n.bounds.val) fun _ _ h => h.val]; rfl
    refine Like.skip (setBounds_only hn _ _) fun L2 s2 _ l2 h2 => ?_
    exact selfInsert_like h2 (.inner _ ((hxy.mono l1).mono l2))

theorem select_some {bs : List B} {b : B} {i : Nat} (h : (do unwrap (← RTree.select bs b) : Res Nat) = .ok i) : (RTree.select bs b).toOption.join = some i := by
  obtain ⟨o, h1, h2⟩ := bind_eq_ok.1 h
  rw [h1]
  cases o with
  | none => cases h2
  | some j => cases h2; rfl

theorem insertNode_like {entry : REntry B K V} {entry' : REntry (Own B) K V} (level : Nat) (hn : SameN L n n') (he : SameE L entry entry') :
    Like (Q := Q) borrow L (Raw.insertNode E a entry level n) (insertNode E a entry' level) n' Grown := by
  induction level generalizing L n n' with
  | zero =>
    unfold Raw.insertNode insertNode
    refine .idle (.guarded (.user (b := entry.bounds) (by rw [he.bounds]))) (returning_like ?_)
    rw [he.target]
    refine .ite .rfl (fun _ => .panic) (fun _ => selfInsert_like hn he)
  | succ l ih =>
    unfold Raw.insertNode insertNode
    refine .idle (.guarded (.user (b := entry.bounds) (by rw [he.bounds]))) (returning_like ?_)
    rw [he.target]
    refine .ite .rfl (fun _ => ?_) (fun _ => selfInsert_like hn he)
    dsimp only
    have eq : (do
          let children ← nodes E n.vec
          let i ← lift (do unwrap (← RTree.select (children.map RNode.bounds) entry.bounds))
          let child ← nodeAt E n.vec i
          let (child, sibling) ← Raw.insertNode E a entry l child
          putNode E n.vec i child
          match sibling with
          | some s => do
            let children ← nodes E n.vec
            Raw.selfInsert E a (l + 1) ⟨Bounds.unionAll (children.map RNode.bounds), n.vec⟩ (.inner s.1 s.2)
          | none => pure (⟨Bounds.union n.bounds entry.bounds, n.vec⟩, none)) = (do
        let i ← (do
          let children ← nodes E n.vec
          let i ← lift (do unwrap (← RTree.select (children.map RNode.bounds) entry.bounds))
          let _ ← nodeAt E n.vec i
          pure i)
        let r ← (nodeAt E n.vec i >>= fun c => Raw.insertNode E a entry l c >>= fun r => putNode E n.vec i r.1 >>= fun _ => pure r)
        match r.2 with
        | some s => do
          let children ← nodes E n.vec
          Raw.selfInsert E a (l + 1) ⟨Bounds.unionAll (children.map RNode.bounds), n.vec⟩ (.inner s.1 s.2)
        | none => pure (⟨Bounds.union n.bounds entry.bounds, n.vec⟩, none) : Raw.M (Cell B K V) (RNode B × Option (Nat × RNode B))) := by
      rw [bind_assoc']
      congr 1; funext cs
      rw [bind_assoc']
      congr 1; funext i
      rw [nodeAt_twice, bind_assoc', bind_assoc']
      congr 1; funext c
      show _ = ((nodeAt E n.vec i >>= fun c => Raw.insertNode E a entry l c >>= fun r => putNode E n.vec i r.1 >>= fun _ => pure r) >>= _)
      rw [bind_assoc']
      congr 1; funext c
      rw [bind_assoc']
      congr 1; funext r
      rw [bind_assoc']
      rfl
    refine Like.of_eq eq ?_
    refine Like.bind (P := fun _ i s' i' => s' = n' ∧ i' = i) (.guarded (.idle .place ?_)) ?_
    · refine (Like.mem (nodes_mem hn.vec)).bind ?_
      rintro L1 cs n' cs' l1 ⟨rfl, hcs⟩
      refine .rskip fun i hi => .idle (.user (b := i) ?_) ?_
      · rw [hcs.map_eq (f := RNode.bounds) (g := fun n => n.bounds.val) fun _ _ h => h.val]; exact select_some hi
      refine (Like.mem (nodeAt_mem (hn.mono l1).vec i)).bind ?_
      rintro L2 c n' c' l2 ⟨rfl, hc⟩
      exact .pure ⟨rfl, rfl⟩
    · rintro L1 i n' _ l1 ⟨rfl, rfl⟩
      have hn := hn.mono l1
      have he := he.mono l1
      refine (onChild_like hn (P := fun L r b => Option.Rel (SameT L) r.2 b) (fst := Prod.fst) (fun h l => rel_mono h fun _ _ x => x.mono l) ?_).bind ?_
      · intro L2 c c' l2 hc
        exact ih hc (he.mono l2)
      · rintro L2 r n' b l2 ⟨rfl, hb⟩
        exact afterChild_like (hn.mono l2) hb

end RTree.Unwind
