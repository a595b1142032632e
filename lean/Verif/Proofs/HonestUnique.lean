import Verif.Proofs.HonestInsert
/-!
# Look-up and unique insertion, with user code that behaves
-/

set_option linter.unusedSectionVars false

namespace RTree.Unwind

open Raw

variable {B K V Q σ τ α β γ δ : Type} [Bounds B] [Volume B] [Bounded K B] [BEq K] [Bounded Q B] [BEq Q] {borrow : K → Q} {L L' : Links} {E : TEnv} {a : Alloc}

variable {s : σ} {e : Env} {v v' : FCVec} {n : RNode B} {n' : UNode B}

theorem position_idle {p : Code B K V Q → K → Bool} (es : List (K × V)) (i : Nat) :
    Idle borrow (position p es i : U B K V Q σ (Option Nat)) s ((es.findIdx? fun e => p (honest borrow) e.1).map (· + i)) := by
  induction es generalizing i with
  | nil => exact .pure _
  | cons e es ih =>
    unfold position
    refine Idle.bind (.user (b := p (honest borrow) e.1) rfl) ?_
    rw [List.findIdx?_cons]
    cases h : p (honest borrow) e.1 with
    | true =>
      rw [if_pos rfl, if_pos rfl]
      exact (by simp : some i = (some 0).map (· + i)) ▸ .pure (some i)
    | false =>
      rw [if_neg (by simp), if_neg (by simp)]
      have := ih (i + 1)
      rw [Option.map_map]
      have hf : ((fun x => x + i) ∘ fun i => i + 1) = fun x => x + (i + 1) := by funext x; simp; omega
      rw [hf]
      exact this

theorem position_zero {p : Code B K V Q → K → Bool} (es : List (K × V)) :
    Idle borrow (position p es 0 : U B K V Q σ (Option Nat)) s (es.findIdx? fun e => p (honest borrow) e.1) := by
  have h := position_idle (s := s) (borrow := borrow) (p := p) es 0
  have hf : (fun x => x + 0) = (id : Nat → Nat) := by funext x; rfl
  rw [hf, Option.map_id] at h
  exact h

/-- Corresponding places of entries. -/
def SameF (L : Links) (x y : FCVec × Nat) : Prop := SameV L x.1 y.1 ∧ y.2 = x.2

theorem SameF.mono {x y : FCVec × Nat} (h : SameF L x y) (l : L.Le L') : SameF L' x y := ⟨h.1.mono l, h.2⟩

section Find

variable {q : Q'} [Bounded Q' B] [BEq Q'] {bor : K → Q'} {b : Code B K V Q → B} {p : Code B K V Q → K → Bool}

theorem findChildren_like {rec : RNode B → Raw.M (Cell B K V) (Option (FCVec × Nat))} {rec' : UNode B → U B K V Q σ (Option (FCVec × Nat))}
    (hb : b (honest borrow) = Bounded.bounds q) {cs : List (RNode B)} {cs' : List (UNode B)} (h : Pairs (SameN L) cs cs')
    (hr : ∀ L' c c', L.Le L' → SameN L' c c' → Like borrow L' (rec c) (rec' c') s fun L'' r s' b => s' = s ∧ Option.Rel (SameF L'') r b) :
    Like borrow L (Raw.findChildren q rec cs) (findChildren b rec' cs') s fun L' r s' b => s' = s ∧ Option.Rel (SameF L') r b := by
  induction cs generalizing L cs' with
  | nil => cases h; exact .pure ⟨rfl, .none⟩
  | cons c cs ih =>
    cases h with
    | cons hc h =>
      unfold Raw.findChildren findChildren
      refine .idle (.user (b := Bounds.contains c.bounds (Bounded.bounds q)) (by rw [hb, hc.val]; rfl)) ?_
      refine .ite .rfl (fun _ => ?_) (fun _ => ih h hr)
      refine (hr L _ _ (.refl L) hc).bind ?_
      rintro L1 o s' o' l1 ⟨rfl, ho⟩
      cases ho with
      | some ho => exact .pure ⟨rfl, .some ho⟩
      | none => exact ih (h.mono fun _ _ x => x.mono l1) fun L2 _ _ l2 => hr L2 _ _ (l1.trans l2)

theorem find_like (l : Nat) (hb : b (honest borrow) = Bounded.bounds q) (hp : ∀ k, p (honest borrow) k = (bor k == q)) (hn : SameN L n n') :
    Like borrow L (Raw.find E bor q l n) (find E b p l n') s fun L' r s' b => s' = s ∧ Option.Rel (SameF L') r b := by
  induction l generalizing L n n' with
  | zero =>
    unfold Raw.find find
    refine (Like.mem (entries_mem hn.vec)).bind ?_
    rintro L1 _ s' es l1 ⟨rfl, rfl⟩
    refine .idle (position_zero es) ?_
    rw [show (fun e : K × V => p (honest borrow) e.1) = fun e => bor e.1 == q from funext fun e => hp e.1]
    cases es.findIdx? fun e => bor e.1 == q with
    | none => exact .pure ⟨rfl, .none⟩
    | some i => exact .pure ⟨rfl, .some ⟨(hn.mono l1).vec, rfl⟩⟩
  | succ l ih =>
    unfold Raw.find find
    refine (Like.mem (nodes_mem hn.vec)).bind ?_
    rintro L1 cs s' cs' l1 ⟨rfl, hcs⟩
    exact findChildren_like hb hcs fun L2 c c' l2 hc => ih hc

end Find

theorem onlyLoop_idle (key : K) {cs : List (RNode B)} {cs' : List (UNode B)} (h : Pairs (SameN L) cs cs') (i : Nat) (found : Option Nat) :
    Idle (V := V) borrow (onlyLoop key cs' i found : U B K V Q σ (GetOnly Nat)) s
      (getOnly (found.toList ++ ((cs.zipIdx i).filter fun c => Bounds.contains c.1.bounds (Bounded.bounds key)).map (·.2))) := by
  induction h generalizing i found with
  | nil => cases found <;> exact .pure _
  | @cons c c' cs cs' hc h ih =>
    unfold onlyLoop
    refine Idle.bind (.user (b := Bounds.contains c.bounds (Bounded.bounds key)) (by rw [hc.val]; rfl)) ?_
    rw [List.zipIdx_cons, List.filter_cons]
    cases hb : Bounds.contains c.bounds (Bounded.bounds key) with
    | false =>
      rw [if_neg (by simp)]
      rw [if_neg (by simp)]
      exact ih (i + 1) found
    | true =>
      rw [if_pos rfl]
      rw [if_pos rfl]
      cases found with
      | none => exact ih (i + 1) (some i)
      | some j => exact .pure _

/-- What a unique insertion into a node yields. -/
abbrev UGrown (L : Links) (r : UniqueResult B V) (s' : UNode B) (b : Option V × Option (Nat × UNode B)) : Prop :=
  SameN L r.1 s' ∧ b.1 = r.2.1 ∧ Option.Rel (SameT L) r.2.2 b.2

theorem replaced_like {bounds : B} {key : K} {value : V} {p p' : FCVec × Nat} (hn : SameN L n n') (hp : SameF L p p') :
    Like (Q := Q) borrow L (do
      let old ← replaceValue E p value
      pure (n, some old, none)) (replaced E bounds key value p') n' UGrown := by
  obtain ⟨v, i⟩ := p
  obtain ⟨v', j⟩ := p'
  obtain ⟨h1, rfl⟩ := hp
  unfold replaced
  refine (Like.mem (replaceValue_mem h1 _ value)).bind ?_
  rintro L1 old n' _ l1 ⟨rfl, rfl⟩
  refine .idle (.destroyed rfl) (.idle (.dropKey key) (.idle (.destroyed rfl) ?_))
  exact .pure ⟨hn.mono l1, rfl, .none⟩

theorem notReplaced_like {bounds : B} {key : K} {value : V} {l : Nat} (hn : SameN L n n') :
    Like (Q := Q) borrow L (do
      let r ← Raw.insertNode E a (.leaf key value) l n
      pure (r.1, none, r.2)) (notReplaced E a bounds key value l) n' UGrown := by
  unfold notReplaced
  refine (returning_like (insertNode_like l hn (.leaf key value))).bind ?_
  rintro L1 r s' o l1 ⟨h1, h2⟩
  exact .pure ⟨h1, rfl, h2⟩

theorem insertUnique_eq (key : K) (value : V) (l i : Nat) (n : RNode B) : (do
    let child ← nodeAt E n.vec i
    let (child, old, sibling) ← Raw.insertUniqueNode E a key value l child
    putNode E n.vec i child
    match sibling with
    | some s => do
      let children ← nodes E n.vec
      let r ← Raw.selfInsert E a (l + 1) ⟨Bounds.unionAll (children.map RNode.bounds), n.vec⟩ (.inner s.1 s.2)
      pure (r.1, old, r.2)
    | none => pure (⟨Bounds.union n.bounds (Bounded.bounds key), n.vec⟩, old, none) : Raw.M (Cell B K V) (UniqueResult B V)) = (do
    let r ← (nodeAt E n.vec i >>= fun c => Raw.insertUniqueNode E a key value l c >>= fun r => putNode E n.vec i r.1 >>= fun _ => pure r)
    let z ← (match r.2.2 with
      | some s => do
        let children ← nodes E n.vec
        Raw.selfInsert E a (l + 1) ⟨Bounds.unionAll (children.map RNode.bounds), n.vec⟩ (.inner s.1 s.2)
      | none => pure (⟨Bounds.union n.bounds (Bounded.bounds key), n.vec⟩, none))
    pure (z.1, r.2.1, z.2)) := by
  rw [bind_assoc']
  congr 1; funext c
  rw [bind_assoc']
  congr 1; funext r
  rw [bind_assoc']
  obtain ⟨r1, r2, r3⟩ := r
  dsimp only
  congr 1; funext u
  show _ = ((match r3 with
      | some s => do
        let children ← nodes E n.vec
        Raw.selfInsert E a (l + 1) ⟨Bounds.unionAll (children.map RNode.bounds), n.vec⟩ (.inner s.1 s.2)
      | none => pure (⟨Bounds.union n.bounds (Bounded.bounds key), n.vec⟩, none)) >>= fun z => pure (z.1, r2, z.2))
  cases r3 with
  | none => rfl
  | some x => dsimp only; rw [bind_assoc']

theorem insertUniqueNode_like {key : K} {value : V} (level : Nat) (hn : SameN L n n') :
    Like (Q := Q) borrow L (Raw.insertUniqueNode E a key value level n) (insertUniqueNode E a key value level) n' UGrown := by
  induction level generalizing L n n' with
  | zero =>
    unfold Raw.insertUniqueNode insertUniqueNode
    refine .idle (.guarded (.user (b := Bounded.bounds key) rfl)) ?_
    refine Like.bind (P := fun L' es s' i => L.Le L' ∧ s' = n' ∧ i = es.findIdx? fun e => e.1 == key) (.guarded (.idle .place ?_)) ?_
    · rw [← raw_pure (entries E n.vec)]
      refine (Like.mem (entries_mem hn.vec)).bind ?_
      rintro L1 _ n' es l1 ⟨rfl, rfl⟩
      exact .stop (position_zero es) ⟨l1, rfl, rfl⟩
    · rintro L1 es n' _ - ⟨l1, rfl, rfl⟩
      have hn := hn.mono l1
      cases es.findIdx? fun e => e.1 == key with
      | some i => exact .idle .place (replaced_like hn ⟨hn.vec, rfl⟩)
      | none => exact notReplaced_like hn
  | succ l ih =>
    unfold Raw.insertUniqueNode insertUniqueNode
    refine .idle (.guarded (.user (b := Bounded.bounds key) rfl)) ?_
    refine Like.bind (P := fun L' cs s' o => L.Le L' ∧ s' = n' ∧
      o = getOnly ((cs.zipIdx.filter fun c => Bounds.contains c.1.bounds (Bounded.bounds key)).map (·.2))) (.guarded (.idle .place ?_)) ?_
    · rw [← raw_pure (nodes E n.vec)]
      refine (Like.mem (nodes_mem hn.vec)).bind ?_
      rintro L1 cs n' cs' l1 ⟨rfl, hcs⟩
      exact .stop (onlyLoop_idle key hcs 0 none) ⟨l1, rfl, rfl⟩
    · rintro L1 cs n' _ - ⟨l1, rfl, rfl⟩
      have hn := hn.mono l1
      cases getOnly ((cs.zipIdx.filter fun c => Bounds.contains c.1.bounds (Bounded.bounds key)).map (·.2)) with
      | none => exact notReplaced_like hn
      | only i =>
        refine Like.of_eq (insertUnique_eq key value l i n) (returning_like ?_)
        refine (onChild_like hn (P := fun L (r : UniqueResult B V) (b : Option V × Option (Nat × UNode B)) => b.1 = r.2.1 ∧ Option.Rel (SameT L) r.2.2 b.2) (fst := Prod.fst)
          (fun h l => ⟨h.1, rel_mono h.2 fun _ _ x => x.mono l⟩) ?_).bind ?_
        · intro L2 c c' l2 hc
          exact ih hc
        · rintro L2 r n' b l2 ⟨rfl, hb1, hb2⟩
          refine (Like.guarded (afterChild_like (hn.mono l2) hb2)).bind ?_
          rintro L3 z s3 o l3 ⟨h3, h4⟩
          exact .pure ⟨h3, hb1, h4⟩
      | multiple =>
        dsimp only
        refine Like.bind (P := fun L' r s' b => s' = n' ∧ Option.Rel (SameF L') r b) (.guarded (.idle .place ?_)) ?_
        · exact find_like (l + 1) rfl (fun _ => rfl) hn
        · rintro L2 o n' o' l2 ⟨rfl, ho⟩
          cases ho with
          | some hp => exact replaced_like (hn.mono l2) hp
          | none => exact notReplaced_like (hn.mono l2)

end RTree.Unwind
