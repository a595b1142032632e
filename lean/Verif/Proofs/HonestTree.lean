import Verif.Proofs.HonestRemove
/-!
# Whole trees, with user code that behaves
-/

set_option linter.unusedSectionVars false

namespace RTree.Unwind

open Raw

variable {B K V Q σ τ α β γ δ : Type} [Bounds B] [Volume B] [Bounded K B] [BEq K] [Bounded Q B] [BEq Q] {borrow : K → Q} {L L' : Links} {E : TEnv} {a : Alloc}

variable {s : σ} {e : Env} {v v' : FCVec} {n : RNode B} {n' : UNode B}

/-- Corresponding trees. -/
structure SameTree (L : Links) (t : Raw.RTree B) (t' : UTree B) : Prop where
  alloc : t'.alloc = t.alloc
  level : t'.level = t.level
  root : SameN L t.root t'.root

variable {t : Raw.RTree B} {t' : UTree B}

theorem SameTree.mono (h : SameTree L t t') (l : L.Le L') : SameTree L' t t' := ⟨h.alloc, h.level, h.root.mono l⟩

theorem Like.also {x : Raw.M (Cell B K V) α} {y : U B K V Q σ β} {P : Links → α → σ → β → Prop} {F : α → Prop} (h : Like borrow L x y s P)
    (hF : ∀ m r g, x m = .ok (r, g) → F r) : Like borrow L x y s fun L' r s' b => P L' r s' b ∧ F r := by
  intro m w A hw r g ex
  rcases h m w A hw r g ex with h | ⟨L', b, s', w', l, h1, h2, h3, h4⟩
  · exact .inl h
  · exact .inr ⟨L', b, s', w', l, h1, h2, h3, h4, hF m r g ex⟩

theorem Like.rmap {x : Raw.M (Cell B K V) α} {y : U B K V Q σ β} {P : Links → α → σ → β → Prop} {f : α → γ} {R : Links → γ → σ → β → Prop} (h : Like borrow L x y s P)
    (hP : ∀ L' r s' b, P L' r s' b → R L' (f r) s' b) : Like borrow L (x >>= fun r => Pure.pure (f r)) y s R := by
  intro m w A hw r g ex
  obtain ⟨r1, h1, e1, ex⟩ := bind_ok_inv ex
  cases ex
  rcases h m w A hw r1 _ e1 with h | ⟨L', b, s', w', l, h1, h2, h3, h4⟩
  · exact .inl h
  · exact .inr ⟨L', b, s', w', l, h1, h2, h3, hP _ _ _ _ h4⟩

theorem put_only {t u : σ} : Only (B := B) (V := V) borrow L (put u : U B K V Q σ Unit) t fun _ s' _ => s' = u := by
  intro m w A hw r g ex
  cases ex
  exact .inr ⟨L, (), u, w, .refl L, rfl, A, hw, rfl⟩

theorem newTree_like (c : Config) : Like (Q := Q) (V := V) borrow L (Raw.RTree.new E c : Raw.M (Cell B K V) (Raw.RTree B)) (newTree E c) s
    fun L' t s' t' => s' = s ∧ SameTree L' t t' := by
  unfold Raw.RTree.new newTree
  refine .idle (.user (b := Bounds.empty) rfl) ?_
  refine (Like.mem (new_mem _)).bind ?_
  rintro L1 v s' v' l1 ⟨rfl, hv⟩
  refine Like.skip (newBounds_only _) ?_
  rintro L2 s' o l2 ⟨rfl, ho, hb⟩
  exact .pure ⟨rfl, rfl, rfl, ho, hb, hv.mono l2⟩

theorem branch_like {x : Nat × RNode B} {y : Nat × UNode B} (ht : SameTree L t t') (hx : SameT L x y) :
    Like (V := V) borrow L (Raw.RTree.branch E t x : Raw.M (Cell B K V) _) (branch E y) t' fun L' r s' _ => SameTree L' r s' := by
  obtain ⟨i, x⟩ := x
  obtain ⟨j, y⟩ := y
  obtain ⟨hij, hx⟩ := hx
  dsimp only at hij hx
  subst hij
  unfold Raw.RTree.branch branch
  dsimp only
  refine .idle .place ?_
  by_cases hl : j ≠ t.level
  · rw [Raw.panicIf, if_pos hl]; intro m w _ _ r g ex; cases ex
  rw [Raw.panicIf, if_neg hl]
  refine Like.of_eq (x' := FCVec.new E.node t.alloc.maxChildren >>= fun v => FCVec.push E.node t.alloc.maxChildren v (.node t.root) >>= fun v =>
    FCVec.push E.node t.alloc.maxChildren v (.node x) >>= fun v => pure { t with level := t.level + 1, root := ⟨Bounds.union t.root.bounds x.bounds, v⟩ }) rfl ?_
  refine .idle (.guarded (.bind (.panicIf (by rw [ht.level]; exact hl)) (.user (b := Bounds.union t.root.bounds x.bounds) (by rw [ht.root.val, hx.val]; rfl)))) ?_
  rw [ht.alloc]
  refine (Like.guarded (Like.mem (new_mem _))).bind ?_
  rintro L1 v t' v' l1 ⟨rfl, hv⟩
  have ht := ht.mono l1
  have hx := hx.mono l1
  rw [← bind_assoc']
  refine Like.bind (Like.withLocal (P := fun L' v s' _ => SameV L' v s'.2 ∧ s'.1 = t') ?_) ?_
  · refine (Like.guarded (Like.onSnd (pushLocal_like _ hv (.node ht.root)))).bind ?_
    rintro L2 v2 ⟨t2, w2⟩ _ l2 ⟨rfl, hv2⟩
    refine (Like.onSnd (pushLocal_like _ hv2 (.node (hx.mono l2)))).mono ?_
    rintro L3 v3 ⟨t3, w3⟩ _ l3 ⟨h1, h2⟩
    exact ⟨h2, h1⟩
  · rintro L2 v2 t2 ⟨u, w2⟩ l2 ⟨hv2, rfl⟩
    refine Like.skip (newBounds_only _) ?_
    rintro L3 t3 o l3 ⟨rfl, ho, hb⟩
    refine .final put_only ?_
    rintro L4 s4 _ l4 rfl
    exact ⟨rfl, by show t3.level + 1 = _; rw [ht.level], ho, l4.box _ hb, (hv2.mono l3).mono l4⟩

theorem insertEntry_like {entry : REntry B K V} {entry' : REntry (Own B) K V} (ht : SameTree L t t') (he : SameE L entry entry') :
    Like (Q := Q) borrow L (Raw.RTree.insertEntry E t entry) (insertEntry E entry') t' fun L' r s' _ => SameTree L' r s' := by
  unfold Raw.RTree.insertEntry insertEntry
  refine .idle .place ?_
  rw [ht.alloc, ht.level]
  refine (Like.onRoot (insertNode_like _ ht.root he)).bind ?_
  rintro L1 ⟨root, sib⟩ t1 o l1 ⟨⟨h1, h2⟩, h3⟩
  dsimp only at h1 h2 ⊢
  have h4 : SameTree L1 { t with root := root } t1 := ⟨by rw [h3]; exact ht.alloc, by rw [h3]; exact ht.level, h1⟩
  cases h2 with
  | none => exact .pure h4
  | some h2 => exact branch_like h4 h2

theorem insertUnique_like {key : K} {value : V} (ht : SameTree L t t') :
    Like (Q := Q) borrow L (Raw.RTree.insertUnique E t key value) (insertUnique E key value) t' fun L' r s' b => SameTree L' r.1 s' ∧ b = r.2 := by
  unfold Raw.RTree.insertUnique insertUnique
  refine .idle .place ?_
  rw [ht.alloc, ht.level]
  refine (Like.onRoot (insertUniqueNode_like _ ht.root)).bind ?_
  rintro L1 ⟨root, old, sib⟩ t1 ⟨old', sib'⟩ l1 ⟨⟨h1, h0, h2⟩, h3⟩
  dsimp only at h1 h0 h2 ⊢
  subst h0
  have h4 : SameTree L1 { t with root := root } t1 := ⟨by rw [h3]; exact ht.alloc, by rw [h3]; exact ht.level, h1⟩
  cases h2 with
  | none => exact .pure ⟨h4, rfl⟩
  | some h2 =>
    refine (Like.guarded (branch_like h4 h2)).bind ?_
    rintro L2 t2 t3 _ l2 h5
    exact .pure ⟨h5, rfl⟩

theorem tryUnbranch_like (ht : SameTree L t t') :
    Like (V := V) (Q := Q) borrow L (Raw.RTree.tryUnbranch E t : Raw.M (Cell B K V) _) (tryUnbranch E) t' fun L' r s' _ => SameTree L' r.1 s' := by
  unfold Raw.RTree.tryUnbranch tryUnbranch
  refine .idle .place ?_
  have hl := ht.level
  obtain ⟨al, level, root⟩ := t
  obtain ⟨al', level', root'⟩ := t'
  obtain rfl : al' = al := ht.alloc
  dsimp only at hl
  subst hl
  dsimp only
  cases level' with
  | zero => exact .pure ht
  | succ l =>
    dsimp only
    refine .ite (by rw [ht.root.vec.len]) (fun _ => ?_) (fun _ => .pure ht)
    refine (Like.onRoot (onVec_like ht.root (P := fun L' => SameC L') (swapRemove_mem ht.root.vec 0))).bind ?_
    rintro L1 ⟨v1, cell⟩ t1 cell' l1 ⟨⟨h1, hc⟩, h2⟩
    dsimp only at h1 hc ⊢
    refine (Like.mem (asNode_mem hc)).bind ?_
    rintro L2 r t2 r' l2 ⟨rfl, hr⟩
    refine .idle .place ?_
    have ha : t2.alloc = al' := by rw [h2]
    have hv : t2.level = l + 1 := by rw [h2]
    rw [ha, hv]
    unfold Raw.RTree.drop
    refine (dropContainer_like (a := al') (l + 1) (h1.mono l2)).bind ?_
    rintro L3 d t3 _ l3 rfl
    refine .put ?_
    refine .stop (.destroyed rfl) ?_
    exact ⟨rfl, rfl, hr.mono l3⟩

/-! ### Inserting again -/

theorem slotEntry_mem {c : Cell B K V} {c' : UCell B K V} (level : Nat) (h : SameC L c c') :
    Mem L (lift (Raw.RTree.slotEntry level c) : Raw.M (Cell B K V) _) (lift (Raw.RTree.slotEntry level c')) fun L' => SameE L' := by
  refine .lift fun x hx => ?_
  cases level with
  | zero =>
    cases h with
    | node h => cases hx
    | entry e => cases hx; exact ⟨_, rfl, .leaf _ _⟩
  | succ l =>
    cases h with
    | node h => cases hx; exact ⟨_, rfl, .inner l h⟩
    | entry e => cases hx

/-- The loop without the drop that follows it. -/
def justLoop (E : TEnv) (e : Env) (level : Nat) : Nat → IntoIter → Raw.RTree B → Raw.M (Cell B K V) (Raw.RTree B × IntoIter)
  | 0, _, _ => Raw.panic .diverge
  | n + 1, it, t => do
    let r ← it.next e
    match r.2 with
    | some c => do
      let entry ← lift (Raw.RTree.slotEntry level c)
      let t ← Raw.RTree.insertEntry E t entry
      justLoop E e level n r.1 t
    | none => pure (t, r.1)

theorem loop_just (level : Nat) (k : Nat) (it : IntoIter) (t : Raw.RTree B) :
    Raw.RTree.reinsertLoop (K := K) (V := V) E e level k it t = justLoop E e level k it t >>= fun r => r.2.drop e >>= fun d => pure (r.1, d) := by
  induction k generalizing it t with
  | zero => rfl
  | succ k ih =>
    unfold Raw.RTree.reinsertLoop justLoop
    rw [bind_assoc']
    congr 1; funext r
    obtain ⟨it, o⟩ := r
    cases o with
    | none => rfl
    | some c =>
      dsimp only
      rw [bind_assoc']
      congr 1; funext x
      rw [bind_assoc']
      congr 1; funext y
      exact ih _ _

theorem next_none {ι : Type} {it it' : IntoIter} {h g : Raw.Heap ι} (ex : it.next e h = .ok ((it', none), g)) : it'.fst = it'.lst := by
  unfold IntoIter.next at ex
  by_cases hc : it.fst = it.lst
  · rw [if_pos hc] at ex; cases ex; exact hc
  · rw [if_neg hc] at ex
    obtain ⟨c, h1, -, ex⟩ := bind_ok_inv ex
    obtain ⟨p, h2, -, ex⟩ := bind_ok_inv ex
    cases ex

theorem just_done {level : Nat} (k : Nat) {it : IntoIter} {t : Raw.RTree B} {h g : Raw.Heap (Cell B K V)} {r : Raw.RTree B × IntoIter}
    (ex : justLoop E e level k it t h = .ok (r, g)) : r.2.fst = r.2.lst := by
  induction k generalizing it t h with
  | zero => cases ex
  | succ k ih =>
    unfold justLoop at ex
    obtain ⟨⟨it1, o⟩, h1, e1, ex⟩ := bind_ok_inv ex
    cases o with
    | none => cases ex; exact next_none e1
    | some c =>
      dsimp only at ex
      obtain ⟨x, h2, -, ex⟩ := bind_ok_inv ex
      obtain ⟨y, h3, -, ex⟩ := bind_ok_inv ex
      exact ih ex

theorem just_like {level : Nat} (k : Nat) {it it' : IntoIter} (ht : SameTree L t t') (hi : SameI L it it') :
    Like (V := V) (Q := Q) borrow L (justLoop (K := K) E (Raw.RTree.slotEnv E level) level k it t) (reinsertLoop E level k) (t', it')
      fun L' r s' _ => SameTree L' r.1 s'.1 ∧ SameI L' r.2 s'.2 := by
  induction k generalizing L it it' t t' with
  | zero => exact .panic
  | succ k ih =>
    unfold justLoop reinsertLoop
    refine .idle (.onSnd .place) ?_
    refine (Like.mem (next_mem hi)).bind ?_
    rintro L1 ⟨it1, o⟩ _ ⟨it1', o'⟩ l1 ⟨rfl, hi1, ho⟩
    dsimp only at hi1 ho ⊢
    refine Like.skip (Like.onSnd put_only) ?_
    rintro L2 ⟨t2, i2⟩ _ l2 ⟨h1, h2⟩
    dsimp only at h1 h2
    subst h1 h2
    have ht := (ht.mono l1).mono l2
    have hi1 := hi1.mono l2
    cases ho with
    | none => exact .pure ⟨ht, hi1⟩
    | some hc =>
      dsimp only
      refine (Like.mem (slotEntry_mem level (hc.mono l2))).bind ?_
      rintro L3 x _ y l3 ⟨rfl, hx⟩
      refine (Like.onFst (insertEntry_like (ht.mono l3) hx)).bind ?_
      rintro L4 t4 ⟨t5, i5⟩ _ l4 ⟨h4, h5⟩
      dsimp only at h5
      subst h5
      exact ih h4 ((hi1.mono l3).mono l4)

theorem drop_empty {ι : Type} {it : IntoIter} {h g : Raw.Heap ι} {d : List ι} (hi : it.fst = it.lst) (ex : it.drop e h = .ok (d, g)) : d = [] := by
  unfold IntoIter.drop at ex
  obtain ⟨c, h1, e1, ex⟩ := bind_ok_inv ex
  obtain ⟨u, h2, -, ex⟩ := bind_ok_inv ex
  cases ex
  unfold IntoIter.drain at e1
  obtain ⟨⟨i, o⟩, h3, e3, e1⟩ := bind_ok_inv e1
  unfold IntoIter.next at e3
  rw [if_pos hi] at e3
  cases e3
  cases e1
  rfl

theorem dropIter_like {cap level : Nat} {it it' : IntoIter} (hi : SameI L it it') (hd : it.fst = it.lst) :
    Like (Q := Q) borrow L (it.drop (Raw.RTree.slotEnv E level) : Raw.M (Cell B K V) _) (dropIter E cap level it') s fun _ _ s' _ => s' = s := by
  unfold dropIter
  refine unmem_lift ?_
  refine ((Like.mem (intoDrop_mem hi)).also (F := fun d => d = []) fun m r g ex => drop_empty hd ex).bind ?_
  rintro L1 d s1 cs l1 ⟨⟨rfl, hp⟩, rfl⟩
  cases hp
  exact .pure rfl

/-- Corresponding lists of slots. -/
abbrev SameZ (L : Links) (x y : Option FCVec × Nat) : Prop := Option.Rel (SameV L) x.1 y.1 ∧ y.2 = x.2

theorem zip_same {r r' : RSlots} (h : SameR L r r') (i : Nat) : Pairs (SameZ L) (r.zipIdx i) (r'.zipIdx i) := by
  induction h generalizing i with
  | nil => exact .nil
  | cons h _ ih => exact .cons ⟨h, rfl⟩ (ih (i + 1))

theorem reinsert_like {zs zs' : List (Option FCVec × Nat)} (ht : SameTree L t t') (hz : Pairs (SameZ L) zs zs') :
    Like (V := V) (Q := Q) borrow L (Raw.RTree.reinsert (K := K) E zs t) (reinsert E zs') t' fun L' r s' _ => SameTree L' r.1 s' := by
  induction zs generalizing L t t' zs' with
  | nil => cases hz; exact .pure ht
  | cons z zs ih =>
    cases hz with
    | @cons _ z' _ zs' hz h =>
      obtain ⟨o, level⟩ := z
      obtain ⟨o', level'⟩ := z'
      obtain ⟨ho, hl⟩ := hz
      dsimp only at ho hl
      subst hl
      cases ho with
      | none => unfold Raw.RTree.reinsert reinsert; exact ih ht h
      | @some v v' hv =>
        unfold Raw.RTree.reinsert reinsert
        refine .idle .place ?_
        rw [ht.alloc, hv.len]
        refine (Like.mem (intoIter_mem _ hv)).bind ?_
        rintro L1 it t1 it' l1 ⟨rfl, hit⟩
        have ht := ht.mono l1
        rw [loop_just, bind_assoc']
        refine Like.bind (Like.withLocal (P := fun L' r s' _ => (SameTree L' r.1 s'.1 ∧ SameI L' r.2 s'.2) ∧ r.2.fst = r.2.lst) ((just_like _ ht hit).also fun m r g ex => just_done _ ex)) ?_
        rintro L2 ⟨t2, it2⟩ t2' ⟨u, it2'⟩ l2 ⟨⟨ht2, hi2⟩, hd⟩
        dsimp only at ht2 hi2 hd ⊢
        rw [bind_assoc']
        refine (dropIter_like hi2 hd).bind ?_
        rintro L3 d t3 _ l3 rfl
        refine Like.of_eq (x' := Raw.RTree.reinsert E zs t2 >>= fun r => pure (r.1, d ++ r.2)) rfl ?_
        exact (ih (ht2.mono l3) (h.mono fun _ _ x => ⟨rel_mono x.1 fun _ _ y => ((y.mono l1).mono l2).mono l3, x.2⟩)).rmap fun _ _ _ _ x => x

theorem onRootR_like {X : Raw.M (Cell B K V) (RNode B × Option (K × V) × RSlots)} {y : U B K V Q (Removing B) (Option V)} {r : RSlots} (h : Like borrow L X y (t'.root, r) Removed) :
    Like borrow L X (onRootR r y) t' fun L' z s' b => SameN L' z.1 s'.root ∧ s' = { t' with root := s'.root } ∧ SameR L' z.2.2 b.2 ∧ b.1 = z.2.1.map (·.2) := by
  intro m w A hw z g ex
  rcases h m w A hw z g ex with h | ⟨L', b, s', w', l, h1, h2, h3, h4, h5, h6⟩
  · left
    unfold onRootR
    dsimp only
    rw [h]
    rfl
  · exact .inr ⟨L', (b, s'.2), { t' with root := s'.1 }, w', l, by unfold onRootR; rw [h1]; rfl, h2, h3, h4, rfl, h5, h6⟩

theorem remove_like {q : Q} (ht : SameTree L t t') :
    Like borrow L (Raw.RTree.remove E borrow t q : Raw.M (Cell B K V) _) (remove E q) t' fun L' r s' b => SameTree L' r.1 s' ∧ b = r.2.1.map (·.2) := by
  unfold Raw.RTree.remove remove
  refine .idle .place ?_
  rw [ht.alloc, ht.level]
  refine (onRootR_like (removeNode_like t.level ht.root (.replicate t.level .none))).bind ?_
  rintro L1 ⟨root, found, slots⟩ t1 ⟨b, slots'⟩ l1 ⟨h1, h2, h3, h4⟩
  dsimp only at h1 h3 h4 ⊢
  subst h4
  have h5 : SameTree L1 { t with root := root } t1 := ⟨by rw [h2]; exact ht.alloc, by rw [h2]; exact ht.level, h1⟩
  cases found with
  | none => exact .pure ⟨h5, rfl⟩
  | some e =>
    dsimp only [Option.map]
    have eq : (do
        let (t, d) ← Raw.RTree.tryUnbranch E { t with root := root }
        let (t, d') ← Raw.RTree.reinsert E slots.zipIdx t
        pure (t, some e, d.map .entry ++ d') : Raw.M (Cell B K V) (Raw.RTree B × Option (K × V) × List (Cell B K V))) = (do
        let x ← Raw.RTree.tryUnbranch E { t with root := root }
        let y ← Raw.RTree.reinsert E slots.zipIdx x.1
        pure (y.1, x.2.map Cell.entry ++ y.2)) >>= fun y => pure (y.1, some e, y.2) := by
      rw [bind_assoc']
      congr 1; funext x
      rw [bind_assoc']
      congr 1
    refine Like.of_eq eq ?_
    refine Like.bind (P := fun L' r s' _ => SameTree L' r.1 s') (.guarded ?_) fun L2 r s' _ l2 h => .pure ⟨h, rfl⟩
    refine (tryUnbranch_like h5).bind ?_
    intro L2 r t2 _ l2 h6
    exact (reinsert_like h6 (zip_same (slots_mono h3 l2) 0)).rmap fun _ _ _ _ x => x

/-! ### Clones -/

theorem asEntry_ub {cs : List (UCell B K V)} {x : Panic} (h : cs.mapM Cell.asEntry = .error x) : x = .ub := by
  induction cs with
  | nil => cases h
  | cons c cs ih =>
    rw [List.mapM_cons] at h
    cases c with
    | node n => cases h; rfl
    | entry e =>
      cases hm : cs.mapM Cell.asEntry with
      | error y => rw [hm] at h; cases h; exact ih hm
      | ok es => rw [hm] at h; cases h

theorem asEntry_all {cs : List (Cell B K V)} {cs' : List (UCell B K V)} {es : List (K × V)} (hp : Pairs (SameC L) cs cs') (h : cs'.mapM Cell.asEntry = .ok es) :
    cs = es.map Cell.entry := by
  induction hp generalizing es with
  | nil => cases h; rfl
  | cons hc _ ih =>
    rw [List.mapM_cons] at h
    obtain ⟨x, h1, h⟩ := bind_eq_ok.1 h
    obtain ⟨xs, h2, h⟩ := bind_eq_ok.1 h
    cases h
    cases hc with
    | node n => cases h1
    | entry e => cases h1; rw [ih h2]; rfl

theorem entries_like (h : SameV L v v') : Like (Q := Q) borrow L (v.slice E.entry : Raw.M (Cell B K V) _) (mem (entries E v')) s fun _ cs s' es => s' = s ∧ cs = es.map Cell.entry := by
  intro m w A hw cs g ex
  obtain ⟨L1, cs', m1, l1, h1, A1, hp⟩ := slice_mem h m w.heap A cs g ex
  unfold mem entries
  rw [Raw.bind_ok h1]
  cases hm : cs'.mapM Cell.asEntry with
  | error x =>
    left
    rw [asEntry_ub hm]
    rfl
  | ok es => exact .inr ⟨L1, es, s, { w with heap := m1 }, l1, rfl, A1, hw, rfl, asEntry_all hp hm⟩

theorem cloneEntries_like (cap : Nat) (es : List (K × V)) (h : SameV L v v') :
    Like (Q := Q) borrow L (FCVec.pushAll E.entry cap v (es.map Cell.entry) : Raw.M (Cell B K V) _) (cloneEntries E cap es) (s, v') fun L' r s' _ => s'.1 = s ∧ SameV L' r s'.2 := by
  induction es generalizing L v v' with
  | nil => exact .pure ⟨rfl, h⟩
  | cons e es ih =>
    unfold cloneEntries
    refine .idle (.user (b := e.1) rfl) (.idle (.makeKey _) (.idle (.guarded (.user (b := e.2) rfl)) (.idle (.makeValue _) ?_)))
    rw [List.map_cons]
    unfold FCVec.pushAll
    refine (Like.onSnd (pushLocal_like cap h (.entry e))).bind ?_
    rintro L1 v1 ⟨s1, w1⟩ _ l1 ⟨h1, h2⟩
    dsimp only at h1 h2
    subst h1
    exact ih h2

theorem cloneNodes_like {rec : RNode B → Raw.M (Cell B K V) (RNode B)} {rec' : UNode B → U B K V Q σ (UNode B)} (cap : Nat) {cs : List (RNode B)} {cs' : List (UNode B)}
    (hr : ∀ L c c', SameN L c c' → Like borrow L (rec c) (rec' c') s fun L' r s' b => s' = s ∧ SameN L' r b) (hc : Pairs (SameN L) cs cs') (h : SameV L v v') :
    Like borrow L (cs.foldlM (fun v c => do
      let c ← rec c
      v.push E.node cap (.node c)) v) (cloneNodes E cap rec' cs') (s, v') fun L' r s' _ => s'.1 = s ∧ SameV L' r s'.2 := by
  induction cs generalizing L v v' cs' with
  | nil => cases hc; exact .pure ⟨rfl, h⟩
  | cons c cs ih =>
    cases hc with
    | cons hc hcs =>
      unfold cloneNodes
      rw [List.foldlM_cons, bind_assoc']
      refine (Like.onFst (hr L _ _ hc)).bind ?_
      rintro L1 n1 ⟨s1, w1⟩ n1' l1 ⟨⟨h1, h2⟩, h3⟩
      dsimp only at h1 h3
      subst h1 h3
      refine (Like.onSnd (pushLocal_like cap (h.mono l1) (.node h2))).bind ?_
      rintro L2 v2 ⟨s2, w2⟩ _ l2 ⟨h4, h5⟩
      dsimp only at h4 h5
      subst h4
      exact ih (hcs.mono fun _ _ x => (x.mono l1).mono l2) h5

theorem cloneNode_like (l : Nat) (hn : SameN L n n') :
    Like (Q := Q) borrow L (Raw.cloneNode E a l n : Raw.M (Cell B K V) _) (cloneNode E a.maxChildren l n') s fun L' r s' b => s' = s ∧ SameN L' r b := by
  induction l generalizing L n n' with
  | zero =>
    unfold Raw.cloneNode cloneNode FCVec.clone
    refine .idle (.user (b := n.bounds) (by rw [hn.val])) ?_
    by_cases hl : n.vec.len > a.maxChildren
    · rw [Raw.panicIf, if_pos hl]; intro m w _ _ r g ex; cases ex
    rw [Raw.panicIf, if_neg hl]
    refine .idle (.panicIf (by rw [hn.vec.len]; exact hl)) ?_
    refine Like.of_eq (x' := FCVec.new E.entry a.maxChildren >>= fun new => (n.vec.slice E.entry >>= fun vs => FCVec.pushAll E.entry a.maxChildren new vs) >>= fun v => pure ⟨n.bounds, v⟩) ?_ ?_
    · show (FCVec.new E.entry a.maxChildren >>= fun new => n.vec.slice E.entry >>= fun vs => FCVec.pushAll E.entry a.maxChildren new (vs.map id)) >>= _ = _
      rw [bind_assoc']
      congr 1; funext new
      rw [bind_assoc', bind_assoc']
      congr 1; funext vs
      rw [List.map_id]
    refine (Like.mem (new_mem _)).bind ?_
    rintro L1 v s' v' l1 ⟨rfl, hv⟩
    refine Like.bind (Like.withLocal (P := fun L' v s1 _ => s1.1 = s' ∧ SameV L' v s1.2) ?_) ?_
    · refine (entries_like (hn.mono l1).vec).bind ?_
      rintro L2 _ _ es l2 ⟨rfl, rfl⟩
      exact cloneEntries_like _ es (hv.mono l2)
    · rintro L2 v2 s2 ⟨u, w2⟩ l2 ⟨h1, h2⟩
      dsimp only at h1 h2
      subst h1
      refine Like.skip (newBounds_only _) ?_
      rintro L3 s3 o l3 ⟨rfl, ho, hb⟩
      exact .pure ⟨rfl, ho, hb, h2.mono l3⟩
  | succ l ih =>
    unfold Raw.cloneNode cloneNode
    refine .idle (.user (b := n.bounds) (by rw [hn.val])) ?_
    refine (Like.mem (new_mem _)).bind ?_
    rintro L1 v s' v' l1 ⟨rfl, hv⟩
    rw [← bind_assoc']
    refine Like.bind (Like.withLocal (P := fun L' v s1 _ => s1.1 = s' ∧ SameV L' v s1.2) ?_) ?_
    · refine (Like.mem (nodes_mem (hn.mono l1).vec)).bind ?_
      rintro L2 cs _ cs' l2 ⟨rfl, hcs⟩
      exact cloneNodes_like _ (fun L c c' h => ih h) hcs (hv.mono l2)
    · rintro L2 v2 s2 ⟨u, w2⟩ l2 ⟨h1, h2⟩
      dsimp only at h1 h2
      subst h1
      refine Like.skip (newBounds_only _) ?_
      rintro L3 s3 o l3 ⟨rfl, ho, hb⟩
      exact .pure ⟨rfl, ho, hb, h2.mono l3⟩

/-! ### Look-up -/

theorem get_like {q : Q} (ht : SameTree L t t') : Like borrow L (Raw.RTree.get E borrow t q : Raw.M (Cell B K V) _) (get E q) t' fun _ r s' b => s' = t' ∧ b = r := by
  unfold Raw.RTree.get get
  refine .idle .place ?_
  rw [ht.level]
  refine (find_like (q := q) (bor := borrow) (b := fun c => c.boundsQ q) (p := fun c k => c.eqQ (c.borrow k) q) t.level rfl (fun _ => rfl) ht.root).bind ?_
  rintro L1 o t1 o' l1 ⟨rfl, ho⟩
  cases ho with
  | none => exact .pure ⟨rfl, rfl⟩
  | @some p p' hp =>
    obtain ⟨v, i⟩ := p
    obtain ⟨v', j⟩ := p'
    obtain ⟨h1, h2⟩ := hp
    dsimp only at h1 h2
    subst h2
    refine (Like.mem (readEntry_mem h1 _)).bind ?_
    rintro L2 _ _ e l2 ⟨rfl, rfl⟩
    exact .pure ⟨rfl, rfl⟩

theorem setValue_like {q : Q} {value : V} (ht : SameTree L t t') :
    Like borrow L (Raw.RTree.setValue E borrow t q value : Raw.M (Cell B K V) _) (setValue E q value) t' fun _ r s' b => s' = t' ∧ b = r := by
  unfold Raw.RTree.setValue setValue
  refine .idle .place ?_
  rw [ht.level]
  refine (Like.guarded (find_like (q := q) (bor := borrow) (b := fun c => c.boundsQ q) (p := fun c k => c.eqQ (c.borrow k) q) t.level rfl (fun _ => rfl) ht.root)).bind ?_
  rintro L1 o t1 o' l1 ⟨rfl, ho⟩
  cases ho with
  | none => exact .idle (.dropValue _) (.pure ⟨rfl, rfl⟩)
  | @some p p' hp =>
    obtain ⟨v, i⟩ := p
    obtain ⟨v', j⟩ := p'
    obtain ⟨h1, h2⟩ := hp
    dsimp only at h1 h2
    subst h2
    refine (Like.mem (replaceValue_mem h1 _ _)).bind ?_
    rintro L2 _ _ e l2 ⟨rfl, rfl⟩
    exact .pure ⟨rfl, rfl⟩

end RTree.Unwind
