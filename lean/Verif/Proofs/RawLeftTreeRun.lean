import Verif.Proofs.RawLeftTree
import Verif.Proofs.LeftJoin
/-!
# Left joins of trees in raw memory: the loops
-/

namespace RTree.Raw

variable {B K V Q : Type} {E : TEnv} {h : Heap (Cell B K V)} {cap cap0 cap1 level0 level1 : Nat}

theorem setInner_length {L I : Type} {s s' : IterStack L I} {i : Nat} {it : I} (hs : s.setInner i it = .ok s') : s'.length = s.length := by
  obtain ⟨_, _, h2⟩ := bind_eq_ok.1 hs
  cases h2
  exact List.length_set

theorem setLeaf_length {L I : Type} {s s' : IterStack L I} {it : L} (hs : s.setLeaf it = .ok s') : s'.length = s.length := by
  obtain ⟨_, _, h2⟩ := bind_eq_ok.1 hs
  cases h2
  exact List.length_set

theorem lift_eq {α β : Type} {x : Res β} {b : β} (hx : x = .ok b) (h : Heap α) : lift x h = .ok (b, h) := by
  subst hx; rfl

section

variable {L' I' : Type} {RL : Cursor EntrySlice → L' → Prop} {RI : Nat → Cursor (NodeSlice B) → I' → Prop}

theorem findInner_sim {stepR : Cursor (NodeSlice B) → TM B K V (Option (RNode B) × Cursor (NodeSlice B))} {stepV : I' → Res (Option (Node B K V) × I')} {mk : List (Node B K V) → I'}
    (hstep : ∀ l c it o it', RI l c it → stepV it = .ok (o, it') → ∃ o' c', stepR c h = .ok ((o', c'), h) ∧ RI l c' it' ∧ Found E cap h l o' o)
    (hmk : ∀ l rn n cs, InMem E cap h (l + 1) rn n → n.innerChildren = .ok cs → RI l ⟨.all rn.vec, 0⟩ (mk cs)) (start0 stop : Nat) :
    ∀ (fuel F i : Nat) {rs : SliceStack B} {vs vs' : IterStack L' I'} {o : Option (Node B K V)}, fuel ≤ F → StackRel RL RI rs vs →
      InnerIterStack.findLoop stepV mk start0 stop fuel i vs = .ok (o, vs') →
      ∃ o' rs', findInner stepR start0 stop F i rs h = .ok ((o', rs'), h) ∧ StackRel RL RI rs' vs' ∧ vs'.length = vs.length ∧ Found E cap h start0 o' o := by
  intro fuel
  induction fuel with
  | zero =>
    intro F i rs vs vs' o _ R hv
    unfold InnerIterStack.findLoop at hv
    unfold findInner
    by_cases hc : start0 + 1 + i < stop
    · rw [if_pos hc] at hv; cases hv
    · rw [if_neg hc] at hv ⊢
      cases hv
      exact ⟨_, _, rfl, R, rfl, trivial⟩
  | succ fuel ih =>
    intro F i rs vs vs' o hF R hv
    obtain ⟨F, rfl⟩ : ∃ G, F = G + 1 := ⟨F - 1, by omega⟩
    unfold InnerIterStack.findLoop at hv
    unfold findInner
    by_cases hc : start0 + 1 + i < stop
    · rw [if_pos hc] at hv ⊢
      dsimp only at hv ⊢
      obtain ⟨it, h1, hv⟩ := bind_eq_ok.1 hv
      obtain ⟨⟨found, it'⟩, h2, hv⟩ := bind_eq_ok.1 hv
      obtain ⟨vs₁, h3, hv⟩ := bind_eq_ok.1 hv
      obtain ⟨c, k1, r1⟩ := R.getInner h1
      obtain ⟨o', c', k2, r2, f2⟩ := hstep _ c it found it' r1 h2
      obtain ⟨rs₁, k3, r3⟩ := R.setInner h3 r2
      rw [bind_ok (lift_eq k1 h), bind_ok k2]
      dsimp only
      rw [bind_ok (lift_eq k3 h)]
      have hl := setInner_length h3
      cases found with
      | none =>
        cases o' with
        | some _ => exact f2.elim
        | none =>
          dsimp only at hv ⊢
          obtain ⟨o'', rs', e1, e2, e3, e4⟩ := ih F (i + 1) (by omega) r3 hv
          exact ⟨o'', rs', e1, e2, e3.trans hl, e4⟩
      | some child =>
        cases o' with
        | none => exact f2.elim
        | some rn =>
          dsimp only at hv ⊢
          cases i with
          | zero =>
            cases hv
            exact ⟨_, _, rfl, r3, hl, f2⟩
          | succ i' =>
            dsimp only at hv ⊢
            obtain ⟨cs, h4, hv⟩ := bind_eq_ok.1 hv
            obtain ⟨vs₂, h5, hv⟩ := bind_eq_ok.1 hv
            obtain ⟨rs₂, k5, r5⟩ := r3.setInner h5 (hmk (start0 + i') rn child cs f2 h4)
            rw [bind_ok (lift_eq k5 h)]
            obtain ⟨o'', rs', e1, e2, e3, e4⟩ := ih F i' (by omega) r5 hv
            exact ⟨o'', rs', e1, e2, e3.trans ((setInner_length h5).trans hl), e4⟩
    · rw [if_neg hc] at hv ⊢
      cases hv
      exact ⟨_, _, rfl, R, rfl, trivial⟩

end

theorem sliceIt_mk (S : Sizes E cap) : ∀ l rn n cs, InMem E cap h (l + 1) rn n → n.innerChildren = .ok cs → SliceIt (K := K) (V := V) E cap h l ⟨.all rn.vec, 0⟩ cs :=
  fun _ _ _ cs H hc => ⟨cs, H.nodes S hc, Nat.zero_le _, rfl⟩

theorem rewindIt_mk (S : Sizes E cap) : ∀ l rn n cs, InMem E cap h (l + 1) rn n → n.innerChildren = .ok cs → RewindIt (K := K) (V := V) E cap h l ⟨.all rn.vec, 0⟩ (.new cs) :=
  fun _ _ _ _ H hc => ⟨H.nodes S hc, rfl⟩

/-- left_join.rs 65-75. -/
theorem iterateLeft_sim (S : Sizes E cap) {rs : SliceStack B} {vs vs' : TreeIter B K V} (R : LeftRel E cap h rs vs) {l : Nat} {rn : RNode B} {n : Node B K V} (H : InMem E cap h l rn n)
    (hv : LeftJoinIter.iterateLeftChildren vs n l = .ok vs') : ∃ rs', MemLeftJoin.iterateChildren rs (some rn) l = .ok rs' ∧ LeftRel E cap h rs' vs' ∧ vs'.length = vs.length := by
  cases l with
  | zero =>
    obtain ⟨es, h1, h2⟩ := bind_eq_ok.1 hv
    obtain ⟨rs', e1, e2⟩ := R.setLeaf (a := ⟨.all rn.vec, 0⟩) h2 ⟨es, H.ents S h1, Nat.zero_le _, rfl⟩
    exact ⟨rs', e1, e2, setLeaf_length h2⟩
  | succ l =>
    obtain ⟨cs, h1, h2⟩ := bind_eq_ok.1 hv
    obtain ⟨rs', e1, e2⟩ := R.setInner (a := ⟨.all rn.vec, 0⟩) h2 (sliceIt_mk S l rn n cs H h1)
    exact ⟨rs', e1, e2, setInner_length h2⟩

/-- left_join.rs 77-90. -/
theorem iterateRight_sim (S : Sizes E cap) {rs : SliceStack B} {vs vs' : RewindTreeIter B K V} (R : RightRel E cap h rs vs) {l : Nat} {o : Option (RNode B)} {o' : Option (Node B K V)}
    (H : Found E cap h l o o') (hv : LeftJoinIter.iterateRightChildren vs o' l = .ok vs') :
    ∃ rs', MemLeftJoin.iterateChildren rs o l = .ok rs' ∧ RightRel E cap h rs' vs' ∧ vs'.length = vs.length := by
  cases l with
  | zero =>
    cases o' with
    | none =>
      cases o with
      | some _ => exact H.elim
      | none =>
        obtain ⟨rs', e1, e2⟩ := R.setLeaf (a := ⟨.none, 0⟩) hv ⟨.none, rfl⟩
        exact ⟨rs', e1, e2, setLeaf_length hv⟩
    | some n =>
      cases o with
      | none => exact H.elim
      | some rn =>
        obtain ⟨es, h1, h2⟩ := bind_eq_ok.1 hv
        obtain ⟨rs', e1, e2⟩ := R.setLeaf (a := ⟨.all rn.vec, 0⟩) h2 ⟨InMem.ents S H h1, rfl⟩
        exact ⟨rs', e1, e2, setLeaf_length h2⟩
  | succ l =>
    cases o' with
    | none =>
      cases o with
      | some _ => exact H.elim
      | none =>
        obtain ⟨rs', e1, e2⟩ := R.setInner (a := ⟨.none, 0⟩) hv ⟨.none l, rfl⟩
        exact ⟨rs', e1, e2, setInner_length hv⟩
    | some n =>
      cases o with
      | none => exact H.elim
      | some rn =>
        obtain ⟨cs, h1, h2⟩ := bind_eq_ok.1 hv
        obtain ⟨rs', e1, e2⟩ := R.setInner (a := ⟨.all rn.vec, 0⟩) h2 (rewindIt_mk S l rn n cs H h1)
        exact ⟨rs', e1, e2, setInner_length h2⟩

/-- left_join.rs 92-100. -/
theorem rewind_sim (stop : Nat) : ∀ (n i : Nat) {rs : SliceStack B} {vs vs' : RewindTreeIter B K V}, RightRel E cap h rs vs → LeftJoinIter.rewindLoop stop n i vs = .ok vs' →
    ∃ rs', MemLeftJoin.rewindLoop stop n i rs = .ok rs' ∧ RightRel E cap h rs' vs' ∧ vs'.length = vs.length
  | 0, _, rs, vs, vs', R, hv => by cases hv; exact ⟨rs, rfl, R, rfl⟩
  | n + 1, i, rs, vs, vs', R, hv => by
    rw [LeftJoinIter.rewindLoop] at hv
    rw [MemLeftJoin.rewindLoop]
    by_cases hc : i + 1 = stop
    · rw [if_pos hc] at hv ⊢
      obtain ⟨it, h1, hv⟩ := bind_eq_ok.1 hv
      obtain ⟨vs₁, h2, hv⟩ := bind_eq_ok.1 hv
      obtain ⟨c, k1, r1⟩ := R.getInner h1
      obtain ⟨rs₁, k2, r2⟩ := R.setInner (a := ⟨c.slice, 0⟩) h2 ⟨r1.1, rfl⟩
      obtain ⟨rs', e1, e2, e3⟩ := rewind_sim stop n (i + 1) r2 hv
      rw [k1, ok_bind, k2, ok_bind]
      exact ⟨rs', e1, e2, e3.trans (setInner_length h2)⟩
    · rw [if_neg hc] at hv ⊢
      obtain ⟨vs₁, h2, hv⟩ := bind_eq_ok.1 hv
      obtain ⟨rs₁, k2, r2⟩ := R.setInner (a := ⟨.none, 0⟩) h2 ⟨.none i, rfl⟩
      obtain ⟨rs', e1, e2, e3⟩ := rewind_sim stop n (i + 1) r2 hv
      rw [k2, ok_bind]
      exact ⟨rs', e1, e2, e3.trans (setInner_length h2)⟩

theorem remainderLoop_sim {rs : SliceStack B} {vs : RewindTreeIter B K V} (R : RightRel E cap h rs vs) : ∀ (n i : Nat) {css : List (List (Node B K V))},
    LeftJoinIter.remainderLoop vs n i = .ok css → ∃ cs, MemLeftJoin.remainderLoop rs n i = .ok cs ∧ cs.length = n ∧ css.length = n ∧
      ∀ j a b, cs[j]? = some a → css[j]? = some b → SliceIt E cap h (i + j) a b
  | 0, i, css, hv => by cases hv; exact ⟨[], rfl, rfl, rfl, fun j a b ha => by cases ha⟩
  | n + 1, i, css, hv => by
    obtain ⟨it, h1, hv⟩ := bind_eq_ok.1 hv
    obtain ⟨cs, h2, hv⟩ := bind_eq_ok.1 hv
    obtain ⟨rest, h3, hv⟩ := bind_eq_ok.1 hv
    cases hv
    obtain ⟨c, k1, N, he⟩ := R.getInner h1
    obtain ⟨cs', k3, l1, l2, hr⟩ := remainderLoop_sim R n (i + 1) h3
    rw [RewindIter.remainder] at h2
    split at h2
    next hle =>
      cases h2
      rw [MemLeftJoin.remainderLoop, k1, ok_bind, MemLeftJoin.remainder, N.len, he, if_pos hle, ok_bind, k3, ok_bind]
      refine ⟨_, rfl, by simp [l1], by simp [l2], fun j a b ha hb => ?_⟩
      cases j with
      | zero => cases ha; cases hb; exact ⟨it.slice, N, by rw [he]; exact hle, by rw [he]⟩
      | succ j =>
        have := hr j a b ha hb
        rwa [Nat.add_right_comm, Nat.add_assoc] at this
    next => cases h2

/-- left_join.rs 209-219. -/
theorem remainders_sim {rs : SliceStack B} {vs : RewindTreeIter B K V} (R : RightRel E cap h rs vs) {vs' : TreeIter B K V} (hlen : 0 < vs.length)
    (hv : LeftJoinIter.remainders vs = .ok vs') : ∃ rs', MemLeftJoin.remainders rs = .ok rs' ∧ LeftRel E cap h rs' vs' ∧ vs'.length = vs.length := by
  obtain ⟨it, h1, hv⟩ := bind_eq_ok.1 hv
  obtain ⟨es, h2, hv⟩ := bind_eq_ok.1 hv
  obtain ⟨css, h3, hv⟩ := bind_eq_ok.1 hv
  cases hv
  obtain ⟨c, k1, N, he⟩ := R.getLeaf h1
  obtain ⟨cs, k3, l1, l2, hr⟩ := remainderLoop_sim R _ 0 h3
  rw [RewindIter.remainder] at h2
  split at h2
  next hle =>
    cases h2
    rw [MemLeftJoin.remainders, k1, ok_bind, MemLeftJoin.remainder, N.len, he, if_pos hle, ok_bind, R.len, k3, ok_bind]
    refine ⟨_, rfl, StackRel.newBox ⟨it.slice, N, by rw [he]; exact hle, by rw [he]⟩ (l1.trans l2.symm) fun i a b ha hb => ?_, ?_⟩
    · have := hr i a b ha hb
      rwa [Nat.zero_add] at this
    · rw [IterStack.length_newBox, l2]; omega
  next => cases h2

/-! ### Right-hand iterators -/

theorem nextRight_sim (S : Sizes E cap) (borrow : K → Q) (f : SpatialFilter B Q) : ∀ (fuel F level : Nat) {rs : SliceStack B} {vs vs' : TreeIter B K V} {o : Option (K × V)},
    fuel ≤ F → LeftRel E cap h rs vs → TreeIter.nextLoop borrow f fuel level vs = .ok (o, vs') →
    ∃ rs', SliceStack.nextLoop E borrow f F level rs h = .ok ((o, rs'), h) ∧ LeftRel E cap h rs' vs' ∧ vs'.length = vs.length := by
  intro fuel
  induction fuel with
  | zero =>
    intro F level rs vs vs' o _ R hv
    unfold TreeIter.nextLoop at hv
    unfold SliceStack.nextLoop
    rw [R.len]
    by_cases hc : level < vs.length
    · rw [if_pos hc] at hv; cases hv
    · rw [if_neg hc] at hv ⊢
      cases hv
      exact ⟨_, rfl, R, rfl⟩
  | succ fuel ih =>
    intro F level rs vs vs' o hF R hv
    obtain ⟨F, rfl⟩ : ∃ G, F = G + 1 := ⟨F - 1, by omega⟩
    unfold TreeIter.nextLoop at hv
    unfold SliceStack.nextLoop
    rw [R.len]
    by_cases hc : level < vs.length
    · rw [if_pos hc] at hv ⊢
      dsimp only at hv ⊢
      cases level with
      | zero =>
        dsimp only at hv ⊢
        obtain ⟨it, h1, hv⟩ := bind_eq_ok.1 hv
        obtain ⟨vs₁, h2, hv⟩ := bind_eq_ok.1 hv
        obtain ⟨c, k1, es, N, hle, rfl⟩ := R.getLeaf h1
        obtain ⟨c', k2, r2⟩ := ents_find (p := fun e => f.testKey (borrow e.1)) (c.slice.len + 1) N hle (by rw [N.len]; omega)
        obtain ⟨rs₁, k3, r3⟩ := R.setLeaf h2 r2
        rw [bind_ok (lift_eq k1 h), bind_ok k2]
        dsimp only
        rw [bind_ok (lift_eq k3 h)]
        have hl := setLeaf_length h2
        cases hf : (findNext (fun e => f.testKey (borrow e.1)) (es.drop c.i)).1 with
        | some e =>
          rw [hf] at hv
          cases hv
          exact ⟨_, rfl, r3, hl⟩
        | none =>
          rw [hf] at hv
          obtain ⟨rs', e1, e2, e3⟩ := ih F 1 (by omega) r3 hv
          exact ⟨rs', e1, e2, e3.trans hl⟩
      | succ l =>
        dsimp only at hv ⊢
        obtain ⟨it, h1, hv⟩ := bind_eq_ok.1 hv
        obtain ⟨vs₁, h2, hv⟩ := bind_eq_ok.1 hv
        obtain ⟨c, k1, ns, N, hle, rfl⟩ := R.getInner h1
        obtain ⟨o', c', k2, r2, f2⟩ := slice_find (p := fun n => f.testBounds n.bounds) (q := fun n => f.testBounds n.bounds) (fun rn n H => by rw [H.bounds])
          (c.slice.len + 1) N hle (by rw [N.len]; omega)
        obtain ⟨rs₁, k3, r3⟩ := R.setInner h2 r2
        rw [bind_ok (lift_eq k1 h), bind_ok k2]
        dsimp only
        rw [bind_ok (lift_eq k3 h)]
        have hl := setInner_length h2
        revert hv f2
        cases (findNext (fun n => f.testBounds n.bounds) (ns.drop c.i)).1 with
        | none =>
          intro hv f2
          cases o' with
          | some _ => exact f2.elim
          | none =>
            dsimp only at hv ⊢
            obtain ⟨rs', e1, e2, e3⟩ := ih F (l + 2) (by omega) r3 hv
            exact ⟨rs', e1, e2, e3.trans hl⟩
        | some n =>
          intro hv f2
          cases o' with
          | none => exact f2.elim
          | some rn =>
            have key : ∃ vs₂, LeftJoinIter.iterateLeftChildren vs₁ n l = .ok vs₂ ∧ TreeIter.nextLoop borrow f fuel l vs₂ = .ok (o, vs') := by
              cases l with
              | zero =>
                dsimp only at hv
                obtain ⟨es, g1, hv⟩ := bind_eq_ok.1 hv
                obtain ⟨vs₂, g2, hv⟩ := bind_eq_ok.1 hv
                exact ⟨vs₂, bind_eq_ok.2 ⟨es, g1, g2⟩, hv⟩
              | succ l' =>
                dsimp only at hv
                obtain ⟨es, g1, hv⟩ := bind_eq_ok.1 hv
                obtain ⟨vs₂, g2, hv⟩ := bind_eq_ok.1 hv
                exact ⟨vs₂, bind_eq_ok.2 ⟨es, g1, g2⟩, hv⟩
            obtain ⟨vs₂, g1, g2⟩ := key
            obtain ⟨rs₂, k4, r4, l4⟩ := iterateLeft_sim S r3 (l := l) f2 g1
            dsimp only
            rw [bind_ok (lift_eq k4 h)]
            obtain ⟨rs', e1, e2, e3⟩ := ih F l (by omega) r4 g2
            exact ⟨rs', e1, e2, e3.trans (l4.trans hl)⟩
    · rw [if_neg hc] at hv ⊢
      cases hv
      exact ⟨_, rfl, R, rfl⟩

theorem collectRight_sim (S : Sizes E cap) (borrow : K → Q) (f : SpatialFilter B Q) {fuel level : Nat} (hfuel : stackFuel cap level ≤ fuel) : ∀ (n N : Nat) {rs : SliceStack B}
    {vs : TreeIter B K V} {es : List (K × V)}, n ≤ N → LeftRel E cap h rs vs → vs.length = level + 2 → TreeIter.collectLoop borrow f n vs = .ok es →
    SliceStack.collectLoop E borrow f fuel N rs h = .ok (es, h)
  | 0, _, _, _, _, _, _, _, hv => by cases hv
  | n + 1, 0, _, _, _, hn, _, _, _ => by omega
  | n + 1, N + 1, rs, vs, es, hn, R, hl, hv => by
    obtain ⟨⟨o, vs'⟩, h1, hv⟩ := bind_eq_ok.1 hv
    obtain ⟨rs', e1, e2, e3⟩ := nextRight_sim S borrow f _ fuel 0 (Nat.le_trans (LeftRel.fuel R hl) hfuel) R h1
    rw [SliceStack.collectLoop, bind_ok e1]
    cases o with
    | none => cases hv; rfl
    | some e =>
      dsimp only at hv ⊢
      obtain ⟨es', h2, hv⟩ := bind_eq_ok.1 hv
      cases hv
      rw [bind_ok (collectRight_sim S borrow f hfuel n N (by omega) e2 (e3.trans hl) h2)]
      rfl

/-! ### The left join -/

/-- A left join in memory. -/
structure LJRel (E : TEnv) (cap0 cap1 level0 level1 : Nat) (h : Heap (Cell B K V)) (r : MemLeftJoin B) (v : LeftJoinIter B B K K V V) : Prop where
  left : LeftRel E cap0 h r.left v.left
  right : RightRel E cap1 h r.right v.right
  lenL : v.left.length = level0 + 2
  lenR : v.right.length = level1 + 2

/-- What a left join yields. -/
def Yields (E : TEnv) (cap1 level1 : Nat) (h : Heap (Cell B K V)) : Option ((K × V) × SliceStack B) → Option ((K × V) × TreeIter B K V) → Prop
  | some (e, rs), some (e', vs) => e = e' ∧ LeftRel E cap1 h rs vs ∧ vs.length = level1 + 2
  | none, none => True
  | _, _ => False

theorem nextLeft_sim (S0 : Sizes E cap0) (S1 : Sizes E cap1) (f : JoinFilter B B Q Q) (minHeight : Nat) {inner : Nat} (hi0 : stackFuel cap0 level0 ≤ inner)
    (hi1 : stackFuel cap1 level1 ≤ inner) : ∀ (fuel F level : Nat) {r : MemLeftJoin B} {v v' : LeftJoinIter B B K K V V} {o : Option ((K × V) × TreeIter B K V)}, fuel ≤ F →
    LJRel E cap0 cap1 level0 level1 h r v → LeftJoinIter.nextLoop f minHeight fuel level v = .ok (o, v') →
    ∃ o' r', MemLeftJoin.nextLoop E f inner minHeight F level r h = .ok ((o', r'), h) ∧ LJRel E cap0 cap1 level0 level1 h r' v' ∧ Yields E cap1 level1 h o' o := by
  intro fuel
  induction fuel with
  | zero => intro F level r v v' o _ _ hv; cases hv
  | succ fuel ih =>
    intro F level r v v' o hF R hv
    obtain ⟨F, rfl⟩ : ∃ G, F = G + 1 := ⟨F - 1, by omega⟩
    have asc : ∀ {level : Nat} {r : MemLeftJoin B} {v : LeftJoinIter B B K K V V}, LJRel E cap0 cap1 level0 level1 h r v →
        (if level + 1 = minHeight then (.ok (none, v) : Res (Option ((K × V) × TreeIter B K V) × LeftJoinIter B B K K V V))
        else do
          InnerIterStack.checkRange v.right (level + 1) (v.rightStop level)
          let right ← LeftJoinIter.rewindLoop (v.rightStop level - 1) (v.rightStop level - (level + 1)) level v.right
          LeftJoinIter.nextLoop f minHeight fuel (level + 1) ⟨v.left, right⟩) = .ok (o, v') →
        ∃ o' r', MemLeftJoin.ascend minHeight level (MemLeftJoin.nextLoop E f inner minHeight F (level + 1)) r h = .ok ((o', r'), h) ∧
          LJRel E cap0 cap1 level0 level1 h r' v' ∧ Yields E cap1 level1 h o' o := by
      intro level r v R hv
      rw [MemLeftJoin.ascend]
      by_cases hm : level + 1 = minHeight
      · rw [if_pos hm] at hv ⊢
        cases hv
        exact ⟨_, _, rfl, R, trivial⟩
      · rw [if_neg hm] at hv ⊢
        obtain ⟨_, h1, hv⟩ := bind_eq_ok.1 hv
        obtain ⟨right, h2, hv⟩ := bind_eq_ok.1 hv
        have hst : r.rightStop level = v.rightStop level := by rw [MemLeftJoin.rightStop, LeftJoinIter.rightStop, R.left.len, R.right.len]
        have k1 : InnerIterStack.checkRange r.right (level + 1) (v.rightStop level) = .ok () := by
          rw [InnerIterStack.checkRange] at h1 ⊢
          rw [R.right.len]
          exact h1
        obtain ⟨rs, k2, r2, l2⟩ := rewind_sim _ _ _ R.right h2
        rw [hst, bind_ok (lift_eq k1 h), bind_ok (lift_eq k2 h)]
        exact ih F (level + 1) (r := ⟨r.left, rs⟩) (v := ⟨v.left, right⟩) (by omega) ⟨R.left, r2, R.lenL, l2.trans R.lenR⟩ hv
    unfold LeftJoinIter.nextLoop at hv
    unfold MemLeftJoin.nextLoop
    cases level with
    | zero =>
      dsimp only at hv ⊢
      obtain ⟨rest, h1, hv⟩ := bind_eq_ok.1 hv
      obtain ⟨c, k1, es, N, hle, rfl⟩ := R.left.getLeaf h1
      rw [bind_ok (lift_eq k1 h)]
      by_cases hi : c.i < es.length
      · rw [List.drop_eq_getElem_cons hi] at hv
        dsimp only at hv
        obtain ⟨left, h2, hv⟩ := bind_eq_ok.1 hv
        obtain ⟨stack, h3, hv⟩ := bind_eq_ok.1 hv
        cases hv
        rw [bind_ok (nextEntry_some N hi)]
        dsimp only
        obtain ⟨rs₁, k2, r2⟩ := R.left.setLeaf (a := ⟨c.slice, c.i + 1⟩) h2 ⟨es, N, hi, rfl⟩
        obtain ⟨rs₂, k3, r3, l3⟩ := remainders_sim R.right (by rw [R.lenR]; omega) h3
        rw [bind_ok (lift_eq k2 h), bind_ok (lift_eq k3 h)]
        exact ⟨_, _, rfl, ⟨r2, R.right, (setLeaf_length h2).trans R.lenL, R.lenR⟩, rfl, r3, l3.trans R.lenR⟩
      · rw [List.drop_eq_nil_of_le (by omega)] at hv
        dsimp only at hv
        rw [bind_ok (nextEntry_none N (by omega))]
        exact asc R hv
    | succ l =>
      dsimp only at hv ⊢
      obtain ⟨_, h1, hv⟩ := bind_eq_ok.1 hv
      obtain ⟨⟨nodeLeft, left⟩, h2, hv⟩ := bind_eq_ok.1 hv
      have hst : r.leftStop l = v.leftStop l := by rw [MemLeftJoin.leftStop, LeftJoinIter.leftStop, R.left.len, R.right.len]
      have k1 : InnerIterStack.checkRange r.left (l + 1) (v.leftStop l) = .ok () := by
        rw [InnerIterStack.checkRange] at h1 ⊢
        rw [R.left.len]
        exact h1
      obtain ⟨o', rs₁, k2, r2, l2, f2⟩ := findInner_sim (RL := EntsIt E cap0 h) (RI := SliceIt E cap0 h) (fun _ _ _ _ _ R hv => slice_step R hv) (sliceIt_mk S0) l (v.leftStop l)
        _ inner 0 (Nat.le_trans (LeftRel.fuel R.left R.lenL) hi0) R.left h2
      rw [hst, bind_ok (lift_eq k1 h), bind_ok k2]
      dsimp only at hv ⊢
      cases nodeLeft with
      | none =>
        cases o' with
        | some _ => exact f2.elim
        | none => exact asc (r := ⟨rs₁, r.right⟩) (v := ⟨left, v.right⟩) ⟨r2, R.right, l2.trans R.lenL, R.lenR⟩ hv
      | some nl =>
        cases o' with
        | none => exact f2.elim
        | some rn =>
          dsimp only at hv ⊢
          obtain ⟨_, h3, hv⟩ := bind_eq_ok.1 hv
          obtain ⟨⟨nodeRight, right⟩, h4, hv⟩ := bind_eq_ok.1 hv
          obtain ⟨left', h5, hv⟩ := bind_eq_ok.1 hv
          obtain ⟨right', h6, hv⟩ := bind_eq_ok.1 hv
          have hst2 : MemLeftJoin.rightStop ⟨rs₁, r.right⟩ l = LeftJoinIter.rightStop (⟨left, v.right⟩ : LeftJoinIter B B K K V V) l := by
            rw [MemLeftJoin.rightStop, LeftJoinIter.rightStop]; dsimp only; rw [r2.len, R.right.len]
          have k3 : InnerIterStack.checkRange r.right (l + 1) (LeftJoinIter.rightStop (⟨left, v.right⟩ : LeftJoinIter B B K K V V) l) = .ok () := by
            rw [InnerIterStack.checkRange] at h3 ⊢
            rw [R.right.len]
            exact h3
          obtain ⟨o'', rs₂, k4, r4, l4, f4⟩ := findInner_sim (RL := RewindEnts E cap1 h) (RI := RewindIt E cap1 h)
            (stepR := fun c => findNode E (fun n => f.testBounds rn.bounds n.bounds) (c.slice.len + 1) c)
            (fun lv c it o it' Rc hv => by
              refine rewind_find (q := fun n => f.testBounds nl.bounds n.bounds) (fun rn' n' H' => by rw [H'.bounds, InMem.bounds f2]) _ _ Rc hv ?_
              rw [Rc.1.len]; exact Nat.le_refl _)
            (rewindIt_mk S1) l _ _ inner 0 (Nat.le_trans (RightRel.fuel R.right R.lenR) hi1) R.right h4
          obtain ⟨rs₃, k5, r5, l5⟩ := iterateLeft_sim S0 r2 f2 h5
          obtain ⟨rs₄, k6, r6, l6⟩ := iterateRight_sim S1 r4 f4 h6
          rw [hst2, bind_ok (lift_eq k3 h), bind_ok k4]
          dsimp only
          rw [bind_ok (lift_eq k5 h), bind_ok (lift_eq k6 h)]
          exact ih F l (r := ⟨rs₃, rs₄⟩) (by omega) ⟨r5, r6, (l5.trans l2).trans R.lenL, (l6.trans l4).trans R.lenR⟩ hv

variable [Bounded Q B]

theorem collectLeft_sim (S0 : Sizes E cap0) (S1 : Sizes E cap1) (borrow : K → Q) (f : JoinFilter B B Q Q) {fuel : Nat} (hf0 : stackFuel cap0 level0 ≤ fuel)
    (hf1 : stackFuel cap1 level1 ≤ fuel) : ∀ (n N : Nat) {r : MemLeftJoin B} {v : LeftJoinIter B B K K V V} {out : List ((K × V) × List (K × V))}, n ≤ N →
    LJRel E cap0 cap1 level0 level1 h r v → LeftJoinIter.collectLoop borrow borrow f n v = .ok out → MemLeftJoin.collectLoop E borrow f fuel N r h = .ok (out, h)
  | 0, _, _, _, _, _, _, hv => by cases hv
  | n + 1, 0, _, _, _, hn, _, _ => by omega
  | n + 1, N + 1, r, v, out, hn, R, hv => by
    obtain ⟨⟨o, v'⟩, h1, hv⟩ := bind_eq_ok.1 hv
    have hmin : min r.left.length r.right.length = min v.left.length v.right.length := by rw [R.left.len, R.right.len]
    have key : ∃ o' r', MemLeftJoin.next E f fuel r h = .ok ((o', r'), h) ∧ LJRel E cap0 cap1 level0 level1 h r' v' ∧ Yields E cap1 level1 h o' o := by
      rw [LeftJoinIter.next] at h1
      simp only [MemLeftJoin.next, hmin]
      by_cases hz : min v.left.length v.right.length = 0
      · rw [R.lenL, R.lenR] at hz; omega
      · rw [if_neg hz] at h1 ⊢
        exact nextLeft_sim S0 S1 f _ hf0 hf1 _ fuel 0 (Nat.le_trans (LeftRel.fuel R.left R.lenL) hf0) R h1
    obtain ⟨o', r', k1, R', Y⟩ := key
    rw [MemLeftJoin.collectLoop, bind_ok k1]
    match o, o', Y with
    | none, none, _ => cases hv; rfl
    | some (e, vs), some (e', rs), Y =>
      obtain ⟨rfl, Rs, hl⟩ := Y
      dsimp only at hv ⊢
      obtain ⟨matched, h2, hv⟩ := bind_eq_ok.1 hv
      obtain ⟨rest, h3, hv⟩ := bind_eq_ok.1 hv
      cases hv
      have hw : vs.weight + 1 ≤ fuel := by
        refine Nat.le_trans ?_ (Nat.le_trans (LeftRel.fuel Rs hl) hf1)
        exact Nat.le_mul_of_pos_right _ (Nat.succ_pos _)
      rw [bind_ok (collectRight_sim S1 borrow _ hf1 _ fuel hw Rs hl h2), bind_ok (collectLeft_sim S0 S1 borrow f hf0 hf1 n N (by omega) R' h3)]
      rfl

/-- A left join of two trees in memory, or of one with itself. -/
theorem leftJoin_ok (t0 t1 : GTree B K V) (S0 : Sizes E t0.alloc.maxChildren) (S1 : Sizes E t1.alloc.maxChildren) (borrow : K → Q) (f : JoinFilter B B Q Q) (H0 : Has h (t0.own E))
    (H1 : Has h (t1.own E)) {out : List ((K × V) × List (K × V))} (hv : t0.abs.leftJoin borrow borrow f t1.abs = .ok out) :
    RTree.leftJoin E borrow f t0.rawT t1.rawT h = .ok (out, h) := by
  obtain ⟨v, h1, hv⟩ := bind_eq_ok.1 hv
  have m0 : InMem E t0.alloc.maxChildren h t0.level t0.rawT.root t0.abs.root := ⟨t0.root, rfl, rfl, H0⟩
  have m1 : InMem E t1.alloc.maxChildren h t1.level t1.rawT.root t1.abs.root := ⟨t1.root, rfl, rfl, H1⟩
  obtain ⟨left, g1, h1⟩ := bind_eq_ok.1 h1
  obtain ⟨right, g2, h1⟩ := bind_eq_ok.1 h1
  cases h1
  have base0 : LeftRel E t0.alloc.maxChildren h (IterStack.newBox ⟨.none, 0⟩ (List.replicate (t0.level + 1) ⟨.none, 0⟩)) (IterStack.newBox [] (List.replicate (t0.level + 1) [])) := by
    refine StackRel.newBox ⟨[], .none, Nat.le_refl _, rfl⟩ (by simp) fun i a b ha hb => ?_
    obtain ⟨_, e1⟩ := List.getElem?_eq_some_iff.1 ha
    obtain ⟨_, e2⟩ := List.getElem?_eq_some_iff.1 hb
    rw [List.getElem_replicate] at e1 e2
    subst e1 e2
    exact ⟨[], .none i, Nat.le_refl _, rfl⟩
  have base1 : RightRel E t1.alloc.maxChildren h (IterStack.newBox ⟨.none, 0⟩ (List.replicate (t1.level + 1) ⟨.none, 0⟩)) (IterStack.newBox (.new []) (List.replicate (t1.level + 1) (.new []))) := by
    refine StackRel.newBox ⟨.none, rfl⟩ (by simp) fun i a b ha hb => ?_
    obtain ⟨_, e1⟩ := List.getElem?_eq_some_iff.1 ha
    obtain ⟨_, e2⟩ := List.getElem?_eq_some_iff.1 hb
    rw [List.getElem_replicate] at e1 e2
    subst e1 e2
    exact ⟨.none i, rfl⟩
  obtain ⟨rl, k1, r1⟩ := base0.setInner (a := ⟨.one t0.rawT.root, 0⟩) g1 ⟨[t0.abs.root], .one m0, Nat.zero_le _, rfl⟩
  obtain ⟨rr, k2, r2⟩ := base1.setInner (a := ⟨.one t1.rawT.root, 0⟩) g2 ⟨.one m1, rfl⟩
  have l1 := setInner_length g1
  have l2 := setInner_length g2
  rw [IterStack.length_newBox, List.length_replicate] at l1 l2
  have hnew : MemLeftJoin.new t0.rawT.root t0.rawT.level t1.rawT.root t1.rawT.level = .ok ⟨rl, rr⟩ := by
    rw [MemLeftJoin.new]
    dsimp only
    refine bind_eq_ok.2 ⟨rl, k1, bind_eq_ok.2 ⟨rr, k2, rfl⟩⟩
  have R : LJRel E t0.alloc.maxChildren t1.alloc.maxChildren t0.level t1.level h ⟨rl, rr⟩ ⟨left, right⟩ := ⟨r1, r2, l1, l2⟩
  rw [RTree.leftJoin, bind_ok (lift_eq hnew h)]
  refine collectLeft_sim S0 S1 borrow f (Nat.le_add_right _ _) (Nat.le_add_left _ _) _ _ ?_ R hv
  refine Nat.le_trans ?_ (Nat.le_trans (LeftRel.fuel r1 l1) (Nat.le_add_right _ _))
  exact Nat.le_mul_of_pos_right _ (Nat.succ_pos _)

end RTree.Raw
