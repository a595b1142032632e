import Verif.Proofs.RawBoxes
/-!
# `next` of a left join in memory
-/

namespace RTree.Raw

open Calls (own self put raise catching ask searchBy Stop JoinCode joiningCode LeftCmd LeftOut)
open IterStack (newBox)

variable {BL BR KL KR VL VR QL QR : Type} {J : JoinEnv}

/-- Both stacks in memory. -/
def stateAt (J : JoinEnv) (hl : Heap (TreeEntry BL KL VL)) (kl : Nat) (left : TreeIter BL KL VL) (hr : Heap (RewindEntry BR KR VR)) (kr : Nat) (right : RewindTreeIter BR KR VR)
    (boxes : BoxMem (TreeEntry BR KR VR)) (a : Nat) : JoinState BL BR KL KR VL VR :=
  ⟨⟨holding J.left hl kl left, holding J.right hr kr right, boxes⟩, a⟩

/-- What a call of `next` makes of the boxes. -/
def NextOut (J : JoinEnv) (room : Nat) (handles : List (Option Nat)) (vals : List (TreeIter BR KR VR)) (m : BoxMem (TreeEntry BR KR VR)) (a : Nat)
    (m' : BoxMem (TreeEntry BR KR VR)) (a' : Nat) :
    Except Stop (Option ((KL × VL) × BL × TreeIter BR KR VR)) → Except Stop (Option ((KL × VL) × BL × Nat)) → Prop
  | .ok none, r => r = .ok none ∧ m' = m ∧ a' = a
  | .ok (some (e, b, stack)), r => r = .ok (some (e, b, a')) ∧ BInv J room m' (some a') (handles ++ [some a']) (vals ++ [stack]) ∧
      BStep m m' (Owned (some a) handles) (Owned (some a') (handles ++ [some a']))
  | .error e, r => r = .error e ∧ BInv J room m' (some a') handles vals ∧ BStep m m' (Owned (some a) handles) (Owned (some a') handles)

namespace RawLeftJoin

section NoUser

variable {S α β F : Type}

/-- Does not end with a panic of user code. -/
def NoUser (x : Calls.M S α) : Prop := ∀ s n s' n', x s n ≠ (.error .user, s', n')

theorem NoUser.own (x : Res α) : NoUser (own x : Calls.M S α) := by
  intro s n s' n' h
  cases x <;> cases h

theorem NoUser.pure (a : α) : NoUser (pure a : Calls.M S α) := by
  intro s n s' n' h
  cases h

theorem NoUser.catching (x : Calls.M S α) : NoUser (catching x) := by
  intro s n s' n' h
  cases h

theorem NoUser.bind {x : Calls.M S α} {f : α → Calls.M S β} (hx : NoUser x) (hf : ∀ a, NoUser (f a)) : NoUser (x >>= f) := by
  intro s n s' n' h
  rcases hr : x s n with ⟨r, s1, n1⟩
  cases r with
  | error e =>
    rw [Calls.bind_error' hr] at h
    cases h
    exact hx _ _ _ _ hr
  | ok a =>
    rw [Calls.bind_ok' hr] at h
    exact hf a _ _ _ _ h

theorem searchBy_no_user {It : Type} (code : Nat → Option F) (test : F → α → Bool) (next : It → Option α × It) (m : Nat) (it : It) : NoUser (searchBy code test next m it : Calls.M S _) := by
  induction m generalizing it with
  | zero => exact .own _
  | succ m ih =>
    unfold searchBy
    rcases next it with ⟨o, it'⟩
    cases o with
    | none => exact .pure _
    | some a =>
      refine (NoUser.catching _).bind fun r => ?_
      cases r with
      | error e => exact .pure _
      | ok f =>
        dsimp only
        split
        · exact .pure _
        · exact ih it'

theorem findLoop_no_user {L B K V : Type} (code : Nat → Option F) (test : F → Node B K V → Bool) (l stop fuel i : Nat) (s : IterStack L (RewindIter (Node B K V))) :
    NoUser (Calls.findLoop code test l stop fuel i s : Calls.M S _) := by
  induction fuel generalizing i s with
  | zero =>
    unfold Calls.findLoop
    split
    · exact .own _
    · exact .pure _
  | succ fuel ih =>
    unfold Calls.findLoop
    split
    · refine (NoUser.own _).bind fun it => ?_
      refine (searchBy_no_user _ _ _ _ _).bind fun x => ?_
      obtain ⟨found, it⟩ := x
      refine (NoUser.own _).bind fun s => ?_
      cases found with
      | error e => exact .pure _
      | ok o =>
        cases o with
        | none => exact ih _ _
        | some c =>
          cases i with
          | zero => exact .pure _
          | succ i =>
            refine (NoUser.own _).bind fun cs => ?_
            exact (NoUser.own _).bind fun s => ih _ _
    · exact .pure _

end NoUser

section At

variable {β γ : Type} {hl : Heap (TreeEntry BL KL VL)} {hr : Heap (RewindEntry BR KR VR)} {kl kr : Nat} {left left' : TreeIter BL KL VL} {right right' : RewindTreeIter BR KR VR}
variable {m m' : BoxMem (TreeEntry BR KR VR)} {a n n' : Nat} {v : β}

theorem left_at {x : Calls.M (Heap (TreeEntry BL KL VL)) β} (hx : x (holding J.left hl kl left) n = (.ok v, holding J.left hl kl left', n')) (f : β → Calls.M (JoinState BL BR KL KR VL VR) γ) :
    (JoinState.onLeft x >>= f) (stateAt J hl kl left hr kr right m a) n = f v (stateAt J hl kl left' hr kr right m a) n' := onLeft_bind (st := stateAt J hl kl left hr kr right m a) hx f

theorem right_at {x : Calls.M (Heap (RewindEntry BR KR VR)) β} (hx : x (holding J.right hr kr right) n = (.ok v, holding J.right hr kr right', n')) (f : β → Calls.M (JoinState BL BR KL KR VL VR) γ) :
    (JoinState.onRight x >>= f) (stateAt J hl kl left hr kr right m a) n = f v (stateAt J hl kl left hr kr right' m a) n' := onRight_bind (st := stateAt J hl kl left hr kr right m a) hx f

theorem right_error_at {x : Calls.M (Heap (RewindEntry BR KR VR)) β} {e : Stop} (hx : x (holding J.right hr kr right) n = (.error e, holding J.right hr kr right', n'))
    (f : β → Calls.M (JoinState BL BR KL KR VL VR) γ) :
    (JoinState.onRight x >>= f) (stateAt J hl kl left hr kr right m a) n = (.error e, stateAt J hl kl left hr kr right' m a, n') :=
  Calls.bind_error' (by unfold JoinState.onRight; dsimp only [stateAt]; rw [hx])

theorem boxes_at {x : Calls.M (BoxMem (TreeEntry BR KR VR)) β} (hx : x m n = (.ok v, m', n')) (f : β → Calls.M (JoinState BL BR KL KR VL VR) γ) :
    (JoinState.onBoxes x >>= f) (stateAt J hl kl left hr kr right m a) n = f v (stateAt J hl kl left hr kr right m' a) n' := onBoxes_bind (st := stateAt J hl kl left hr kr right m a) hx f

theorem alloc_at : (stateAt J hl kl left hr kr right m a).alloc = a := rfl

end At

theorem makeMut_at {handles : List (Option Nat)} {vals : List (TreeIter BR KR VR)} (hsr : 0 < J.right.size) {kl kr : Nat} {left : TreeIter BL KL VL}
    {rl : RewindIter (KR × VR)} {its : List (RewindIter (Node BR KR VR))} (hroom : RoomOk J (its.length + 1)) (hlen : handles.length = vals.length) {hl : Heap (TreeEntry BL KL VL)} {hr : Heap (RewindEntry BR KR VR)} (hkr : kr < hr.length)
    {m : BoxMem (TreeEntry BR KR VR)} {a : Nat} (hB : BInv J (its.length + 1) m (some a) handles vals) (he : m.heads.length = m.values.length) {stack}
    (h1 : RTree.LeftJoinIter.remainders (newBox rl its) = .ok stack) (lb : BoxStack) (n : Nat) :
    ∃ m' a', makeMut J ⟨lb, ⟨some ⟨kr, 0⟩, its.length + 1⟩, its.length + 1⟩ (stateAt J hl kl left hr kr (newBox rl its) m a) n = (.ok a', stateAt J hl kl left hr kr (newBox rl its) m' a', n) ∧
      BInv J (its.length + 1) m' (some a') (handles ++ [some a']) (vals ++ [stack]) ∧ BStep m m' (Owned (some a) handles) (Owned (some a') (handles ++ [some a'])) := by
  obtain ⟨slots, h0⟩ := hB.alloc a rfl
  have hra : ∀ (m1 : BoxMem (TreeEntry BR KR VR)) (a1 : Nat), RightAt J.right (stateAt J hl kl left hr kr (newBox rl its) m1 a1) kr rl its :=
    fun m1 a1 => ⟨by simp [stateAt, hkr], by simp [stateAt, holding, List.set_set]⟩
  unfold makeMut
  rw [Calls.self_bind, alloc_at]
  rw [boxes_at (BoxMem.head_ok h0 n)]
  dsimp only
  by_cases ha : some a ∈ handles
  · rw [decide_eq_true ha] at h0 ⊢
    rw [if_pos rfl]
    have hn : a ≠ m.heads.length := by have := h0.lt; omega
    have ha1 : BoxMem.At J (its.length + 1) (m.more J (its.length + 1)) a true slots := h0.same (BoxMem.same_more h0.lt he)
    have hb1 : BoxMem.At J (its.length + 1) ((m.more J (its.length + 1)).flag J (its.length + 1) a false) m.heads.length false (List.replicate (its.length + 1) none) :=
      (BoxMem.At.more he).same (BoxMem.same_flag hn false)
    have hb2 := hb1.flag true
    obtain ⟨es, css, g1, rfl, g2⟩ := mapInto_at hsr hroom.size n h1 (hra (((m.more J (its.length + 1)).flag J (its.length + 1) a false).flag J (its.length + 1) m.heads.length true) m.heads.length) hb2.block
    obtain ⟨e1, e2⟩ := hB.make_shared he hlen ha (leaf := es) (inners := css) (by omega)
    refine ⟨_, m.heads.length, ?_, e1, e2⟩
    show ((JoinState.onBoxes (BoxMem.allocate J (its.length + 1)) >>= _) _ n) = _
    rw [boxes_at (BoxMem.allocate_ok hroom n)]
    show (JoinState.onBoxes (BoxMem.dropAlloc J a (its.length + 1)) >>= _) (stateAt J hl kl left hr kr (newBox rl its) (m.more J (its.length + 1)) m.heads.length) n = _
    rw [boxes_at (BoxMem.dropAlloc_shared ha1 n), Calls.self_bind, alloc_at]
    rw [boxes_at (BoxMem.setShared_ok hb1 true n)]
    refine (Calls.bind_ok' g2).trans ?_
    rfl
  · rw [decide_eq_false ha] at h0 ⊢
    rw [if_neg (by simp)]
    obtain ⟨es, css, g1, rfl, g2⟩ := mapInto_at hsr hroom.size n h1 (hra (m.flag J (its.length + 1) a true) a) (h0.flag true).block
    obtain ⟨e1, e2⟩ := hB.make_unshared hlen ha (leaf := es) (inners := css) (by omega)
    refine ⟨_, a, ?_, e1, e2⟩
    rw [Calls.self_bind, alloc_at]
    refine (boxes_at (BoxMem.setShared_ok h0 true n) _).trans ?_
    refine (Calls.bind_ok' g2).trans ?_
    rfl

theorem set_last {α : Type} (l : List α) (a b : α) : (l ++ [a]).set l.length b = l ++ [b] := by
  induction l with
  | nil => rfl
  | cons x xs ih => rw [List.cons_append, List.length_cons, List.set_cons_succ, ih]; rfl

theorem owned_none {alloc : Option Nat} {handles : List (Option Nat)} (b : Nat) : Owned alloc (handles ++ [none]) b ↔ Owned alloc handles b := by
  simp [Owned]

theorem yieldRight_at {handles : List (Option Nat)} {vals : List (TreeIter BR KR VR)} (hsr : 0 < J.right.size) {kl kr : Nat} {left : TreeIter BL KL VL}
    {rl : RewindIter (KR × VR)} {its : List (RewindIter (Node BR KR VR))} (hroom : RoomOk J (its.length + 1)) (hlen : handles.length = vals.length) {hl : Heap (TreeEntry BL KL VL)} {hr : Heap (RewindEntry BR KR VR)} (hkr : kr < hr.length)
    {m : BoxMem (TreeEntry BR KR VR)} {a : Nat} (hB : BInv J (its.length + 1) m (some a) handles vals) (he : m.heads.length = m.values.length) {stack}
    (h1 : RTree.LeftJoinIter.remainders (newBox rl its) = .ok stack) (lb : BoxStack) (code : Nat → Option (JoinCode BL BR QL QR)) (borrowL : KL → QL) (e : KL × VL) (n : Nat)
    (it : LeftJoinIter BL BR KL KR VL VR) :
    ∃ r r' n' m' a', (ask code >>= fun _ => ask code >>= fun f => (pure (some (e, f.bounds (borrowL e.1), stack)) : Calls.M (LeftJoinIter BL BR KL KR VL VR) _)) it n = (r, it, n') ∧
      yieldRight J code borrowL ⟨lb, ⟨some ⟨kr, 0⟩, its.length + 1⟩, its.length + 1⟩ e (stateAt J hl kl left hr kr (newBox rl its) m a) n =
        (r', stateAt J hl kl left hr kr (newBox rl its) m' a', n') ∧ NextOut J (its.length + 1) handles vals m a m' a' r r' := by
  obtain ⟨m1, a1, g1, g2, g3⟩ := makeMut_at hsr hroom hlen hkr hB he h1 lb n (kl := kl) (left := left) (hl := hl)
  have he1 := g3.eqlen he
  have fail : ∀ (stop : Stop) (n1 : Nat), ∃ m', (JoinState.onBoxes (BoxMem.dropHandle J a1 (its.length + 1)) >>= fun _ =>
        (raise (.error stop) : Calls.M (JoinState BL BR KL KR VL VR) (Option ((KL × VL) × BL × Nat)))) (stateAt J hl kl left hr kr (newBox rl its) m1 a1) n1 =
        (.error stop, stateAt J hl kl left hr kr (newBox rl its) m' a1, n1) ∧ BInv J (its.length + 1) m' (some a1) handles vals ∧
        BStep m m' (Owned (some a) handles) (Owned (some a1) handles) := by
    intro stop n1
    obtain ⟨m', e1, e2, e3⟩ := g2.dropHandle hroom he1 (k := handles.length) (b := a1) (by simp) n1
    rw [set_last] at e2 e3
    refine ⟨m', ?_, e2.pop_none hlen, g3.trans (e3.mono (fun _ => Iff.rfl) owned_none)⟩
    rw [boxes_at e1]
    rfl
  unfold yieldRight
  cases h2 : code n with
  | none =>
    obtain ⟨m', e1, e2, e3⟩ := fail .user (n + 1)
    have e4 : ∀ {S : Type} (s : S), ask code s n = (.error .user, s, n + 1) := fun s => by unfold ask; rw [h2]
    refine ⟨.error .user, .error .user, n + 1, m', a1, by rw [Calls.bind_error' (e4 _)], ?_, rfl, e2, e3⟩
    rw [Calls.bind_ok' g1, Calls.bind_ok' (Calls.catching_apply (Calls.bind_error' (e4 _)))]
    exact e1
  | some f =>
    have e4 : ∀ {S : Type} (s : S), ask code s n = (.ok f, s, n + 1) := fun s => by unfold ask; rw [h2]
    cases h3 : code (n + 1) with
    | none =>
      obtain ⟨m', e1, e2, e3⟩ := fail .user (n + 2)
      have e5 : ∀ {S : Type} (s : S), ask code s (n + 1) = (.error .user, s, n + 2) := fun s => by unfold ask; rw [h3]
      refine ⟨.error .user, .error .user, n + 2, m', a1, by rw [Calls.bind_ok' (e4 _), Calls.bind_error' (e5 _)], ?_, rfl, e2, e3⟩
      rw [Calls.bind_ok' g1, Calls.bind_ok' (Calls.catching_apply ((Calls.bind_ok' (e4 _)).trans (e5 _)))]
      exact e1
    | some f2 =>
      have e5 : ∀ {S : Type} (s : S), ask code s (n + 1) = (.ok f2, s, n + 2) := fun s => by unfold ask; rw [h3]
      refine ⟨.ok (some (e, f2.bounds (borrowL e.1), stack)), .ok (some (e, f2.bounds (borrowL e.1), a1)), n + 2, m1, a1, by rw [Calls.bind_ok' (e4 _), Calls.bind_ok' (e5 _)]; rfl, ?_, rfl, g2, g3⟩
      rw [Calls.bind_ok' g1, Calls.bind_ok' (Calls.catching_apply ((Calls.bind_ok' (e4 _)).trans (e5 _)))]
      rfl

theorem checkRange_eq {L I : Type} {leaf : L} {inners : List I} (p : Option Ptr) (a b : Nat) :
    checkRange ⟨p, inners.length + 1⟩ a b = InnerIterStack.checkRange (newBox leaf inners) a b := by
  unfold checkRange InnerIterStack.checkRange
  rw [IterStack.length_newBox]

/-- `ascend` and the loop. -/
theorem ascend_at {handles : List (Option Nat)} {vals : List (TreeIter BR KR VR)} (hsr : 0 < J.right.size) {kl kr : Nat} {es : List (KL × VL)} {css : List (List (Node BL KL VL))}
    {rl : RewindIter (KR × VR)} {its : List (RewindIter (Node BR KR VR))} {hl : Heap (TreeEntry BL KL VL)} {hr : Heap (RewindEntry BR KR VR)} (hkr : kr < hr.length)
    {m : BoxMem (TreeEntry BR KR VR)} {a : Nat} {mh level n : Nat} {loop loop'}
    (hloop : ∀ (its' : List (RewindIter (Node BR KR VR))), its'.length = its.length → ∀ {r it' n'}, loop ⟨newBox es css, newBox rl its'⟩ n = (r, it', n') → (∀ p, r ≠ .error (.own p)) →
      ∃ es2 css2 rl2 its2 r' m' a', css2.length = css.length ∧ its2.length = its.length ∧ it' = ⟨newBox es2 css2, newBox rl2 its2⟩ ∧
        loop' (stateAt J hl kl (newBox es css) hr kr (newBox rl its') m a) n = (r', stateAt J hl kl (newBox es2 css2) hr kr (newBox rl2 its2) m' a', n') ∧
        NextOut J (its.length + 1) handles vals m a m' a' r r')
    {r it' n'} (hv : Calls.LeftJoinIter.ascend mh level loop ⟨newBox es css, newBox rl its⟩ n = (r, it', n')) (hno : ∀ p, r ≠ .error (.own p)) :
      ∃ es2 css2 rl2 its2 r' m' a', css2.length = css.length ∧ its2.length = its.length ∧ it' = ⟨newBox es2 css2, newBox rl2 its2⟩ ∧
        ascend J ⟨⟨some ⟨kl, 0⟩, css.length + 1⟩, ⟨some ⟨kr, 0⟩, its.length + 1⟩, its.length + 1⟩ mh level loop' (stateAt J hl kl (newBox es css) hr kr (newBox rl its) m a) n =
          (r', stateAt J hl kl (newBox es2 css2) hr kr (newBox rl2 its2) m' a', n') ∧
        NextOut (KL := KL) (VL := VL) (BL := BL) J (its.length + 1) handles vals m a m' a' r r' := by
  unfold Calls.LeftJoinIter.ascend at hv
  unfold ascend
  by_cases hm : level + 1 = mh
  · rw [if_pos hm] at hv ⊢
    cases hv
    exact ⟨es, css, rl, its, _, m, a, rfl, rfl, rfl, rfl, rfl, rfl, rfl⟩
  · rw [if_neg hm] at hv ⊢
    rw [Calls.self_bind] at hv
    dsimp only at hv ⊢
    have hst : RTree.LeftJoinIter.rightStop (⟨newBox es css, newBox rl its⟩ : LeftJoinIter BL BR KL KR VL VR) level = rightStop ⟨⟨some ⟨kl, 0⟩, css.length + 1⟩, ⟨some ⟨kr, 0⟩, its.length + 1⟩, its.length + 1⟩ level := by
      unfold RTree.LeftJoinIter.rightStop rightStop
      rw [IterStack.length_newBox, IterStack.length_newBox]
    rw [hst] at hv
    rw [checkRange_eq (leaf := rl)]
    cases hc : InnerIterStack.checkRange (newBox rl its) (level + 1) (rightStop ⟨⟨some ⟨kl, 0⟩, css.length + 1⟩, ⟨some ⟨kr, 0⟩, its.length + 1⟩, its.length + 1⟩ level) with
    | error p => rw [hc] at hv; cases hv; exact absurd rfl (hno p)
    | ok u =>
      rw [hc, Calls.own_bind] at hv
      rw [Calls.own_bind]
      have hcr : level + 1 ≤ rightStop ⟨⟨some ⟨kl, 0⟩, css.length + 1⟩, ⟨some ⟨kr, 0⟩, its.length + 1⟩, its.length + 1⟩ level ∧
          rightStop ⟨⟨some ⟨kl, 0⟩, css.length + 1⟩, ⟨some ⟨kr, 0⟩, its.length + 1⟩, its.length + 1⟩ level ≤ its.length + 1 := by
        unfold InnerIterStack.checkRange at hc
        rw [IterStack.length_newBox] at hc
        by_cases h : level + 1 ≤ rightStop ⟨⟨some ⟨kl, 0⟩, css.length + 1⟩, ⟨some ⟨kr, 0⟩, its.length + 1⟩, its.length + 1⟩ level ∧
          rightStop ⟨⟨some ⟨kl, 0⟩, css.length + 1⟩, ⟨some ⟨kr, 0⟩, its.length + 1⟩, its.length + 1⟩ level ≤ its.length + 1
        · exact h
        · rw [if_neg h] at hc; cases hc
      generalize rightStop ⟨⟨some ⟨kl, 0⟩, css.length + 1⟩, ⟨some ⟨kr, 0⟩, its.length + 1⟩, its.length + 1⟩ level = stop at *
      cases hw : RTree.LeftJoinIter.rewindLoop (stop - 1) (stop - (level + 1)) level (newBox rl its) with
      | error p => rw [hw] at hv; cases hv; exact absurd rfl (hno p)
      | ok right =>
        rw [hw, Calls.own_bind, Calls.put_bind] at hv
        obtain ⟨its', g1, rfl, g2⟩ := rewindLoop_at (E := J.right) hsr hkr rl (stop - 1) n (stop - (level + 1)) level its (by omega) hw
        rw [right_at g2]
        exact hloop its' g1 hv hno

variable {hl : Heap (TreeEntry BL KL VL)} {hr : Heap (RewindEntry BR KR VR)} {kl kr : Nat}

theorem leftFuel_at (hkl : kl < hl.length) (es : List (KL × VL)) (css : List (List (Node BL KL VL))) (right : RewindTreeIter BR KR VR) (m : BoxMem (TreeEntry BR KR VR)) (a : Nat) (rb : BoxStack) (room : Nat) :
    leftFuel (stateAt J hl kl (newBox es css) hr kr right m a).mem ⟨⟨some ⟨kl, 0⟩, css.length + 1⟩, rb, room⟩ =
      (RTree.TreeIter.weight (newBox es css) + 1) * ((newBox es css : TreeIter BL KL VL).length + 1) := by
  have h1 := BoxStack.entries_at (E := J.left) hkl (newBox es css : TreeIter BL KL VL)
  rw [IterStack.length_newBox] at h1
  unfold leftFuel
  dsimp only [stateAt]
  rw [h1, IterStack.length_newBox]

theorem rightFuel_at (hkr : kr < hr.length) (left : TreeIter BL KL VL) (rl : RewindIter (KR × VR)) (its : List (RewindIter (Node BR KR VR))) (m : BoxMem (TreeEntry BR KR VR)) (a : Nat) (lb : BoxStack) (room : Nat) :
    rightFuel (stateAt J hl kl left hr kr (newBox rl its) m a).mem ⟨lb, ⟨some ⟨kr, 0⟩, its.length + 1⟩, room⟩ =
      (RTree.RewindTreeIter.weight (newBox rl its) + 1) * ((newBox rl its : RewindTreeIter BR KR VR).length + 1) := by
  have h1 := BoxStack.entries_at (E := J.right) hkr (newBox rl its : RewindTreeIter BR KR VR)
  rw [IterStack.length_newBox] at h1
  unfold rightFuel
  dsimp only [stateAt]
  rw [h1, IterStack.length_newBox]

theorem checkRange_ok {L I : Type} {leaf : L} {inners : List I} {a b : Nat} {u : Unit} (h : InnerIterStack.checkRange (newBox leaf inners) a b = .ok u) : a ≤ b ∧ b ≤ inners.length + 1 := by
  unfold InnerIterStack.checkRange at h
  rw [IterStack.length_newBox] at h
  by_cases h1 : a ≤ b ∧ b ≤ inners.length + 1
  · exact h1
  · rw [if_neg h1] at h; cases h

theorem nextLoop_at {handles : List (Option Nat)} {vals : List (TreeIter BR KR VR)} (hsl : 0 < J.left.size) (hsr : 0 < J.right.size) {nr : Nat} (hroom : RoomOk J (nr + 1)) (hlen : handles.length = vals.length)
    (hkl : kl < hl.length) (hkr : kr < hr.length) {m : BoxMem (TreeEntry BR KR VR)} {a : Nat} (hB : BInv J (nr + 1) m (some a) handles vals) (he : m.heads.length = m.values.length)
    (code : Nat → Option (JoinCode BL BR QL QR)) (borrowL : KL → QL) (mh : Nat) (fuel : Nat) :
    ∀ (level : Nat) (es : List (KL × VL)) (css : List (List (Node BL KL VL))) (rl : RewindIter (KR × VR)) (its : List (RewindIter (Node BR KR VR))) (n : Nat), its.length = nr →
      ∀ {r it' n'}, Calls.LeftJoinIter.nextLoop code borrowL mh fuel level ⟨newBox es css, newBox rl its⟩ n = (r, it', n') → (∀ p, r ≠ .error (.own p)) →
      ∃ es2 css2 rl2 its2 r' m' a', css2.length = css.length ∧ its2.length = its.length ∧ it' = ⟨newBox es2 css2, newBox rl2 its2⟩ ∧
        nextLoop J code borrowL ⟨⟨some ⟨kl, 0⟩, css.length + 1⟩, ⟨some ⟨kr, 0⟩, its.length + 1⟩, its.length + 1⟩ mh fuel level (stateAt J hl kl (newBox es css) hr kr (newBox rl its) m a) n =
          (r', stateAt J hl kl (newBox es2 css2) hr kr (newBox rl2 its2) m' a', n') ∧
        NextOut J (its.length + 1) handles vals m a m' a' r r' := by
  induction fuel with
  | zero => intro level es css rl its n _ r it' n' hv hno; cases hv; exact absurd rfl (hno _)
  | succ fuel ih =>
    intro level es css rl its n hnr r it' n' hv hno
    subst hnr
    unfold Calls.LeftJoinIter.nextLoop at hv
    rw [Calls.self_bind] at hv
    unfold nextLoop
    cases level with
    | zero =>
      dsimp only at hv ⊢
      rw [IterStack.getLeaf_newBox, Calls.own_bind] at hv
      rw [left_at (onHeap_ok (BoxStack.getLeaf_at hkl hsl) n)]
      cases es with
      | nil =>
        dsimp only at hv ⊢
        exact ascend_at hsr hkr (fun its' h1 r it' n' h2 h3 => by
          have := ih 1 [] css rl its' n h1 h2 h3
          rw [h1] at this
          exact this) hv hno
      | cons e rest =>
        dsimp only at hv ⊢
        rw [IterStack.setLeaf_newBox, Calls.own_bind, Calls.put_bind] at hv
        rw [left_at (onHeap_ok (BoxStack.setLeaf_at hkl hsl rest) n)]
        cases hw : RTree.LeftJoinIter.remainders (newBox rl its) with
        | error p => rw [hw] at hv; cases hv; exact absurd rfl (hno p)
        | ok stack =>
          rw [hw, Calls.own_bind] at hv
          obtain ⟨r2, r', n2, m', a', h1, h2, h3⟩ := yieldRight_at hsr hroom hlen hkr hB he hw ⟨some ⟨kl, 0⟩, css.length + 1⟩ code borrowL e n ⟨newBox rest css, newBox rl its⟩ (kl := kl)
            (left := newBox rest css) (hl := hl)
          cases hv.symm.trans h1
          exact ⟨rest, css, rl, its, r', m', a', rfl, rfl, rfl, h2, h3⟩
    | succ l =>
      dsimp only at hv ⊢
      have hst : RTree.LeftJoinIter.leftStop (⟨newBox es css, newBox rl its⟩ : LeftJoinIter BL BR KL KR VL VR) l = leftStop ⟨⟨some ⟨kl, 0⟩, css.length + 1⟩, ⟨some ⟨kr, 0⟩, its.length + 1⟩, its.length + 1⟩ l := by
        unfold RTree.LeftJoinIter.leftStop leftStop
        rw [IterStack.length_newBox, IterStack.length_newBox]
      rw [hst] at hv
      rw [checkRange_eq (leaf := es)]
      cases hc : InnerIterStack.checkRange (newBox es css) (l + 1) (leftStop ⟨⟨some ⟨kl, 0⟩, css.length + 1⟩, ⟨some ⟨kr, 0⟩, its.length + 1⟩, its.length + 1⟩ l) with
      | error p => rw [hc] at hv; cases hv; exact absurd rfl (hno p)
      | ok u =>
        rw [hc, Calls.own_bind] at hv
        rw [Calls.own_bind, Calls.self_bind, leftFuel_at hkl]
        have hcl := checkRange_ok hc
        generalize leftStop ⟨⟨some ⟨kl, 0⟩, css.length + 1⟩, ⟨some ⟨kr, 0⟩, its.length + 1⟩, its.length + 1⟩ l = stop at *
        cases hw : InnerIterStack.findLoop RTree.LeftJoinIter.sliceNext id l stop ((RTree.TreeIter.weight (newBox es css) + 1) * ((newBox es css : TreeIter BL KL VL).length + 1)) 0 (newBox es css) with
        | error p => rw [hw] at hv; cases hv; exact absurd rfl (hno p)
        | ok x =>
          obtain ⟨nodeLeft, left⟩ := x
          rw [hw, Calls.own_bind] at hv
          dsimp only at hv
          rw [Calls.put_bind] at hv
          obtain ⟨css', g1, rfl, g2⟩ := nextLeft_at (E := J.left) hsl hkl es l stop n _ 0 css hcl.2 hw
          rw [left_at g2]
          rw [← g1]
          cases nodeLeft with
          | none =>
            dsimp only at hv ⊢
            refine ascend_at hsr hkr (fun its' h1 r it' n' h2 h3 => ?_) hv hno
            have := ih (l + 2) es css' rl its' n h1 h2 h3
            rw [h1] at this
            exact this
          | some nd =>
            dsimp only at hv ⊢
            have hst : RTree.LeftJoinIter.rightStop (⟨newBox es css', newBox rl its⟩ : LeftJoinIter BL BR KL KR VL VR) l = rightStop ⟨⟨some ⟨kl, 0⟩, css'.length + 1⟩, ⟨some ⟨kr, 0⟩, its.length + 1⟩, its.length + 1⟩ l := by
              unfold RTree.LeftJoinIter.rightStop rightStop
              rw [IterStack.length_newBox, IterStack.length_newBox]
            rw [hst] at hv
            rw [checkRange_eq (leaf := rl)]
            cases hc' : InnerIterStack.checkRange (newBox rl its) (l + 1) (rightStop ⟨⟨some ⟨kl, 0⟩, css'.length + 1⟩, ⟨some ⟨kr, 0⟩, its.length + 1⟩, its.length + 1⟩ l) with
            | error p => rw [hc'] at hv; cases hv; exact absurd rfl (hno p)
            | ok u =>
              rw [hc', Calls.own_bind] at hv
              have hfu := rightFuel_at (J := J) (hl := hl) (kl := kl) hkr (newBox es css' : TreeIter BL KL VL) rl its m a ⟨some ⟨kl, 0⟩, css'.length + 1⟩ (its.length + 1)
              rw [Calls.own_bind, Calls.self_bind]
              have hcr := checkRange_ok hc'
              generalize rightStop ⟨⟨some ⟨kl, 0⟩, css'.length + 1⟩, ⟨some ⟨kr, 0⟩, its.length + 1⟩, its.length + 1⟩ l = stop' at *
              rcases hx : Calls.findLoop code (fun (f : JoinCode BL BR QL QR) (n : Node BR KR VR) => f.testBounds nd.bounds n.bounds) l stop'
                ((RTree.RewindTreeIter.weight (newBox rl its) + 1) * ((newBox rl its : RewindTreeIter BR KR VR).length + 1)) 0 (newBox rl its)
                (⟨newBox es css', newBox rl its⟩ : LeftJoinIter BL BR KL KR VL VR) n with ⟨o, it1, n1⟩
              cases o with
              | error p =>
                rw [Calls.bind_error' hx] at hv
                cases hv
                cases p with
                | own p => exact absurd rfl (hno p)
                | user => exact absurd hx (findLoop_no_user _ _ _ _ _ _ _ _ _ _ _)
              | ok o =>
                obtain ⟨found, right⟩ := o
                rw [Calls.bind_ok' hx] at hv
                dsimp only at hv
                rw [Calls.put_bind] at hv
                obtain ⟨its', k1, rfl, rfl, k2⟩ := findRight_at (E := J.right) hsr hkr code (fun (f : JoinCode BL BR QL QR) (n : Node BR KR VR) => f.testBounds nd.bounds n.bounds) rl l stop'
                  (⟨newBox es css', newBox rl its⟩ : LeftJoinIter BL BR KL KR VL VR) _ 0 its n hcr.2 hx
                rw [← hfu] at k2
                cases found with
                | error e =>
                  cases hv
                  rw [right_error_at k2]
                  exact ⟨es, css', rl, its', .error e, m, a, rfl, k1, rfl, rfl, rfl, hB, .refl _ _⟩
                | ok nodeRight =>
                  rw [Calls.raise_ok_bind] at hv
                  rw [right_at k2]
                  cases h3 : RTree.LeftJoinIter.iterateLeftChildren (newBox es css') nd l with
                  | error p => rw [h3] at hv; cases hv; exact absurd rfl (hno p)
                  | ok left2 =>
                    rw [h3, Calls.own_bind] at hv
                    cases h4 : RTree.LeftJoinIter.iterateRightChildren (newBox rl its') nodeRight l with
                    | error p => rw [h4] at hv; cases hv; exact absurd rfl (hno p)
                    | ok right2 =>
                      rw [h4, Calls.own_bind, Calls.put_bind] at hv
                      obtain ⟨es2, css2, q1, rfl, q2⟩ := iterateLeft_at (E := J.left) hsl hkl es css' nd n1 (by omega) h3
                      obtain ⟨rl2, its2, q3, rfl, q4⟩ := iterateRight_at (E := J.right) hsr hkr rl its' nodeRight n1 (by omega) h4
                      rw [left_at q2]
                      rw [k1] at q4
                      rw [right_at q4]
                      obtain ⟨es3, css3, rl3, its3, r', m', a', w1, w2, w3, w4, w5⟩ := ih l es2 css2 rl2 its2 n1 (by omega) hv hno
                      rw [q1, q3, k1] at w4
                      rw [q3, k1] at w5
                      exact ⟨es3, css3, rl3, its3, r', m', a', by omega, by omega, w3, w4, w5⟩

end RawLeftJoin

end RTree.Raw
