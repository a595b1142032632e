import Verif.Proofs.RawLeftNext
/-!
# Many left joins and their right-hand iterators in one memory
-/

namespace RTree.Raw

open Calls (own self put raise catching ask searchBy Stop JoinCode joiningCode LeftCmd LeftOut LeftSession)
open IterStack (newBox)

variable {BL BR KL KR VL VR QL QR : Type} {J : JoinEnv}

/-! ### One heap -/

/-- What an operation may do to the blocks of others: nothing.  Blocks that are no longer owned are free. -/
structure HStep {α : Type} (h h' : Heap α) (own own' : Nat → Prop) : Prop where
  grow : h.length ≤ h'.length
  others : ∀ b, b < h.length → ¬ own b → h'[b]? = h[b]?
  only : ∀ b, own' b → own b ∨ h.length ≤ b
  freed : ∀ b, b < h'.length → own b ∨ h.length ≤ b → ¬ own' b → h'[b]? = some none

namespace HStep

variable {α : Type} {E : Env} {h : Heap α}

theorem refl (h : Heap α) (own : Nat → Prop) : HStep h h own own :=
  ⟨Nat.le_refl _, fun _ _ _ => rfl, fun _ h => .inl h, fun b hb ho hn => by
    rcases ho with ho | ho
    · exact absurd ho hn
    · omega⟩

theorem update {k : Nat} {own : Nat → Prop} (hk : own k) (s : List α) : HStep h (holding E h k s) own own :=
  ⟨by rw [length_holding]; omega, fun b _ hn => get_holding_ne (fun hkb => hn (by rw [← hkb]; exact hk)) s, fun _ h => .inl h, fun b hb ho hn => by
    rcases ho with ho | ho
    · exact absurd ho hn
    · rw [length_holding] at hb; omega⟩

theorem push (s : List α) {own : Nat → Prop} (ho : ∀ b, own b ↔ b = (gapped E h).length) :
    HStep h (holding E (gapped E h ++ [none]) (gapped E h).length s) (fun _ => False) own := by
  have hg := gapped_length E h
  refine ⟨by simp; omega, fun b hb _ => by rw [get_holding_ne (by omega), List.getElem?_append_left (by omega), gapped_get E hb],
    fun b hb => .inr (by rw [ho] at hb; omega), fun b hb hl hn => ?_⟩
  simp at hb
  rw [ho] at hn
  simp only [false_or] at hl
  rw [get_holding_ne (by omega), List.getElem?_append_left (by omega), gapped_new E hl (by omega)]

theorem free {k : Nat} {own : Nat → Prop} (ho : ∀ b, own b ↔ b = k) (hk : k < h.length) : HStep h (h.set k none) own (fun _ => False) :=
  ⟨by simp, fun b _ hn => List.getElem?_set_ne fun hkb => hn ((ho b).2 hkb.symm), (fun _ h => by cases h), fun b hb hown _ => by
    rcases hown with hown | hown
    · rw [ho] at hown
      subst hown
      exact List.getElem?_set_self hk
    · simp at hb; omega⟩

end HStep

/-! ### All of memory -/

/-- Something that is allocated. -/
inductive Loc where
  | left (k : Nat)
  | right (k : Nat)
  | box (k : Nat)

namespace JoinMem

variable {m m' m'' : JoinMem BL BR KL KR VL VR}

/-- It has been allocated at some time. -/
def Has (m : JoinMem BL BR KL KR VL VR) : Loc → Prop
  | .left k => k < m.left.length
  | .right k => k < m.right.length
  | .box k => k < m.boxes.heads.length

/-- It is the same in both. -/
def Same (m m' : JoinMem BL BR KL KR VL VR) : Loc → Prop
  | .left k => m'.left[k]? = m.left[k]?
  | .right k => m'.right[k]? = m.right[k]?
  | .box k => m.boxes.Same m'.boxes k

/-- It has been freed. -/
def Freed (m : JoinMem BL BR KL KR VL VR) : Loc → Prop
  | .left k => m.left[k]? = some none
  | .right k => m.right[k]? = some none
  | .box k => m.boxes.heads[k]? = some none ∧ m.boxes.values[k]? = some none

/-- Headers and values of boxes have the same numbers. -/
def Paired (m : JoinMem BL BR KL KR VL VR) : Prop := m.boxes.heads.length = m.boxes.values.length

theorem Same.trans {l : Loc} (h : m.Same m' l) (h' : m'.Same m'' l) : m.Same m'' l := by
  cases l with
  | left k => exact Eq.trans h' h
  | right k => exact Eq.trans h' h
  | box k => exact BoxMem.Same.trans h h'

theorem Same.refl (m : JoinMem BL BR KL KR VL VR) (l : Loc) : m.Same m l := by
  cases l with
  | left k => rfl
  | right k => rfl
  | box k => exact BoxMem.Same.refl _ _

theorem Freed.same {l : Loc} (h : m.Freed l) (hs : m.Same m' l) : m'.Freed l := by
  cases l with
  | left k => exact Eq.trans hs h
  | right k => exact Eq.trans hs h
  | box k => exact ⟨hs.1.trans h.1, hs.2.trans h.2⟩

end JoinMem

/-- What an operation may do to what others own: nothing.  What is no longer owned is free. -/
structure JStep (m m' : JoinMem BL BR KL KR VL VR) (own own' : Loc → Prop) : Prop where
  grow : ∀ l, m.Has l → m'.Has l
  paired : m.Paired → m'.Paired
  others : ∀ l, m.Has l → ¬ own l → m.Same m' l
  only : ∀ l, own' l → own l ∨ ¬ m.Has l
  freed : ∀ l, m'.Has l → own l ∨ ¬ m.Has l → ¬ own' l → m'.Freed l

theorem JStep.of {m m' : JoinMem BL BR KL KR VL VR} {own own' : Loc → Prop} (hl : HStep m.left m'.left (fun k => own (.left k)) (fun k => own' (.left k)))
    (hr : HStep m.right m'.right (fun k => own (.right k)) (fun k => own' (.right k))) (hb : BStep m.boxes m'.boxes (fun k => own (.box k)) (fun k => own' (.box k))) :
    JStep m m' own own' where
  grow l h := by
    cases l with
    | left k => exact Nat.lt_of_lt_of_le h hl.grow
    | right k => exact Nat.lt_of_lt_of_le h hr.grow
    | box k => exact Nat.lt_of_lt_of_le h hb.grow.1
  paired h := hb.eqlen h
  others l h hn := by
    cases l with
    | left k => exact hl.others k h hn
    | right k => exact hr.others k h hn
    | box k => exact hb.others k h hn
  only l h := by
    cases l with
    | left k => exact (hl.only k h).imp_right Nat.not_lt.2
    | right k => exact (hr.only k h).imp_right Nat.not_lt.2
    | box k => exact (hb.only k h).imp_right Nat.not_lt.2
  freed l h ho hn := by
    cases l with
    | left k => exact hl.freed k h (ho.imp_right Nat.not_lt.1) hn
    | right k => exact hr.freed k h (ho.imp_right Nat.not_lt.1) hn
    | box k => exact hb.freed k h (ho.imp_right Nat.not_lt.1) hn

/-! ### One left join -/

/-- What a left join and its right-hand iterators own. -/
def RawLeft.Owns (x : RawLeft BL BR KL KR VL VR QL QR) : Loc → Prop
  | .left k => ∃ j b p, x.join = some (j, b) ∧ j.left.buf = some p ∧ p.block = k
  | .right k => ∃ j b p, x.join = some (j, b) ∧ j.right.buf = some p ∧ p.block = k
  | .box k => Owned (x.join.map Prod.snd) (x.rights.map RawRight.box) k

/-- What left joins are made of. -/
abbrev JoinSrc (BL BR KL KR VL VR QL QR : Type) := Tree BL KL VL × Tree BR KR VR × (Nat → Option (JoinCode BL BR QL QR))

/-- Its stacks can be allocated, and its nodes are of the right kinds. -/
structure JoinSrc.Ok (J : JoinEnv) (src : JoinSrc BL BR KL KR VL VR QL QR) : Prop where
  shapeL : Shape src.1.level src.1.root
  shapeR : Shape src.2.1.level src.2.1.root
  left : (src.1.level + 2) * J.left.size ≤ J.left.maxBytes
  right : (src.2.1.level + 2) * J.right.size ≤ J.right.maxBytes
  room : RoomOk J (src.2.1.level + 2)

/-- A left join in memory and one that is a value are at the same point. -/
structure JAt (J : JoinEnv) (borrowL : KL → QL) (borrowR : KR → QR) (m : JoinMem BL BR KL KR VL VR) (src : JoinSrc BL BR KL KR VL VR QL QR) (calls : List LeftCmd)
    (outs : List (LeftOut KL KR VL VR)) (x : RawLeft BL BR KL KR VL VR QL QR) (it0 : LeftJoinIter BL BR KL KR VL VR) (vs : LeftSession BL BR KL KR VL VR) : Prop where
  init : RTree.LeftJoinIter.new src.1.root src.1.level src.2.1.root src.2.1.level = .ok it0
  past : LeftSession.calls src.2.2 borrowL borrowR calls ⟨it0, []⟩ 0 = (outs, vs, x.clock)
  code : x.code = src.2.2
  room : x.room = src.2.1.level + 2
  rights : x.rights.map (fun r => (r.entry, r.bounds)) = vs.rights.map (fun r => (r.entry, r.bounds))
  boxes : BInv J x.room m.boxes (x.join.map Prod.snd) (x.rights.map RawRight.box) (vs.rights.map Calls.RightIter.stack)
  join : ∀ j b, x.join = some (j, b) → ∃ (kl kr : Nat) (es : List (KL × VL)) (css : List (List (Node BL KL VL))) (rl : RewindIter (KR × VR)) (its : List (RewindIter (Node BR KR VR))),
    j = ⟨⟨some ⟨kl, 0⟩, css.length + 1⟩, ⟨some ⟨kr, 0⟩, its.length + 1⟩, its.length + 1⟩ ∧ css.length = src.1.level + 1 ∧ its.length = src.2.1.level + 1 ∧
    vs.join = ⟨newBox es css, newBox rl its⟩ ∧ m.left[kl]? = some (some ⟨(css.length + 1) * J.left.size, (newBox es css).map some⟩) ∧
    m.right[kr]? = some (some ⟨(its.length + 1) * J.right.size, (newBox rl its).map some⟩)

namespace JAt

variable {borrowL : KL → QL} {borrowR : KR → QR} {m m' : JoinMem BL BR KL KR VL VR} {src : JoinSrc BL BR KL KR VL VR QL QR} {calls : List LeftCmd}
variable {outs : List (LeftOut KL KR VL VR)} {x : RawLeft BL BR KL KR VL VR QL QR} {it0 : LeftJoinIter BL BR KL KR VL VR} {vs : LeftSession BL BR KL KR VL VR}

theorem frame (h : JAt J borrowL borrowR m src calls outs x it0 vs) (hs : ∀ l, x.Owns l → m.Same m' l) : JAt J borrowL borrowR m' src calls outs x it0 vs where
  init := h.init
  past := h.past
  code := h.code
  room := h.room
  rights := h.rights
  boxes := h.boxes.frame fun b hb => hs (.box b) hb
  join j b hj := by
    obtain ⟨kl, kr, es, css, rl, its, rfl, h2, h3, h4, h5, h6⟩ := h.join j b hj
    exact ⟨kl, kr, es, css, rl, its, rfl, h2, h3, h4, Eq.trans (hs (.left kl) ⟨_, b, _, hj, rfl, rfl⟩) h5, Eq.trans (hs (.right kr) ⟨_, b, _, hj, rfl, rfl⟩) h6⟩

theorem has (h : JAt J borrowL borrowR m src calls outs x it0 vs) {l : Loc} (hl : x.Owns l) : m.Has l := by
  cases l with
  | left k =>
    obtain ⟨j, b, p, h1, h2, rfl⟩ := hl
    obtain ⟨kl, kr, es, css, rl, its, rfl, _, _, _, h5, h6⟩ := h.join j b h1
    cases h2
    exact (List.getElem?_eq_some_iff.1 h5).1
  | right k =>
    obtain ⟨j, b, p, h1, h2, rfl⟩ := hl
    obtain ⟨kl, kr, es, css, rl, its, rfl, _, _, _, h5, h6⟩ := h.join j b h1
    cases h2
    exact (List.getElem?_eq_some_iff.1 h6).1
  | box k => exact h.boxes.owned_lt hl

theorem rights_len (h : JAt J borrowL borrowR m src calls outs x it0 vs) : x.rights.length = vs.rights.length := by
  have := congrArg List.length h.rights
  simpa using this

/-- The crate itself does not panic. -/
theorem good (h : JAt J borrowL borrowR m src calls outs x it0 vs) (ho : src.Ok J) (cmd : LeftCmd) (p : Panic) :
    (LeftSession.call src.2.2 borrowL borrowR vs x.clock cmd).1 ≠ .next (.error (.own p)) ∧ (LeftSession.call src.2.2 borrowL borrowR vs x.clock cmd).1 ≠ .right (.error (.own p)) := by
  obtain ⟨it, h1, h2⟩ := Calls.session_of_shape ho.shapeL ho.shapeR src.2.2
  cases h.init.symm.trans h1
  have h3 := (Calls.calls_spec (borrowL := borrowL) (borrowR := borrowR) (Calls.closed_nodes src.1) (Calls.closed_nodes src.2.1) (calls ++ [cmd]) h2).no_own p
  rw [Calls.calls_append, h.past] at h3
  dsimp only [LeftSession.calls] at h3
  exact ⟨fun h4 => h3.1 (by rw [h4]; simp), fun h4 => h3.2 (by rw [h4]; simp)⟩

/-- One more call. -/
theorem past_snoc (h : JAt J borrowL borrowR m src calls outs x it0 vs) {cmd : LeftCmd} {out vs' n'} (hc : LeftSession.call src.2.2 borrowL borrowR vs x.clock cmd = (out, vs', n')) :
    LeftSession.calls src.2.2 borrowL borrowR (calls ++ [cmd]) ⟨it0, []⟩ 0 = (outs ++ [out], vs', n') := by
  rw [Calls.calls_append, h.past]
  dsimp only [LeftSession.calls]
  rw [hc]

end JAt

/-! ### Making and dropping left joins -/

namespace RawLeftJoin

theorem new_at (hsl : 0 < J.left.size) (hsr : 0 < J.right.size) {room : Nat → Nat} (hroom : ∀ n, room n = n) {src : JoinSrc BL BR KL KR VL VR QL QR} (ho : src.Ok J)
    (m : JoinMem BL BR KL KR VL VR) (a n : Nat) :
    ∃ (css : List (List (Node BL KL VL))) (its : List (RewindIter (Node BR KR VR))), css.length = src.1.level + 1 ∧ its.length = src.2.1.level + 1 ∧
      RTree.LeftJoinIter.new src.1.root src.1.level src.2.1.root src.2.1.level = .ok ⟨newBox [] css, newBox (.new []) its⟩ ∧
      new J room src.1.root src.1.level src.2.1.root src.2.1.level ⟨m, a⟩ n =
        (.ok ⟨⟨some ⟨(gapped J.left m.left).length, 0⟩, css.length + 1⟩, ⟨some ⟨(gapped J.right m.right).length, 0⟩, its.length + 1⟩, its.length + 1⟩,
          stateAt J (gapped J.left m.left ++ [none]) (gapped J.left m.left).length (newBox [] css) (gapped J.right m.right ++ [none]) (gapped J.right m.right).length (newBox (.new []) its) (m.boxes.more J (its.length + 1)) m.boxes.heads.length, n) := by
  obtain ⟨tl, tr, code⟩ := src
  dsimp only
  have hl : tl.level < (List.replicate (tl.level + 1) ([] : List (Node BL KL VL))).length := by simp
  have hr : tr.level < (List.replicate (tr.level + 1) (RewindIter.new ([] : List (Node BR KR VR)))).length := by simp
  refine ⟨(List.replicate (tl.level + 1) []).set tl.level [tl.root], (List.replicate (tr.level + 1) (.new [])).set tr.level (.new [tr.root]), by simp, by simp, ?_, ?_⟩
  · unfold RTree.LeftJoinIter.new
    dsimp only
    rw [IterStack.setInner_at hl, ok_bind, IterStack.setInner_at hr, ok_bind]
    rfl
  · have b1 := BoxStack.newBox_at (leaf := ([] : List (KL × VL))) (inners := List.replicate (tl.level + 1) ([] : List (Node BL KL VL))) (h := m.left) hsl (by simpa using ho.left)
      (room := room) (hroom _)
    have b2 := BoxStack.newBox_at (leaf := (RewindIter.new [] : RewindIter (KR × VR))) (inners := List.replicate (tr.level + 1) (RewindIter.new ([] : List (Node BR KR VR)))) (h := m.right) hsr
      (by simpa using ho.right) (room := room) (hroom _)
    have e1 : gapped J.left m.left ++ [some ⟨((List.replicate (tl.level + 1) ([] : List (Node BL KL VL))).length + 1) * J.left.size, (newBox ([] : List (KL × VL)) (List.replicate (tl.level + 1) ([] : List (Node BL KL VL)))).map some⟩] =
        holding J.left (gapped J.left m.left ++ [none]) (gapped J.left m.left).length (newBox [] (List.replicate (tl.level + 1) [])) := by
      simp [holding]
    have e2 : gapped J.right m.right ++ [some ⟨((List.replicate (tr.level + 1) (RewindIter.new ([] : List (Node BR KR VR)))).length + 1) * J.right.size, (newBox (RewindIter.new [] : RewindIter (KR × VR)) (List.replicate (tr.level + 1) (RewindIter.new ([] : List (Node BR KR VR))))).map some⟩] =
        holding J.right (gapped J.right m.right ++ [none]) (gapped J.right m.right).length (newBox (.new []) (List.replicate (tr.level + 1) (.new []))) := by
      simp [holding]
    rw [e1] at b1
    rw [e2] at b2
    have s1 := BoxStack.setInner_at (E := J.left) (leaf := ([] : List (KL × VL))) (h := gapped J.left m.left ++ [none]) (k := (gapped J.left m.left).length) (by simp) hsl hl [tl.root]
    have s2 := BoxStack.setInner_at (E := J.right) (leaf := (RewindIter.new [] : RewindIter (KR × VR))) (h := gapped J.right m.right ++ [none]) (k := (gapped J.right m.right).length) (by simp) hsr hr (RewindIter.new [tr.root])
    unfold new
    rw [onLeft_bind (st := ⟨m, a⟩) (onHeap_ok b1 n)]
    rw [onLeft_bind (onHeap_ok s1 n), onRight_bind (onHeap_ok b2 n), onRight_bind (onHeap_ok s2 n)]
    have hro : RoomOk J (tr.level + 2) := ho.room
    rw [onBoxes_bind (BoxMem.allocate_ok hro n)]
    simp only [List.length_set, List.length_replicate]
    rfl

theorem drop_at (hsl : 0 < J.left.size) (hsr : 0 < J.right.size) {hl : Heap (TreeEntry BL KL VL)} {hr : Heap (RewindEntry BR KR VR)} {kl kr : Nat} {es : List (KL × VL)} {css : List (List (Node BL KL VL))}
    {rl : RewindIter (KR × VR)} {its : List (RewindIter (Node BR KR VR))} {m m' : BoxMem (TreeEntry BR KR VR)} {a n : Nat} (hkl : kl < hl.length) (hkr : kr < hr.length)
    (hml : (css.length + 1) * J.left.size ≤ J.left.maxBytes) (hmr : (its.length + 1) * J.right.size ≤ J.right.maxBytes) (hb : BoxMem.dropAlloc J a (its.length + 1) m n = (.ok (), m', n)) :
    drop J ⟨⟨some ⟨kl, 0⟩, css.length + 1⟩, ⟨some ⟨kr, 0⟩, its.length + 1⟩, its.length + 1⟩ (stateAt J hl kl (newBox es css) hr kr (newBox rl its) m a) n =
      (.ok (), ⟨⟨hl.set kl none, hr.set kr none, m'⟩, a⟩, n) := by
  unfold drop
  rw [onLeft_bind (st := stateAt J hl kl (newBox es css) hr kr (newBox rl its) m a) (onHeap_ok (BoxStack.drop_at hkl hsl hml) n)]
  rw [onRight_bind (h' := hr.set kr none) (onHeap_ok (BoxStack.drop_at hkr hsr hmr) n), Calls.self_bind]
  show (JoinState.onBoxes (BoxMem.dropAlloc J a (its.length + 1))) ⟨⟨hl.set kl none, hr.set kr none, m⟩, a⟩ n = _
  unfold JoinState.onBoxes
  dsimp only
  rw [hb]

theorem next_at {hl : Heap (TreeEntry BL KL VL)} {hr : Heap (RewindEntry BR KR VR)} {kl kr : Nat} {handles : List (Option Nat)} {vals : List (TreeIter BR KR VR)} (hsl : 0 < J.left.size) (hsr : 0 < J.right.size)
    {es : List (KL × VL)} {css : List (List (Node BL KL VL))} {rl : RewindIter (KR × VR)} {its : List (RewindIter (Node BR KR VR))} (hroom : RoomOk J (its.length + 1)) (hlen : handles.length = vals.length)
    (hkl : kl < hl.length) (hkr : kr < hr.length) {m : BoxMem (TreeEntry BR KR VR)} {a : Nat} (hB : BInv J (its.length + 1) m (some a) handles vals) (he : m.heads.length = m.values.length)
    (code : Nat → Option (JoinCode BL BR QL QR)) (borrowL : KL → QL) (n : Nat) {r it' n'} (hv : Calls.LeftJoinIter.next code borrowL ⟨newBox es css, newBox rl its⟩ n = (r, it', n'))
    (hno : ∀ p, r ≠ .error (.own p)) :
      ∃ es2 css2 rl2 its2 r' m' a', css2.length = css.length ∧ its2.length = its.length ∧ it' = ⟨newBox es2 css2, newBox rl2 its2⟩ ∧
        next J code borrowL ⟨⟨some ⟨kl, 0⟩, css.length + 1⟩, ⟨some ⟨kr, 0⟩, its.length + 1⟩, its.length + 1⟩ (stateAt J hl kl (newBox es css) hr kr (newBox rl its) m a) n =
          (r', stateAt J hl kl (newBox es2 css2) hr kr (newBox rl2 its2) m' a', n') ∧
        NextOut J (its.length + 1) handles vals m a m' a' r r' := by
  unfold Calls.LeftJoinIter.next at hv
  rw [Calls.self_bind] at hv
  dsimp only at hv
  rw [IterStack.length_newBox, IterStack.length_newBox, if_neg (by omega)] at hv
  rw [← IterStack.length_newBox es css, ← leftFuel_at hkl es css (newBox rl its) m a ⟨some ⟨kr, 0⟩, its.length + 1⟩ (its.length + 1) (J := J) (hr := hr) (kr := kr)] at hv
  unfold next
  dsimp only
  rw [if_neg (by omega), Calls.self_bind]
  rw [IterStack.length_newBox] at hv
  exact nextLoop_at hsl hsr hroom hlen hkl hkr hB he code borrowL _ _ 0 es css rl its n rfl hv hno

end RawLeftJoin

/-! ### All left joins -/

section Global

variable {borrowL : KL → QL} {borrowR : KR → QR}

/-- After some commands. -/
structure LeftInv (J : JoinEnv) (borrowL : KL → QL) (borrowR : KR → QR) (m0 : JoinMem BL BR KL KR VL VR) (starts : List (JoinSrc BL BR KL KR VL VR QL QR)) (st : LeftRun BL BR KL KR VL VR QL QR) : Prop where
  len : st.joins.length = starts.length
  ok : ∀ src ∈ starts, src.Ok J
  paired : st.mem.Paired
  has : ∀ l, m0.Has l → st.mem.Has l
  old : ∀ l, m0.Has l → m0.Same st.mem l
  each : ∀ (i : Nat) x, st.joins[i]? = some x → ∃ src it0 vs, starts[i]? = some src ∧ JAt J borrowL borrowR st.mem src (LeftRun.callsOf i st.log) (LeftRun.outsOf i st.log) x it0 vs
  base : ∀ (i : Nat) x l, st.joins[i]? = some x → x.Owns l → ¬ m0.Has l
  distinct : ∀ (i : Nat) x (i' : Nat) x' l, st.joins[i]? = some x → st.joins[i']? = some x' → x.Owns l → x'.Owns l → i = i'
  freed : ∀ l, st.mem.Has l → ¬ m0.Has l → st.mem.Freed l ∨ ∃ (i : Nat) (x : RawLeft BL BR KL KR VL VR QL QR), st.joins[i]? = some x ∧ x.Owns l
  logged : ∀ y ∈ st.log, y.1 < st.joins.length

variable {m0 : JoinMem BL BR KL KR VL VR} {starts : List (JoinSrc BL BR KL KR VL VR QL QR)} {st : LeftRun BL BR KL KR VL VR QL QR}

namespace LeftInv

/-- One left join does something. -/
theorem update (h : LeftInv J borrowL borrowR m0 starts st) {i : Nat} {x x' : RawLeft BL BR KL KR VL VR QL QR} {src} (hx : st.joins[i]? = some x) (hsrc : starts[i]? = some src) {m' : JoinMem BL BR KL KR VL VR}
    {log'} (hst : JStep st.mem m' x.Owns x'.Owns) {it0 vs} (hj : JAt J borrowL borrowR m' src (LeftRun.callsOf i log') (LeftRun.outsOf i log') x' it0 vs)
    (hlog : ∀ i', i' ≠ i → LeftRun.callsOf i' log' = LeftRun.callsOf i' st.log ∧ LeftRun.outsOf i' log' = LeftRun.outsOf i' st.log) (hl : ∀ y ∈ log', y.1 < st.joins.length) :
    LeftInv J borrowL borrowR m0 starts ⟨m', st.joins.set i x', log'⟩ where
  len := by rw [List.length_set]; exact h.len
  ok := h.ok
  paired := hst.paired h.paired
  has l hl := hst.grow l (h.has l hl)
  old l hl := (h.old l hl).trans (hst.others l (h.has l hl) fun ho => h.base i x l hx ho hl)
  each i' y hy := by
    rcases Mirror.set_get hy with ⟨rfl, rfl⟩ | ⟨hne, hy⟩
    · exact ⟨src, it0, vs, hsrc, hj⟩
    · obtain ⟨src', it0', vs', g1, g2⟩ := h.each i' y hy
      have g3 := hlog i' (Ne.symm hne)
      refine ⟨src', it0', vs', g1, ?_⟩
      dsimp only
      rw [g3.1, g3.2]
      exact g2.frame fun l ho => hst.others l (g2.has ho) fun ho' => hne (h.distinct i x i' y l hx hy ho' ho)
  base i' y l hy ho := by
    rcases Mirror.set_get hy with ⟨rfl, rfl⟩ | ⟨hne, hy⟩
    · rcases hst.only l ho with ho | ho
      · exact h.base i x l hx ho
      · exact fun hm => ho (h.has l hm)
    · exact h.base i' y l hy ho
  distinct i1 y1 i2 y2 l h1 h2 o1 o2 := by
    have key : ∀ (i3 : Nat) y3, i ≠ i3 → st.joins[i3]? = some y3 → y3.Owns l → x'.Owns l → False := by
      intro i3 y3 hne h3 o3 o4
      rcases hst.only l o4 with o4 | o4
      · exact hne (h.distinct i x i3 y3 l hx h3 o4 o3)
      · obtain ⟨_, _, _, _, g2⟩ := h.each i3 y3 h3
        exact o4 (g2.has o3)
    rcases Mirror.set_get h1 with ⟨rfl, rfl⟩ | ⟨n1, h1⟩
    · rcases Mirror.set_get h2 with ⟨rfl, rfl⟩ | ⟨n2, h2⟩
      · rfl
      · exact (key i2 y2 n2 h2 o2 o1).elim
    · rcases Mirror.set_get h2 with ⟨rfl, rfl⟩ | ⟨n2, h2⟩
      · exact (key i1 y1 n1 h1 o1 o2).elim
      · exact h.distinct i1 y1 i2 y2 l h1 h2 o1 o2
  freed l hm hn := by
    have hi := (List.getElem?_eq_some_iff.1 hx).1
    by_cases ho' : x'.Owns l
    · exact .inr ⟨i, x', List.getElem?_set_self hi, ho'⟩
    · by_cases ho : x.Owns l ∨ ¬ st.mem.Has l
      · exact .inl (hst.freed l hm ho ho')
      · have hnot : ¬ x.Owns l := fun h => ho (.inl h)
        have hh : st.mem.Has l := Classical.byContradiction fun h => ho (.inr h)
        rcases h.freed l hh hn with hf | ⟨i', y, hy, hyo⟩
        · exact .inl (hf.same (hst.others l hh hnot))
        · refine .inr ⟨i', y, ?_, hyo⟩
          have hne : i ≠ i' := by
            rintro rfl
            rw [hx] at hy
            cases hy
            exact hnot hyo
          show (st.joins.set i x')[i']? = _
          rw [List.getElem?_set_ne hne, hy]
  logged y hy := by
    show y.1 < (st.joins.set i x').length
    rw [List.length_set]
    exact hl y hy

/-- A new left join. -/
theorem push (h : LeftInv J borrowL borrowR m0 starts st) {x' : RawLeft BL BR KL KR VL VR QL QR} {src} (hok : JoinSrc.Ok J src) {m' : JoinMem BL BR KL KR VL VR}
    (hst : JStep st.mem m' (fun _ => False) x'.Owns) {it0 vs} (hj : JAt J borrowL borrowR m' src [] [] x' it0 vs) :
    LeftInv J borrowL borrowR m0 (starts ++ [src]) ⟨m', st.joins ++ [x'], st.log⟩ where
  len := by simp [h.len]
  ok := by
    intro s hs
    rcases List.mem_append.1 hs with hs | hs
    · exact h.ok s hs
    · rw [List.mem_singleton.1 hs]; exact hok
  paired := hst.paired h.paired
  has l hl := hst.grow l (h.has l hl)
  old l hl := (h.old l hl).trans (hst.others l (h.has l hl) (fun h => h))
  each i' y hy := by
    rcases Mirror.get_snoc hy with ⟨hy, hlt⟩ | ⟨rfl, rfl⟩
    · obtain ⟨src', it0', vs', g1, g2⟩ := h.each i' y hy
      exact ⟨src', it0', vs', by rw [List.getElem?_append_left (by rw [← h.len]; exact hlt), g1], g2.frame fun l ho => hst.others l (g2.has ho) (fun h => h)⟩
    · refine ⟨src, it0, vs, by rw [h.len]; simp, ?_⟩
      have hnil : st.log.filter (fun y => y.1 == st.joins.length) = [] := by
        rw [List.filter_eq_nil_iff]
        intro y hy
        have := h.logged y hy
        simp; omega
      simp only [LeftRun.callsOf, LeftRun.outsOf, hnil]
      exact hj
  base i' y l hy ho := by
    rcases Mirror.get_snoc hy with ⟨hy, hlt⟩ | ⟨rfl, rfl⟩
    · exact h.base i' y l hy ho
    · rcases hst.only l ho with ho | ho
      · exact ho.elim
      · exact fun hm => ho (h.has l hm)
  distinct i1 y1 i2 y2 l h1 h2 o1 o2 := by
    have key : ∀ (i3 : Nat) y3, st.joins[i3]? = some y3 → y3.Owns l → x'.Owns l → False := by
      intro i3 y3 h3 o3 o4
      rcases hst.only l o4 with o4 | o4
      · exact o4
      · obtain ⟨_, _, _, _, g2⟩ := h.each i3 y3 h3
        exact o4 (g2.has o3)
    rcases Mirror.get_snoc h1 with ⟨h1, _⟩ | ⟨rfl, rfl⟩
    · rcases Mirror.get_snoc h2 with ⟨h2, _⟩ | ⟨rfl, rfl⟩
      · exact h.distinct i1 y1 i2 y2 l h1 h2 o1 o2
      · exact (key i1 y1 h1 o1 o2).elim
    · rcases Mirror.get_snoc h2 with ⟨h2, _⟩ | ⟨rfl, rfl⟩
      · exact (key i2 y2 h2 o2 o1).elim
      · rfl
  freed l hm hn := by
    by_cases ho' : x'.Owns l
    · exact .inr ⟨st.joins.length, x', by simp, ho'⟩
    · by_cases hh : st.mem.Has l
      · rcases h.freed l hh hn with hf | ⟨i', y, hy, hyo⟩
        · exact .inl (hf.same (hst.others l hh (fun h => h)))
        · exact .inr ⟨i', y, by rw [List.getElem?_append_left (List.getElem?_eq_some_iff.1 hy).1]; exact hy, hyo⟩
      · exact .inl (hst.freed l hm (.inr hh) ho')
  logged y hy := by
    have := h.logged y hy
    simp; omega

end LeftInv

end Global

end RTree.Raw
