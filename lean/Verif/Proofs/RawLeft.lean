import Verif.Model.RawLeft
import Verif.Proofs.RawSession
import Verif.Proofs.CallsLeft
import Verif.Proofs.Layout
/-!
# Left joins in memory behave like left joins that are values
-/

namespace RTree.Raw

open Calls (own self put raise catching ask searchBy Stop JoinCode joiningCode LeftCmd LeftOut)
open IterStack (newBox)

variable {BL BR KL KR VL VR QL QR : Type} {E : Env}

namespace RawLeftJoin

section Left

variable {h : Heap (TreeEntry BL KL VL)} {k : Nat}

theorem nextLeft_at (hs : 0 < E.size) (hk : k < h.length) (es : List (KL × VL)) (l stop : Nat) (n : Nat) (fuel : Nat) :
    ∀ (i : Nat) (css : List (List (Node BL KL VL))), stop ≤ css.length + 1 → ∀ {o s'},
      InnerIterStack.findLoop RTree.LeftJoinIter.sliceNext id l stop fuel i (newBox es css) = .ok (o, s') →
      ∃ css', css'.length = css.length ∧ s' = newBox es css' ∧
        nextLeft E ⟨some ⟨k, 0⟩, css.length + 1⟩ l stop fuel i (holding E h k (newBox es css)) n = (.ok o, holding E h k (newBox es css'), n) := by
  induction fuel with
  | zero =>
    intro i css hc o s' hv
    unfold InnerIterStack.findLoop at hv
    unfold nextLeft
    by_cases hl : l + 1 + i < stop
    · rw [if_pos hl] at hv; cases hv
    · rw [if_neg hl] at hv ⊢
      cases hv
      exact ⟨css, rfl, rfl, rfl⟩
  | succ fuel ih =>
    intro i css hc o s' hv
    unfold InnerIterStack.findLoop at hv
    unfold nextLeft
    by_cases hl : l + 1 + i < stop
    · rw [if_pos hl] at hv ⊢
      have hli : l + i < css.length := by omega
      have hcs := List.getElem?_eq_getElem hli
      dsimp only at hv ⊢
      rw [IterStack.getInner_at hcs, ok_bind] at hv
      rw [onHeap_bind (BoxStack.getInner_at hk hs hcs)]
      cases hit : css[l + i] with
      | nil =>
        rw [hit] at hv
        dsimp only [RTree.LeftJoinIter.sliceNext] at hv ⊢
        rw [ok_bind] at hv
        rw [Calls.own_bind]
        dsimp only at hv ⊢
        rw [IterStack.setInner_at hli, ok_bind] at hv
        rw [onHeap_bind (BoxStack.setInner_at hk hs hli _)]
        obtain ⟨css', h1, h2, h3⟩ := ih (i + 1) _ (by simpa using hc) hv
        rw [List.length_set] at h1 h3
        exact ⟨css', h1, h2, h3⟩
      | cons c cs =>
        rw [hit] at hv
        dsimp only [RTree.LeftJoinIter.sliceNext] at hv ⊢
        rw [ok_bind] at hv
        rw [Calls.own_bind]
        dsimp only at hv ⊢
        rw [IterStack.setInner_at hli, ok_bind] at hv
        rw [onHeap_bind (BoxStack.setInner_at hk hs hli _)]
        cases i with
        | zero =>
          cases hv
          exact ⟨_, by simp, rfl, rfl⟩
        | succ i' =>
          dsimp only at hv ⊢
          obtain ⟨kids, hn, hv⟩ := bind_eq_ok.1 hv
          have hli' : l + i' < (css.set (l + (i' + 1)) cs).length := by rw [List.length_set]; omega
          rw [IterStack.setInner_at hli', ok_bind] at hv
          have h4 := BoxStack.setInner_at (E := E) (leaf := es) hk hs hli' kids
          rw [List.length_set] at h4
          rw [hn, Calls.own_bind, onHeap_bind h4]
          obtain ⟨css', h1, h2, h3⟩ := ih i' _ (by simpa using hc) hv
          rw [List.length_set, List.length_set] at h1 h3
          exact ⟨css', h1, h2, h3⟩
    · rw [if_neg hl] at hv ⊢
      cases hv
      exact ⟨css, rfl, rfl, rfl⟩

theorem iterateLeft_at (hs : 0 < E.size) (hk : k < h.length) (es : List (KL × VL)) (css : List (List (Node BL KL VL))) (node : Node BL KL VL) (n : Nat) {l : Nat}
    (hl : l ≤ css.length) {s'} (hv : RTree.LeftJoinIter.iterateLeftChildren (newBox es css) node l = .ok s') :
    ∃ es' css', css'.length = css.length ∧ s' = newBox es' css' ∧
      iterateLeftChildren E ⟨some ⟨k, 0⟩, css.length + 1⟩ node l (holding E h k (newBox es css)) n = (.ok (), holding E h k (newBox es' css'), n) := by
  cases l with
  | zero =>
    obtain ⟨kids, h1, h2⟩ := bind_eq_ok.1 hv
    rw [IterStack.setLeaf_newBox] at h2
    cases h2
    refine ⟨kids, css, rfl, rfl, ?_⟩
    unfold iterateLeftChildren
    dsimp only
    rw [h1, Calls.own_bind]
    exact onHeap_ok (BoxStack.setLeaf_at hk hs _) n
  | succ l =>
    obtain ⟨kids, h1, h2⟩ := bind_eq_ok.1 hv
    rw [IterStack.setInner_at (by omega)] at h2
    cases h2
    refine ⟨es, _, by simp, rfl, ?_⟩
    unfold iterateLeftChildren
    dsimp only
    rw [h1, Calls.own_bind]
    exact onHeap_ok (BoxStack.setInner_at hk hs (by omega) _) n

end Left

section Right

variable {h : Heap (RewindEntry BR KR VR)} {k : Nat}

theorem iterateRight_at (hs : 0 < E.size) (hk : k < h.length) (rl : RewindIter (KR × VR)) (its : List (RewindIter (Node BR KR VR))) (node : Option (Node BR KR VR))
    (n : Nat) {l : Nat} (hl : l ≤ its.length) {s'} (hv : RTree.LeftJoinIter.iterateRightChildren (newBox rl its) node l = .ok s') :
    ∃ rl' its', its'.length = its.length ∧ s' = newBox rl' its' ∧
      iterateRightChildren E ⟨some ⟨k, 0⟩, its.length + 1⟩ node l (holding E h k (newBox rl its)) n = (.ok (), holding E h k (newBox rl' its'), n) := by
  cases l with
  | zero =>
    cases node with
    | none =>
      unfold RTree.LeftJoinIter.iterateRightChildren at hv
      dsimp only at hv
      rw [IterStack.setLeaf_newBox] at hv
      cases hv
      exact ⟨.new [], its, rfl, rfl, onHeap_ok (BoxStack.setLeaf_at hk hs _) n⟩
    | some node =>
      obtain ⟨kids, h1, h2⟩ := bind_eq_ok.1 hv
      rw [IterStack.setLeaf_newBox] at h2
      cases h2
      refine ⟨.new kids, its, rfl, rfl, ?_⟩
      unfold iterateRightChildren
      dsimp only
      rw [h1, Calls.own_bind]
      exact onHeap_ok (BoxStack.setLeaf_at hk hs _) n
  | succ l =>
    cases node with
    | none =>
      unfold RTree.LeftJoinIter.iterateRightChildren at hv
      dsimp only at hv
      rw [IterStack.setInner_at (by omega)] at hv
      cases hv
      exact ⟨rl, _, by simp, rfl, onHeap_ok (BoxStack.setInner_at hk hs (by omega) _) n⟩
    | some node =>
      obtain ⟨kids, h1, h2⟩ := bind_eq_ok.1 hv
      rw [IterStack.setInner_at (by omega)] at h2
      cases h2
      refine ⟨rl, _, by simp, rfl, ?_⟩
      unfold iterateRightChildren
      dsimp only
      rw [h1, Calls.own_bind]
      exact onHeap_ok (BoxStack.setInner_at hk hs (by omega) _) n

theorem rewindLoop_at (hs : 0 < E.size) (hk : k < h.length) (rl : RewindIter (KR × VR)) (stop clock : Nat) (m : Nat) :
    ∀ (i : Nat) (its : List (RewindIter (Node BR KR VR))), i + m ≤ its.length → ∀ {s'}, RTree.LeftJoinIter.rewindLoop stop m i (newBox rl its) = .ok s' →
    ∃ its', its'.length = its.length ∧ s' = newBox rl its' ∧
      rewindLoop E ⟨some ⟨k, 0⟩, its.length + 1⟩ stop m i (holding E h k (newBox rl its)) clock = (.ok (), holding E h k (newBox rl its'), clock) := by
  induction m with
  | zero =>
    intro i its _ s' hv
    cases hv
    exact ⟨its, rfl, rfl, rfl⟩
  | succ m ih =>
    intro i its hi s' hv
    unfold RTree.LeftJoinIter.rewindLoop at hv
    unfold rewindLoop
    have hli : i < its.length := by omega
    have hcs := List.getElem?_eq_getElem hli
    by_cases he : i + 1 = stop
    · rw [if_pos he] at hv ⊢
      rw [IterStack.getInner_at hcs, ok_bind, IterStack.setInner_at hli, ok_bind] at hv
      rw [onHeap_bind (BoxStack.getInner_at hk hs hcs), onHeap_bind (BoxStack.setInner_at hk hs hli _)]
      obtain ⟨its', h1, h2, h3⟩ := ih (i + 1) _ (by simp; omega) hv
      rw [List.length_set] at h1 h3
      exact ⟨its', h1, h2, h3⟩
    · rw [if_neg he] at hv ⊢
      rw [IterStack.setInner_at hli, ok_bind] at hv
      rw [onHeap_bind (BoxStack.setInner_at hk hs hli _)]
      obtain ⟨its', h1, h2, h3⟩ := ih (i + 1) _ (by simp; omega) hv
      rw [List.length_set] at h1 h3
      exact ⟨its', h1, h2, h3⟩

theorem findRight_at {S F : Type} (hs : 0 < E.size) (hk : k < h.length) (code : Nat → Option F) (test : F → Node BR KR VR → Bool) (rl : RewindIter (KR × VR)) (l stop : Nat)
    (st : S) (fuel : Nat) :
    ∀ (i : Nat) (its : List (RewindIter (Node BR KR VR))) (n : Nat), stop ≤ its.length + 1 → ∀ {r s' st' n'},
      Calls.findLoop code test l stop fuel i (newBox rl its) st n = (.ok (r, s'), st', n') →
      ∃ its', its'.length = its.length ∧ s' = newBox rl its' ∧ st' = st ∧
        findRight E code test ⟨some ⟨k, 0⟩, its.length + 1⟩ l stop fuel i (holding E h k (newBox rl its)) n = (r, holding E h k (newBox rl its'), n') := by
  induction fuel with
  | zero =>
    intro i its n hc r s' st' n' hv
    unfold Calls.findLoop at hv
    unfold findRight
    by_cases hl : l + 1 + i < stop
    · rw [if_pos hl] at hv; cases hv
    · rw [if_neg hl] at hv ⊢
      cases hv
      exact ⟨its, rfl, rfl, rfl, rfl⟩
  | succ fuel ih =>
    intro i its n hc r s' st' n' hv
    unfold Calls.findLoop at hv
    unfold findRight
    by_cases hl : l + 1 + i < stop
    · rw [if_pos hl] at hv ⊢
      have hli : l + i < its.length := by omega
      have hcs := List.getElem?_eq_getElem hli
      dsimp only at hv ⊢
      rw [IterStack.getInner_at hcs, Calls.own_bind] at hv
      rw [onHeap_bind (BoxStack.getInner_at hk hs hcs)]
      rcases searchBy_state code test RewindIter.next (its[l + i].slice.length + 1) its[l + i] st n with ⟨r₁, it', n₁, h1, h2⟩ | ⟨e, n₁, h1, h2⟩
      · rw [Calls.bind_ok' h1] at hv
        rw [Calls.bind_ok' (h2 _ _)]
        dsimp only at hv ⊢
        rw [IterStack.setInner_at hli, Calls.own_bind] at hv
        rw [onHeap_bind (BoxStack.setInner_at hk hs hli _)]
        cases r₁ with
        | error e =>
          cases hv
          exact ⟨_, by simp, rfl, rfl, rfl⟩
        | ok o =>
          rw [Calls.raise_ok_bind]
          cases o with
          | none =>
            dsimp only at hv ⊢
            obtain ⟨its', g1, g2, g3, g4⟩ := ih (i + 1) _ n₁ (by simpa using hc) hv
            rw [List.length_set] at g1 g4
            exact ⟨its', g1, g2, g3, g4⟩
          | some child =>
            cases i with
            | zero =>
              cases hv
              exact ⟨_, by simp, rfl, rfl, rfl⟩
            | succ i' =>
              dsimp only at hv ⊢
              cases hn : child.innerChildren with
              | error p => rw [hn] at hv; cases hv
              | ok kids =>
                have hli' : l + i' < (its.set (l + (i' + 1)) it').length := by rw [List.length_set]; omega
                rw [hn, Calls.own_bind, IterStack.setInner_at hli', Calls.own_bind] at hv
                have h4 := BoxStack.setInner_at (E := E) (leaf := rl) hk hs hli' (RewindIter.new kids)
                rw [List.length_set] at h4
                rw [Calls.own_bind, onHeap_bind h4]
                obtain ⟨its', g1, g2, g3, g4⟩ := ih i' _ n₁ (by simpa using hc) hv
                rw [List.length_set, List.length_set] at g1 g4
                exact ⟨its', g1, g2, g3, g4⟩
      · rw [Calls.bind_error' h1] at hv; cases hv
    · rw [if_neg hl] at hv ⊢
      cases hv
      exact ⟨its, rfl, rfl, rfl, rfl⟩

end Right

section Map

variable {J : JoinEnv}

theorem pushEntry_at (hs : 0 < E.size) {v : Heap (TreeEntry BR KR VR)} {b cap : Nat} {slots} (hb : HasBlock E cap v b slots) {i : Nat} (hi : i < cap) (e : TreeEntry BR KR VR) :
    pushEntry E ⟨some ⟨b, 0⟩, cap⟩ i e v = .ok ((), v.set b (some ⟨cap * E.size, slots.set i (some e)⟩)) := by
  rw [pushEntry, bind_ok (panicIf_neg (by simpa using hi))]
  have hp : BoxStack.place E ⟨some ⟨b, 0⟩, cap⟩ i v = .ok (⟨b, i * E.size⟩, v) := by
    rw [BoxStack.place, bind_ok (panicIf_neg (by simpa using hi))]
    exact hb.add0 (by omega)
  rw [bind_ok hp, write, bind_ok (hb.block _)]
  simp only [in_range E hi, if_true, Nat.mul_div_cancel _ hs]
  exact hb.setSlots _ _

/-- The state with other values in the boxes. -/
def withValues (st : JoinState BL BR KL KR VL VR) (v : Heap (TreeEntry BR KR VR)) : JoinState BL BR KL KR VL VR :=
  ⟨⟨st.mem.left, st.mem.right, ⟨st.mem.boxes.heads, v⟩⟩, st.alloc⟩

theorem onRight_bind {β γ : Type} {x : Calls.M (Heap (RewindEntry BR KR VR)) β} {st : JoinState BL BR KL KR VL VR} {n n' : Nat} {a : β} {h'} (hx : x st.mem.right n = (.ok a, h', n'))
    (f : β → Calls.M (JoinState BL BR KL KR VL VR) γ) : (JoinState.onRight x >>= f) st n = f a ⟨⟨st.mem.left, h', st.mem.boxes⟩, st.alloc⟩ n' :=
  Calls.bind_ok' (by unfold JoinState.onRight; rw [hx])

theorem onLeft_bind {β γ : Type} {x : Calls.M (Heap (TreeEntry BL KL VL)) β} {st : JoinState BL BR KL KR VL VR} {n n' : Nat} {a : β} {h'} (hx : x st.mem.left n = (.ok a, h', n'))
    (f : β → Calls.M (JoinState BL BR KL KR VL VR) γ) : (JoinState.onLeft x >>= f) st n = f a ⟨⟨h', st.mem.right, st.mem.boxes⟩, st.alloc⟩ n' :=
  Calls.bind_ok' (by unfold JoinState.onLeft; rw [hx])

theorem onBoxes_bind {β γ : Type} {x : Calls.M (BoxMem (TreeEntry BR KR VR)) β} {st : JoinState BL BR KL KR VL VR} {n n' : Nat} {a : β} {m'} (hx : x st.mem.boxes n = (.ok a, m', n'))
    (f : β → Calls.M (JoinState BL BR KL KR VL VR) γ) : (JoinState.onBoxes x >>= f) st n = f a ⟨⟨st.mem.left, st.mem.right, m'⟩, st.alloc⟩ n' :=
  Calls.bind_ok' (by unfold JoinState.onBoxes; rw [hx])

theorem onValues_ok {α β : Type} {x : M α β} {m : BoxMem α} {a : β} {v'} (hx : x m.values = .ok (a, v')) (n : Nat) :
    BoxMem.onValues (onHeap x) m n = (.ok a, ⟨m.heads, v'⟩, n) := by
  unfold BoxMem.onValues
  rw [onHeap_ok hx]

/-- The right stack `newBox rl its` is in block `k`. -/
def RightAt (E : Env) (st : JoinState BL BR KL KR VL VR) (k : Nat) (rl : RewindIter (KR × VR)) (its : List (RewindIter (Node BR KR VR))) : Prop :=
  k < st.mem.right.length ∧ holding E st.mem.right k (newBox rl its) = st.mem.right

theorem mapInner_at (hr : 0 < J.right.size) (hv : 0 < J.value.size) {k b : Nat} {rl : RewindIter (KR × VR)} {its : List (RewindIter (Node BR KR VR))} (n : Nat) (m : Nat) :
    ∀ (i : Nat), i + m = its.length → ∀ {rest}, RTree.LeftJoinIter.remainderLoop (newBox rl its) m i = .ok rest →
    ∀ {st : JoinState BL BR KL KR VL VR} {slots}, RightAt J.right st k rl its → HasBlock J.value (its.length + 1) st.mem.boxes.values b slots →
      mapInner J ⟨some ⟨k, 0⟩, its.length + 1⟩ ⟨some ⟨b, 0⟩, its.length + 1⟩ m i st n =
        (.ok (), withValues st (st.mem.boxes.values.set b (some ⟨(its.length + 1) * J.value.size, slots.take (i + 1) ++ rest.map (some ∘ StackEntry.inner)⟩)), n) := by
  induction m with
  | zero =>
    intro i hi rest h1 st slots hst hb
    cases h1
    have h2 : slots.take (i + 1) ++ ([] : List (List (Node BR KR VR))).map (some ∘ (StackEntry.inner : _ → TreeEntry BR KR VR)) = slots := by
      rw [List.map_nil, List.append_nil, List.take_of_length_le (by rw [hb.length]; omega)]
    have h3 : st.mem.boxes.values.set b (some ⟨(its.length + 1) * J.value.size, slots⟩) = st.mem.boxes.values := by
      apply List.ext_getElem?
      intro j
      by_cases hj : b = j
      · subst hj; rw [List.getElem?_set_self hb.lt, hb.alive]
      · rw [List.getElem?_set_ne hj]
    rw [h2, h3]
    rfl
  | succ m ih =>
    intro i hi rest h1 st slots hst hb
    have hli : i < its.length := by omega
    have hcs := List.getElem?_eq_getElem hli
    unfold RTree.LeftJoinIter.remainderLoop at h1
    rw [IterStack.getInner_at hcs, ok_bind] at h1
    obtain ⟨cs, g1, h1⟩ := bind_eq_ok.1 h1
    obtain ⟨rest', g2, h1⟩ := bind_eq_ok.1 h1
    cases h1
    unfold mapInner
    have h4 := BoxStack.getInner_at (E := J.right) (leaf := rl) hst.1 hr hcs
    rw [hst.2] at h4
    rw [onRight_bind (onHeap_ok h4 n), g1, Calls.own_bind]
    have h5 := pushEntry_at hv hb (show i + 1 < its.length + 1 by omega) (.inner cs)
    rw [onBoxes_bind (onValues_ok h5 n)]
    have hb' := hb.update (slots' := slots.set (i + 1) (some (.inner cs))) (by simp [hb.length])
    have h6 := ih (i + 1) (by omega) g2 (st := withValues st (st.mem.boxes.values.set b (some ⟨(its.length + 1) * J.value.size, slots.set (i + 1) (some (.inner cs))⟩))) hst hb'
    refine h6.trans ?_
    have h7 : (slots.set (i + 1) (some (StackEntry.inner cs))).take (i + 1 + 1) = slots.take (i + 1) ++ [some (.inner cs)] := by
      rw [List.take_succ_eq_append_getElem (by simp [hb.length]; omega), List.getElem_set_self, List.take_set_of_le (by omega)]
    rw [h7]
    simp [withValues, List.set_set]

theorem mapInto_at (hr : 0 < J.right.size) (hv : 0 < J.value.size) {k b : Nat} {rl : RewindIter (KR × VR)} {its : List (RewindIter (Node BR KR VR))} (n : Nat) {stack}
    (h1 : RTree.LeftJoinIter.remainders (newBox rl its) = .ok stack) {st : JoinState BL BR KL KR VL VR} {slots} (hst : RightAt J.right st k rl its)
    (hb : HasBlock J.value (its.length + 1) st.mem.boxes.values b slots) :
    ∃ es css, css.length = its.length ∧ stack = newBox es css ∧
      mapInto J ⟨some ⟨k, 0⟩, its.length + 1⟩ ⟨some ⟨b, 0⟩, its.length + 1⟩ st n = (.ok (), withValues st (holding J.value st.mem.boxes.values b stack), n) := by
  unfold RTree.LeftJoinIter.remainders at h1
  rw [IterStack.getLeaf_newBox, ok_bind] at h1
  obtain ⟨es, g1, h1⟩ := bind_eq_ok.1 h1
  obtain ⟨css, g2, h1⟩ := bind_eq_ok.1 h1
  cases h1
  rw [IterStack.length_newBox, Nat.add_sub_cancel] at g2
  have hlen : ∀ (m i : Nat) {rest}, i + m = its.length → RTree.LeftJoinIter.remainderLoop (newBox rl its) m i = .ok rest → rest.length = m := by
    intro m
    induction m with
    | zero => intro i rest _ h; cases h; rfl
    | succ m ih =>
      intro i rest hi h
      unfold RTree.LeftJoinIter.remainderLoop at h
      rw [IterStack.getInner_at (List.getElem?_eq_getElem (show i < its.length by omega)), ok_bind] at h
      obtain ⟨cs, e1, h⟩ := bind_eq_ok.1 h
      obtain ⟨rest', e2, h⟩ := bind_eq_ok.1 h
      cases h
      rw [List.length_cons, ih (i + 1) (by omega) e2]
  have hl := hlen its.length 0 (by omega) g2
  refine ⟨es, css, hl, rfl, ?_⟩
  unfold mapInto
  rw [if_neg (by simp), if_pos (by simp)]
  have h4 := BoxStack.getLeaf_at (E := J.right) (leaf := rl) (inners := its) hst.1 hr
  rw [hst.2] at h4
  rw [onRight_bind (onHeap_ok h4 n), g1, Calls.own_bind]
  have h5 := pushEntry_at hv hb (show 0 < its.length + 1 by omega) (.leaf es)
  rw [onBoxes_bind (onValues_ok h5 n)]
  have hb' := hb.update (slots' := slots.set 0 (some (.leaf es))) (by simp [hb.length])
  have h6 := mapInner_at hr hv n its.length 0 (by omega) g2 (st := withValues st (st.mem.boxes.values.set b (some ⟨(its.length + 1) * J.value.size, slots.set 0 (some (.leaf es))⟩))) hst hb'
  dsimp only
  rw [Nat.add_sub_cancel]
  refine h6.trans ?_
  have h7 : (slots.set 0 (some (StackEntry.leaf es))).take (0 + 1) = [some (.leaf es)] := by
    cases slots with
    | nil => have := hb.length; simp at this
    | cons a as => rfl
  rw [h7]
  simp [withValues, List.set_set, holding, newBox, hl, Function.comp_def]

end Map

end RawLeftJoin

end RTree.Raw
