import Verif.Proofs.RawLeftSession
/-!
# The commands of `LeftRun`
-/

namespace RTree.Raw

open Calls (own self put raise catching ask searchBy Stop JoinCode joiningCode LeftCmd LeftOut LeftSession)
open IterStack (newBox)

variable {BL BR KL KR VL VR QL QR : Type} {J : JoinEnv} {borrowL : KL → QL} {borrowR : KR → QR}
variable {m0 : JoinMem BL BR KL KR VL VR} {starts : List (JoinSrc BL BR KL KR VL VR QL QR)} {st : LeftRun BL BR KL KR VL VR QL QR} {room : Nat → Nat}

theorem callsOf_snoc {log : List (Nat × LeftCmd × LeftOut KL KR VL VR)} {k : Nat} {c o} (i : Nat) :
    LeftRun.callsOf i (log ++ [(k, c, o)]) = if k = i then LeftRun.callsOf i log ++ [c] else LeftRun.callsOf i log := by
  unfold LeftRun.callsOf
  rw [List.filter_append]
  by_cases h : k = i <;> simp [h]

theorem outsOf_snoc {log : List (Nat × LeftCmd × LeftOut KL KR VL VR)} {k : Nat} {c o} (i : Nat) :
    LeftRun.outsOf i (log ++ [(k, c, o)]) = if k = i then LeftRun.outsOf i log ++ [o] else LeftRun.outsOf i log := by
  unfold LeftRun.outsOf
  rw [List.filter_append]
  by_cases h : k = i <;> simp [h]

namespace LeftInv

theorem start (h : LeftInv J borrowL borrowR m0 starts st) (hsl : 0 < J.left.size) (hsr : 0 < J.right.size) (hroom : ∀ n, room n = n) {tl : Tree BL KL VL} {tr : Tree BR KR VR}
    {code : Nat → Option (JoinCode BL BR QL QR)} (hok : JoinSrc.Ok J (tl, tr, code)) :
    ∃ st', st.step J room borrowL borrowR (.start tl tr code) = .ok st' ∧ LeftInv J borrowL borrowR m0 (starts ++ [(tl, tr, code)]) st' := by
  obtain ⟨css, its, h1, h2, h3, h4⟩ := RawLeftJoin.new_at hsl hsr hroom hok st.mem 0 0
  dsimp only at h1 h2 h3 h4
  refine ⟨_, by unfold LeftRun.step; dsimp only; rw [h4], h.push hok (it0 := ⟨newBox [] css, newBox (.new []) its⟩) (vs := ⟨⟨newBox [] css, newBox (.new []) its⟩, []⟩) (.of ?_ ?_ ?_) ?_⟩
  · refine HStep.push _ fun b => ⟨?_, ?_⟩
    · rintro ⟨j, b', p, e1, e2, rfl⟩
      cases e1; cases e2; rfl
    · rintro rfl
      exact ⟨_, _, _, rfl, rfl, rfl⟩
  · refine HStep.push _ fun b => ⟨?_, ?_⟩
    · rintro ⟨j, b', p, e1, e2, rfl⟩
      cases e1; cases e2; rfl
    · rintro rfl
      exact ⟨_, _, _, rfl, rfl, rfl⟩
  · exact (BInv.first (n := its.length + 1) h.paired).2
  · refine ⟨h3, rfl, rfl, rfl, rfl, ?_, ?_⟩
    · have := (BInv.first (J := J) (n := its.length + 1) h.paired).1
      rw [h2] at this
      rw [h2]
      exact this
    · intro j b hj
      cases hj
      refine ⟨_, _, [], css, .new [], its, rfl, h1, h2, rfl, ?_, ?_⟩
      · have := get_holding (E := J.left) (h := gapped J.left st.mem.left ++ [none]) (k := (gapped J.left st.mem.left).length) (by simp) (newBox ([] : List (KL × VL)) css)
        rw [IterStack.length_newBox] at this
        exact this
      · have := get_holding (E := J.right) (h := gapped J.right st.mem.right ++ [none]) (k := (gapped J.right st.mem.right).length) (by simp) (newBox (RewindIter.new [] : RewindIter (KR × VR)) its)
        rw [IterStack.length_newBox] at this
        exact this

theorem owns_left {x : RawLeft BL BR KL KR VL VR QL QR} {kl kr a b c : Nat} {i : Nat} (hj : x.join = some (⟨⟨some ⟨kl, 0⟩, a⟩, ⟨some ⟨kr, 0⟩, b⟩, c⟩, i)) (k : Nat) : x.Owns (.left k) ↔ k = kl := by
  refine ⟨?_, ?_⟩
  · rintro ⟨j, b', p, e1, e2, rfl⟩
    rw [hj] at e1
    cases e1; cases e2; rfl
  · rintro rfl
    exact ⟨_, _, _, hj, rfl, rfl⟩

theorem owns_right {x : RawLeft BL BR KL KR VL VR QL QR} {kl kr a b c : Nat} {i : Nat} (hj : x.join = some (⟨⟨some ⟨kl, 0⟩, a⟩, ⟨some ⟨kr, 0⟩, b⟩, c⟩, i)) (k : Nat) : x.Owns (.right k) ↔ k = kr := by
  refine ⟨?_, ?_⟩
  · rintro ⟨j, b', p, e1, e2, rfl⟩
    rw [hj] at e1
    cases e1; cases e2; rfl
  · rintro rfl
    exact ⟨_, _, _, hj, rfl, rfl⟩

theorem HStep.congr {α : Type} {h h' : Heap α} {own own' own2 own2' : Nat → Prop} (hs : HStep h h' own own') (h1 : ∀ b, own b ↔ own2 b) (h2 : ∀ b, own' b ↔ own2' b) : HStep h h' own2 own2' where
  grow := hs.grow
  others b hb hn := hs.others b hb (by rwa [h1])
  only b hb := by rw [← h1]; exact hs.only b ((h2 b).2 hb)
  freed b hb ho hn := hs.freed b hb (by rwa [h1]) (by rwa [h2])

theorem log_next {i : Nat} {c : LeftCmd} {o : LeftOut KL KR VL VR} (i' : Nat) (hne : i' ≠ i) :
    LeftRun.callsOf i' (st.log ++ [(i, c, o)]) = LeftRun.callsOf i' st.log ∧ LeftRun.outsOf i' (st.log ++ [(i, c, o)]) = LeftRun.outsOf i' st.log := by
  rw [callsOf_snoc, outsOf_snoc, if_neg (Ne.symm hne), if_neg (Ne.symm hne)]
  exact ⟨rfl, rfl⟩

theorem logged_snoc (h : LeftInv J borrowL borrowR m0 starts st) {i : Nat} {x} (hx : st.joins[i]? = some x) {c : LeftCmd} {o : LeftOut KL KR VL VR} : ∀ y ∈ st.log ++ [(i, c, o)], y.1 < st.joins.length := by
  intro y hy
  rcases List.mem_append.1 hy with hy | hy
  · exact h.logged y hy
  · rw [List.mem_singleton.1 hy]
    exact (List.getElem?_eq_some_iff.1 hx).1

theorem next (h : LeftInv J borrowL borrowR m0 starts st) (hsl : 0 < J.left.size) (hsr : 0 < J.right.size) (i : Nat) :
    ∃ st', st.step J room borrowL borrowR (.next i) = .ok st' ∧ LeftInv J borrowL borrowR m0 starts st' := by
  cases hx : st.joins[i]? with
  | none => exact ⟨st, by unfold LeftRun.step; dsimp only; rw [hx], h⟩
  | some x =>
    cases hj : x.join with
    | none => exact ⟨st, by unfold LeftRun.step; dsimp only; rw [hx]; dsimp only; rw [hj], h⟩
    | some jb =>
      obtain ⟨j, b⟩ := jb
      obtain ⟨src, it0, vs, hsrc, hJ⟩ := h.each i x hx
      have hok := h.ok src (List.mem_of_getElem? hsrc)
      obtain ⟨kl, kr, es, css, rl, its, rfl, g1, g2, g3, g4, g5⟩ := hJ.join j b hj
      have hkl := (List.getElem?_eq_some_iff.1 g4).1
      have hkr := (List.getElem?_eq_some_iff.1 g5).1
      have hmem : (⟨st.mem, b⟩ : JoinState BL BR KL KR VL VR) = stateAt J st.mem.left kl (newBox es css) st.mem.right kr (newBox rl its) st.mem.boxes b := by
        unfold stateAt
        rw [holding_of_get (by rw [g4, IterStack.length_newBox]), holding_of_get (by rw [g5, IterStack.length_newBox])]
      have hro : x.room = its.length + 1 := by rw [hJ.room, g2]
      have hB := hJ.boxes
      rw [hro, hj] at hB
      rcases hv : Calls.LeftJoinIter.next src.2.2 borrowL vs.join x.clock with ⟨r, it', n'⟩
      have hcall : ∃ out vs', LeftSession.call src.2.2 borrowL borrowR vs x.clock .next = (out, vs', n') := by
        unfold LeftSession.call
        dsimp only
        rw [hv]
        cases r with
        | error e => exact ⟨_, _, rfl⟩
        | ok o =>
          cases o with
          | none => exact ⟨_, _, rfl⟩
          | some o => exact ⟨_, _, rfl⟩
      have hno : ∀ p, r ≠ .error (.own p) := by
        rintro p rfl
        refine (hJ.good hok .next p).1 ?_
        unfold LeftSession.call
        dsimp only
        rw [hv]
      rw [g3] at hv
      obtain ⟨es2, css2, rl2, its2, r', m', a', k1, k2, rfl, k3, k4⟩ := RawLeftJoin.next_at hsl hsr (by have := hok.room; rw [← hJ.room, hro] at this; exact this)
        (by simpa using hJ.rights_len) hkl hkr hB h.paired src.2.2 borrowL x.clock hv hno
      rw [← hmem, ← hJ.code] at k3
      have hstep : st.step J room borrowL borrowR (.next i) = st.afterNext i x ⟨⟨some ⟨kl, 0⟩, css.length + 1⟩, ⟨some ⟨kr, 0⟩, its.length + 1⟩, its.length + 1⟩
          (r', stateAt J st.mem.left kl (newBox es2 css2) st.mem.right kr (newBox rl2 its2) m' a', n') := by
        rw [← k3]
        unfold LeftRun.step
        dsimp only
        rw [hx]
        dsimp only
        rw [hj]
      have hjoin : ∀ (out : LeftOut KL KR VL VR) (vs' : LeftSession BL BR KL KR VL VR) (rights : List (RawRight BL KL VL)), vs'.join = ⟨newBox es2 css2, newBox rl2 its2⟩ →
          LeftSession.call src.2.2 borrowL borrowR vs x.clock .next = (out, vs', n') → rights.map (fun r => (r.entry, r.bounds)) = vs'.rights.map (fun r => (r.entry, r.bounds)) →
          BInv J (its.length + 1) m' (some a') (rights.map RawRight.box) (vs'.rights.map Calls.RightIter.stack) →
          BStep st.mem.boxes m' (Owned (some b) (x.rights.map RawRight.box)) (Owned (some a') (rights.map RawRight.box)) →
          LeftInv J borrowL borrowR m0 starts ⟨(stateAt J st.mem.left kl (newBox es2 css2) st.mem.right kr (newBox rl2 its2) m' a').mem,
            st.joins.set i { x with join := some (⟨⟨some ⟨kl, 0⟩, css.length + 1⟩, ⟨some ⟨kr, 0⟩, its.length + 1⟩, its.length + 1⟩, a'), clock := n', rights := rights }, st.log ++ [(i, .next, out)]⟩ := by
        intro out vs' rights q0 q1 q2 q3 q4
        refine h.update hx hsrc (it0 := it0) (vs := vs') (.of ?_ ?_ ?_) ?_ log_next (h.logged_snoc hx)
        · exact HStep.congr (HStep.update (own := fun k => k = kl) rfl _) (fun k => (owns_left hj k).symm) (fun k => (owns_left rfl k).symm)
        · exact HStep.congr (HStep.update (own := fun k => k = kr) rfl _) (fun k => (owns_right hj k).symm) (fun k => (owns_right rfl k).symm)
        · refine q4.mono (fun k => ?_) fun k => ?_
          · show Owned _ _ k ↔ Owned _ _ k
            rw [hj]
            exact Iff.rfl
          · exact Iff.rfl
        · refine ⟨hJ.init, ?_, hJ.code, hJ.room, q2, ?_, ?_⟩
          · rw [callsOf_snoc, outsOf_snoc, if_pos rfl, if_pos rfl]
            exact hJ.past_snoc q1
          · show BInv J x.room m' _ _ _
            rw [hro]
            exact q3
          · intro j2 b2 hj2
            cases hj2
            refine ⟨kl, kr, es2, css2, rl2, its2, by rw [k1, k2], by omega, by omega, q0, ?_, ?_⟩
            · have := get_holding (E := J.left) hkl (newBox es2 css2)
              rw [IterStack.length_newBox] at this
              exact this
            · have := get_holding (E := J.right) hkr (newBox rl2 its2)
              rw [IterStack.length_newBox] at this
              exact this
      match r, k4, hv with
      | .ok none, k4, hv =>
        obtain ⟨rfl, rfl, rfl⟩ := k4
        refine ⟨_, hstep, ?_⟩
        refine hjoin _ ⟨⟨newBox es2 css2, newBox rl2 its2⟩, vs.rights⟩ x.rights rfl ?_ hJ.rights hB (.refl _ _)
        unfold LeftSession.call
        dsimp only
        rw [g3, hv]
      | .ok (some (e, bounds, stack)), k4, hv =>
        obtain ⟨rfl, e1, e2⟩ := k4
        refine ⟨_, hstep, ?_⟩
        refine hjoin _ ⟨⟨newBox es2 css2, newBox rl2 its2⟩, vs.rights ++ [⟨e, bounds, stack⟩]⟩ (x.rights ++ [⟨e, bounds, some a'⟩]) rfl ?_ (by simp [hJ.rights]) (by simpa using e1) (by simpa using e2)
        unfold LeftSession.call
        dsimp only
        rw [g3, hv]
      | .error .user, k4, hv =>
        obtain ⟨rfl, e1, e2⟩ := k4
        refine ⟨_, hstep, ?_⟩
        refine hjoin _ ⟨⟨newBox es2 css2, newBox rl2 its2⟩, vs.rights⟩ x.rights rfl ?_ hJ.rights e1 e2
        unfold LeftSession.call
        dsimp only
        rw [g3, hv]
      | .error (.own p), _, _ => exact absurd rfl (hno p)

theorem rights_get {x : RawLeft BL BR KL KR VL VR QL QR} {rights : List (Calls.RightIter BL BR KL KR VL VR)} (h : x.rights.map (fun r => (r.entry, r.bounds)) = rights.map (fun r => (r.entry, r.bounds)))
    {k : Nat} {y : RawRight BL KL VL} (hy : x.rights[k]? = some y) : ∃ it, rights[k]? = some it ∧ it.entry = y.entry ∧ it.bounds = y.bounds := by
  have h1 := congrArg (fun l => l[k]?) h
  simp only [List.getElem?_map, hy, Option.map_some] at h1
  cases h2 : rights[k]? with
  | none => rw [h2] at h1; cases h1
  | some it =>
    rw [h2] at h1
    simp at h1
    exact ⟨it, rfl, h1.1.symm, h1.2.symm⟩

theorem map_set_same {α β : Type} (f : α → β) (l : List α) (k : Nat) (a b : α) (h : l[k]? = some a) (hf : f b = f a) : (l.set k b).map f = l.map f := by
  apply List.ext_getElem?
  intro j
  by_cases hj : k = j
  · subst hj
    rw [List.getElem?_map, List.getElem?_set_self (List.getElem?_eq_some_iff.1 h).1, List.getElem?_map, h]
    simp [hf]
  · rw [List.getElem?_map, List.getElem?_set_ne hj, List.getElem?_map]

theorem right (h : LeftInv J borrowL borrowR m0 starts st) (hsl : 0 < J.left.size) (hsr : 0 < J.right.size) (i k : Nat) :
    ∃ st', st.step J room borrowL borrowR (.right i k) = .ok st' ∧ LeftInv J borrowL borrowR m0 starts st' := by
  cases hx : st.joins[i]? with
  | none => exact ⟨st, by unfold LeftRun.step; dsimp only; rw [hx], h⟩
  | some x =>
    cases hy : x.rights[k]? with
    | none => exact ⟨st, by unfold LeftRun.step; dsimp only; rw [hx]; dsimp only; rw [hy], h⟩
    | some y =>
      obtain ⟨e, bounds, bx⟩ := y
      cases bx with
      | none => exact ⟨st, by unfold LeftRun.step; dsimp only; rw [hx]; dsimp only; rw [hy], h⟩
      | some b =>
        obtain ⟨src, it0, vs, hsrc, hJ⟩ := h.each i x hx
        have hok := h.ok src (List.mem_of_getElem? hsrc)
        have hk : (x.rights.map RawRight.box)[k]? = some (some b) := by rw [List.getElem?_map, hy]; rfl
        obtain ⟨leaf, inners, g1, g2, g3⟩ := hJ.boxes.live k b hk
        obtain ⟨it, e1, e2, e3⟩ := rights_get hJ.rights hy
        dsimp only at e2 e3
        rw [List.getElem?_map, e1] at g1
        have hstack : it.stack = newBox leaf inners := by simpa using g1
        obtain ⟨leaf', inners', r, n', f1, f2, f3⟩ := TreeIter.next_at (E := J.value) hok.room.size (joiningCode src.2.2 it.bounds (borrowL it.entry.1)) borrowR g3.block.lt x.clock leaf inners
        have hv : holding J.value st.mem.boxes.values b (newBox leaf inners) = st.mem.boxes.values := holding_of_get (by rw [g3.block.alive, IterStack.length_newBox, g2])
        rw [hv, g2, ← hJ.code, e2, e3] at f3
        have hcall : LeftSession.call src.2.2 borrowL borrowR vs x.clock (.right k) = (.right r, ⟨vs.join, vs.rights.set k { it with stack := newBox leaf' inners' }⟩, n') := by
          unfold LeftSession.call
          dsimp only
          rw [e1]
          dsimp only
          rw [hstack, f2]
        have hno : ∀ p, r ≠ .error (.own p) := by
          rintro p rfl
          exact (hJ.good hok (.right k) p).2 (by rw [hcall])
        obtain ⟨u1, u2⟩ := hJ.boxes.use hk (leaf := leaf') (inners := inners') (by omega)
        refine ⟨⟨{ st.mem with boxes := ⟨st.mem.boxes.heads, holding J.value st.mem.boxes.values b (newBox leaf' inners')⟩ }, st.joins.set i { x with clock := n' }, st.log ++ [(i, .right k, .right r)]⟩, ?_, ?_⟩
        · unfold LeftRun.step
          dsimp only
          rw [hx]
          dsimp only
          rw [hy]
          dsimp only
          rw [f3]
          match r, hno with
          | .ok _, _ => rfl
          | .error .user, _ => rfl
          | .error (.own p), hno => exact absurd rfl (hno p)
        · refine h.update hx hsrc (it0 := it0) (vs := ⟨vs.join, vs.rights.set k { it with stack := newBox leaf' inners' }⟩) (.of (.refl _ _) (.refl _ _) u2) ?_ log_next (h.logged_snoc hx)
          refine ⟨hJ.init, ?_, hJ.code, hJ.room, ?_, ?_, hJ.join⟩
          · rw [callsOf_snoc, outsOf_snoc, if_pos rfl, if_pos rfl]
            exact hJ.past_snoc hcall
          · show x.rights.map _ = (vs.rights.set k _).map _
            exact hJ.rights.trans (map_set_same _ vs.rights k it { it with stack := newBox leaf' inners' } e1 rfl).symm
          · show BInv J x.room (st.mem.boxes.fill J b (newBox leaf' inners')) _ _ ((vs.rights.set k _).map _)
            rw [List.map_set]
            exact u1

theorem dropRight (h : LeftInv J borrowL borrowR m0 starts st) (i k : Nat) :
    ∃ st', st.step J room borrowL borrowR (.dropRight i k) = .ok st' ∧ LeftInv J borrowL borrowR m0 starts st' := by
  cases hx : st.joins[i]? with
  | none => exact ⟨st, by unfold LeftRun.step; dsimp only; rw [hx], h⟩
  | some x =>
    cases hy : x.rights[k]? with
    | none => exact ⟨st, by unfold LeftRun.step; dsimp only; rw [hx]; dsimp only; rw [hy], h⟩
    | some y =>
      obtain ⟨e, bounds, bx⟩ := y
      cases bx with
      | none => exact ⟨st, by unfold LeftRun.step; dsimp only; rw [hx]; dsimp only; rw [hy], h⟩
      | some b =>
        obtain ⟨src, it0, vs, hsrc, hJ⟩ := h.each i x hx
        have hok := h.ok src (List.mem_of_getElem? hsrc)
        have hk : (x.rights.map RawRight.box)[k]? = some (some b) := by rw [List.getElem?_map, hy]; rfl
        obtain ⟨m', f1, f2, f3⟩ := hJ.boxes.dropHandle (by rw [hJ.room]; exact hok.room) h.paired hk 0
        have hset : (x.rights.map RawRight.box).set k none = (x.rights.set k ⟨e, bounds, none⟩).map RawRight.box := by rw [List.map_set]
        rw [hset] at f2 f3
        refine ⟨⟨{ st.mem with boxes := m' }, st.joins.set i { x with rights := x.rights.set k ⟨e, bounds, none⟩ }, st.log⟩, ?_, ?_⟩
        · unfold LeftRun.step
          dsimp only
          rw [hx]
          dsimp only
          rw [hy]
          dsimp only
          rw [f1]
          rfl
        · refine h.update hx hsrc (it0 := it0) (vs := vs) (.of (.refl _ _) (.refl _ _) f3) ?_ (fun _ _ => ⟨rfl, rfl⟩) h.logged
          refine ⟨hJ.init, hJ.past, hJ.code, hJ.room, ?_, f2, hJ.join⟩
          show (x.rights.set k _).map _ = vs.rights.map _
          exact (map_set_same _ x.rights k ⟨e, bounds, some b⟩ ⟨e, bounds, none⟩ hy rfl).trans hJ.rights

theorem dropJoin (h : LeftInv J borrowL borrowR m0 starts st) (hsl : 0 < J.left.size) (hsr : 0 < J.right.size) (i : Nat) :
    ∃ st', st.step J room borrowL borrowR (.dropJoin i) = .ok st' ∧ LeftInv J borrowL borrowR m0 starts st' := by
  cases hx : st.joins[i]? with
  | none => exact ⟨st, by unfold LeftRun.step; dsimp only; rw [hx], h⟩
  | some x =>
    cases hj : x.join with
    | none => exact ⟨st, by unfold LeftRun.step; dsimp only; rw [hx]; dsimp only; rw [hj], h⟩
    | some jb =>
      obtain ⟨j, b⟩ := jb
      obtain ⟨src, it0, vs, hsrc, hJ⟩ := h.each i x hx
      have hok := h.ok src (List.mem_of_getElem? hsrc)
      obtain ⟨kl, kr, es, css, rl, its, rfl, g1, g2, g3, g4, g5⟩ := hJ.join j b hj
      have hkl := (List.getElem?_eq_some_iff.1 g4).1
      have hkr := (List.getElem?_eq_some_iff.1 g5).1
      have hmem : (⟨st.mem, b⟩ : JoinState BL BR KL KR VL VR) = stateAt J st.mem.left kl (newBox es css) st.mem.right kr (newBox rl its) st.mem.boxes b := by
        unfold stateAt
        rw [holding_of_get (by rw [g4, IterStack.length_newBox]), holding_of_get (by rw [g5, IterStack.length_newBox])]
      have hro : x.room = its.length + 1 := by rw [hJ.room, g2]
      have hB := hJ.boxes
      rw [hj] at hB
      obtain ⟨m', f1, f2, f3⟩ := BInv.dropAlloc hB (by rw [hJ.room]; exact hok.room) h.paired 0
      rw [hro] at f1
      have hd := RawLeftJoin.drop_at (es := es) (rl := rl) hsl hsr hkl hkr (by rw [g1]; exact hok.left) (by rw [g2]; exact hok.right) f1
      rw [← hmem] at hd
      refine ⟨⟨⟨st.mem.left.set kl none, st.mem.right.set kr none, m'⟩, st.joins.set i { x with join := none }, st.log⟩, ?_, ?_⟩
      · unfold LeftRun.step
        dsimp only
        rw [hx]
        dsimp only
        rw [hj]
        dsimp only
        rw [hd]
        rfl
      · refine h.update hx hsrc (it0 := it0) (vs := vs) (.of ?_ ?_ ?_) ?_ (fun _ _ => ⟨rfl, rfl⟩) h.logged
        · exact HStep.congr (HStep.free (own := fun k => k = kl) (fun _ => Iff.rfl) hkl) (fun k => (owns_left hj k).symm) (fun k => ⟨False.elim, by rintro ⟨_, _, _, e, _⟩; cases e⟩)
        · exact HStep.congr (HStep.free (own := fun k => k = kr) (fun _ => Iff.rfl) hkr) (fun k => (owns_right hj k).symm) (fun k => ⟨False.elim, by rintro ⟨_, _, _, e, _⟩; cases e⟩)
        · refine f3.mono (fun k => ?_) fun k => Iff.rfl
          show Owned _ _ k ↔ Owned _ _ k
          rw [hj]
          exact Iff.rfl
        · exact ⟨hJ.init, hJ.past, hJ.code, hJ.room, hJ.rights, f2, (fun _ _ e => by cases e)⟩

theorem run (hsl : 0 < J.left.size) (hsr : 0 < J.right.size) (hroom : ∀ n, room n = n) (cmds : List (RawLeftCmd BL BR KL KR VL VR QL QR)) {starts : List (JoinSrc BL BR KL KR VL VR QL QR)} {st}
    (h : LeftInv J borrowL borrowR m0 starts st) (hok : ∀ src ∈ LeftRun.started cmds, JoinSrc.Ok J src) :
    ∃ st', st.run J room borrowL borrowR cmds = .ok st' ∧ LeftInv J borrowL borrowR m0 (starts ++ LeftRun.started cmds) st' := by
  induction cmds generalizing starts st with
  | nil => exact ⟨st, rfl, by simpa [LeftRun.started] using h⟩
  | cons c cs ih =>
    cases c with
    | start tl tr code =>
      obtain ⟨st1, h1, h2⟩ := h.start (room := room) hsl hsr hroom (hok (tl, tr, code) (by simp [LeftRun.started]))
      obtain ⟨st2, h3, h4⟩ := ih h2 (fun x hx => hok x (by simp [LeftRun.started, hx]))
      exact ⟨st2, by rw [LeftRun.run, h1]; exact h3, by simpa [LeftRun.started] using h4⟩
    | next i =>
      obtain ⟨st1, h1, h2⟩ := h.next (room := room) hsl hsr i
      obtain ⟨st2, h3, h4⟩ := ih h2 hok
      exact ⟨st2, by rw [LeftRun.run, h1]; exact h3, h4⟩
    | right i k =>
      obtain ⟨st1, h1, h2⟩ := h.right (room := room) hsl hsr i k
      obtain ⟨st2, h3, h4⟩ := ih h2 hok
      exact ⟨st2, by rw [LeftRun.run, h1]; exact h3, h4⟩
    | dropJoin i =>
      obtain ⟨st1, h1, h2⟩ := h.dropJoin (room := room) hsl hsr i
      obtain ⟨st2, h3, h4⟩ := ih h2 hok
      exact ⟨st2, by rw [LeftRun.run, h1]; exact h3, h4⟩
    | dropRight i k =>
      obtain ⟨st1, h1, h2⟩ := h.dropRight (room := room) i k
      obtain ⟨st2, h3, h4⟩ := ih h2 hok
      exact ⟨st2, by rw [LeftRun.run, h1]; exact h3, h4⟩

theorem init (hp : m0.Paired) : LeftInv J borrowL borrowR m0 ([] : List (JoinSrc BL BR KL KR VL VR QL QR)) ⟨m0, [], []⟩ :=
  ⟨rfl, by simp, hp, fun _ h => h, fun l _ => .refl _ l, by simp, by simp, by simp, fun l h1 h2 => absurd h1 h2, by simp⟩

end LeftInv

end RTree.Raw
