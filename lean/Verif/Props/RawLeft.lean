import Verif.Proofs.RawLeftRun
import Verif.Props.LeftCalls
import Verif.Props.Stacks
/-!
# The memory of left joins (C72)

A client makes left joins of trees, calls `next` of them and of the right-hand iterators they have yielded, and drops left joins and right-hand iterators, in any
order (a right-hand iterator may outlive its left join); user code may panic (the client catches that) or answer inconsistently.  `LeftRun.run` fails if there is
undefined behaviour (an access outside of a block, of memory that is uninitialised or freed, of the wrong field of a union, a `dealloc` with the wrong layout) or a
panic that does not come from user code.
-/

namespace RTree.Raw

open Calls (LeftStory JoinCode LeftCmd LeftOut)

/-! ## Layouts of boxes -/

/-- C72: the layout that `box_layout` computes for an allocation is the one the compiler gives the box, which is used when it is freed, for every size and alignment of
    the value; `box_layout` panics only if the box is too large. -/
theorem C72_box_layout {value : Layout} (ha : 0 < value.align) (maxBytes : Nat) :
    (∀ l, Layout.boxLayout maxBytes value = some l → l = Layout.forBox value) ∧
    (value.size + 2 * value.align ≤ maxBytes → Layout.boxLayout maxBytes value = some (Layout.forBox value)) ∧
    (Layout.boxLayout maxBytes value = none → maxBytes < (Layout.forBox value).size + value.align) := by
  rw [Layout.boxLayout_eq ha]
  refine ⟨?_, ?_, ?_⟩
  · intro l h
    split at h
    · cases h; rfl
    · cases h
  · intro h
    have := Layout.roundUp_lt (n := 1) ha
    rw [if_pos (by omega)]
  · intro h
    split at h
    · cases h
    · rw [Layout.forBox_eq ha]
      have := Layout.le_roundUp (n := Layout.roundUp 1 value.align + value.size) ha
      show maxBytes < Layout.roundUp (Layout.roundUp 1 value.align + value.size) value.align + value.align
      omega

/-- C72: within the box, the value is aligned, does not overlap the flag (the first byte) and does not reach beyond the end; the box is not larger than needed. -/
theorem C72_box_fields {value : Layout} (ha : 0 < value.align) :
    value.align ∣ Layout.valueOffset value ∧ 1 ≤ Layout.valueOffset value ∧ Layout.valueOffset value + value.size ≤ (Layout.forBox value).size ∧
    (Layout.forBox value).align = value.align ∧ value.align ∣ (Layout.forBox value).size ∧ (Layout.forBox value).size < value.size + 2 * value.align + 1 := by
  rw [Layout.forBox_eq ha, Layout.valueOffset_eq]
  have h1 := Layout.roundUp_lt (n := 1) ha
  have h2 := Layout.roundUp_lt (n := Layout.roundUp 1 value.align + value.size) ha
  have h3 : Layout.roundUp 1 value.align ≤ value.align := by omega
  refine ⟨Layout.dvd_roundUp _ _, Layout.le_roundUp ha, Layout.le_roundUp ha, rfl, Layout.dvd_roundUp _ _, ?_⟩
  show Layout.roundUp _ _ < _
  omega

/-- Five entries of 24 bytes: the flag, seven bytes of padding, the entries. -/
example : Layout.boxLayout 1000000 ⟨120, 8⟩ = some ⟨128, 8⟩ ∧ Layout.valueOffset ⟨120, 8⟩ = 8 := by decide

/-! ## Left joins -/

section

variable {BL BR KL KR VL VR QL QR : Type} [Bounds BL] [Volume BL] [Bounded KL BL] [BEq KL] [Bounds BR] [Volume BR] [Bounded KR BR] [BEq KR]

/-- The stacks of a left join of these trees can be allocated: neither they nor a box are larger than `isize::MAX`. -/
def StacksFit (J : JoinEnv) (tl : Tree BL KL VL) (tr : Tree BR KR VR) : Prop :=
  (tl.level + 2) * J.left.size ≤ J.left.maxBytes ∧ (tr.level + 2) * J.right.size ≤ J.right.maxBytes ∧
    (tr.level + 2) * J.value.size + 2 * J.align ≤ J.value.maxBytes

/-- Everything is gone. -/
def LeftRun.AllDropped (st : LeftRun BL BR KL KR VL VR QL QR) : Prop := ∀ x ∈ st.joins, x.join = none ∧ ∀ r ∈ x.rights, r.box = none

theorem extend_none {α : Type} {h0 h : List (Option α)} (hle : h0.length ≤ h.length) (hold : ∀ j, j < h0.length → h[j]? = h0[j]?)
    (hnew : ∀ j, h0.length ≤ j → j < h.length → h[j]? = some none) : ∃ m, h = h0 ++ List.replicate m none := by
  refine ⟨h.length - h0.length, ?_⟩
  apply List.ext_getElem?
  intro j
  by_cases h1 : j < h0.length
  · rw [List.getElem?_append_left h1]; exact hold j h1
  · rw [List.getElem?_append_right (by omega)]
    by_cases h2 : j < h.length
    · rw [hnew j (by omega) h2, List.getElem?_replicate, if_pos (by omega)]
    · rw [List.getElem?_eq_none (by omega), List.getElem?_replicate, if_neg (by omega)]

/-- C72: many left joins in one memory.  Whatever a client does with left joins of trees and their right-hand iterators, there is no undefined behaviour and no panic but
    those of user code; memory that the client had before is not touched; when all left joins and all right-hand iterators are dropped, in any order, all memory they took
    is free again; and each left join with its right-hand iterators, whatever is done with the others or is dropped in the meantime, tells the `LeftStory` of C65.  `hroom`: `Vec::with_capacity(n)`
    has room for `n` elements exactly (see C60). -/
theorem C72_left_joins {J : JoinEnv} (hl : 0 < J.left.size) (hr : 0 < J.right.size) (hv : 0 < J.value.size) (ha : 0 < J.align) {room : Nat → Nat} (hroom : ∀ n, room n = n)
    (borrowL : KL → QL) (borrowR : KR → QR) (m0 : JoinMem BL BR KL KR VL VR) (hm0 : m0.boxes.heads.length = m0.boxes.values.length)
    (cmds : List (RawLeftCmd BL BR KL KR VL VR QL QR))
    (hc : ∀ tl tr code, (tl, tr, code) ∈ LeftRun.started cmds → (∃ (c : Config) (P : KL → Prop), Reachable c P tl) ∧ (∃ (c : Config) (P : KR → Prop), Reachable c P tr) ∧ StacksFit J tl tr) :
    ∃ st, LeftRun.run J room borrowL borrowR ⟨m0, [], []⟩ cmds = .ok st ∧
      (∀ j, j < m0.left.length → st.mem.left[j]? = m0.left[j]?) ∧ (∀ j, j < m0.right.length → st.mem.right[j]? = m0.right[j]?) ∧
      (∀ j, j < m0.boxes.heads.length → st.mem.boxes.heads[j]? = m0.boxes.heads[j]? ∧ st.mem.boxes.values[j]? = m0.boxes.values[j]?) ∧
      (st.AllDropped → (∃ n, st.mem.left = m0.left ++ List.replicate n none) ∧ (∃ n, st.mem.right = m0.right ++ List.replicate n none) ∧
        (∃ n, st.mem.boxes.heads = m0.boxes.heads ++ List.replicate n none ∧ st.mem.boxes.values = m0.boxes.values ++ List.replicate n none)) ∧
      ∀ (k : Nat) (tl : Tree BL KL VL) (tr : Tree BR KR VR) (code : Nat → Option (JoinCode BL BR QL QR)), (LeftRun.started cmds)[k]? = some (tl, tr, code) →
        LeftStory code borrowL borrowR tl.nodes tr.nodes tr.entries 0 tl.entries [] (LeftRun.callsOf k st.log) (LeftRun.outsOf k st.log) := by
  have hok : ∀ src ∈ LeftRun.started cmds, JoinSrc.Ok J src := by
    rintro ⟨tl, tr, code⟩ hs
    obtain ⟨⟨_, _, h1⟩, ⟨_, _, h2⟩, h3⟩ := hc tl tr code hs
    exact ⟨h1.shape, h2.shape, h3.1, h3.2.1, ⟨ha, hv, h3.2.2⟩⟩
  obtain ⟨st, h1, h2⟩ := LeftInv.run hl hr hroom cmds (LeftInv.init (J := J) (borrowL := borrowL) (borrowR := borrowR) hm0) hok
  rw [List.nil_append] at h2
  refine ⟨st, h1, fun j hj => h2.old (.left j) hj, fun j hj => h2.old (.right j) hj, fun j hj => h2.old (.box j) hj, ?_, ?_⟩
  · intro hd
    have hfree : ∀ l, st.mem.Has l → ¬ m0.Has l → st.mem.Freed l := by
      intro l h3 h4
      rcases h2.freed l h3 h4 with h5 | ⟨i, x, h5, h6⟩
      · exact h5
      · obtain ⟨g1, g2⟩ := hd x (List.mem_of_getElem? h5)
        cases l with
        | left k => obtain ⟨_, _, _, e, _⟩ := h6; rw [g1] at e; cases e
        | right k => obtain ⟨_, _, _, e, _⟩ := h6; rw [g1] at e; cases e
        | box k =>
          rcases h6 with h6 | h6
          · rw [g1] at h6; cases h6
          · obtain ⟨r, hr1, hr2⟩ := List.mem_map.1 h6
            rw [g2 r hr1] at hr2; cases hr2
    have hle : ∀ {a b : Nat}, (∀ j, j < a → j < b) → a ≤ b := fun {a b} h => Nat.le_of_not_lt fun hlt => Nat.lt_irrefl b (h b hlt)
    refine ⟨?_, ?_, ?_⟩
    · exact extend_none (hle fun j hj => h2.has (.left j) hj) (fun j hj => h2.old (.left j) hj) fun j e1 e2 => hfree (.left j) e2 (Nat.not_lt.2 e1)
    · exact extend_none (hle fun j hj => h2.has (.right j) hj) (fun j hj => h2.old (.right j) hj) fun j e1 e2 => hfree (.right j) e2 (Nat.not_lt.2 e1)
    · have hp : st.mem.boxes.heads.length = st.mem.boxes.values.length := h2.paired
      have hlen : m0.boxes.heads.length ≤ st.mem.boxes.heads.length := hle fun j hj => h2.has (.box j) hj
      obtain ⟨n, hn⟩ := extend_none hlen (fun j hj => (h2.old (.box j) hj).1) fun j e1 e2 => (hfree (.box j) e2 (Nat.not_lt.2 e1)).1
      obtain ⟨n', hn'⟩ := extend_none (h := st.mem.boxes.values) (h0 := m0.boxes.values) (by omega) (fun j hj => (h2.old (.box j) (show j < m0.boxes.heads.length by omega)).2)
        fun j e1 e2 => (hfree (.box j) (show j < st.mem.boxes.heads.length by omega) (Nat.not_lt.2 (show m0.boxes.heads.length ≤ j by omega))).2
      have : n = n' := by
        have e1 := congrArg List.length hn
        have e2 := congrArg List.length hn'
        simp at e1 e2
        omega
      subst this
      exact ⟨n, hn, hn'⟩
  · intro k tl tr code hk
    have hlt : k < st.joins.length := by rw [h2.len]; exact (List.getElem?_eq_some_iff.1 hk).1
    obtain ⟨src, it0, vs, g1, g2⟩ := h2.each k _ (List.getElem?_eq_getElem hlt)
    rw [hk] at g1
    cases g1
    have hko := hok _ (List.mem_of_getElem? hk)
    obtain ⟨it, e1, e2⟩ := Calls.session_of_shape hko.shapeL hko.shapeR code
    have e1' : RTree.LeftJoinIter.new tl.root tl.level tr.root tr.level = .ok it := e1
    have e3 := g2.init
    dsimp only at e3
    cases e3.symm.trans e1'
    have h5 := Calls.calls_spec (borrowL := borrowL) (borrowR := borrowR) (Calls.closed_nodes tl) (Calls.closed_nodes tr) (LeftRun.callsOf k st.log) e2
    have h6 := g2.past
    dsimp only at h6
    rw [h6] at h5
    exact h5

end

/-! ## An example -/

/-- Entries of 24, 40 and 24 bytes. -/
def leftEnv : JoinEnv := ⟨⟨24, 1000000, false, fun _ => 0⟩, ⟨40, 1000000, false, fun _ => 0⟩, ⟨24, 1000000, false, fun _ => 0⟩, 8⟩

/-- The calls of `shakyCmds` and another left join by turns; right-hand iterators are dropped before and after their left joins. -/
def leftCmds : List (RawLeftCmd (AABB I32 2) (AABB I32 2) (AABB I32 2) (AABB I32 2) Nat Nat (AABB I32 2) (AABB I32 2)) :=
  [.start sampleTree smallTree Calls.shakyLeft, .next 0, .right 0 0, .next 0, .start smallTree sampleTree (fun _ => some ⟨Calls.acceptAll _ _ _ _, id⟩), .right 0 0, .right 0 0,
    .next 1, .next 0, .dropRight 0 0, .right 1 0, .right 0 1, .right 0 1, .right 0 1, .dropRight 0 1, .next 0, .dropRight 0 2, .next 0, .next 0, .next 1, .dropJoin 1, .next 0, .right 1 0, .right 0 4,
    .dropRight 0 4, .dropRight 1 1, .next 0, .dropJoin 0, .right 1 0, .dropRight 0 3, .dropRight 1 0]

/-- What is left of a session: which blocks are free, whether everything is dropped, and what was handed out. -/
def leftSummary (r : Res (LeftRun (AABB I32 2) (AABB I32 2) (AABB I32 2) (AABB I32 2) Nat Nat (AABB I32 2) (AABB I32 2))) :
    Option (List Bool × List Bool × List Bool × List Bool × List (Nat × Option (Option Nat))) :=
  match r with
  | .ok st => some (st.mem.left.map Option.isNone, st.mem.right.map Option.isNone, st.mem.boxes.heads.map Option.isNone,
      st.joins.map (fun x => x.join.isNone && x.rights.all fun r => r.box.isNone), st.log.map fun x => (x.1, match x.2.2 with
        | .next (.ok e) => some (e.map Prod.snd)
        | .right (.ok e) => some (e.map Prod.snd)
        | _ => none))
  | .error _ => none

/-- The hypotheses of `C72_left_joins` are met. -/
example : ∀ tl tr code, (tl, tr, code) ∈ LeftRun.started leftCmds → (∃ (c : Config) (P : AABB I32 2 → Prop), Reachable c P tl) ∧ (∃ (c : Config) (P : AABB I32 2 → Prop), Reachable c P tr) ∧
    StacksFit leftEnv tl tr := by
  intro tl tr code h
  simp only [leftCmds, LeftRun.started, List.mem_cons, Prod.mk.injEq, List.not_mem_nil, or_false] at h
  rcases h with ⟨rfl, rfl, _⟩ | ⟨rfl, rfl, _⟩
  · exact ⟨⟨_, _, sample_reachable⟩, ⟨_, _, small_reachable⟩, by unfold StacksFit; decide +kernel⟩
  · exact ⟨⟨_, _, small_reachable⟩, ⟨_, _, sample_reachable⟩, by unfold StacksFit; decide +kernel⟩

/-- All memory is free and everything is dropped at the end. -/
example : (leftSummary (LeftRun.run leftEnv id id id ⟨⟨[], [], ⟨[], []⟩⟩, [], []⟩ leftCmds)).map (fun x => (x.1, x.2.1, x.2.2.1, x.2.2.2.1)) =
    some ([true, true], [true, true], [true, true, true, true, true, true, true], [true, true]) := by decide +kernel

/-- What was handed out. -/
example : (leftSummary (LeftRun.run leftEnv id id id ⟨⟨[], [], ⟨[], []⟩⟩, [], []⟩ leftCmds)).map (fun x => x.2.2.2.2) =
    some [(0, some (some 1)), (0, some (some 1)), (0, some (some 5)), (0, none), (0, some none), (1, some (some 1)), (0, some (some 3)), (1, some (some 1)), (0, some (some 1)), (0, some (some 2)),
      (0, some none), (0, none), (0, none), (0, some (some 8)), (1, some (some 2)), (0, some (some 7)), (1, some (some 5)), (0, some (some 1)), (0, some none), (1, some (some 3))] := by decide +kernel

end RTree.Raw
