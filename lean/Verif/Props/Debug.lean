import Verif.Proofs.Debug
import Verif.Props.Structure
/-!
# `Debug` output of trees (C76)

The form `{:?}`.
-/

namespace RTree

open Fmt

variable {B K V : Type} [Bounds B] [Volume B] [Bounded K B] [BEq K]
variable {c c' : Config} {P P' : K → Prop} {t t' : Tree B K V}
variable {db : B → M Unit} {dk : K → M Unit} {dv : V → M Unit} {sb : B → List Char} {sk : K → List Char} {sv : V → List Char}

/-- C76: `{:?}` of a tree writes the nested list of its nodes with their bounds, and if the sink stops, a beginning of that; the entries are written in the order in which `iter`
    yields them. It does not panic. -/
theorem C76_text (h : Reachable c P t) (hb : ∀ x, Writes (db x) (sb x)) (hk : ∀ x, Writes (dk x) (sk x)) (hv : ∀ x, Writes (dv x) (sv x)) {es : List (K × V)}
    (hes : t.iter = .ok es) :
    Writes (debugTree db dk dv t) (textTree sb sk sv t) ∧ InOrder (es.map (textPair sk sv)) (textTree sb sk sv t) := by
  obtain rfl : t.entries = es := by simpa [h.iter_eq] using hes
  exact ⟨debugTree_writes hb hk hv h.shape, ((textNode_inOrder sb sk sv _ _ h.shape).before _).then _⟩

/-- C76: if `Debug` of bounds, keys or values fails or panics, so does `{:?}` of the tree: never with a panic or undefined behaviour of the crate itself. -/
theorem C76_user_code_fails (h : Reachable c P t) (hb : ∀ x k s p, (db x k s).1 ≠ .error (.own p)) (hk : ∀ x k s p, (dk x k s).1 ≠ .error (.own p))
    (hv : ∀ x k s p, (dv x k s).1 ≠ .error (.own p)) (k : Sink) (s : List Char) (p : Panic) : (debugTree db dk dv t k s).1 ≠ .error (.own p) :=
  debugTree_clean hb hk hv h.shape k s p

/-- C76: trees (of any configurations) with the same text have the same entries, in the same order, if the texts of bounds, keys and values can be told apart.
    If they have the same height they are the same, node by node. -/
theorem C76_same_text (h : Reachable c P t) (h' : Reachable c' P' t') (hb : Readable sb) (hk : Readable sk) (hv : Readable sv)
    (ht : textTree sb sk sv t = textTree sb sk sv t') : t.iter = t'.iter ∧ (t.level = t'.level → t.root = t'.root) := by
  simp only [textTree, List.append_assoc] at ht
  have h1 := List.append_cancel_left ht
  refine ⟨?_, fun hl => ?_⟩
  · rw [h.iter_eq, h'.iter_eq]
    exact congrArg Except.ok (textNode_entries hb hk hv _ _ _ _ h.shape h'.shape _ _ h1).1
  · have hs' := h'.shape
    rw [← hl] at hs'
    exact (textNode_inj hb hk hv _ _ _ h.shape hs' _ _ h1).1

/-- C76: with safe configurations (and volumes that do not overflow) the text also shows the height. -/
theorem C76_same_text_safe [VolumeLaws B] (hs : c.Safe) (hs' : c'.Safe) (hP : ∀ k, P k → VolumeLaws.volOk (Bounded.bounds k : B))
    (hP' : ∀ k, P' k → VolumeLaws.volOk (Bounded.bounds k : B)) (h : Reachable c P t) (h' : Reachable c' P' t') (hb : Readable sb) (hk : Readable sk) (hv : Readable sv)
    (ht : textTree sb sk sv t = textTree sb sk sv t') : t.level = t'.level ∧ t.root = t'.root := by
  have full : ∀ {c : Config} {P : K → Prop} {t : Tree B K V}, c.Safe → (∀ k, P k → VolumeLaws.volOk (Bounded.bounds k : B)) → Reachable c P t → Full t.root := by
    intro c P t hs hP h m hm
    have hf := floor_le_fanout hs hP h
    have hfl : 1 ≤ Alloc.floor ⟨c.minChildren, c.maxChildren⟩ := by
      unfold Config.Safe at hs
      unfold Alloc.floor
      dsimp only
      split
      · omega
      · split <;> omega
    rcases List.mem_cons.1 hm with rfl | hm
    · cases hr : t.root with
      | leaf b es => exact .inr ⟨b, es, rfl⟩
      | inner b cs =>
        refine .inl ?_
        have hl : 1 ≤ t.level := by
          have := h.shape
          rw [hr] at this
          cases hlev : t.level with
          | zero => rw [hlev] at this; exact this.elim
          | succ n => omega
        have := hf.2 hl
        rw [hr] at this
        omega
    · exact .inl (hfl.trans (hf.1 m hm))
  have ht' := ht
  simp only [textTree, List.append_assoc] at ht'
  have hl := textNode_level hb _ _ _ _ h.shape h'.shape (full hs hP h) (full hs' hP' h') _ _ (List.append_cancel_left ht')
  exact ⟨hl, (C76_same_text h h' hb hk hv ht).2 hl⟩

/-- C76: the texts of `i32` numbers, and so of vectors and boxes of them, can be told apart; `{:?}` writes them. -/
theorem C76_boxes {D : Nat} : Readable (textBox textI32 : AABB I32 D → List Char) ∧ (∀ b : AABB I32 D, Writes (debugBox debugI32 b) (textBox textI32 b)) ∧
    Readable textI32 ∧ ∀ x, Writes (debugI32 x) (textI32 x) :=
  ⟨readable_box readable_i32 textI32_start, fun b => debugBox_writes debugI32_writes b, readable_i32, debugI32_writes⟩

/-! ## Examples -/

/-- Two boxes. -/
def twoBoxes : BoxTree := (run (Tree.new cfg42) [.insert (box 0 (-2) 1 1) 1, .insert (box 5 5 7 10) 25]).getD (Tree.new cfg42)

/-- What is printed for it. -/
example : (debugTree (debugBox debugI32) (debugBox debugI32) (fun n => write (decimal 3 n)) twoBoxes (fun _ s => s.length) []).2 =
    txt! "RTree { root: Node { bounds: AABB { min: [0, -2], max: [7, 10] }, node: [(AABB { min: [0, -2], max: [1, 1] }, 1), (AABB { min: [5, 5], max: [7, 10] }, 25)] } }" := by
  decide +kernel

/-- What is printed for it if there is room for twenty characters only. -/
example : (debugTree (debugBox debugI32) (debugBox debugI32) (fun n => write (decimal 3 n)) twoBoxes (fun t _ => 20 - t.length) []).2 = txt! "RTree { root: Node {" := by
  decide +kernel

/-- A text for values: as many strokes. -/
def tally (n : Nat) : List Char := List.replicate n '|'

theorem readable_tally : Readable tally :=
  readable_of_plain (fun x ch hc => by
    obtain rfl := List.eq_of_mem_replicate hc
    decide) (fun x y h => by
    have := congrArg List.length h
    simpa [tally] using this)

/-- The hypotheses of `C76_text`, `C76_same_text` and `C76_same_text_safe` are met by the sample tree. -/
example : Writes (debugTree (debugBox debugI32) (debugBox debugI32) (fun n => write (tally n)) sampleTree) (textTree (textBox textI32) (textBox textI32) tally sampleTree) ∧
    ∀ t : BoxTree, Reachable cfg42 SampleKey t → textTree (textBox textI32) (textBox textI32) tally sampleTree = textTree (textBox textI32) (textBox textI32) tally t →
      t.level = 1 ∧ t.iter = .ok sampleEntries := by
  refine ⟨(C76_text sample_reachable C76_boxes.2.1 C76_boxes.2.1 (fun n => Writes.write _) sample_iter).1, fun t h ht => ⟨?_, ?_⟩⟩
  · let _ := sampleLaws
    have := (C76_same_text_safe (c := cfg42) (c' := cfg42) (P := SampleKey) (P' := SampleKey) ⟨by decide, by decide⟩ ⟨by decide, by decide⟩ (fun _ hk => hk.1) (fun _ hk => hk.1)
      sample_reachable h C76_boxes.1 C76_boxes.1 readable_tally ht).1
    rw [← this]
    decide +kernel
  · rw [← (C76_same_text sample_reachable h C76_boxes.1 C76_boxes.1 readable_tally ht).1]
    exact sample_iter

end RTree
