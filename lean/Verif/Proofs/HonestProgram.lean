import Verif.Proofs.HonestTree
import Verif.Props.Unwind
import Verif.Proofs.AnyForest
/-!
# Programs, with user code that behaves
-/

set_option linter.unusedSectionVars false

namespace RTree.Unwind

open Raw

variable {B K V Q σ τ α β γ δ : Type} [Bounds B] [Volume B] [Bounded K B] [BEq K] [Bounded Q B] [BEq Q] {borrow : K → Q} {L L' : Links} {E : TEnv} {a : Alloc}

variable {s : σ} {f : List (Option (Raw.RTree B))} {f' : Vars B}

/-- Corresponding variables. -/
abbrev SameVars (L : Links) (f : List (Option (Raw.RTree B))) (f' : Vars B) : Prop := Pairs (Option.Rel (SameTree L)) f f'

theorem vars_mono (h : SameVars L f f') (l : L.Le L') : SameVars L' f f' := Pairs.mono h fun _ _ x => rel_mono x fun _ _ y => y.mono l

/-- What a command yields. -/
abbrev Answered (L : Links) (r : List (Option (Raw.RTree B)) × Event K V) (s' : Vars B) (b : Reply V) : Prop := SameVars L r.1 s' ∧ b = r.2.reply

theorem idle_of_only {x : Raw.M (Cell B K V) α} {y z : U B K V Q σ β} (h : y = z) {P : Links → α → σ → β → Prop} (k : Like borrow L x z s P) : Like borrow L x y s P := h ▸ k

/-- Work on the tree in a variable. -/
theorem onVar_like {i : Nat} {ev : Event K V} {other : U B K V Q (Vars B) (Reply V)} {g : Raw.RTree B → Raw.M (Cell B K V) (List (Option (Raw.RTree B)) × Event K V)} {y : U B K V Q (UTree B) (Reply V)}
    (hf : SameVars L f f') (ho : Idle borrow other f' ev.reply)
    (hg : ∀ t t', f[i]? = some (some t) → SameTree L t t' → Like borrow L (g t) y t' fun L' r t1 b => (∃ o, r.1 = f.set i (some o) ∧ SameTree L' o t1) ∧ b = r.2.reply) :
    Like borrow L (withTree f i ev g) (onVar i other y) f' Answered := by
  unfold withTree
  have hi := hf.get i
  intro m w A hw r g1 ex
  unfold onVar
  cases h1 : f[i]? with
  | none =>
    rw [h1] at hi ex
    cases h2 : f'[i]? with
    | some o => rw [h2] at hi; cases hi
    | none => exact Like.stop (P := Answered) ho ⟨hf, rfl⟩ m w A hw r g1 ex
  | some o =>
    rw [h1] at hi ex
    cases h2 : f'[i]? with
    | none => rw [h2] at hi; cases hi
    | some o' =>
      rw [h2] at hi
      cases hi with
      | some hi =>
        cases hi with
        | none => exact Like.stop (P := Answered) ho ⟨hf, rfl⟩ m w A hw r g1 ex
        | @some t t' ht =>
          rcases hg t t' h1 ht m w A hw r g1 ex with h | ⟨L1, b, t1, w1, l1, h3, A1, hw1, ⟨o, h4, h5⟩, h6⟩
          · exact .inl h
          · refine .inr ⟨L1, b, f'.set i (some t1), w1, l1, ?_, A1, hw1, ?_, h6⟩
            · dsimp only; rw [h3]
            · rw [h4]; exact (vars_mono hf l1).set i (.some h5)

theorem var_cases (hf : SameVars L f f') (i : Nat) : (∃ t t', f[i]? = some (some t) ∧ f'[i]? = some (some t') ∧ SameTree L t t') ∨
    ((∀ t, f[i]? ≠ some (some t)) ∧ ∀ t', f'[i]? ≠ some (some t')) := by
  have hi := hf.get i
  generalize f[i]? = x at hi
  generalize f'[i]? = y at hi
  cases hi with
  | none => exact .inr ⟨fun t h => (by cases h), fun t h => (by cases h)⟩
  | some h =>
    cases h with
    | none => exact .inr ⟨fun t h => (by cases h), fun t h => (by cases h)⟩
    | some h => exact .inl ⟨_, _, rfl, rfl, h⟩

theorem slot_same {T : Type} {f : List (Option T)} {i : Nat} {t : T} (hi : f[i]? = some (some t)) : f.set i (some t) = f := by
  obtain ⟨hl, he⟩ := List.getElem?_eq_some_iff.1 hi
  rw [← he, List.set_getElem_self]

theorem slot_none {T : Type} {f : List (Option T)} {i : Nat} (h : ∀ t, f[i]? ≠ some (some t)) : f.set i none = f := by
  by_cases hl : i < f.length
  · have h1 : f[i]? = some f[i] := List.getElem?_eq_getElem hl
    have h2 : f[i] = none := by
      cases hx : f[i] with
      | none => rfl
      | some t => rw [hx] at h1; exact absurd h1 (h t)
    rw [← h2, List.set_getElem_self]
  · rw [List.set_eq_of_length_le (by omega)]

theorem atTree_none {T R : Type} {f : List (Option T)} {i : Nat} {d : R} {g : T → Raw.M (Cell B K V) (List (Option T) × R)} (h : ∀ t, f[i]? ≠ some (some t)) :
    withTree f i d g = pure (f, d) := by
  unfold withTree
  split
  · rename_i t ht; exact absurd ht (h t)
  · rfl

theorem atTree_some {T R : Type} {f : List (Option T)} {i : Nat} {d : R} {g : T → Raw.M (Cell B K V) (List (Option T) × R)} {t : T} (h : f[i]? = some (some t)) :
    withTree f i d g = g t := by
  unfold withTree
  rw [h]

theorem onVar_none {i : Nat} {other : U B K V Q (Vars B) β} {y : U B K V Q (UTree B) β} {w : World B K V Q} (h : ∀ t, f'[i]? ≠ some (some t)) : onVar i other y f' w = other f' w := by
  unfold onVar
  split
  · rename_i t ht; exact absurd ht (h t)
  · rfl

theorem onVar_some {i : Nat} {other : U B K V Q (Vars B) β} {y : U B K V Q (UTree B) β} {w : World B K V Q} {t : UTree B} (h : f'[i]? = some (some t)) :
    onVar i other y f' w = ((y t w).1, f'.set i (some (y t w).2.1), (y t w).2.2) := by
  unfold onVar
  rw [h]

theorem cmd_like (c : Cmd K V Q) (hf : SameVars L f f') : Like borrow L (Cmd.raw E borrow f c) (Cmd.run E c : U B K V Q (Vars B) (Reply V)) f' Answered := by
  cases c with
  | new c =>
    unfold Raw.Cmd.raw Cmd.run
    refine (newTree_like c).bind ?_
    rintro L1 t f1 t' l1 ⟨rfl, ht⟩
    refine .idle .place (.put (.pure ⟨?_, rfl⟩))
    exact (vars_mono hf l1).snoc (.some ht)
  | insert i k v =>
    unfold Raw.Cmd.raw Cmd.run
    refine onVar_like hf (.bind (.bind (.dropKey _) (.dropValue _)) (.pure _)) fun t t' hi ht => ?_
    refine (insertEntry_like ht (.leaf k v)).bind fun L1 r t1 _ l1 h1 => .pure ⟨⟨r, rfl, h1⟩, rfl⟩
  | insertUnique i k v =>
    unfold Raw.Cmd.raw Cmd.run
    refine onVar_like hf (.bind (.bind (.dropKey _) (.dropValue _)) (.pure _)) fun t t' hi ht => ?_
    refine (insertUnique_like ht).bind ?_
    rintro L1 r t1 b l1 ⟨h1, rfl⟩
    exact .pure ⟨⟨r.1, rfl, h1⟩, rfl⟩
  | remove i q =>
    unfold Raw.Cmd.raw Cmd.run
    refine onVar_like hf (.pure _) fun t t' hi ht => ?_
    refine (remove_like ht).bind ?_
    rintro L1 r t1 b l1 ⟨h1, rfl⟩
    exact .pure ⟨⟨r.1, rfl, h1⟩, rfl⟩
  | get i q =>
    unfold Raw.Cmd.raw Cmd.run
    refine onVar_like hf (.pure _) fun t t' hi ht => ?_
    refine (get_like ht).bind ?_
    rintro L1 r t1 b l1 ⟨rfl, rfl⟩
    exact .pure ⟨⟨t, (slot_same hi).symm, ht.mono l1⟩, rfl⟩
  | replace i q v =>
    unfold Raw.Cmd.raw Cmd.run
    refine onVar_like hf (.bind (.dropValue _) (.pure _)) fun t t' hi ht => ?_
    refine (setValue_like ht).bind ?_
    rintro L1 r t1 b l1 ⟨rfl, rfl⟩
    exact .pure ⟨⟨t, (slot_same hi).symm, ht.mono l1⟩, rfl⟩
  | len i =>
    unfold Raw.Cmd.raw Cmd.run
    refine onVar_like hf (.pure _) fun t t' hi ht => ?_
    refine .idle .place ?_
    unfold Raw.RTree.len
    rw [ht.level]
    refine (Like.mem (lenNode_mem _ ht.root.vec)).bind ?_
    rintro L1 r t1 b l1 ⟨rfl, rfl⟩
    exact .pure ⟨⟨t, (slot_same hi).symm, ht.mono l1⟩, rfl⟩
  | isEmpty i =>
    unfold Raw.Cmd.raw Cmd.run
    refine onVar_like hf (.pure _) fun t t' hi ht => ?_
    refine .idle .place (.pure ⟨⟨t, (slot_same hi).symm, ht⟩, ?_⟩)
    unfold Raw.RTree.isEmpty
    rw [ht.root.vec.len]
  | clone i =>
    unfold Raw.Cmd.raw Cmd.run
    dsimp only
    rcases var_cases hf i with ⟨t, t', h1, h2, ht⟩ | ⟨h1, h2⟩
    · rw [atTree_some h1]
      unfold Raw.RTree.clone
      rw [bind_assoc']
      refine Like.bind (P := fun L' n s' b => s' = f' ∧ ∃ n', b = some { t' with root := n' } ∧ SameN L' n n') ?_ ?_
      · intro m w A hw r g ex
        rw [onVar_some h2]
        have key : Like (Q := Q) borrow L (Raw.cloneNode E t.alloc t.level t.root >>= Pure.pure : Raw.M (Cell B K V) _) (do
            let t ← place
            let n ← cloneNode E t.alloc.maxChildren t.level t.root
            pure (some { t with root := n })) t' fun L' n s' b => s' = t' ∧ ∃ n', b = some { t' with root := n' } ∧ SameN L' n n' := by
          refine .idle .place ?_
          rw [ht.alloc, ht.level]
          refine (cloneNode_like t.level ht.root).bind ?_
          rintro L1 n t1 n' l1 ⟨rfl, hn⟩
          exact .pure ⟨rfl, n', by rw [← ht.alloc, ← ht.level], hn⟩
        rw [raw_pure] at key
        rcases key m w A hw r g ex with h | ⟨L1, b, t1, w1, l1, h3, A1, hw1, h4, h5⟩
        · exact .inl h
        · refine .inr ⟨L1, b, _, w1, l1, ?_, A1, hw1, rfl, h5⟩
          rw [h3, h4, slot_same h2]
      · rintro L1 n f1 b l1 ⟨rfl, n', rfl, hn⟩
        refine .idle .place ?_
        dsimp only
        refine .put (.pure ⟨?_, rfl⟩)
        exact (vars_mono hf l1).snoc (.some ⟨ht.alloc, ht.level, hn⟩)
    · rw [atTree_none h1]
      refine Like.idle (b := none) ?_ (.idle .place (.pure ⟨hf, rfl⟩))
      intro w hw
      exact ⟨w, onVar_none h2, rfl, hw⟩
  | drop i =>
    unfold Raw.Cmd.raw Cmd.run
    dsimp only
    refine .idle .place (.put ?_)
    rcases var_cases hf i with ⟨t, t', h1, h2, ht⟩ | ⟨h1, h2⟩
    · rw [atTree_some h1, h2]
      dsimp only
      unfold Raw.RTree.drop
      rw [ht.alloc, ht.level]
      refine (dropContainer_like t.level ht.root).bind ?_
      rintro L1 es s1 _ l1 rfl
      exact .pure ⟨(vars_mono hf l1).set i .none, rfl⟩
    · rw [atTree_none h1]
      rw [slot_none h2]
      split
      · rename_i t ht; exact absurd ht (h2 t)
      · exact .pure ⟨hf, rfl⟩

theorem run_like (cmds : List (Cmd K V Q)) (hf : SameVars L f f') :
    Like borrow L (program E borrow f cmds) (run E cmds : U B K V Q (Vars B) (List (Option (Reply V)))) f' fun L' r s' rs => SameVars L' r.1 s' ∧ rs = r.2.map fun e => some e.reply := by
  induction cmds generalizing L f f' with
  | nil => exact .pure ⟨hf, rfl⟩
  | cons c cmds ih =>
    unfold program run
    refine Like.bind (P := fun L' r s' b => SameVars L' r.1 s' ∧ b = some r.2.reply) ?_ ?_
    · intro m w A hw r g ex
      rcases cmd_like c hf m w A hw r g ex with h | ⟨L1, b, s1, w1, l1, h1, h2, h3, h4, h5⟩
      · left
        unfold catchPanic
        rcases hx : Cmd.run E c f' w with ⟨o, s', w'⟩
        rw [hx] at h
        dsimp only at h
        subst h
        rfl
      · exact .inr ⟨L1, some b, s1, w1, l1, by unfold catchPanic; rw [h1], h2, h3, h4, by rw [h5]⟩
    · rintro L1 ⟨f1, ev⟩ s1 b l1 ⟨h1, rfl⟩
      refine (ih h1).bind ?_
      rintro L2 ⟨f2, evs⟩ s2 rs l2 ⟨h2, rfl⟩
      exact .pure ⟨h2, rfl⟩

/-! ### Reading the trees -/

theorem readAll_mem {f : RNode B → Raw.M (Cell B K V) (Node B K V)} {g : UNode B → Raw.M (UCell B K V) (Node B K V)} {cs : List (RNode B)} {cs' : List (UNode B)} (h : Pairs (SameN L) cs cs')
    (hf : ∀ L c c', SameN L c c' → Mem L (f c) (g c') fun _ a b => b = a) : Mem L (readAll f cs) (readAll g cs') fun _ a b => b = a := by
  induction cs generalizing L cs' with
  | nil => cases h; exact .pure rfl
  | cons c cs ih =>
    cases h with
    | cons hc h =>
      unfold readAll
      refine (hf L _ _ hc).bind ?_
      rintro L1 n _ l1 rfl
      refine (ih (h.mono fun _ _ x => x.mono l1)).bind ?_
      rintro L2 ns _ l2 rfl
      exact .pure rfl

theorem readNode_mem (l : Nat) {n : RNode B} {n' : UNode B} (hn : SameN L n n') :
    Mem L (readNode id E l n : Raw.M (Cell B K V) (Node B K V)) (readNode Own.val E l n') fun _ a b => b = a := by
  induction l generalizing L n n' with
  | zero =>
    unfold readNode
    refine (entries_mem hn.vec).bind ?_
    rintro L1 es _ l1 rfl
    exact .pure (by rw [hn.val]; rfl)
  | succ l ih =>
    unfold readNode
    refine (nodes_mem hn.vec).bind fun L1 cs cs' l1 hcs => ?_
    refine (readAll_mem hcs fun L c c' h => ih h).bind ?_
    rintro L2 ns _ l2 rfl
    exact .pure (by rw [hn.val]; rfl)

theorem readVars_mem (hf : SameVars L f f') : Mem L (readVars id E f : Raw.M (Cell B K V) (List (Option (Tree B K V)))) (readVars Own.val E f') fun _ a b => b = a := by
  induction f generalizing L f' with
  | nil => cases hf; exact .pure rfl
  | cons o f ih =>
    cases hf with
    | cons ho hf =>
      cases ho with
      | none =>
        unfold readVars
        refine (ih hf).bind ?_
        rintro L1 ts _ l1 rfl
        exact .pure rfl
      | @some t t' ht =>
        unfold readVars
        rw [ht.level]
        refine (readNode_mem t.level ht.root).bind ?_
        rintro L1 n _ l1 rfl
        refine (ih (vars_mono hf l1)).bind ?_
        rintro L2 ts _ l2 rfl
        exact .pure (by rw [ht.alloc])

theorem readAll_ok {h : Raw.Heap (Cell B K V)} {l : Nat} {kids : List (G B K V l)}
    (hk : ∀ c ∈ kids, (readNode id E l (raw c) : Raw.M (Cell B K V) (Node B K V)) h = .ok (node l c, h)) :
    readAll (readNode id E l) (kids.map raw) h = .ok (kids.map (node l), h) := by
  induction kids with
  | nil => rfl
  | cons c kids ih =>
    rw [List.map_cons, readAll, Raw.bind_ok (hk c List.mem_cons_self), Raw.bind_ok (ih fun d hd => hk d (List.mem_cons_of_mem _ hd))]
    rfl

theorem readNode_ok {h : Raw.Heap (Cell B K V)} {cap : Nat} (S : Sizes E cap) : ∀ (l : Nat) (g : G B K V l), Has h (chunks E cap l g) →
    (readNode id E l (raw g) : Raw.M (Cell B K V) (Node B K V)) h = .ok (node l g, h)
  | 0, g, H => by
    have H' : Has h ([vecC E.entry cap g.vec (g.kids.map (cell 0))] ++ chunksL E cap 0 g.kids) := H
    rw [readNode]
    refine (Raw.bind_ok (entries_ok S H'.left)).trans ?_
    rfl
  | l + 1, g, H => by
    have H' : Has h ([vecC E.node cap g.vec (g.kids.map (cell (l + 1)))] ++ chunksL E cap (l + 1) g.kids) := H
    rw [readNode]
    refine (Raw.bind_ok (nodes_ok S H'.left)).trans ?_
    have key := readAll_ok (E := E) (h := h) (l := l) (kids := g.kids) fun c hc => readNode_ok S l c (by
      have hk := H'.right
      clear H H'
      generalize g.kids = kids at hk hc
      induction kids with
      | nil => cases hc
      | cons d kids ih =>
        have hk : Has h (chunks E cap l d ++ chunksL E cap (l + 1) kids) := hk
        rcases List.mem_cons.1 hc with rfl | hc
        · exact hk.left
        · exact ih hk.right hc)
    rw [Raw.bind_ok key]
    rfl

theorem readVars_ok {h : Raw.Heap (Cell B K V)} {gs : Raw.Forest B K V} (hg : Raw.Sized E gs) (H : Has h (Raw.Forest.own E gs)) :
    (readVars id E gs.rawF : Raw.M (Cell B K V) (List (Option (Tree B K V)))) h = .ok (gs.absF, h) := by
  induction gs with
  | nil => rfl
  | cons o gs ih =>
    have H' : Has h (o.elim [] (GTree.own E) ++ Raw.Forest.own E gs) := H
    have h1 := ih (fun t ht => hg t (List.mem_cons_of_mem _ ht)) H'.right
    cases o with
    | none =>
      show readVars id E (none :: Raw.Forest.rawF gs) h = _
      rw [readVars, Raw.bind_ok h1]; rfl
    | some t =>
      show readVars id E (some t.rawT :: Raw.Forest.rawF gs) h = _
      have hn : (readNode id E t.rawT.level t.rawT.root : Raw.M (Cell B K V) (Node B K V)) h = .ok (node t.level t.root, h) :=
        readNode_ok (hg t List.mem_cons_self) t.level t.root H'.left
      rw [readVars, Raw.bind_ok hn, Raw.bind_ok h1]; rfl

end RTree.Unwind
