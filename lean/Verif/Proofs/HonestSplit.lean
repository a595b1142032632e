import Verif.Proofs.Honest
import Verif.Proofs.RawTree
/-!
# Destructors and splitting, with user code that behaves
-/

set_option linter.unusedSectionVars false

namespace RTree.Unwind

open Raw

variable {B K V Q σ τ α β γ δ : Type} [Bounds B] [Volume B] [Bounded K B] [BEq K] [Bounded Q B] [BEq Q] {borrow : K → Q} {L L' : Links} {E : TEnv} {a : Alloc}

variable {s : σ} {e : Env} {v v' : FCVec} {c o : Cell B K V} {c' o' : UCell B K V}

theorem raw_pure (x : Raw.M (Cell B K V) α) : x >>= Pure.pure = x := by
  funext m
  rw [Raw.bind_apply]
  split <;> rename_i h1 <;> rw [h1]
  rfl

/-! ### Destructors -/

theorem each_only {S : Links → γ → δ → Prop} {f : δ → U B K V Q σ Unit} {cs : List γ} {ds : List δ} (h : Pairs (S L) cs ds)
    (hS : ∀ {L L' : Links} {c d}, S L c d → L.Le L' → S L' c d) (hf : ∀ L' c d, L.Le L' → S L' c d → Only borrow L' (f d) s fun _ s' _ => s' = s) :
    Only borrow L (each f ds) s fun _ s' _ => s' = s := by
  induction cs generalizing L ds with
  | nil => cases h; exact .pure rfl
  | cons c cs ih =>
    cases h with
    | cons hc h =>
      unfold each
      refine Like.skip (hf L _ _ (.refl L) hc) ?_
      rintro L1 s' _ l1 rfl
      exact ih (h.mono fun _ _ x => hS x l1) fun L2 _ _ l2 => hf L2 _ _ (l1.trans l2)

theorem each_fold {S : Links → γ → δ → Prop} {f : δ → U B K V Q σ Unit} {g : α → γ → Raw.M (Cell B K V) α} {cs : List γ} {ds : List δ} (h : Pairs (S L) cs ds)
    (hS : ∀ {L L' : Links} {c d}, S L c d → L.Le L' → S L' c d) (acc : α)
    (hf : ∀ L' acc c d, L.Le L' → S L' c d → Like borrow L' (g acc c) (f d) s fun _ _ s' _ => s' = s) :
    Like borrow L (cs.foldlM g acc) (each f ds) s fun _ _ s' _ => s' = s := by
  induction cs generalizing L ds acc with
  | nil => cases h; exact .pure rfl
  | cons c cs ih =>
    cases h with
    | cons hc h =>
      unfold each
      rw [List.foldlM_cons]
      refine Like.bind (hf L acc _ _ (.refl L) hc) ?_
      rintro L1 acc' s' _ l1 rfl
      exact ih (h.mono fun _ _ x => hS x l1) acc' fun L2 _ _ _ l2 => hf L2 _ _ _ (l1.trans l2)

theorem dropCell_only (h : SameC L c c') : Only borrow L (dropCell c' : U B K V Q σ Unit) s fun _ s' _ => s' = s := by
  cases h with
  | node h => exact dropBounds_only h.box
  | entry e => exact .idle (.dropKey _) (.stop (.dropValue _) rfl)

theorem dropVec_like (cap : Nat) (h : SameV L v v') : Like (Q := Q) borrow L (v.drop e cap : Raw.M (Cell B K V) _) (dropVec e cap v') s fun _ _ s' _ => s' = s := by
  unfold dropVec
  rw [← raw_pure (v.drop e cap)]
  refine (Like.mem (drop_mem cap h)).bind ?_
  rintro L1 cs s' cs' l1 ⟨rfl, hcs⟩
  exact .final (each_only (S := fun L => SameC L) hcs (fun h l => h.mono l) fun L2 c d _ h => dropCell_only h) fun _ _ _ _ h => h

theorem dropChildren_like (l : Nat) {n : RNode B} (h : SameV L n.vec v') :
    Like (Q := Q) borrow L (dropNode E a l n : Raw.M (Cell B K V) _) (dropChildren E a.maxChildren l v') s fun _ _ s' _ => s' = s := by
  induction l generalizing L n v' with
  | zero =>
    unfold dropNode dropChildren
    intro m w A hw r g ex
    cases hx : (n.vec.drop E.entry a.maxChildren : Raw.M (Cell B K V) _) m with
    | error e => rw [Raw.bind_err hx] at ex; cases ex
    | ok q =>
      rw [Raw.bind_ok hx] at ex
      have hg : g = q.2 := by
        cases hy : q.1.mapM Cell.asEntry with
        | error e => rw [hy] at ex; cases ex
        | ok es => rw [hy] at ex; cases ex; rfl
      subst hg
      exact (dropVec_like (s := s) (Q := Q) (borrow := borrow) a.maxChildren h) m w A hw q.1 q.2 hx
  | succ l ih =>
    unfold dropNode dropChildren
    refine (Like.mem (nodes_mem h)).bind ?_
    rintro L1 cs s' cs' l1 ⟨rfl, hcs⟩
    have h := h.mono l1
    refine Like.bind (each_fold (S := fun L => SameN L) hcs (fun h l => h.mono l) [] ?_) ?_
    · intro L2 acc c d l2 hc
      intro m w A hw r g ex
      cases hx : (dropNode E a l c : Raw.M (Cell B K V) _) m with
      | error e => rw [Raw.bind_err hx] at ex; cases ex
      | ok q =>
        rw [Raw.bind_ok hx] at ex
        cases ex
        exact ih hc.vec m w A hw q.1 q.2 hx
    · rintro L2 d s' _ l2 rfl
      rw [← raw_pure (n.vec.drop E.node a.maxChildren >>= fun _ => pure d), bind_assoc']
      intro m w A hw r g ex
      cases hx : (n.vec.drop E.node a.maxChildren : Raw.M (Cell B K V) _) m with
      | error e => rw [Raw.bind_err hx] at ex; cases ex
      | ok q =>
        rw [Raw.bind_ok hx] at ex
        cases ex
        exact dropVec_like _ (h.mono l2) m w A hw q.1 q.2 hx

theorem dropContainer_like (l : Nat) {n : RNode B} {n' : UNode B} (h : SameN L n n') :
    Like (Q := Q) borrow L (dropNode E a l n : Raw.M (Cell B K V) _) (dropContainer E a.maxChildren l n') s fun _ _ s' _ => s' = s := by
  unfold dropContainer
  rw [← raw_pure (dropNode E a l n)]
  refine (dropChildren_like l h.vec).bind ?_
  rintro L1 es s' _ l1 rfl
  exact .final (dropBounds_only (h.mono l1).box) fun _ _ _ _ h => h

/-! ### Splitting -/

theorem cellB_same {c : Cell B K V} {c' : UCell B K V} (h : SameC L c c') : cellB c' = c.bounds := by
  cases h with
  | node h => exact h.val
  | entry e => rfl

theorem honest_cellBounds (c : UCell B K V) : (honest (V := V) borrow).cellBounds c = cellB c := by cases c <;> rfl

theorem worst_same {vs : List (Cell B K V)} {vs' : List (UCell B K V)} (h : Pairs (SameC L) vs vs') (ho : SameC L o o') :
    worstCombination cellB vs' o' = worstCombination Cell.bounds vs o := by
  have h1 := worstCombination_map (bf := (id : B → B)) (f := cellB) vs' o'
  have h2 := worstCombination_map (bf := (id : B → B)) (f := Cell.bounds) vs o
  rw [h.map_eq (f := Cell.bounds) (g := cellB) fun _ _ x => cellB_same x, cellB_same ho] at h1
  exact h1.symm.trans h2

theorem choice_same {vs : List (Cell B K V)} {vs' : List (UCell B K V)} (h : Pairs (SameC L) vs vs') (m g1 g2 : Nat) (b1 b2 : B) :
    splitChoice cellB m g1 g2 b1 b2 vs' = splitChoice Cell.bounds m g1 g2 b1 b2 vs := by
  have h1 := splitChoice_map (bf := (id : B → B)) (f := cellB) m g1 g2 b1 b2 vs'
  have h2 := splitChoice_map (bf := (id : B → B)) (f := Cell.bounds) m g1 g2 b1 b2 vs
  rw [h.map_eq (f := Cell.bounds) (g := cellB) fun _ _ x => cellB_same x] at h1
  exact h1.symm.trans h2

theorem index_mem {vs : List (Cell B K V)} {vs' : List (UCell B K V)} (h : Pairs (SameC L) vs vs') (i : Nat) :
    Mem L (lift (index vs i) : Raw.M (Cell B K V) _) (lift (index vs' i)) fun L' => SameC L' := by
  refine .lift fun c hc => ?_
  have hg := h.get i
  unfold index at hc ⊢
  generalize vs[i]? = q at hg hc
  generalize vs'[i]? = q' at hg
  cases hg with
  | none => cases hc
  | some hg => cases hc; exact ⟨_, rfl, hg⟩

theorem seed_like {n : RNode B} {n' : UNode B} (hn : SameN L n n') (ho : SameC L o o') :
    Like (Q := Q) borrow L (Raw.seedSplitGroups e Cell.bounds n.vec o) (seedSplitGroups e o') n' fun L' r s' b => s' = n' ∧ SameC L' r b := by
  unfold Raw.seedSplitGroups seedSplitGroups
  refine .guarded (.idle .place ?_)
  refine (Like.mem (slice_mem hn.vec)).bind ?_
  rintro L1 vs n' vs' l1 ⟨rfl, hv⟩
  refine .rskip fun ij hij => ?_
  refine .idle (.user (b := ij) (show (worstCombination cellB vs' o').toOption = _ by rw [worst_same hv (ho.mono l1), hij]; rfl)) ?_
  refine (Like.mem (swap_mem (hn.mono l1).vec 0 ij.1)).bind ?_
  rintro L2 _ n' _ l2 ⟨rfl, -⟩
  have hn := (hn.mono l1).mono l2
  refine .ite (by rw [hn.vec.len]) (fun _ => ?_) (fun _ => .pure ⟨rfl, (ho.mono l1).mono l2⟩)
  exact .mem (set_mem hn.vec _ ((ho.mono l1).mono l2))

theorem pushLocal_like (cap : Nat) (h : SameV L v v') (hc : SameC L c c') :
    Like (Q := Q) borrow L (v.push e cap c) (pushLocal e cap c') v' fun L' r s' _ => SameV L' r s' := by
  unfold pushLocal
  refine .guarded (.idle .place ?_)
  rw [← raw_pure (v.push e cap c)]
  refine (Like.mem (push_mem cap h hc)).bind ?_
  rintro L1 r v1 r' l1 ⟨rfl, hr⟩
  exact Like.put (s := v1) (g := Pure.pure) (.pure hr)

/-- Corresponding states of the loop that splits a node. -/
structure SameS (L : Links) (b0 : B) (rs : RSplit B) (p : UNode B × FCVec) : Prop where
  node : SameN L ⟨b0, rs.values⟩ p.1
  group : SameV L rs.group2 p.2

theorem splitStep_like {b0 : B} {rs : RSplit B} {p : UNode B × FCVec} (h : SameS L b0 rs p) :
    Like (K := K) (V := V) (Q := Q) borrow L (Raw.splitStep e Cell.bounds a.minChildren a.maxChildren rs) (splitStep e a (rs.group1Len, rs.bounds1, rs.bounds2)) p
      fun L' r p' b => SameS L' b0 r p' ∧ b = (r.group1Len, r.bounds1, r.bounds2) := by
  obtain ⟨n', g'⟩ := p
  obtain ⟨hn, hg⟩ := h
  dsimp only at hn hg
  unfold Raw.splitStep splitStep
  refine .idle (.onFst .place) (.idle (.onSnd .place) ?_)
  refine (Like.mem (slice_mem hn.vec)).bind ?_
  rintro L1 vs p vs' l1 ⟨rfl, hv⟩
  have hn := hn.mono l1
  have hg := hg.mono l1
  have hd := hv.drop rs.group1Len
  refine .rskip fun ci hci => ?_
  refine .idle (.user (b := ci) ?_) ?_
  · show (splitChoice cellB a.minChildren rs.group1Len g'.len rs.bounds1 rs.bounds2 (vs'.drop rs.group1Len)).toOption = _
    rw [choice_same hd, hg.len, hci]; rfl
  refine (Like.mem (index_mem hd ci.2)).bind ?_
  rintro L2 x p x' l2 ⟨rfl, hx⟩
  have hn := hn.mono l2
  have hg := hg.mono l2
  refine .idle (.user (b := Bounds.union (if ci.1 then rs.bounds1 else rs.bounds2) x.bounds) ?_) ?_
  · show some (Bounds.union _ ((honest borrow).cellBounds x')) = _
    rw [honest_cellBounds, cellB_same hx]
  refine .ite .rfl (fun hc => ?_) (fun hc => ?_)
  · refine (Like.mem (swap_mem hn.vec _ _)).bind ?_
    rintro L3 _ p _ l3 ⟨rfl, -⟩
    rw [if_pos hc]
    exact .pure ⟨⟨hn.mono l3, hg.mono l3⟩, rfl⟩
  · refine (Like.onFst (onVec_like hn (P := fun L' => SameC L') (swapRemove_mem hn.vec _))).bind ?_
    rintro L3 ⟨w, y⟩ ⟨n', g'⟩ y' l3 ⟨⟨hn, hy⟩, rfl⟩
    have hg := hg.mono l3
    refine (Like.onSnd (pushLocal_like _ hg hy)).bind ?_
    rintro L4 w' ⟨n', g'⟩ _ l4 ⟨rfl, hg4⟩
    rw [if_neg hc]
    exact .pure ⟨⟨hn.mono l4, hg4⟩, rfl⟩

theorem splitLoop_like (fuel : Nat) {b0 : B} {rs : RSplit B} {p : UNode B × FCVec} (h : SameS L b0 rs p) :
    Like (K := K) (V := V) (Q := Q) borrow L (Raw.splitLoop e Cell.bounds a.minChildren a.maxChildren fuel rs) (splitLoop e a fuel (rs.group1Len, rs.bounds1, rs.bounds2)) p
      fun L' r p' b => SameS L' b0 r p' ∧ b = (r.bounds1, r.bounds2) := by
  induction fuel generalizing L rs p with
  | zero =>
    unfold Raw.splitLoop splitLoop
    obtain ⟨n', g'⟩ := p
    refine .idle (.onFst .place) ?_
    refine .ite (by rw [h.node.vec.len]) (fun _ => .panic) (fun _ => .pure ⟨h, rfl⟩)
  | succ fuel ih =>
    unfold Raw.splitLoop splitLoop
    obtain ⟨n', g'⟩ := p
    refine .idle (.onFst .place) ?_
    refine .ite (by rw [h.node.vec.len]) (fun _ => ?_) (fun _ => .pure ⟨h, rfl⟩)
    refine (splitStep_like h).bind ?_
    rintro L1 rs' p' _ l1 ⟨h1, rfl⟩
    exact ih h1

theorem split_like {n : RNode B} {n' : UNode B} (hn : SameN L n n') (ho : SameC L o o') :
    Like (Q := Q) borrow L (Raw.split e Cell.bounds a.minChildren a.maxChildren n.vec o) (split e a o') n'
      fun L' r s' b => SameN L' ⟨n.bounds, r.values⟩ s' ∧ SameV L' r.group2 b.2 ∧ b.1 = (r.bounds1, r.bounds2) := by
  unfold Raw.split split
  refine .idle .place ?_
  intro m w A hw r g ex
  by_cases hl : n.vec.len < 1
  · rw [Raw.panicIf, if_pos hl] at ex; cases ex
  rw [Raw.panicIf, if_neg hl] at ex
  revert m w A hw r g ex
  show Like borrow L _ _ n' _
  refine .idle (.guarded (.panicIf (by rw [hn.vec.len]; exact hl))) ?_
  refine (Like.guarded (Like.mem (new_mem _))).bind ?_
  rintro L1 g2 n' g2' l1 ⟨rfl, hg⟩
  have hn := hn.mono l1
  have ho := ho.mono l1
  refine (Like.withLocal (P := fun L' r p b => SameS L' n.bounds r p ∧ b = (r.bounds1, r.bounds2)) ?_).mono ?_
  · refine (Like.onFst (seed_like hn ho)).bind ?_
    rintro L2 seed ⟨n', g2'⟩ seed' l2 ⟨⟨rfl, hs⟩, rfl⟩
    have hn := hn.mono l2
    refine (Like.onSnd (pushLocal_like _ (hg.mono l2) hs)).bind ?_
    rintro L3 g3 ⟨n', g3'⟩ _ l3 ⟨rfl, hg3⟩
    have hn := hn.mono l3
    refine (Like.mem (get_mem hn.vec 0)).bind ?_
    rintro L4 v0 p v0' l4 ⟨rfl, h0⟩
    have hn := hn.mono l4
    refine .idle (.user (b := v0.bounds) (by rw [honest_cellBounds, cellB_same h0])) ?_
    refine .idle (.user (b := seed.bounds) (by rw [honest_cellBounds, cellB_same (hs.mono l3)])) ?_
    rw [hn.vec.len]
    exact splitLoop_like _ (rs := ⟨_, _, _, _, _⟩) ⟨hn, hg3.mono l4⟩
  · rintro L2 r s' b l2 ⟨h1, h2⟩
    exact ⟨h1.node, h1.group, h2⟩

end RTree.Unwind
