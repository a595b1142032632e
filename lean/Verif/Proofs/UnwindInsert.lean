import Verif.Proofs.UnwindSplit
/-!
# Insertion, with user code that can panic
-/

namespace RTree.Unwind

open Raw

variable {B K V Q σ τ β γ : Type} {E : TEnv} {cap : Nat}

theorem guarded_read {y : Raw.M (UCell B K V) β} {cleanup : U B K V Q σ Unit} {f : β → U B K V Q σ γ} {b : β} {s : σ} {R : List (Thing B K V)}
    {P : γ → σ → List (Thing B K V) → Prop} {F : σ → List (Thing B K V) → Prop} (h : ∀ h, Has h (chunksT R) → y h = .ok (b, h)) (hc : Spec (f b) s R P F) :
    Spec (guarded cleanup (mem y) >>= f) s R P F := by
  intro w H
  have : (guarded cleanup (mem y) >>= f) s w = f b s w := by
    rw [bind_apply, guarded, mem, h w.heap H]
  rw [this]
  exact hc w H

/-- A tree of level `l` with some of the entries `X`, and things that nobody owns any more. -/
def Broken (E : TEnv) (cap l : Nat) (X : List (K × V)) (n : UNode B) (R : List (Thing B K V)) : Prop :=
  ∃ (g : Gh B K V l) (lost : List (K × V)) (L : List (Thing B K V)), n = raw g ∧ (ents l g ++ lost).Perm X ∧ R.Perm (nodeT E cap l g ++ L)

/-- A tree of level `l` that holds the entries `X` after the entries `D` have been taken from it, and the things `Y`. -/
def Whole (E : TEnv) (cap l : Nat) (X D : List (K × V)) (Y : List (Thing B K V)) (n : UNode B) (R : List (Thing B K V)) : Prop :=
  ∃ g : Gh B K V l, n = raw g ∧ (ents l g ++ D).Perm X ∧ R.Perm (nodeT E cap l g ++ Y)

theorem Whole.broken {l : Nat} {X D : List (K × V)} {Y : List (Thing B K V)} {n : UNode B} {R : List (Thing B K V)} (h : Whole E cap l X D Y n R) : Broken E cap l X n R := by
  obtain ⟨g, h1, h3, h2⟩ := h
  exact ⟨g, D, Y, h1, h3, h2⟩

theorem Broken.perm {l : Nat} {X X' : List (K × V)} {n : UNode B} {R : List (Thing B K V)} (h : Broken E cap l X n R) (hX : X.Perm X') : Broken E cap l X' n R := by
  obtain ⟨g, lost, L, h1, h2, h3⟩ := h
  exact ⟨g, lost, L, h1, h2.trans hX, h3⟩

/-- More entries that were lost. -/
theorem Broken.lose {l : Nat} {X X' D : List (K × V)} {n : UNode B} {R : List (Thing B K V)} (h : Broken E cap l X n R) (hX : (X ++ D).Perm X') : Broken E cap l X' n R := by
  obtain ⟨g, lost, L, h1, h2, h3⟩ := h
  exact ⟨g, lost ++ D, L, h1, by rw [← List.append_assoc]; exact (h2.append_right D).trans hX, h3⟩

theorem Broken.more {l : Nat} {X : List (K × V)} {L : List (Thing B K V)} {n : UNode B} {R : List (Thing B K V)} (h : Broken E cap l X n R) : Broken E cap l X n (R ++ L) := by
  obtain ⟨g, lost, L', h1, h3, h2⟩ := h
  exact ⟨g, lost, L' ++ L, h1, h3, by rw [← List.append_assoc]; exact h2.append_right L⟩

/-- The node split off. -/
abbrev sib (l : Nat) (so : Option (Gh B K V l)) : Option (Nat × UNode B) := so.map fun g => (l, raw g)

/-- What belongs to it. -/
abbrev sibT (E : TEnv) (cap l : Nat) (so : Option (Gh B K V l)) : List (Thing B K V) := so.toList.flatMap (nodeT E cap l)

theorem sibT_some (l : Nat) (c : Gh B K V l) : sibT E cap l (some c) = nodeT E cap l c := by simp [sibT]

/-- Its entries. -/
abbrev sibE (l : Nat) (so : Option (Gh B K V l)) : List (K × V) := so.toList.flatMap (ents l)

theorem sibE_some (l : Nat) (c : Gh B K V l) : sibE l (some c) = ents l c := by simp [sibE]

/-- After an insertion: the node and its sibling hold the entries `X`. -/
def Ins (E : TEnv) (cap l : Nat) (X : List (K × V)) (r : Option (Nat × UNode B)) (n : UNode B) (R : List (Thing B K V)) : Prop :=
  ∃ so : Option (Gh B K V l), r = sib l so ∧ Whole E cap l X (sibE l so) (sibT E cap l so) n R

theorem Ins.perm {l : Nat} {X X' : List (K × V)} {r : Option (Nat × UNode B)} {n : UNode B} {R : List (Thing B K V)} (h : Ins E cap l X r n R) (hX : X.Perm X') :
    Ins E cap l X' r n R := by
  obtain ⟨so, h1, g, h2, h3, h4⟩ := h
  exact ⟨so, h1, g, h2, h3.trans hX, h4⟩

theorem dropSibling_quiet (S : Fit E cap) (l : Nat) : ∀ so : Option (Gh B K V l),
    Quiet (dropSibling E cap (sib l so) : U B K V Q σ Unit) (sibT E cap l so) (fun _ R' => R' = [])
  | none => pure_quiet
  | some c => by
    rw [sibT_some]
    exact dropContainer_quiet S l c

/-- Bounds are dropped before an insertion returns. -/
theorem returning_ins (S : Fit E cap) {l : Nat} {X : List (K × V)} {b : B} {x : U B K V Q (UNode B) (Option (Nat × UNode B))} {n : UNode B} {R : List (Thing B K V)}
    (hx : Spec x n R (Ins E cap l X) (Broken E cap l X)) : Spec (returning b (dropSibling E cap) x) n R (Ins E cap l X) (Broken E cap l X) := by
  refine returning_spec hx ?_
  rintro _ n' R' ⟨so, rfl, g, rfl, hX, hR'⟩
  exact ⟨sibT E cap l so, nodeT E cap l g, by permsU [hR'], dropSibling_quiet S l so, ⟨g, _, sibT E cap l so, rfl, hX, by permsU⟩, ⟨g, _, [], rfl, hX, by rw [List.append_nil]⟩⟩

/-- Storing bounds in a node, in the presence of the things `X`, some of which are dropped on a panic. -/
theorem setBounds_ghost {l : Nat} (g : Gh B K V l) (b : B) {locals : U B K V Q (UNode B) Unit} {R T X : List (Thing B K V)} {F : UNode B → List (Thing B K V) → Prop}
    (hp : R.Perm (nodeT E cap l g ++ (T ++ X))) (hl : Quiet locals T (fun _ R' => R' = []))
    (hF : ∀ g' : Gh B K V l, g'.kids = g.kids → ∀ R', R'.Perm (nodeT E cap l g' ++ X) → F (raw g') R') :
    Spec (setBounds b locals : U B K V Q (UNode B) Unit) (raw g) R
      (fun _ n' R' => ∃ g' : Gh B K V l, g'.kids = g.kids ∧ n' = raw g' ∧ R'.Perm (nodeT E cap l g' ++ (T ++ X))) F := by
  refine (setBounds_spec (raw g) b (Fr := vT E cap l g.vec g.kids :: thingsL E cap l g.kids ++ X) (T := T) (F := F) ?_ hl ?_).mono ?_ (fun _ _ h => h)
  · show R.Perm (bT g.bounds.mem :: _)
    permsU [hp]
  · intro o
    exact hF { g with bounds := o } rfl _ (.refl _)
  · rintro _ ⟨o, v⟩ _ ⟨rfl, rfl⟩
    exact ⟨{ g with bounds := o }, rfl, rfl, by permsU⟩

/-- Storing bounds in a node, then the rest. -/
theorem setBounds_call {l : Nat} {g : Gh B K V l} {b : B} {locals : U B K V Q (UNode B) Unit} {f : Unit → U B K V Q (UNode B) γ} {R T X : List (Thing B K V)}
    {P : γ → UNode B → List (Thing B K V) → Prop} {F : UNode B → List (Thing B K V) → Prop} (hp : R.Perm (nodeT E cap l g ++ (T ++ X)))
    (hl : Quiet locals T (fun _ R' => R' = [])) (hF : ∀ g' : Gh B K V l, g'.kids = g.kids → ∀ R', R'.Perm (nodeT E cap l g' ++ X) → F (raw g') R')
    (hc : ∀ g' : Gh B K V l, g'.kids = g.kids → ∀ R', R'.Perm (nodeT E cap l g' ++ (T ++ X)) → Spec (f ()) (raw g') R' P F) :
    Spec (setBounds b locals >>= f) (raw g) R P F := by
  refine .bind (setBounds_ghost g b hp hl hF) ?_ (fun _ _ h => h)
  rintro _ _ R' ⟨g', hk, rfl, hR'⟩
  exact hc g' hk R' hR'

theorem tryPush_spec (S : Fit E cap) (l : Nat) (n : UNode B) (kids : List (It B K V l)) (x : It B K V l) :
    Spec (onVec fun v => v.tryPush (RTree.slotEnv E l) cap (cell l x) : U B K V Q (UNode B) (Option (UCell B K V))) n [vT E cap l n.vec kids]
      (fun r n' R' => n'.bounds = n.bounds ∧ (r = none ∧ R' = [vT E cap l n'.vec (kids ++ [x])] ∨ r = some (cell l x) ∧ R' = [vT E cap l n'.vec kids]))
      (fun _ _ => False) := by
  refine .place ?_
  refine .bind (F₀ := fun _ _ => False) (.memOk (y := n.vec.tryPush (RTree.slotEnv E l) cap (cell l x)) (cs := [vecC (RTree.slotEnv E l) cap n.vec (kids.map (cell l))])
      (M := fun r cs' => r.2 = none ∧ cs' = [vecC (RTree.slotEnv E l) cap r.1 ((kids ++ [x]).map (cell l))] ∨
        r.2 = some (cell l x) ∧ cs' = [vecC (RTree.slotEnv E l) cap r.1 (kids.map (cell l))]) ?_) ?_ (fun _ _ h => h)
  · intro h H
    obtain ⟨v', h', h1, t⟩ := FCVec.tryPush_tr H (S.size l) (cell l x)
    refine ⟨_, h', _, h1, ?_, t⟩
    rw [Vec.tryPush]
    split
    · exact .inr ⟨rfl, rfl⟩
    · refine .inl ⟨rfl, ?_⟩
      rw [List.map_append]; rfl
  · rintro r n _ ⟨rfl, _, rfl, h⟩
    refine .put (.pure ⟨rfl, ?_⟩)
    rcases h with ⟨h1, rfl⟩ | ⟨h1, rfl⟩
    · exact .inl ⟨h1, rfl⟩
    · exact .inr ⟨h1, rfl⟩

theorem afterPush_none {a : Alloc} (l : Nat) (b : B) (g : Gh B K V l) {R : List (Thing B K V)} (hR : R.Perm (nodeT E a.maxChildren l g)) :
    Spec (afterPush E (RTree.slotEnv E l) a l b none : U B K V Q (UNode B) (Option (Nat × UNode B))) (raw g) R (Ins E a.maxChildren l (ents l g)) (Broken E a.maxChildren l (ents l g)) := by
  refine .place ?_
  refine .ask ?_ ⟨g, [], [], rfl, by rw [List.append_nil], by rw [List.append_nil]; exact hR⟩
  intro b
  refine setBounds_call (E := E) (cap := a.maxChildren) (T := []) (X := []) (by rw [List.append_nil, List.append_nil]; exact hR) pure_quiet ?_ ?_
  · intro g' hk R' hR'
    exact ⟨g', [], [], rfl, by rw [ents, hk]; exact .of_eq (List.append_nil _), hR'⟩
  · intro g' hk R' hR'
    exact .pure ⟨none, rfl, g', rfl, by rw [ents, hk]; exact .of_eq (List.append_nil _), hR'⟩

theorem afterPush_some {a : Alloc} (S : Fit E a.maxChildren) (l : Nat) (b : B) (g : Gh B K V l) (x : It B K V l) {R : List (Thing B K V)}
    (hR : R.Perm (nodeT E a.maxChildren l g ++ thingsI E a.maxChildren l x)) :
    Spec (afterPush E (RTree.slotEnv E l) a l b (some (cell l x)) : U B K V Q (UNode B) (Option (Nat × UNode B))) (raw g) R (Ins E a.maxChildren l (ents l g ++ entsI l x))
      (Broken E a.maxChildren l (ents l g ++ entsI l x)) := by
  have hs : (thingsL E a.maxChildren l g.kids ++ thingsI E a.maxChildren l x).Perm (headL l (g.kids ++ [x]) ++ restL E a.maxChildren l (g.kids ++ [x])) := by
    have := things_split (E := E) (cap := a.maxChildren) l (g.kids ++ [x])
    permsU [this]
  refine .call (Fr := bT g.bounds.mem :: restL E a.maxChildren l (g.kids ++ [x])) (split_spec S l (raw g) g.kids x) ?_ ?_ ?_
  · show R.Perm (vT E a.maxChildren l g.vec g.kids :: _ ++ _)
    permsU [hR, hs]
  · rintro r n' R₁ ⟨hb, k1, k2, hk, hR₁⟩
    have h1 := things_split (E := E) (cap := a.maxChildren) l k1
    have h2 := things_split (E := E) (cap := a.maxChildren) l k2
    have h3 := restL_perm (E := E) (cap := a.maxChildren) hk
    refine (newBounds_quiet r.1.2).call (Fr := R₁ ++ bT g.bounds.mem :: restL E a.maxChildren l (g.kids ++ [x])) (.refl _) ?_
    rintro o _ rfl
    obtain ⟨nb, nv⟩ := n'
    obtain rfl : nb = g.bounds := hb
    change R₁.Perm (vT E a.maxChildren l nv k1 :: _) at hR₁
    have h4 : (List.flatMap (entsI l) (k1 ++ k2)).Perm (List.flatMap (entsI l) (g.kids ++ [x])) := hk.flatMap_right _
    refine setBounds_call (E := E) (cap := a.maxChildren) (g := ⟨g.bounds, nv, k1⟩) (T := nodeT E a.maxChildren l ⟨o, r.2, k2⟩) (X := []) ?_
      (dropContainer_quiet S l (⟨o, r.2, k2⟩ : Gh B K V l)) ?_ ?_
    · permsU [hR₁, h1, h2, h3]
    · intro g' hk' R' hR'
      refine ⟨g', k2.flatMap (entsI l), [], rfl, ?_, hR'⟩
      rw [ents, hk']
      permsU [h4]
    · intro g' hk' R' hR'
      refine .pure ⟨some ⟨o, r.2, k2⟩, rfl, g', rfl, ?_, by rw [sibT_some]; permsU [hR']⟩
      rw [sibE_some, ents, hk']
      permsU [h4]
  · rintro n' R₁ ⟨hb, k1, lost, hk, hR₁⟩
    have h1 := things_split (E := E) (cap := a.maxChildren) l k1
    have h3 := restL_perm (E := E) (cap := a.maxChildren) hk
    have h4 : (List.flatMap (entsI l) (k1 ++ lost)).Perm (List.flatMap (entsI l) (g.kids ++ [x])) := hk.flatMap_right _
    refine ⟨⟨g.bounds, n'.vec, k1⟩, lost.flatMap (entsI l), restL E a.maxChildren l lost, ?_, ?_, ?_⟩
    · cases n'; cases hb; rfl
    · permsU [h4]
    · permsU [hR₁, h1, h3]

/-- Pushing into a node, then what follows. -/
theorem push_spec {a : Alloc} (S : Fit E a.maxChildren) (l : Nat) (b : B) (g : Gh B K V l) (x : It B K V l) {R : List (Thing B K V)}
    (hR : R.Perm (nodeT E a.maxChildren l g ++ thingsI E a.maxChildren l x)) :
    Spec ((onVec fun v => v.tryPush (RTree.slotEnv E l) a.maxChildren (cell l x)) >>= fun o => afterPush E (RTree.slotEnv E l) a l b o :
      U B K V Q (UNode B) (Option (Nat × UNode B))) (raw g) R (Ins E a.maxChildren l (ents l g ++ entsI l x)) (Broken E a.maxChildren l (ents l g ++ entsI l x)) := by
  refine .call (Fr := bT g.bounds.mem :: thingsL E a.maxChildren l (g.kids ++ [x])) (tryPush_spec S l (raw g) g.kids x) (by
    show R.Perm (vT E a.maxChildren l g.vec g.kids :: _)
    permsU [hR]) ?_ (fun _ _ h => h.elim)
  rintro r n' R₁ ⟨hb, ⟨rfl, rfl⟩ | ⟨rfl, rfl⟩⟩
  · obtain ⟨nb, nv⟩ := n'
    obtain rfl : nb = g.bounds := hb
    have := afterPush_none (E := E) (Q := Q) (a := a) l b ⟨g.bounds, nv, g.kids ++ [x]⟩ (R := [vT E a.maxChildren l nv (g.kids ++ [x])] ++ bT g.bounds.mem :: thingsL E a.maxChildren l (g.kids ++ [x])) (by permsU)
    have e : ents l ⟨g.bounds, nv, g.kids ++ [x]⟩ = ents l g ++ entsI l x := by simp [ents]
    rw [e] at this
    exact this
  · obtain ⟨nb, nv⟩ := n'
    obtain rfl : nb = g.bounds := hb
    exact afterPush_some S l b ⟨g.bounds, nv, g.kids⟩ x (by permsU)

theorem selfInsert_spec {a : Alloc} (S : Fit E a.maxChildren) (l : Nat) (g : Gh B K V l) (x : It B K V l) {R : List (Thing B K V)}
    (hR : R.Perm (nodeT E a.maxChildren l g ++ thingsI E a.maxChildren l x)) :
    Spec (selfInsert E a l (rawE l x) : U B K V Q (UNode B) (Option (Nat × UNode B))) (raw g) R (Ins E a.maxChildren l (ents l g ++ entsI l x)) (Broken E a.maxChildren l (ents l g ++ entsI l x)) := by
  have hp : R.Perm (thingsI E a.maxChildren l x ++ nodeT E a.maxChildren l g) := hR.trans List.perm_append_comm
  have hF : Broken E a.maxChildren l (ents l g ++ entsI l x) (raw g) (nodeT E a.maxChildren l g) := ⟨g, _, [], rfl, .refl _, by rw [List.append_nil]⟩
  refine guarded_ask hp (dropEntry_quiet S l x) hF ?_
  intro b
  refine returning_ins S ?_
  cases l with
  | zero => exact push_spec S 0 b g x hR
  | succ l =>
    refine guarded_panicIf hp (dropEntry_quiet S (l + 1) x) hF ?_
    intro _
    exact push_spec S (l + 1) b g x hR

/-- Work on a child. -/
theorem onChild_spec {Z : List (K × V) → Prop} (hZ : ∃ A, Z A) (S : Fit E cap) (l : Nat) (g : Gh B K V (l + 1)) (i : Nat) {x : U B K V Q (UNode B) β} {X R : List (Thing B K V)}
    {Y : β → List (K × V) → List (K × V) → List (Thing B K V) → Prop} (hR : R.Perm (nodeT E cap (l + 1) g ++ X))
    (hx : ∀ c : Gh B K V l, c ∈ g.kids → Spec x (raw c) (nodeT E cap l c ++ X) (fun b n' R' => ∃ A D y, Y b A D y ∧ Whole E cap l (ents l c ++ A) D y n' R') (fun n' R' => ∃ A, Z A ∧ Broken E cap l (ents l c ++ A) n' R')) :
    Spec (onChild E i x) (raw g) R (fun b n' R' => ∃ A D y, Y b A D y ∧ Whole E cap (l + 1) (ents (l + 1) g ++ A) D y n' R') (fun n' R' => ∃ A, Z A ∧ Broken E cap (l + 1) (ents (l + 1) g ++ A) n' R') := by
  intro w H
  have Hv := has_vec (E := E) (cap := cap) (l := l + 1) (v := g.vec) (kids := g.kids) (Fr := bT g.bounds.mem :: thingsL E cap (l + 1) g.kids ++ X) H (by permsU [hR])
  by_cases hi : i < g.kids.length
  · have h1 := nodeAt_read S Hv hi
    have hp : R.Perm (nodeT E cap l g.kids[i] ++ X ++ (vT E cap (l + 1) g.vec g.kids :: bT g.bounds.mem :: thingsL E cap (l + 1) (g.kids.eraseIdx i))) := by
      have := flatMap_get (thingsI E cap (l + 1)) hi
      permsU [hR, this]
    have h2 := (((hx g.kids[i] (List.getElem_mem hi)).frame (vT E cap (l + 1) g.vec g.kids :: bT g.bounds.mem :: thingsL E cap (l + 1) (g.kids.eraseIdx i))).perm hp) w H
    have hw : w = { w with heap := w.heap } := rfl
    have hput : ∀ {w' : World B K V Q} {R' L : List (Thing B K V)} (c : Gh B K V l), Go w R w' R' →
        R'.Perm (nodeT E cap l c ++ L ++ (vT E cap (l + 1) g.vec g.kids :: bT g.bounds.mem :: thingsL E cap (l + 1) (g.kids.eraseIdx i))) →
        ∃ h', putNode E g.vec i (raw c) w'.heap = .ok ((), h') ∧ ∃ R'', R''.Perm (nodeT E cap (l + 1) { g with kids := g.kids.set i c } ++ L) ∧
          Go w R { w' with heap := h' } R'' := by
      intro w' R' L c hg hp'
      have Hv' := has_vec (E := E) (cap := cap) (l := l + 1) (v := g.vec) (kids := g.kids)
        (Fr := nodeT E cap l c ++ L ++ bT g.bounds.mem :: thingsL E cap (l + 1) (g.kids.eraseIdx i)) hg.tr.has (by permsU [hp'])
      obtain ⟨h', h3, t⟩ := putNode_write S Hv' hi c
      refine ⟨h', h3, vT E cap (l + 1) g.vec (g.kids.set i c) :: (nodeT E cap l c ++ L ++ bT g.bounds.mem :: thingsL E cap (l + 1) (g.kids.eraseIdx i)), ?_, ?_⟩
      · have := flatMap_set (thingsI E cap (l + 1)) hi c
        permsU [this]
      · have hg' := hg.perm_right (R₂ := vT E cap (l + 1) g.vec g.kids :: (nodeT E cap l c ++ L ++ bT g.bounds.mem :: thingsL E cap (l + 1) (g.kids.eraseIdx i)))
          (by permsU [hp'])
        refine hg'.trans (Go.frame (R := [vT E cap (l + 1) g.vec g.kids]) (R₁ := [vT E cap (l + 1) g.vec (g.kids.set i c)]) hg'.tr.has ⟨t, ?_, ?_⟩)
        · exact .refl _
        · exact .refl _
    rw [onChild]
    change Post _ _ _ _ (match nodeAt E g.vec i w.heap with | .error e => _ | .ok (c, h) => _)
    rw [h1]
    dsimp only
    rcases hr : x (raw g.kids[i]) w with ⟨r, n', w'⟩
    rw [hr] at h2
    change Post _ _ _ _ (match putNode E g.vec i n' w'.heap with | .ok (_, h') => (r, raw g, { w' with heap := h' }) | .error _ => _)
    cases r with
    | ok b =>
      obtain ⟨R', ⟨R₁, rfl, A, D, y, hy, c, rfl, hAD, hc⟩, hg⟩ := h2
      obtain ⟨h', h3, R'', h4, h5⟩ := hput (L := y) c hg (hc.append_right _)
      rw [h3]
      refine ⟨R'', ⟨A, D, y, hy, { g with kids := g.kids.set i c }, rfl, ?_, h4⟩, h5⟩
      have e1 := flatMap_set (entsI (B := Own B) (K := K) (V := V) (l + 1)) hi c
      have e2 := flatMap_get (entsI (B := Own B) (K := K) (V := V) (l + 1)) hi
      permsU [e1, e2, hAD]
    | error e =>
      cases e with
      | fatal => exact h2.elim
      | panic =>
        obtain ⟨R', ⟨R₁, rfl, A, hA, c, lost, L, rfl, hAD, hc⟩, hg⟩ := h2
        obtain ⟨h', h3, R'', h4, h5⟩ := hput (L := L) c hg (hc.append_right _)
        rw [h3]
        refine ⟨R'', ⟨A, hA, { g with kids := g.kids.set i c }, lost, L, rfl, ?_, h4⟩, h5⟩
        have e1 := flatMap_set (entsI (B := Own B) (K := K) (V := V) (l + 1)) hi c
        have e2 := flatMap_get (entsI (B := Own B) (K := K) (V := V) (l + 1)) hi
        permsU [e1, e2, hAD]
  · have h1 := nodeAt_out S Hv hi
    have : onChild E i x (raw g) w = (.error .panic, raw g, w) := by
      rw [onChild]
      change (match nodeAt E g.vec i w.heap with | .error e => _ | .ok (c, h) => _) = _
      rw [h1]; rfl
    rw [this]
    obtain ⟨A, hA⟩ := hZ
    exact ⟨R, ⟨A, hA, g, A, X, rfl, .refl _, hR⟩, .refl H⟩

theorem afterChild_spec {a : Alloc} (S : Fit E a.maxChildren) (l : Nat) (b : B) (g : Gh B K V (l + 1)) (so : Option (Gh B K V l)) {R : List (Thing B K V)}
    (hR : R.Perm (nodeT E a.maxChildren (l + 1) g ++ sibT E a.maxChildren l so)) :
    Spec (afterChild E a l b (sib l so) : U B K V Q (UNode B) (Option (Nat × UNode B))) (raw g) R (Ins E a.maxChildren (l + 1) (ents (l + 1) g ++ sibE l so)) (Broken E a.maxChildren (l + 1) (ents (l + 1) g ++ sibE l so)) := by
  cases so with
  | none =>
    refine .place ?_
    refine .ask ?_ ⟨g, [], [], rfl, .refl _, hR⟩
    intro b
    refine setBounds_call (E := E) (cap := a.maxChildren) (T := []) (X := []) hR pure_quiet ?_ ?_
    · intro g' hk R' hR'
      exact ⟨g', [], [], rfl, by rw [ents, hk]; exact .refl _, hR'⟩
    · intro g' hk R' hR'
      exact .pure ⟨none, rfl, g', rfl, by rw [ents, hk]; exact .refl _, hR'⟩
  | some c =>
    rw [sibT_some] at hR
    have hp : R.Perm (nodeT E a.maxChildren l c ++ nodeT E a.maxChildren (l + 1) g) := by permsU [hR]
    refine .place ?_
    refine guarded_read (fun h H => nodes_read S (has_vec (kids := g.kids)
      (Fr := bT g.bounds.mem :: thingsL E a.maxChildren (l + 1) g.kids ++ nodeT E a.maxChildren l c) H (by
        show R.Perm (vT E a.maxChildren (l + 1) g.vec g.kids :: _)
        permsU [hp]))) ?_
    refine guarded_ask hp (dropContainer_quiet S l c) ⟨g, _, [], rfl, .refl _, by rw [List.append_nil]⟩ ?_
    intro b
    refine setBounds_call (E := E) (cap := a.maxChildren) (T := nodeT E a.maxChildren l c) (X := []) (by permsU [hp]) (dropContainer_quiet S l c) ?_ ?_
    · intro g' hk R' hR'
      exact ⟨g', _, [], rfl, by rw [sibE_some, ents, hk], hR'⟩
    · intro g' hk R' hR'
      have := selfInsert_spec (Q := Q) S (l + 1) g' c (R := R') (by rw [List.append_nil] at hR'; exact hR')
      have e : ents (l + 1) g' = ents (l + 1) g := by rw [ents, hk]
      rw [e] at this
      rw [sibE_some]
      exact this

theorem insertNode_spec {a : Alloc} (S : Fit E a.maxChildren) (j : Nat) (it : It B K V j) : ∀ (l : Nat) (g : Gh B K V l),
    Spec (insertNode E a (rawE j it) l : U B K V Q (UNode B) (Option (Nat × UNode B))) (raw g) (nodeT E a.maxChildren l g ++ thingsI E a.maxChildren j it)
      (Ins E a.maxChildren l (ents l g ++ entsI j it)) (Broken E a.maxChildren l (ents l g ++ entsI j it)) := by
  intro l
  induction l with
  | zero =>
    intro g
    have hp : (nodeT E a.maxChildren 0 g ++ thingsI E a.maxChildren j it).Perm (thingsI E a.maxChildren j it ++ nodeT E a.maxChildren 0 g) := List.perm_append_comm
    have hF : Broken E a.maxChildren 0 (ents 0 g ++ entsI j it) (raw g) (nodeT E a.maxChildren 0 g) := ⟨g, _, [], rfl, .refl _, by rw [List.append_nil]⟩
    refine guarded_ask hp (dropEntry_quiet S j it) hF ?_
    intro _
    refine returning_ins S ?_
    rw [rawE_target]
    by_cases hj : j = 0
    · subst hj
      exact selfInsert_spec S 0 g it (.refl _)
    · rw [if_pos hj]
      exact guarded_panic hp (dropEntry_quiet S j it) hF
  | succ l ih =>
    intro g
    have hp : (nodeT E a.maxChildren (l + 1) g ++ thingsI E a.maxChildren j it).Perm (thingsI E a.maxChildren j it ++ nodeT E a.maxChildren (l + 1) g) :=
      List.perm_append_comm
    have hF : Broken E a.maxChildren (l + 1) (ents (l + 1) g ++ entsI j it) (raw g) (nodeT E a.maxChildren (l + 1) g) := ⟨g, _, [], rfl, .refl _, by rw [List.append_nil]⟩
    refine guarded_ask hp (dropEntry_quiet S j it) hF ?_
    intro b
    refine returning_ins S ?_
    rw [rawE_target]
    by_cases hj : j = l + 1
    · subst hj
      rw [if_neg (by simp)]
      exact selfInsert_spec S (l + 1) g it (.refl _)
    · rw [if_pos hj]
      have Hv : ∀ {h}, Has h (chunksT (nodeT E a.maxChildren (l + 1) g ++ thingsI E a.maxChildren j it)) →
          Has h [vecC E.node a.maxChildren g.vec (g.kids.map (cell (l + 1)))] := fun H =>
        has_vec (kids := g.kids) (l := l + 1) (Fr := bT g.bounds.mem :: thingsL E a.maxChildren (l + 1) g.kids ++ thingsI E a.maxChildren j it) H (by permsU)
      refine .bind (F₀ := Broken E a.maxChildren (l + 1) (ents (l + 1) g ++ entsI j it)) (P₀ := fun _ n' R' => n' = raw g ∧ R' = nodeT E a.maxChildren (l + 1) g ++ thingsI E a.maxChildren j it)
        (guarded_keep ?_ hp (dropEntry_quiet S j it) hF) ?_ (fun _ _ h => h)
      · refine .place ?_
        refine .read (fun h H => nodes_read S (Hv H)) ?_
        refine .ask ?_ ⟨rfl, rfl⟩
        intro i
        by_cases hi : i < g.kids.length
        · refine .read (fun h H => nodeAt_read S (Hv H) hi) ?_
          exact .pure ⟨rfl, rfl⟩
        · exact .fail (fun h H => nodeAt_out S (Hv H) hi) rfl ⟨rfl, rfl⟩
      · rintro i _ _ ⟨rfl, rfl⟩
        refine .bind (onChild_spec (Y := fun r A D y => A = entsI j it ∧ ∃ so : Option (Gh B K V l), r = sib l so ∧ D = sibE l so ∧ y = sibT E a.maxChildren l so) (Z := fun A => A = entsI j it) ⟨_, rfl⟩ S l g i (.refl _) ?_) ?_ (by rintro _ _ ⟨_, rfl, h⟩; exact h)
        · intro c _
          refine (ih c).mono ?_ (fun _ _ h => ⟨_, rfl, h⟩)
          rintro r n' R' ⟨so, h1, h2⟩
          exact ⟨_, _, _, ⟨rfl, so, h1, rfl, rfl⟩, h2⟩
        · rintro _ n' R' ⟨_, _, _, ⟨rfl, so, rfl, rfl, rfl⟩, g', rfl, hX, hR'⟩
          refine (afterChild_spec S l b g' so hR').mono ?_ (fun _ _ h => h.perm hX)
          intro r n'' R'' h
          exact h.perm hX

end RTree.Unwind
