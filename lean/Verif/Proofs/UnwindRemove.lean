import Verif.Proofs.UnwindUnique
/-!
# Removal, with user code that can panic
-/

namespace RTree.Unwind

open Raw

variable {B K V Q σ τ β γ : Type} {E : TEnv} {cap : Nat}

/-- The array `reinsert_entries`, below level `l`, the entries in it and what belongs to it. -/
inductive Slots (E : TEnv) (cap : Nat) : Nat → RSlots → List (K × V) → List (Thing B K V) → Prop
  | nil : Slots E cap 0 [] [] []
  | skip {l : Nat} {ss : RSlots} {D : List (K × V)} {Y : List (Thing B K V)} : Slots E cap l ss D Y → Slots E cap (l + 1) (ss ++ [none]) D Y
  | fill {l : Nat} {ss : RSlots} {D : List (K × V)} {Y : List (Thing B K V)} (v : FCVec) (kids : List (It B K V l)) :
    Slots E cap l ss D Y → Slots E cap (l + 1) (ss ++ [some v]) (D ++ kids.flatMap (entsI l)) (Y ++ vT E cap l v kids :: thingsL E cap l kids)

theorem Slots.length {l : Nat} {ss : RSlots} {D : List (K × V)} {Y : List (Thing B K V)} (h : Slots E cap l ss D Y) : ss.length = l := by
  induction h with
  | nil => rfl
  | skip _ ih => simp [ih]
  | fill v kids _ ih => simp [ih]

theorem Slots.empty : ∀ l : Nat, Slots (B := B) (K := K) (V := V) E cap l (List.replicate l none) [] []
  | 0 => .nil
  | l + 1 => by
    rw [List.replicate_succ']
    exact .skip (empty l)

/-- A value held while something can panic. -/
theorem guarded_value {v : V} {X : List (K × V)} {x : U B K V Q (Removing B) β} {s : Removing B} {l : Nat} {R : List (Thing B K V)} {P : β → Removing B → List (Thing B K V) → Prop}
    (hx : Spec x s R P (fun p R' => ∃ R₁, Broken E cap l X p.1 R₁ ∧ R'.Perm (.val v :: R₁))) :
    Spec (guarded (dropValue v) x) s R P (fun p R' => Broken E cap l X p.1 R') := by
  refine .guarded hx ?_
  rintro p R' ⟨R₁, h1, h2⟩
  exact (dropValue_quiet v).last (Fr := R₁) h2 (by rintro _ _ rfl; exact h1)

/-- Storing bounds in the node, with the array and more things around. -/
theorem setBounds_fst {l : Nat} {g : Gh B K V l} {b : B} {ss : RSlots} {R X : List (Thing B K V)}
    {P : Unit → Removing B → List (Thing B K V) → Prop} {F : Removing B → List (Thing B K V) → Prop} (hp : R.Perm (nodeT E cap l g ++ X))
    (hF : ∀ g' : Gh B K V l, g'.kids = g.kids → ∀ R', R'.Perm (nodeT E cap l g' ++ X) → F (raw g', ss) R')
    (hc : ∀ g' : Gh B K V l, g'.kids = g.kids → ∀ R', R'.Perm (nodeT E cap l g' ++ X) → P () (raw g', ss) R') :
    Spec (onFst (setBounds b (pure ())) : U B K V Q (Removing B) Unit) (raw g, ss) R P F := by
  refine (Spec.onFst (t := ss) (setBounds_ghost (T := []) (X := X) (F := fun n R' => ∃ g' : Gh B K V l, g'.kids = g.kids ∧ n = raw g' ∧ R'.Perm (nodeT E cap l g' ++ X)) g b hp
    pure_quiet (fun g' hk R' hR' => ⟨g', hk, rfl, hR'⟩))).mono ?_ ?_
  · rintro _ ⟨_, _⟩ R' ⟨rfl, g', hk, h, hR'⟩
    cases h
    exact hc g' hk R' hR'
  · rintro ⟨_, _⟩ R' ⟨rfl, g', hk, h, hR'⟩
    cases h
    exact hF g' hk R' hR'

/-- Work on a child while removing. -/
theorem onChildR_spec (S : Fit E cap) (l : Nat) (g : Gh B K V (l + 1)) (ss : RSlots) (i : Nat) {x : U B K V Q (Removing B) β} {R : List (Thing B K V)}
    {Y : β → RSlots → List (K × V) → List (Thing B K V) → Prop} (hR : R.Perm (nodeT E cap (l + 1) g))
    (hx : ∀ c : Gh B K V l, Spec x (raw c, ss) (nodeT E cap l c) (fun b p R' => ∃ D y, Y b p.2 D y ∧ Whole E cap l (ents l c) D y p.1 R') (fun p R' => Broken E cap l (ents l c) p.1 R')) :
    Spec (onChildR E i x) (raw g, ss) R (fun b p R' => ∃ D y, Y b p.2 D y ∧ Whole E cap (l + 1) (ents (l + 1) g) D y p.1 R') (fun p R' => Broken E cap (l + 1) (ents (l + 1) g) p.1 R') := by
  intro w H
  have Hv := has_vec (E := E) (cap := cap) (l := l + 1) (v := g.vec) (kids := g.kids) (Fr := bT g.bounds.mem :: thingsL E cap (l + 1) g.kids) H (by permsU [hR])
  by_cases hi : i < g.kids.length
  · have h1 := nodeAt_read S Hv hi
    have hp : R.Perm (nodeT E cap l g.kids[i] ++ (vT E cap (l + 1) g.vec g.kids :: bT g.bounds.mem :: thingsL E cap (l + 1) (g.kids.eraseIdx i))) := by
      have := flatMap_get (thingsI E cap (l + 1)) hi
      permsU [hR, this]
    have h2 := (((hx g.kids[i]).frame (vT E cap (l + 1) g.vec g.kids :: bT g.bounds.mem :: thingsL E cap (l + 1) (g.kids.eraseIdx i))).perm hp) w H
    have hput : ∀ {w' : World B K V Q} {R' L : List (Thing B K V)} (c : Gh B K V l), Go w R w' R' →
        R'.Perm (nodeT E cap l c ++ L ++ (vT E cap (l + 1) g.vec g.kids :: bT g.bounds.mem :: thingsL E cap (l + 1) (g.kids.eraseIdx i))) →
        ∃ h', putNode E g.vec i (raw c) w'.heap = .ok ((), h') ∧ ∃ R'', R''.Perm (nodeT E cap (l + 1) { g with kids := g.kids.set i c } ++ L) ∧
          Go w R { w' with heap := h' } R'' := by
      intro w' R' L c hg hp'
      have Hv' := has_vec (E := E) (cap := cap) (l := l + 1) (v := g.vec) (kids := g.kids)
        (Fr := nodeT E cap l c ++ L ++ bT g.bounds.mem :: thingsL E cap (l + 1) (g.kids.eraseIdx i)) hg.tr.has (by permsU [hp'])
      obtain ⟨h', h3, t⟩ := putNode_write S Hv' hi c
      refine ⟨h', h3, vT E cap (l + 1) g.vec (g.kids.set i c) :: (nodeT E cap l c ++ L ++ bT g.bounds.mem :: thingsL E cap (l + 1) (g.kids.eraseIdx i)), ?_, ?_⟩
      · have := flatMap_set (thingsI E cap (l + 1)) hi c
        permsU [this]
      · have hg' := hg.perm_right (R₂ := vT E cap (l + 1) g.vec g.kids :: (nodeT E cap l c ++ L ++ bT g.bounds.mem :: thingsL E cap (l + 1) (g.kids.eraseIdx i)))
          (by permsU [hp'])
        refine hg'.trans (Go.frame (R := [vT E cap (l + 1) g.vec g.kids]) (R₁ := [vT E cap (l + 1) g.vec (g.kids.set i c)]) hg'.tr.has ⟨t, ?_, ?_⟩)
        · exact .refl _
        · exact .refl _
    rw [onChildR]
    change Post _ _ _ _ (match nodeAt E g.vec i w.heap with | .error e => _ | .ok (c, h) => _)
    rw [h1]
    dsimp only
    rcases hr : x (raw g.kids[i], ss) w with ⟨r, ⟨n', ss'⟩, w'⟩
    rw [hr] at h2
    change Post _ _ _ _ (match putNode E g.vec i n' w'.heap with | .ok (_, h') => (r, (raw g, ss'), { w' with heap := h' }) | .error _ => _)
    cases r with
    | ok b =>
      obtain ⟨R', ⟨R₁, rfl, D, y, hy, c, hn, hX, hc⟩, hg⟩ := h2
      obtain rfl : n' = raw c := hn
      obtain ⟨h', h3, R'', h4, h5⟩ := hput (L := y) c hg (hc.append_right _)
      rw [h3]
      refine ⟨R'', ⟨D, y, hy, { g with kids := g.kids.set i c }, rfl, ?_, h4⟩, h5⟩
      have e1 := flatMap_set (entsI (B := Own B) (K := K) (V := V) (l + 1)) hi c
      have e2 := flatMap_get (entsI (B := Own B) (K := K) (V := V) (l + 1)) hi
      permsU [e1, e2, hX]
    | error e =>
      cases e with
      | fatal => exact h2.elim
      | panic =>
        obtain ⟨R', ⟨R₁, rfl, c, lost, L, hn, hX, hc⟩, hg⟩ := h2
        obtain rfl : n' = raw c := hn
        obtain ⟨h', h3, R'', h4, h5⟩ := hput (L := L) c hg (hc.append_right _)
        rw [h3]
        refine ⟨R'', ⟨{ g with kids := g.kids.set i c }, lost, L, rfl, ?_, h4⟩, h5⟩
        have e1 := flatMap_set (entsI (B := Own B) (K := K) (V := V) (l + 1)) hi c
        have e2 := flatMap_get (entsI (B := Own B) (K := K) (V := V) (l + 1)) hi
        permsU [e1, e2, hX]
  · have h1 := nodeAt_out S Hv hi
    have : onChildR E i x (raw g, ss) w = (.error .panic, (raw g, ss), w) := by
      rw [onChildR]
      change (match nodeAt E g.vec i w.heap with | .error e => _ | .ok (c, h) => _) = _
      rw [h1]; rfl
    rw [this]
    exact ⟨R, ⟨g, [], [], rfl, by rw [List.append_nil], by rw [List.append_nil]; exact hR⟩, .refl H⟩

/-- The end of `afterRemove`. -/
theorem rebound_spec (S : Fit E cap) (l : Nat) (g : Gh B K V (l + 1)) (ss : RSlots) (v : V) (Y : List (Thing B K V)) {R : List (Thing B K V)}
    (hR : R.Perm (nodeT E cap (l + 1) g ++ (.val v :: Y))) :
    Spec (onFst place >>= fun n => mem (nodes E n.vec) >>= fun cs => (user fun c => some (c.unionAll (cs.map fun n => n.bounds.val))) >>= fun b =>
      onFst (setBounds b (pure ())) : U B K V Q (Removing B) Unit) (raw g, ss) R (fun _ p R' => p.2 = ss ∧ Whole E cap (l + 1) (ents (l + 1) g) [] (.val v :: Y) p.1 R')
      (fun p R' => ∃ R₁, Broken E cap (l + 1) (ents (l + 1) g) p.1 R₁ ∧ R'.Perm (.val v :: R₁)) := by
  refine .placeFst ?_
  refine .read (fun h H => read_nodes S g hR H) ?_
  refine .ask ?_ ⟨nodeT E cap (l + 1) g ++ Y, ⟨g, [], Y, rfl, by rw [List.append_nil], .refl _⟩, by permsU [hR]⟩
  intro b
  refine setBounds_fst hR ?_ ?_
  · intro g' hk R' hR'
    exact ⟨nodeT E cap (l + 1) g' ++ Y, ⟨g', [], Y, rfl, by rw [List.append_nil, ents, hk], .refl _⟩, by permsU [hR']⟩
  · intro g' hk R' hR'
    exact ⟨rfl, g', rfl, by rw [List.append_nil, ents, hk], hR'⟩

theorem afterRemove_spec {a : Alloc} (S : Fit E a.maxChildren) (l : Nat) (g : Gh B K V (l + 1)) (i : Nat) (v : V) {ss rest : RSlots} {D : List (K × V)} {Y R : List (Thing B K V)}
    (hs : Slots E a.maxChildren l ss D Y) (hR : R.Perm (nodeT E a.maxChildren (l + 1) g ++ (.val v :: Y))) :
    Spec (afterRemove E a l i v : U B K V Q (Removing B) Unit) (raw g, ss ++ none :: rest) R
      (fun _ p R' => ∃ ss' D' Y', Slots E a.maxChildren (l + 1) ss' D' Y' ∧ p.2 = ss' ++ rest ∧ Whole E a.maxChildren (l + 1) (ents (l + 1) g ++ D) D' (.val v :: Y') p.1 R')
      (fun p R' => Broken E a.maxChildren (l + 1) (ents (l + 1) g) p.1 R') := by
  refine guarded_value (E := E) (cap := a.maxChildren) (l := l + 1) ?_
  refine .placeFst ?_
  have hF : ∃ R₁, Broken E a.maxChildren (l + 1) (ents (l + 1) g) (raw g) R₁ ∧ R.Perm (.val v :: R₁) :=
    ⟨nodeT E a.maxChildren (l + 1) g ++ Y, ⟨g, [], Y, rfl, by rw [List.append_nil], .refl _⟩, by permsU [hR]⟩
  have Hv : ∀ {h}, Has h (chunksT R) → Has h [vecC E.node a.maxChildren g.vec (g.kids.map (cell (l + 1)))] := fun H =>
    has_vec (E := E) (cap := a.maxChildren) (kids := g.kids) (l := l + 1) (v := g.vec) (Fr := bT g.bounds.mem :: thingsL E a.maxChildren (l + 1) g.kids ++ .val v :: Y) H
      (by permsU [hR])
  by_cases hi : i < g.kids.length
  · refine .read (fun h H => nodeAt_read S (Hv H) hi) ?_
    by_cases hl : (raw g.kids[i]).vec.len < a.minChildren
    · rw [if_pos hl]
      refine .call (Fr := bT g.bounds.mem :: thingsL E a.maxChildren (l + 1) g.kids ++ .val v :: Y) (.onFst (swapRemove_spec S (l + 1) (raw g) g.kids i)) (by
        show R.Perm ([vT E a.maxChildren (l + 1) g.vec g.kids] ++ _)
        permsU [hR]) ?_ ?_
      · rintro _ ⟨⟨nb, nv⟩, _⟩ _ ⟨rfl, x, kids', rfl, hk, hb, rfl⟩
        obtain rfl : nb = g.bounds := hb
        have ht := thingsL_perm (E := E) (cap := a.maxChildren) hk
        refine .lift (b := raw x) rfl ?_
        refine (dropBounds_quiet x.bounds).call (Fr := nodeT E a.maxChildren (l + 1) ⟨g.bounds, nv, kids'⟩ ++ (.val v ::
          (Y ++ vT E a.maxChildren l x.vec x.kids :: thingsL E a.maxChildren l x.kids))) (by
            show List.Perm ([vT E a.maxChildren (l + 1) nv kids'] ++ _) _
            permsU [ht]) ?_
        rintro _ _ rfl
        have e := hk.flatMap_right (entsI (l + 1))
        refine destroyed_call (T := []) (T' := vT E a.maxChildren l x.vec x.kids :: thingsL E a.maxChildren l x.kids)
          (Fr := nodeT E a.maxChildren (l + 1) ⟨g.bounds, nv, kids'⟩ ++ (.val v :: Y)) (by permsU) pure_quiet (dropChildren_quiet S l x.vec x.kids)
          ⟨_, ⟨⟨g.bounds, nv, kids'⟩, ents l x, Y ++ vT E a.maxChildren l x.vec x.kids :: thingsL E a.maxChildren l x.kids, rfl, by permsU [e], .refl _⟩, by permsU⟩
          ⟨_, ⟨⟨g.bounds, nv, kids'⟩, ents l x, Y, rfl, by permsU [e], .refl _⟩, by permsU⟩ ?_
        have hlen := hs.length
        refine .bind (F₀ := fun _ _ => False) (P₀ := fun _ p R' => p = (raw (⟨g.bounds, nv, kids'⟩ : Gh B K V (l + 1)), (ss ++ [some x.vec]) ++ rest) ∧
          R' = nodeT E a.maxChildren (l + 1) ⟨g.bounds, nv, kids'⟩ ++ (.val v :: (Y ++ vT E a.maxChildren l x.vec x.kids :: thingsL E a.maxChildren l x.kids))) ?_ ?_
          (fun _ _ h => h.elim)
        · refine (Spec.onSnd (P₀ := fun _ ss' R' => ss' = (ss ++ [some x.vec]) ++ rest ∧
            R' = nodeT E a.maxChildren (l + 1) ⟨g.bounds, nv, kids'⟩ ++ (.val v :: (Y ++ vT E a.maxChildren l x.vec x.kids :: thingsL E a.maxChildren l x.kids)))
            (F₀ := fun _ _ => False) ?_).mono ?_ ?_
          · refine .place ?_
            refine .bind (P₀ := fun _ ss' R' => ss' = ss ++ none :: rest ∧
              R' = nodeT E a.maxChildren (l + 1) ⟨g.bounds, nv, kids'⟩ ++ (.val v :: (Y ++ vT E a.maxChildren l x.vec x.kids :: thingsL E a.maxChildren l x.kids)))
              (F₀ := fun _ _ => False) (.panicIf (fun _ => ⟨rfl, rfl⟩) (fun h => h (by simp; omega))) ?_ (fun _ _ h => h)
            rintro _ _ _ ⟨rfl, rfl⟩
            refine .put' ⟨?_, rfl⟩
            rw [List.set_append_right _ _ (by omega), hlen, Nat.sub_self]
            simp [raw]
          · rintro _ ⟨_, _⟩ _ ⟨rfl, rfl, rfl⟩
            exact ⟨rfl, rfl⟩
          · rintro _ _ ⟨_, h⟩
            exact h
        · rintro _ _ _ ⟨rfl, rfl⟩
          refine (rebound_spec S l ⟨g.bounds, nv, kids'⟩ (ss ++ [some x.vec] ++ rest) v _ (.refl _)).mono ?_ (by
            rintro _ _ ⟨R₁, h1, h2⟩
            have e := hk.flatMap_right (entsI (l + 1))
            exact ⟨R₁, h1.lose (D := ents l x) (by permsU [e]), h2⟩)
          rintro _ p R' ⟨h1, g', h2, h3, h4⟩
          refine ⟨_, _, _, .fill x.vec x.kids hs, h1, g', h2, ?_, h4⟩
          have e := hk.flatMap_right (entsI (l + 1))
          permsU [h3, e]
      · rintro ⟨n', _⟩ _ ⟨rfl, h, rfl⟩
        obtain rfl : n' = raw g := h
        exact ⟨nodeT E a.maxChildren (l + 1) g ++ Y, ⟨g, [], Y, rfl, by rw [List.append_nil], .refl _⟩, by
          show List.Perm ([vT E a.maxChildren (l + 1) g.vec g.kids] ++ _) _
          permsU⟩
    · rw [if_neg hl]
      refine (rebound_spec S l g (ss ++ none :: rest) v Y hR).mono ?_ (fun _ _ h => h)
      rintro _ p R' ⟨h1, g', h2, h3, h4⟩
      exact ⟨_, _, _, .skip hs, by rw [h1]; simp, g', h2, by permsU [h3], h4⟩
  · exact .fail (fun h H => nodeAt_out S (Hv H) hi) rfl hF

/-- What a removal takes away: some pair with the value that is returned. -/
def Taken (r : Option V) (D : List (K × V)) : Prop := D.map (·.2) = r.toList

/-- After a removal from a node with entries `X`. -/
def Rem (E : TEnv) (cap l : Nat) (X : List (K × V)) (rest : RSlots) (r : Option V) (p : Removing B) (R : List (Thing B K V)) : Prop :=
  ∃ (ss : RSlots) (D D' : List (K × V)) (Y : List (Thing B K V)), Slots E cap l ss D Y ∧ Taken r D' ∧ p.2 = ss ++ rest ∧ Whole E cap l X (D' ++ D) (r.toList.map .val ++ Y) p.1 R ∧
    (r = none → ss = List.replicate l none ∧ D = [] ∧ D' = [] ∧ Y = [])

theorem Rem.perm {l : Nat} {X X' : List (K × V)} {rest : RSlots} {r : Option V} {p : Removing B} {R : List (Thing B K V)} (h : Rem E cap l X rest r p R) (hX : X.Perm X') :
    Rem E cap l X' rest r p R := by
  obtain ⟨ss, D, D', Y, h1, h2, h3, ⟨g, h4, h5, h6⟩, h7⟩ := h
  exact ⟨ss, D, D', Y, h1, h2, h3, ⟨g, h4, h5.trans hX, h6⟩, h7⟩

theorem removeLoop_spec {a : Alloc} (S : Fit E a.maxChildren) (l : Nat) (q : Q) {rec : U B K V Q (Removing B) (Option V)} {rest : RSlots}
    (hrec : ∀ c : Gh B K V l, Spec rec (raw c, List.replicate l none ++ none :: rest) (nodeT E a.maxChildren l c) (Rem E a.maxChildren l (ents l c) (none :: rest))
      (fun p R' => Broken E a.maxChildren l (ents l c) p.1 R')) : ∀ (i : Nat) (g : Gh B K V (l + 1)) (R : List (Thing B K V)), R.Perm (nodeT E a.maxChildren (l + 1) g) →
    Spec (removeLoop E a l q rec i : U B K V Q (Removing B) (Option V)) (raw g, List.replicate l none ++ none :: rest) R (Rem E a.maxChildren (l + 1) (ents (l + 1) g) rest)
      (fun p R' => Broken E a.maxChildren (l + 1) (ents (l + 1) g) p.1 R') := by
  intro i
  induction i with
  | zero =>
    intro g R hR
    refine .pure ⟨_, _, [], _, .empty (l + 1), rfl, ?_, ⟨g, rfl, by simp, by simpa using hR⟩, fun _ => ⟨rfl, rfl, rfl, rfl⟩⟩
    rw [List.replicate_succ']; simp
  | succ i ih =>
    intro g R hR
    have hF : Broken E a.maxChildren (l + 1) (ents (l + 1) g) (raw g) R := ⟨g, [], [], rfl, by rw [List.append_nil], by rw [List.append_nil]; exact hR⟩
    have Hv : ∀ {h}, Has h (chunksT R) → Has h [vecC E.node a.maxChildren g.vec (g.kids.map (cell (l + 1)))] := fun H =>
      has_vec (E := E) (cap := a.maxChildren) (kids := g.kids) (l := l + 1) (v := g.vec) (Fr := bT g.bounds.mem :: thingsL E a.maxChildren (l + 1) g.kids) H
        (by permsU [hR])
    rw [removeLoop]
    refine .placeFst ?_
    by_cases hi : i < g.kids.length
    · refine .read (fun h H => nodeAt_read S (Hv H) hi) ?_
      refine .ask ?_ hF
      rintro (_ | _)
      · exact ih g R hR
      · refine .bind (onChildR_spec (Y := fun r ss' Z y => ∃ ss D D' Y, Slots E a.maxChildren l ss D Y ∧ Taken r D' ∧ ss' = ss ++ none :: rest ∧ Z = D' ++ D ∧ y = r.toList.map .val ++ Y ∧
          (r = none → ss = List.replicate l none ∧ D = [] ∧ D' = [] ∧ Y = [])) S l g _ i hR ?_) ?_ (fun _ _ h => h)
        · intro c
          refine (hrec c).mono ?_ (fun _ _ h => h)
          rintro r p R' ⟨ss, D, D', Y, h1, h5, h2, h3, h4⟩
          exact ⟨_, _, ⟨ss, D, D', Y, h1, h5, h2, rfl, rfl, h4⟩, h3⟩
        · rintro r ⟨n', _⟩ R' ⟨_, _, ⟨ss, D, D', Y, h1, ht, rfl, rfl, rfl, h4⟩, g', h5, hX, hR'⟩
          obtain rfl : n' = raw g' := h5
          cases r with
          | none =>
            obtain ⟨rfl, rfl, rfl, rfl⟩ := h4 rfl
            exact (ih g' R' (by simpa using hR')).mono (fun r p R'' h => h.perm (by simpa using hX)) (fun _ _ h => h.perm (by simpa using hX))
          | some v =>
            refine .bind (afterRemove_spec S l g' i v h1 hR') ?_ (fun _ _ h => h.lose hX)
            rintro _ p R'' ⟨ss', Z, Y', h6, h7, g'', h8, h9, h10⟩
            exact .pure ⟨ss', Z, D', Y', h6, ht, h7, ⟨g'', h8, by permsU [h9, hX], h10⟩, by rintro ⟨⟩⟩
    · exact .fail (fun h H => nodeAt_out S (Hv H) hi) rfl hF

theorem removeNode_spec {a : Alloc} (S : Fit E a.maxChildren) (q : Q) : ∀ (l : Nat) (rest : RSlots) (g : Gh B K V l),
    Spec (removeNode E a q l : U B K V Q (Removing B) (Option V)) (raw g, List.replicate l none ++ rest) (nodeT E a.maxChildren l g) (Rem E a.maxChildren l (ents l g) rest)
      (fun p R' => Broken E a.maxChildren l (ents l g) p.1 R') := by
  intro l
  induction l with
  | zero =>
    intro rest g
    have hF : Broken E a.maxChildren 0 (ents 0 g) (raw g) (nodeT E a.maxChildren 0 g) := ⟨g, [], [], rfl, by rw [List.append_nil], by rw [List.append_nil]⟩
    refine .placeFst ?_
    refine .read (fun h H => read_entries (X := []) S g (by rw [List.append_nil]) H) ?_
    refine .bind (position_spec _ _ _ g.kids 0) ?_ (by rintro _ _ ⟨rfl, rfl⟩; exact hF)
    rintro r _ _ ⟨-, rfl, rfl⟩
    cases r with
    | none => exact .pure ⟨[], [], [], [], .nil, rfl, rfl, ⟨g, rfl, by simp, by simp⟩, fun _ => ⟨rfl, rfl, rfl, rfl⟩⟩
    | some i =>
      refine .call (Fr := bT g.bounds.mem :: thingsL E a.maxChildren 0 g.kids) (.onFst (swapRemove_spec S 0 (raw g) g.kids i)) (by
        show List.Perm _ ([vT E a.maxChildren 0 g.vec g.kids] ++ _)
        permsU) ?_ ?_
      · rintro _ ⟨⟨nb, nv⟩, rest'⟩ _ ⟨hrest, x, kids', rfl, hk, hb, rfl⟩
        obtain rfl : rest' = rest := hrest
        obtain rfl : nb = g.bounds := hb
        have ht := thingsL_perm (E := E) (cap := a.maxChildren) hk
        have e : thingsI (B := B) E a.maxChildren 0 x = [.key x.1, .val x.2] := rfl
        rw [thingsL, List.flatMap_cons, e] at ht
        refine .lift (b := x) rfl ?_
        refine (dropKey_quiet x.1).call (Fr := nodeT E a.maxChildren 0 ⟨g.bounds, nv, kids'⟩ ++ [.val x.2]) (by
            show List.Perm ([vT E a.maxChildren 0 nv kids'] ++ _) _
            permsU [ht]) ?_
        rintro _ _ rfl
        have e₀ := hk.flatMap_right (entsI (B := Own B) (K := K) (V := V) 0)
        rw [List.flatMap_cons, show entsI (B := Own B) (K := K) (V := V) 0 x = [x] from rfl] at e₀
        have hB : ∀ L R', R'.Perm (nodeT E a.maxChildren 0 ⟨g.bounds, nv, kids'⟩ ++ L) → Broken E a.maxChildren 0 (ents 0 g) (raw (⟨g.bounds, nv, kids'⟩ : Gh B K V 0)) R' := fun L R' h =>
          ⟨⟨g.bounds, nv, kids'⟩, [x], L, rfl, by permsU [e₀], h⟩
        refine destroyed_call (T := []) (T' := [.val x.2]) (Fr := nodeT E a.maxChildren 0 ⟨g.bounds, nv, kids'⟩) (by permsU) pure_quiet (dropValue_quiet x.2)
          (hB [.val x.2] _ (by permsU)) (hB [] _ (by rw [List.append_nil])) ?_
        refine .bind (F₀ := fun p R' => Broken E a.maxChildren 0 (ents 0 g) p.1 R') (P₀ := fun _ p R' => p.2 = rest' ∧ Whole E a.maxChildren 0 (ents 0 g) [x] [.val x.2] p.1 R')
          (guarded_value (E := E) (cap := a.maxChildren) (l := 0) ?_) ?_ (fun _ _ h => h)
        · have e' := hk.flatMap_right (entsI (B := Own B) (K := K) (V := V) 0)
          have e3' : ∀ e, entsI (B := Own B) (K := K) (V := V) 0 e = [e] := fun _ => rfl
          rw [List.flatMap_cons, e3'] at e'
          refine .placeFst ?_
          refine .read (fun h H => read_entries (X := [.val x.2]) S ⟨g.bounds, nv, kids'⟩ (.refl _) H) ?_
          refine .ask ?_ ⟨nodeT E a.maxChildren 0 ⟨g.bounds, nv, kids'⟩, ⟨⟨g.bounds, nv, kids'⟩, [x], [], rfl, by
            show (kids'.flatMap _ ++ [x]).Perm (g.kids.flatMap _)
            permsU [e'], by rw [List.append_nil]⟩, by permsU⟩
          intro b
          refine setBounds_fst (E := E) (cap := a.maxChildren) (g := ⟨g.bounds, nv, kids'⟩) (.refl _) (fun g' hk' R' hR' =>
            ⟨nodeT E a.maxChildren 0 g', ⟨g', [x], [], rfl, by rw [ents, hk']; permsU [e₀], by rw [List.append_nil]⟩, by permsU [hR']⟩) ?_
          intro g' hk' R' hR'
          refine ⟨rfl, g', rfl, ?_, hR'⟩
          have e := hk.flatMap_right (entsI (B := Own B) (K := K) (V := V) 0)
          have e3 : ∀ e, entsI (B := Own B) (K := K) (V := V) 0 e = [e] := fun _ => rfl
          rw [List.flatMap_cons, e3] at e
          rw [ents, hk']
          permsU [e]
        · rintro _ ⟨n', _⟩ R' ⟨rfl, h⟩
          exact .pure ⟨[], [], [x], [], .nil, rfl, rfl, h, by rintro ⟨⟩⟩
      · rintro ⟨n', _⟩ _ ⟨rfl, h, rfl⟩
        obtain rfl : n' = raw g := h
        exact ⟨g, [], [], rfl, by rw [List.append_nil], by
          show List.Perm ([vT E a.maxChildren 0 g.vec g.kids] ++ _) _
          permsU⟩
  | succ l ih =>
    intro rest g
    refine .placeFst ?_
    have e : (List.replicate (l + 1) none ++ rest : RSlots) = List.replicate l none ++ none :: rest := by
      rw [List.replicate_succ']; simp
    rw [e]
    exact removeLoop_spec S l q (ih (none :: rest)) _ g _ (.refl _)

end RTree.Unwind
