import Verif.Proofs.UnwindRemove
/-!
# Operations on trees, with user code that can panic
-/

namespace RTree.Unwind

open Raw

variable {B K V Q σ τ β γ : Type} {E : TEnv} {cap : Nat}

/-- A tree. -/
structure GT (B K V : Type) where
  alloc : Alloc
  level : Nat
  g : Gh B K V level

/-- The tree in memory. -/
def rawT (G : GT B K V) : UTree B := ⟨G.alloc, G.level, raw G.g⟩

/-- All that belongs to a tree. -/
abbrev treeT (E : TEnv) (G : GT B K V) : List (Thing B K V) := nodeT E G.alloc.maxChildren G.level G.g

/-- The entries of a tree. -/
abbrev entsT (G : GT B K V) : List (K × V) := ents G.level G.g

/-- A tree that holds the entries `X` after the entries `D` have been taken from it, and the things `Y`. -/
def TWhole (E : TEnv) (a : Alloc) (X D : List (K × V)) (Y : List (Thing B K V)) (t : UTree B) (R : List (Thing B K V)) : Prop :=
  ∃ G : GT B K V, G.alloc = a ∧ t = rawT G ∧ (entsT G ++ D).Perm X ∧ R.Perm (treeT E G ++ Y)

/-- A tree with some of the entries `X`, and things that nobody owns any more. -/
def TBroken (E : TEnv) (a : Alloc) (X : List (K × V)) (t : UTree B) (R : List (Thing B K V)) : Prop :=
  ∃ (G : GT B K V) (lost : List (K × V)) (L : List (Thing B K V)), G.alloc = a ∧ t = rawT G ∧ (entsT G ++ lost).Perm X ∧ R.Perm (treeT E G ++ L)

theorem TBroken.lose {a : Alloc} {X X' D : List (K × V)} {t : UTree B} {R : List (Thing B K V)} (h : TBroken E a X t R) (hX : (X ++ D).Perm X') : TBroken E a X' t R := by
  obtain ⟨G, lost, L, h1, h2, h3, h4⟩ := h
  exact ⟨G, lost ++ D, L, h1, h2, by rw [← List.append_assoc]; exact (h3.append_right D).trans hX, h4⟩

theorem TBroken.perm {a : Alloc} {X X' : List (K × V)} {t : UTree B} {R : List (Thing B K V)} (h : TBroken E a X t R) (hX : X.Perm X') : TBroken E a X' t R :=
  h.lose (D := []) (by rw [List.append_nil]; exact hX)

theorem TBroken.more {a : Alloc} {X : List (K × V)} {t : UTree B} {R L : List (Thing B K V)} (h : TBroken E a X t R) : TBroken E a X t (R ++ L) := by
  obtain ⟨G, lost, L', h1, h2, h4, h3⟩ := h
  exact ⟨G, lost, L' ++ L, h1, h2, h4, by rw [← List.append_assoc]; exact h3.append_right L⟩

theorem Broken.tree {a : Alloc} {l : Nat} {X : List (K × V)} {t : UTree B} {R : List (Thing B K V)} (h : Broken E a.maxChildren l X t.root R) (ha : t.alloc = a) (hl : t.level = l) :
    TBroken E a X t R := by
  obtain ⟨g, lost, L, h1, h3, h2⟩ := h
  obtain ⟨ta, tl, tr⟩ := t
  change ta = a at ha
  change tl = l at hl
  subst ha hl
  obtain rfl : tr = raw g := h1
  exact ⟨⟨ta, tl, g⟩, lost, L, rfl, rfl, h3, h2⟩

theorem TWhole.broken {a : Alloc} {X D : List (K × V)} {Y R : List (Thing B K V)} {t : UTree B} (h : TWhole E a X D Y t R) : TBroken E a X t R := by
  obtain ⟨G, h1, h2, h4, h3⟩ := h
  exact ⟨G, D, Y, h1, h2, h4, h3⟩

theorem TWhole.perm {a : Alloc} {X X' D : List (K × V)} {Y R : List (Thing B K V)} {t : UTree B} (h : TWhole E a X D Y t R) (hX : X.Perm X') : TWhole E a X' D Y t R := by
  obtain ⟨G, h1, h2, h3, h4⟩ := h
  exact ⟨G, h1, h2, h3.trans hX, h4⟩

theorem Whole.tree {a : Alloc} {l : Nat} {t : UTree B} {X D : List (K × V)} {Y R : List (Thing B K V)} (h : Whole E a.maxChildren l X D Y t.root R) (ha : t.alloc = a)
    (hl : t.level = l) : TWhole E a X D Y t R := by
  obtain ⟨g, h1, h3, h2⟩ := h
  obtain ⟨ta, tl, tr⟩ := t
  change ta = a at ha
  change tl = l at hl
  subst ha hl
  obtain rfl : tr = raw g := h1
  exact ⟨⟨ta, tl, g⟩, rfl, rfl, h3, h2⟩

/-- A push where there is room. -/
theorem pushLocal_room (S : Fit E cap) (l : Nat) (v : FCVec) (kids : List (It B K V l)) (x : It B K V l) (hl : kids.length < cap) :
    Spec (pushLocal (RTree.slotEnv E l) cap (cell l x) : U B K V Q FCVec Unit) v [vT E cap l v kids]
      (fun _ v' R' => R' = [vT E cap l v' (kids ++ [x])]) (fun _ _ => False) := by
  refine .guarded (F₀ := fun _ _ => False) ?_ (fun _ _ h => h.elim)
  refine .place ?_
  refine .bind (F₀ := fun _ _ => False) (.memOk (cs := [vecC (RTree.slotEnv E l) cap v (kids.map (cell l))])
    (M := fun v' cs' => cs' = [vecC (RTree.slotEnv E l) cap v' ((kids ++ [x]).map (cell l))]) ?_) ?_ (fun _ _ h => h)
  · intro h H
    have := FCVec.push_ok H.owns (S.size l) (cell l x)
    rw [push_map, RTree.Vec.push, if_neg (by omega)] at this
    obtain ⟨v', h', h1, h2, h3, h4⟩ := this
    exact ⟨_, h', _, h1, rfl, .of_same h2 h3 h4⟩
  · rintro v' _ _ ⟨rfl, _, rfl, rfl⟩
    exact .put' rfl

/-- A new vector, then the rest. -/
theorem guarded_new (S : Fit E cap) (l : Nat) {cleanup : U B K V Q σ Unit} {f : FCVec → U B K V Q σ γ} {s : σ} {R T Fr : List (Thing B K V)}
    {P : γ → σ → List (Thing B K V) → Prop} {F : σ → List (Thing B K V) → Prop} (hp : R.Perm (T ++ Fr)) (hq : Quiet cleanup T (fun _ R' => R' = []))
    (hF : F s Fr) (hc : ∀ v, Spec (f v) s (vT E cap l v ([] : List (It B K V l)) :: R) P F) :
    Spec (guarded cleanup (mem (FCVec.new (RTree.slotEnv E l) cap)) >>= f) s R P F := by
  refine .bind (P₀ := fun v s' R' => s' = s ∧ R' = vT E cap l v ([] : List (It B K V l)) :: R) (F₀ := F) ?_ (by rintro v _ _ ⟨rfl, rfl⟩; exact hc v) (fun _ _ h => h)
  refine guarded_keep (.last (new_spec S l s) (Fr := R) (.refl _) ?_ ?_) hp hq hF
  · rintro v _ _ ⟨rfl, rfl⟩; exact ⟨rfl, rfl⟩
  · rintro _ _ ⟨rfl, rfl⟩; exact ⟨rfl, rfl⟩

/-- Adding a level.  There is room for two children, so nothing panics while the root is owned twice. -/
theorem branch_spec (G : GT B K V) (S : Fit E G.alloc.maxChildren) (c : Gh B K V G.level) {R : List (Thing B K V)}
    (hR : R.Perm (treeT E G ++ nodeT E G.alloc.maxChildren G.level c)) :
    Spec (branch E (G.level, raw c) : U B K V Q (UTree B) Unit) (rawT G) R (fun _ => TWhole E G.alloc (entsT G ++ ents G.level c) [] [])
      (TBroken E G.alloc (entsT G ++ ents G.level c)) := by
  have hp : R.Perm (nodeT E G.alloc.maxChildren G.level c ++ treeT E G) := hR.trans List.perm_append_comm
  have hF : TBroken E G.alloc (entsT G ++ ents G.level c) (rawT G) (treeT E G) := ⟨G, _, [], rfl, rfl, .refl _, by rw [List.append_nil]⟩
  have hc := S.cap
  refine .place ?_
  refine .bind (P₀ := fun _ s' R' => Still (rawT G) R s' R') (F₀ := TBroken E G.alloc (entsT G ++ ents G.level c)) (guarded_keep ?_ hp (dropContainer_quiet S G.level c) hF) ?_ (fun _ _ h => h)
  · refine .bind (P₀ := fun _ s' R' => Still (rawT G) R s' R') (F₀ := Still (rawT G) R) (.panicIf (fun _ => ⟨rfl, rfl⟩) (fun _ => ⟨rfl, rfl⟩)) ?_ (fun _ _ h => h)
    rintro _ _ _ ⟨rfl, rfl⟩
    exact .user (fun _ => ⟨rfl, rfl⟩) ⟨rfl, rfl⟩
  · rintro b _ R ⟨rfl, rfl⟩
    refine guarded_new S (G.level + 1) hp (dropContainer_quiet S G.level c) hF ?_
    intro v
    refine .bind (P₀ := fun r t' R' => t' = rawT G ∧ R'.Perm (vT E G.alloc.maxChildren (G.level + 1) r.2 [G.g, c] :: treeT E G ++ nodeT E G.alloc.maxChildren G.level c))
      (F₀ := fun _ _ => False) (Spec.withLocal (P := fun _ p R' => p.1 = rawT G ∧
        R'.Perm (vT E G.alloc.maxChildren (G.level + 1) p.2 [G.g, c] :: treeT E G ++ nodeT E G.alloc.maxChildren G.level c)) (F₁ := fun _ _ => False) ?_
        (fun _ _ h => h.elim)) ?_ (fun _ _ h => h.elim)
    · refine .bind (P₀ := fun _ p R' => p.1 = rawT G ∧ R' = vT E G.alloc.maxChildren (G.level + 1) p.2 [G.g] :: R) (F₀ := fun _ _ => False)
        (.guarded (F₀ := fun _ _ => False) (.last (.onSnd (pushLocal_room S (G.level + 1) v [] G.g (by simp; omega))) (.refl _) ?_ (fun _ _ h => h.2)) (fun _ _ h => h.elim)) ?_
        (fun _ _ h => h)
      · rintro _ ⟨_, v'⟩ _ ⟨rfl, rfl⟩
        exact ⟨rfl, rfl⟩
      · rintro _ ⟨_, v'⟩ _ ⟨rfl, rfl⟩
        refine .last (.onSnd (pushLocal_room S (G.level + 1) v' [G.g] c (by simp; omega))) (.refl _) ?_ (fun _ _ h => h.2)
        rintro _ ⟨_, v''⟩ _ ⟨rfl, rfl⟩
        refine ⟨rfl, ?_⟩
        permsU [hR]
    · rintro ⟨_, v'⟩ _ R' ⟨rfl, hR'⟩
      refine (newBounds_quiet b).call (Fr := R') (.refl _) ?_
      rintro o _ rfl
      refine .put' ⟨⟨G.alloc, G.level + 1, ⟨o, v', [G.g, c]⟩⟩, rfl, rfl, ?_, ?_⟩
      · simp [entsT, ents, entsI_succ]
      · permsU [hR']

theorem insertEntry_spec (G : GT B K V) (S : Fit E G.alloc.maxChildren) (j : Nat) (it : It B K V j) :
    Spec (insertEntry E (rawE j it) : U B K V Q (UTree B) Unit) (rawT G) (treeT E G ++ thingsI E G.alloc.maxChildren j it) (fun _ => TWhole E G.alloc (entsT G ++ entsI j it) [] [])
      (TBroken E G.alloc (entsT G ++ entsI j it)) := by
  refine .place ?_
  refine .bind (.onRoot (insertNode_spec S j it G.level G.g)) ?_ ?_
  · rintro r t' R' ⟨ht, so, rfl, g, hg, hX, hR⟩
    obtain rfl : t' = rawT ⟨G.alloc, G.level, g⟩ := by rw [ht, hg]; rfl
    cases so with
    | none => exact .pure ⟨⟨G.alloc, G.level, g⟩, rfl, rfl, hX, hR⟩
    | some c =>
      rw [sibT_some] at hR
      rw [sibE_some] at hX
      exact (branch_spec ⟨G.alloc, G.level, g⟩ S c hR).mono (fun _ _ _ h => h.perm hX) (fun _ _ h => h.perm hX)
  · rintro t' R' ⟨ht, h⟩
    exact h.tree (by rw [ht]; rfl) (by rw [ht]; rfl)

theorem insertUnique_spec (G : GT B K V) (S : Fit E G.alloc.maxChildren) (key : K) (value : V) :
    Spec (insertUnique E key value : U B K V Q (UTree B) (Option V)) (rawT G) (treeT E G ++ [.key key, .val value]) (fun r t R' => ∃ A D, Swapped (entsT G) key value r A D ∧ TWhole E G.alloc (entsT G ++ A) D (r.toList.map .val) t R')
      (fun t R' => ∃ A, Part (entsT G) key value A ∧ TBroken E G.alloc (entsT G ++ A) t R') := by
  refine .place ?_
  refine .bind (.onRoot (insertUniqueNode_spec S key value G.level G.g)) ?_ ?_
  · rintro ⟨old, r⟩ t' R' ⟨ht, so, A, D, hr, hsw, g, hg, hX, hR⟩
    obtain rfl : r = sib G.level so := hr
    obtain rfl : t' = rawT ⟨G.alloc, G.level, g⟩ := by rw [ht, hg]; rfl
    cases so with
    | none => exact .pure ⟨A, D, hsw, ⟨G.alloc, G.level, g⟩, rfl, rfl, by simpa [sibE] using hX, by simpa [sibT] using hR⟩
    | some c =>
      rw [sibT_some] at hR
      rw [sibE_some] at hX
      refine .bind (P₀ := fun _ => TWhole E G.alloc (entsT G ++ A) D (old.toList.map .val)) (F₀ := TBroken E G.alloc (entsT G ++ A)) ?_ ?_ (fun _ _ h => ⟨A, hsw.part, h⟩)
      · refine .guarded (F₀ := fun t R' => ∃ R₁, TBroken E G.alloc (entsT G ++ A) t R₁ ∧ R' = R₁ ++ old.toList.map .val)
          (.last (Fr := old.toList.map .val) (branch_spec ⟨G.alloc, G.level, g⟩ S c (.refl _)) (by permsU [hR]) ?_ ?_) ?_
        · rintro _ t R₁ ⟨G', h1, h2, h4, h3⟩
          change (entsT G' ++ []).Perm (ents G.level g ++ ents G.level c) at h4
          exact ⟨G', h1, h2, by simp only [entsT] at h4 ⊢; permsU [h4, hX], by permsU [h3]⟩
        · intro t R₁ h
          exact ⟨R₁, h.lose (D := D) (by
            show (ents G.level g ++ ents G.level c ++ D).Perm (ents G.level G.g ++ A)
            permsU [hX]), rfl⟩
        · rintro t _ ⟨R₁, h, rfl⟩
          exact (dropOption_quiet old).last List.perm_append_comm (by rintro _ _ rfl; exact h)
      · intro _ t R' h
        exact .pure ⟨A, D, hsw, h⟩
  · rintro t' R' ⟨ht, A, hA, h⟩
    exact ⟨A, hA, h.tree (by rw [ht]; rfl) (by rw [ht]; rfl)⟩

theorem tryUnbranch_spec (G : GT B K V) (S : Fit E G.alloc.maxChildren) (Y : List (Thing B K V)) {R : List (Thing B K V)} (hR : R.Perm (treeT E G ++ Y)) :
    Spec (tryUnbranch E : U B K V Q (UTree B) Unit) (rawT G) R (fun _ => TWhole E G.alloc (entsT G) [] Y) (fun t R' => TWhole E G.alloc (entsT G) [] Y t R') := by
  obtain ⟨a, l, g⟩ := G
  refine .place ?_
  cases l with
  | zero => exact .pure ⟨⟨a, 0, g⟩, rfl, rfl, by simp, hR⟩
  | succ l =>
    show Spec (if g.vec.len = 1 then _ else _) _ _ _ _
    refine .len (E := E) (cap := a.maxChildren) (l := l + 1) (v := g.vec) (kids := g.kids) (Fr := bT g.bounds.mem :: thingsL E a.maxChildren (l + 1) g.kids ++ Y) (by permsU [hR]) ?_
    intro hlen _
    split
    next hone =>
      refine .call (Fr := bT g.bounds.mem :: thingsL E a.maxChildren (l + 1) g.kids ++ Y) (.onRoot (t := rawT ⟨a, l + 1, g⟩) (swapRemove_spec S (l + 1) (raw g) g.kids 0)) (by
        show R.Perm ([vT E a.maxChildren (l + 1) g.vec g.kids] ++ _)
        permsU [hR]) ?_ ?_
      · rintro _ t' _ ⟨ht, x, kids', rfl, hk, hb, rfl⟩
        obtain ⟨ta, tl, ⟨nb, nv⟩⟩ := t'
        cases ht
        obtain rfl : nb = g.bounds := hb
        have hth := thingsL_perm (E := E) (cap := a.maxChildren) hk
        refine .lift (b := raw x) rfl ?_
        refine .place ?_
        refine (dropContainer_quiet S (l + 1) ⟨g.bounds, nv, kids'⟩).call (Fr := nodeT E a.maxChildren l x ++ Y) (by
          show List.Perm ([vT E a.maxChildren (l + 1) nv kids'] ++ _) _
          permsU [hth]) ?_
        rintro _ _ rfl
        have hnil : kids' = [] := by
          have := hk.length_eq
          rw [List.length_cons] at this
          exact List.length_eq_zero_iff.1 (by omega)
        subst hnil
        have e := hk.flatMap_right (entsI (B := Own B) (K := K) (V := V) (l + 1))
        have e' : (ents l x ++ []).Perm (ents (l + 1) g) := by permsU [e]
        refine .put ?_
        refine (destroyed_spec (T := []) (T' := []) (.refl _) pure_quiet pure_quiet ⟨⟨a, l, x⟩, rfl, rfl, e', .refl _⟩ ⟨⟨a, l, x⟩, rfl, rfl, e', .refl _⟩).mono ?_
          (fun _ _ h => h)
        rintro _ _ _ ⟨rfl, rfl⟩
        exact ⟨⟨a, l, x⟩, rfl, rfl, e', .refl _⟩
      · rintro t' _ ⟨ht, h, rfl⟩
        refine ⟨⟨a, l + 1, g⟩, rfl, by rw [ht, h]; rfl, by simp, ?_⟩
        show List.Perm ([vT E a.maxChildren (l + 1) g.vec g.kids] ++ _) _
        permsU
    next => exact .pure ⟨⟨a, l + 1, g⟩, rfl, rfl, by simp, hR⟩

/-! ### Reinsertion -/

/-- An iterator over a vector of elements of level `l`. -/
abbrev iT (E : TEnv) (cap l : Nat) (it : IntoIter) (kids : List (It B K V l)) : Thing B K V :=
  .chunk (iterC (RTree.slotEnv E l) cap it (kids.map (cell l)))

theorem slotEntry_cell : ∀ (l : Nat) (x : It B K V l), Raw.RTree.slotEntry l (cell l x) = .ok (rawE l x)
  | 0, _ => rfl
  | _ + 1, _ => rfl

theorem dropIter_quiet (S : Fit E cap) (l : Nat) (it : IntoIter) (kids : List (It B K V l)) :
    Quiet (dropIter E cap l it : U B K V Q σ Unit) (iT E cap l it kids :: thingsL E cap l kids) (fun _ R' => R' = []) := by
  intro s
  refine .call (F₀ := fun _ _ => False) (Fr := thingsL E cap l kids)
    (.memOk (cs := [iterC (RTree.slotEnv E l) cap it (kids.map (cell l))]) (M := fun cells cs' => cells = kids.map (cell l) ∧ cs' = []) ?_)
    (.refl _) ?_ (fun _ _ h => h.elim)
  · intro h H
    obtain ⟨h', h1, t⟩ := IntoIter.drop_tr H (S.size l)
    exact ⟨_, h', [], h1, ⟨rfl, rfl⟩, t⟩
  · rintro cells _ _ ⟨rfl, _, rfl, rfl, rfl⟩
    refine (each_quiet (m := cell l) (T := thingsI E cap l) ?_ kids) _
    intro x s
    refine .lift (slotEntry_cell l x) ?_
    exact dropEntry_quiet S l x s

theorem reinsertLoop_spec (a : Alloc) (S : Fit E a.maxChildren) (j : Nat) : ∀ (n : Nat) (G : GT B K V) (it : IntoIter) (kids : List (It B K V j)) (R : List (Thing B K V)),
    G.alloc = a → kids.length < n → R.Perm (treeT E G ++ iT E a.maxChildren j it kids :: thingsL E a.maxChildren j kids) →
    Spec (reinsertLoop E j n : U B K V Q (UTree B × IntoIter) Unit) (rawT G, it) R
      (fun _ p R' => TWhole E a (entsT G ++ kids.flatMap (entsI j)) [] [iT E a.maxChildren j p.2 ([] : List (It B K V j))] p.1 R')
      (fun p R' => ∃ (kids' : List (It B K V j)) (L : List (Thing B K V)) (G' : GT B K V) (lost : List (K × V)), G'.alloc = a ∧ p.1 = rawT G' ∧
        (entsT G' ++ lost).Perm (entsT G ++ kids.flatMap (entsI j)) ∧
        R'.Perm (treeT E G' ++ (iT E a.maxChildren j p.2 kids' :: thingsL E a.maxChildren j kids' ++ L))) := by
  intro n
  induction n with
  | zero => intro G it kids R _ h; omega
  | succ n ih =>
    intro G it kids R hG hn hR
    subst hG
    rw [reinsertLoop]
    refine .placeSnd ?_
    refine .call (F₀ := fun _ _ => False) (Fr := treeT E G ++ thingsL E G.alloc.maxChildren j kids) (.memOk (cs := [iterC (RTree.slotEnv E j) G.alloc.maxChildren it (kids.map (cell j))])
      (M := fun r cs' => r.2 = (kids.map (cell j)).head? ∧ cs' = [iterC (RTree.slotEnv E j) G.alloc.maxChildren r.1 (kids.tail.map (cell j))]) ?_) (by
        show R.Perm ([iT E G.alloc.maxChildren j it kids] ++ _)
        permsU [hR]) ?_ (fun _ _ h => h.elim)
    · intro h H
      obtain ⟨it', h1, t⟩ := IntoIter.next_tr H (S.size j)
      exact ⟨_, h, _, h1, ⟨rfl, by rw [List.map_tail]⟩, t⟩
    · rintro ⟨it', r⟩ _ _ ⟨rfl, _, rfl, hr, rfl⟩
      obtain rfl : r = (kids.map (cell j)).head? := hr
      refine .bind (P₀ := fun _ p R' => p = (rawT G, it') ∧ R' = [iT E G.alloc.maxChildren j it' kids.tail] ++ (treeT E G ++ thingsL E G.alloc.maxChildren j kids)) (F₀ := fun _ _ => False) ?_ ?_ (fun _ _ h => h.elim)
      · refine (Spec.onSnd (.put' (P₀ := fun _ s' R' => s' = it' ∧ R' = [iT E G.alloc.maxChildren j it' kids.tail] ++ (treeT E G ++ thingsL E G.alloc.maxChildren j kids))
          (F₀ := fun _ _ => False) ⟨rfl, rfl⟩)).mono ?_ (fun _ _ h => h.2)
        rintro _ ⟨_, _⟩ _ ⟨rfl, rfl, rfl⟩
        exact ⟨rfl, rfl⟩
      · rintro _ _ _ ⟨rfl, rfl⟩
        cases kids with
        | nil =>
          refine .pure ⟨G, rfl, rfl, by simp, ?_⟩
          show List.Perm ([iT E G.alloc.maxChildren j it' ([] : List (It B K V j))] ++ _) _
          permsU
        | cons x kids =>
          refine .lift (slotEntry_cell j x) ?_
          refine .call (Fr := iT E G.alloc.maxChildren j it' kids :: thingsL E G.alloc.maxChildren j kids) (.onFst (insertEntry_spec G S j x)) (by
            show List.Perm ([iT E G.alloc.maxChildren j it' kids] ++ _) _
            permsU) ?_ ?_
          · rintro _ ⟨t, _⟩ R₁ ⟨rfl, G', hG', ht, hX, hR'⟩
            obtain rfl : t = rawT G' := ht
            have hX' : (entsT G' ++ kids.flatMap (entsI j)).Perm (entsT G ++ (x :: kids).flatMap (entsI j)) := by permsU [hX]
            refine (ih G' _ kids _ hG' (by rw [List.length_cons] at hn; omega) (by permsU [hR'])).mono ?_ ?_
            · intro _ p R' h
              exact h.perm hX'
            · rintro p R' ⟨kids', L, G'', lost, h1, h2, h3, h4⟩
              exact ⟨kids', L, G'', lost, h1, h2, h3.trans hX', h4⟩
          · rintro ⟨t, _⟩ R₁ ⟨rfl, G', lost, L, hG', ht, hX, hR'⟩
            exact ⟨kids, L, G', lost ++ kids.flatMap (entsI j), hG', ht, by permsU [hX], by permsU [hR']⟩

/-- What waits to be reinserted. -/
inductive Pend (E : TEnv) (cap : Nat) : List (Option FCVec × Nat) → List (K × V) → List (Thing B K V) → Prop
  | nil : Pend E cap [] [] []
  | skip {j : Nat} {ss : List (Option FCVec × Nat)} {D : List (K × V)} {Y : List (Thing B K V)} : Pend E cap ss D Y → Pend E cap ((none, j) :: ss) D Y
  | fill {j : Nat} {ss : List (Option FCVec × Nat)} {D : List (K × V)} {Y : List (Thing B K V)} (v : FCVec) (kids : List (It B K V j)) :
    Pend E cap ss D Y → Pend E cap ((some v, j) :: ss) (kids.flatMap (entsI j) ++ D) (vT E cap j v kids :: thingsL E cap j kids ++ Y)

theorem Pend.append {ss ss' : List (Option FCVec × Nat)} {D D' : List (K × V)} {Y Y' : List (Thing B K V)} (h : Pend E cap ss D Y) (h' : Pend E cap ss' D' Y') :
    Pend E cap (ss ++ ss') (D ++ D') (Y ++ Y') := by
  induction h with
  | nil => exact h'
  | skip _ ih => exact .skip ih
  | fill v kids _ ih =>
    have := Pend.fill v kids ih
    rw [← List.append_assoc, ← List.append_assoc] at this
    exact this

theorem Slots.pend {l : Nat} {ss : RSlots} {D : List (K × V)} {Y : List (Thing B K V)} (h : Slots E cap l ss D Y) : Pend E cap ss.zipIdx D Y := by
  induction h with
  | nil => exact .nil
  | @skip l' ss' D' Y' h ih =>
    rw [List.zipIdx_append]
    have := ih.append (.skip (j := 0 + ss'.length) .nil)
    rw [List.append_nil, List.append_nil] at this
    exact this
  | @fill l' ss' D' Y' v kids h ih =>
    rw [List.zipIdx_append]
    obtain rfl := h.length
    have e : [some v].zipIdx (0 + List.length ss') = [(some v, List.length ss')] := by rw [Nat.zero_add]; rfl
    rw [e]
    have := ih.append (.fill v kids .nil)
    rw [List.append_nil, List.append_nil] at this
    exact this

theorem reinsert_spec (a : Alloc) (S : Fit E a.maxChildren) : ∀ (ss : List (Option FCVec × Nat)) (D : List (K × V)) (Y : List (Thing B K V)), Pend E a.maxChildren ss D Y →
    ∀ (G : GT B K V) (R : List (Thing B K V)), G.alloc = a → R.Perm (treeT E G ++ Y) →
    Spec (reinsert E ss : U B K V Q (UTree B) Unit) (rawT G) R (fun _ => TWhole E a (entsT G ++ D) [] []) (TBroken E a (entsT G ++ D)) := by
  intro ss D Y h
  induction h with
  | nil => intro G R hG hR; exact .pure ⟨G, hG, rfl, .refl _, hR⟩
  | skip _ ih => intro G R hG hR; exact ih G R hG hR
  | @fill j ss D Y v kids _ ih =>
    intro G R hG hR
    subst hG
    rw [reinsert]
    refine .place ?_
    refine .len (E := E) (cap := G.alloc.maxChildren) (l := j) (v := v) (kids := kids) (Fr := treeT E G ++ thingsL E G.alloc.maxChildren j kids ++ Y) (by permsU [hR]) ?_
    intro hlen _
    refine .call (F₀ := fun _ _ => False) (Fr := treeT E G ++ thingsL E G.alloc.maxChildren j kids ++ Y) (.memOk (cs := [vecC (RTree.slotEnv E j) G.alloc.maxChildren v (kids.map (cell j))])
      (M := fun it cs' => cs' = [iterC (RTree.slotEnv E j) G.alloc.maxChildren it (kids.map (cell j))]) ?_) (by
        show R.Perm ([vT E G.alloc.maxChildren j v kids] ++ _)
        permsU [hR]) ?_ (fun _ _ h => h.elim)
    · intro h H
      obtain ⟨it, h1, t⟩ := IntoIter.new_tr H
      exact ⟨_, h, _, h1, rfl, t⟩
    · rintro it _ _ ⟨rfl, _, rfl, rfl⟩
      refine .call (P₀ := fun r t R' => TWhole E G.alloc (entsT G ++ kids.flatMap (entsI j)) [] [iT E G.alloc.maxChildren j r.2 ([] : List (It B K V j))] t R') (F₀ := TBroken E G.alloc (entsT G ++ kids.flatMap (entsI j))) (Fr := Y)
        (Spec.withLocal (reinsertLoop_spec G.alloc S j (v.len + 1) G it kids _ rfl (by omega) (.refl _)) ?_) (by
          show List.Perm ([iT E G.alloc.maxChildren j it kids] ++ _) _
          permsU) ?_ (fun _ _ h => (h.lose (D := D) (by permsU)).more)
      · rintro ⟨t, it'⟩ R' ⟨kids', L, G', lost, hG', ht, hX, hR'⟩
        refine (dropIter_quiet S j it' kids').last (Fr := treeT E G' ++ L) (by permsU [hR']) ?_
        rintro _ _ rfl
        exact ⟨G', lost, L, hG', ht, hX, .refl _⟩
      · rintro ⟨_, it'⟩ t R₁ ⟨G', hG', rfl, hX, hR'⟩
        refine (dropIter_quiet S j it' ([] : List (It B K V j))).call (Fr := treeT E G' ++ Y) (by permsU [hR']) ?_
        rintro _ _ rfl
        have hX' : (entsT G' ++ D).Perm (entsT G ++ (kids.flatMap (entsI j) ++ D)) := by permsU [hX]
        exact (ih G' _ hG' (.refl _)).mono (fun _ _ _ h => h.perm hX') (fun _ _ h => h.perm hX')

theorem onRootR_spec {t : UTree B} {ss : RSlots} {x : U B K V Q (Removing B) β} {R : List (Thing B K V)} {P : β → Removing B → List (Thing B K V) → Prop}
    {F : Removing B → List (Thing B K V) → Prop} (hx : Spec x (t.root, ss) R P F) :
    Spec (onRootR ss x) t R (fun b t' R' => t' = { t with root := t'.root } ∧ P b.1 (t'.root, b.2) R')
      (fun t' R' => t' = { t with root := t'.root } ∧ ∃ ss', F (t'.root, ss') R') := by
  intro w H
  have h := hx w H
  change Post _ _ _ _ ((x (t.root, ss) w).1.map (fun b => (b, (x (t.root, ss) w).2.1.2)), { t with root := (x (t.root, ss) w).2.1.1 }, (x (t.root, ss) w).2.2)
  rcases hr : x (t.root, ss) w with ⟨r, ⟨n', ss'⟩, w'⟩
  rw [hr] at h
  cases r with
  | ok b => obtain ⟨R', h1, h2⟩ := h; exact ⟨R', ⟨rfl, h1⟩, h2⟩
  | error e =>
    cases e with
    | panic => obtain ⟨R', h1, h2⟩ := h; exact ⟨R', ⟨rfl, ss', h1⟩, h2⟩
    | fatal => exact h

theorem remove_spec (G : GT B K V) (S : Fit E G.alloc.maxChildren) (q : Q) :
    Spec (remove E q : U B K V Q (UTree B) (Option V)) (rawT G) (treeT E G)
      (fun r t R' => ∃ D, Taken r D ∧ TWhole E G.alloc (entsT G) D (r.toList.map .val) t R') (TBroken E G.alloc (entsT G)) := by
  have key := removeNode_spec S q G.level [] G.g
  rw [List.append_nil] at key
  refine .place ?_
  refine .bind (onRootR_spec (t := rawT G) key) ?_ ?_
  · rintro ⟨r, _⟩ t' R' ⟨ht, ss, D, D', Y, h1, htk, h2, h3, h4⟩
    obtain rfl := h2
    rw [List.append_nil]
    obtain ⟨G', hG', rfl, hX, hR'⟩ := h3.tree (by rw [ht]; rfl) (by rw [ht]; rfl)
    cases r with
    | none =>
      obtain ⟨rfl, rfl, rfl, rfl⟩ := h4 rfl
      exact .pure ⟨[], htk, G', hG', rfl, hX, hR'⟩
    | some v =>
      refine .bind (P₀ := fun _ => TWhole E G.alloc (entsT G) D' [.val v]) (F₀ := TBroken E G.alloc (entsT G)) ?_ ?_ (fun _ _ h => h)
      · refine .guarded (F₀ := fun t R' => ∃ R₁, TBroken E G.alloc (entsT G) t R₁ ∧ R' = R₁ ++ [.val v]) ?_ ?_
        · refine .call (Fr := [.val v]) (tryUnbranch_spec G' (by rw [hG']; exact S) Y (.refl _)) (by
            change R'.Perm (treeT E G' ++ (.val v :: Y)) at hR'
            permsU [hR']) ?_ ?_
          · rintro _ t R₁ ⟨G'', hG'', rfl, hX'', hR''⟩
            rw [hG'] at hG''
            refine .last (Fr := [.val v]) (reinsert_spec G.alloc S ss.zipIdx D Y h1.pend G'' R₁ hG'' hR'') (.refl _) ?_ ?_
            · rintro _ t R₂ ⟨G₃, h5, h6, h8, h7⟩
              exact ⟨G₃, h5, h6, by simp only [entsT] at h8 hX'' hX ⊢; permsU [h8, hX'', hX], by permsU [h7]⟩
            · intro t R₂ h
              exact ⟨R₂, h.lose (D := D') (by simp only [entsT] at hX'' hX ⊢; permsU [hX'', hX]), rfl⟩
          · rintro t R₁ h
            rw [hG'] at h
            exact ⟨R₁, h.broken.lose (D := D' ++ D) hX, rfl⟩
        · rintro t _ ⟨R₁, h, rfl⟩
          exact (dropValue_quiet v).last (Fr := R₁) (by permsU) (by rintro _ _ rfl; exact h)
      · intro _ t R' h
        exact .pure ⟨D', htk, h⟩
  · rintro t' R' ⟨ht, ss', h⟩
    exact h.tree (by rw [ht]; rfl) (by rw [ht]; rfl)

/-! ### Making, cloning and reading trees -/

theorem newTree_spec (c : Config) (S : Fit E c.maxChildren) (s : σ) : Spec (newTree E c : U B K V Q σ (UTree B)) s []
    (fun t s' R' => s' = s ∧ TWhole E { minChildren := c.minChildren, maxChildren := c.maxChildren } [] [] [] t R') (Still s []) := by
  refine .ask ?_ ⟨rfl, rfl⟩
  intro b
  refine .bind (new_spec S 0 s) ?_ (fun _ _ h => h)
  rintro v s _ ⟨rfl, rfl⟩
  refine (newBounds_quiet b).call (Fr := [vT E c.maxChildren 0 v ([] : List (It B K V 0))]) (.refl _) ?_
  rintro o _ rfl
  exact .pure ⟨rfl, ⟨{ minChildren := c.minChildren, maxChildren := c.maxChildren }, 0, ⟨o, v, []⟩⟩, rfl, rfl, .refl _, .refl _⟩

end RTree.Unwind
