import Verif.Proofs.UnwindRun
import Verif.UnwindSpec
/-!
# Programs with user code that can panic
-/

namespace RTree.Unwind

open Raw

variable {B K V Q σ τ β γ : Type} {E : TEnv} {cap : Nat} {Z : Nat → Prop}

/-! ### Variables -/

/-- The trees in the variables. -/
abbrev GF (B K V : Type) := List (Option (GT B K V))

/-- The variables. -/
def rawF (gs : GF B K V) : Vars B := gs.map fun o => o.map rawT

/-- All that belongs to the trees. -/
def ownF (E : TEnv) (gs : GF B K V) : List (Thing B K V) := gs.flatMap fun o => o.elim [] (treeT E)

/-- The trees have sizes that fit. -/
def Good (Z : Nat → Prop) (gs : GF B K V) : Prop := ∀ G, some G ∈ gs → Z G.alloc.maxChildren

/-- The contents of the trees. -/
def contF (gs : GF B K V) : Contents K V := gs.map fun o => o.map entsT

/-- Variables holding trees, and other things. -/
def FWhole (E : TEnv) (Z : Nat → Prop) (P : GF B K V → List (Thing B K V) → Prop) (f : Vars B) (R : List (Thing B K V)) : Prop :=
  ∃ (gs : GF B K V) (W : List (Thing B K V)), Good Z gs ∧ f = rawF gs ∧ R.Perm (ownF E gs ++ W) ∧ P gs W

theorem contF_set (gs : GF B K V) (i : Nat) (o : Option (GT B K V)) : contF (gs.set i o) = (contF gs).set i (o.map entsT) := by
  rw [contF, contF, List.map_set]

theorem contF_append (gs : GF B K V) (G : GT B K V) : contF (gs ++ [some G]) = contF gs ++ [some (entsT G)] := by simp [contF]

theorem contF_get {gs : GF B K V} {i : Nat} {G : GT B K V} (hi : gs[i]? = some (some G)) : (contF gs)[i]? = some (some (entsT G)) := by simp [contF, hi]

theorem contF_none {gs : GF B K V} {i : Nat} (hi : ∀ G, gs[i]? ≠ some (some G)) : ∀ es, (contF gs)[i]? ≠ some (some es) := by
  intro es h
  simp only [contF, List.getElem?_map, Option.map_eq_some_iff] at h
  obtain ⟨o, ho, G, rfl, _⟩ := h
  exact hi G ho

/-- The value of a pair was replaced. -/
theorem swapped_perm {es es' : List (K × V)} {k : K} {v old : V} (hm : (k, old) ∈ es) (h : (es' ++ [(k, old)]).Perm (es ++ [(k, v)])) :
    ∃ k rest, es.Perm ((k, old) :: rest) ∧ es'.Perm ((k, v) :: rest) := by
  classical
  have e := List.perm_cons_erase hm
  exact ⟨k, _, e, by perms [h, e]⟩

theorem own_get {gs : GF B K V} {i : Nat} {G : GT B K V} (hi : gs[i]? = some (some G)) : (ownF E gs).Perm (treeT E G ++ ownF E (gs.eraseIdx i)) := by
  obtain ⟨hl, he⟩ := List.getElem?_eq_some_iff.1 hi
  have := flatMap_get (fun o : Option (GT B K V) => o.elim [] (treeT E)) hl
  rw [he] at this
  exact this

theorem own_set {gs : GF B K V} {i : Nat} (hl : i < gs.length) (o : Option (GT B K V)) :
    (ownF E (gs.set i o)).Perm (o.elim [] (treeT E) ++ ownF E (gs.eraseIdx i)) := flatMap_set (fun o : Option (GT B K V) => o.elim [] (treeT E)) hl o

theorem own_append (gs : GF B K V) (G : GT B K V) : ownF E (gs ++ [some G]) = ownF E gs ++ treeT E G := by
  show List.flatMap _ _ = List.flatMap _ _ ++ _
  rw [List.flatMap_append]; simp

theorem rawF_set (gs : GF B K V) (i : Nat) (o : Option (GT B K V)) : (rawF gs).set i (o.map rawT) = rawF (gs.set i o) := by
  rw [rawF, rawF, List.map_set]

theorem rawF_append (gs : GF B K V) (G : GT B K V) : rawF gs ++ [some (rawT G)] = rawF (gs ++ [some G]) := by simp [rawF]

theorem rawF_get {gs : GF B K V} {i : Nat} {G : GT B K V} (hi : gs[i]? = some (some G)) : (rawF gs)[i]? = some (some (rawT G)) := by simp [rawF, hi]

theorem rawF_none {gs : GF B K V} {i : Nat} (hi : ∀ G, gs[i]? ≠ some (some G)) : ∀ t, (rawF gs)[i]? ≠ some (some t) := by
  intro t ht
  simp only [rawF, List.getElem?_map, Option.map_eq_some_iff] at ht
  obtain ⟨o, ho, G, rfl, _⟩ := ht
  exact hi G ho

theorem Good.set {gs : GF B K V} (hg : Good Z gs) (i : Nat) {G : GT B K V} (S : Z G.alloc.maxChildren) : Good Z (gs.set i (some G)) := by
  intro G' h
  rcases List.mem_or_eq_of_mem_set h with h | h
  · exact hg G' h
  · cases h; exact S

theorem Good.set_none {gs : GF B K V} (hg : Good Z gs) (i : Nat) : Good Z (gs.set i none) := by
  intro G' h
  rcases List.mem_or_eq_of_mem_set h with h | h
  · exact hg G' h
  · cases h

theorem Good.append {gs : GF B K V} (hg : Good Z gs) {G : GT B K V} (S : Z G.alloc.maxChildren) : Good Z (gs ++ [some G]) := by
  intro G' h
  rcases List.mem_append.1 h with h | h
  · exact hg G' h
  · simp only [List.mem_cons, Option.some.injEq, List.not_mem_nil, or_false] at h
    subst h; exact S

/-- Work on the tree in a variable. -/
theorem onVar_spec (hF : ∀ n, Z n → Fit E n) {gs : GF B K V} (hg : Good Z gs) (i : Nat) {other : U B K V Q (Vars B) β} {x : U B K V Q (UTree B) β} {Y R : List (Thing B K V)}
    {P : β → GF B K V → List (Thing B K V) → Prop} {F : GF B K V → List (Thing B K V) → Prop} (hR : R.Perm (ownF E gs ++ Y))
    (ho : (∀ G, gs[i]? ≠ some (some G)) → Spec other (rawF gs) R (fun b => FWhole E Z (P b)) (FWhole E Z F))
    (hx : ∀ G, gs[i]? = some (some G) → Fit E G.alloc.maxChildren → Spec x (rawT G) (treeT E G ++ Y)
      (fun b t R' => ∃ W G', G'.alloc = G.alloc ∧ t = rawT G' ∧ R'.Perm (treeT E G' ++ W) ∧ P b (gs.set i (some G')) W)
      (fun t R' => ∃ W G', G'.alloc = G.alloc ∧ t = rawT G' ∧ R'.Perm (treeT E G' ++ W) ∧ F (gs.set i (some G')) W)) :
    Spec (onVar i other x) (rawF gs) R (fun b => FWhole E Z (P b)) (FWhole E Z F) := by
  by_cases hi : ∃ G, gs[i]? = some (some G)
  · obtain ⟨G, hi⟩ := hi
    have hl := (List.getElem?_eq_some_iff.1 hi).1
    have S := hg G (List.mem_of_getElem? hi)
    have key := ((hx G hi (hF _ S)).frame (ownF E (gs.eraseIdx i))).perm (R := R) (by have := own_get (E := E) hi; permsU [hR, this])
    intro w H
    have h := key w H
    have back : ∀ {W G' R₁} {Z₁ : GF B K V → List (Thing B K V) → Prop}, G'.alloc = G.alloc → R₁.Perm (treeT E G' ++ W) → Z₁ (gs.set i (some G')) W →
        FWhole E Z Z₁ ((rawF gs).set i (some (rawT G'))) (R₁ ++ ownF E (gs.eraseIdx i)) := by
      intro W G' R₁ Z ha h3 hZ
      have := own_set (E := E) hl (some G')
      refine ⟨gs.set i (some G'), W, hg.set i (by rw [ha]; exact S), by rw [← rawF_set]; rfl, ?_, hZ⟩
      simp only [Option.elim_some] at this
      permsU [h3, this]
    rw [onVar, rawF_get hi]
    show Post _ _ _ _ ((x (rawT G) w).1, (rawF gs).set i (some (x (rawT G) w).2.1), (x (rawT G) w).2.2)
    rcases hr : x (rawT G) w with ⟨r, t', w'⟩
    rw [hr] at h
    cases r with
    | ok b =>
      obtain ⟨_, ⟨R₁, rfl, W, G', ha, rfl, h1, h2⟩, h3⟩ := h
      exact ⟨_, back ha h1 h2, h3⟩
    | error e =>
      cases e with
      | panic =>
        obtain ⟨_, ⟨R₁, rfl, W, G', ha, rfl, h1, h2⟩, h3⟩ := h
        exact ⟨_, back ha h1 h2, h3⟩
      | fatal => exact h
  · have hi' : ∀ G, gs[i]? ≠ some (some G) := fun G hG => hi ⟨G, hG⟩
    have hn := rawF_none hi'
    intro w H
    have h := ho hi' w H
    have e : onVar i other x (rawF gs) w = other (rawF gs) w := by
      rw [onVar]
      split
      next t ht => exact absurd ht (hn t)
      next => rfl
    rw [e]
    exact h

theorem set_none {α : Type} {xs : List (Option α)} {i : Nat} (hn : ∀ t, xs[i]? ≠ some (some t)) : xs.set i none = xs := by
  refine List.ext_getElem? fun j => ?_
  rw [List.getElem?_set]
  split
  next hj =>
    subst hj
    split
    next hl =>
      rw [List.getElem?_eq_getElem hl]
      cases hx : xs[i] with
      | none => rfl
      | some t => exact absurd (by rw [List.getElem?_eq_getElem hl, hx]) (hn t)
    next hl => rw [List.getElem?_eq_none (by omega)]
  next => rfl

theorem catchPanic_spec {x : U B K V Q σ β} {s : σ} {R : List (Thing B K V)} {P : β → σ → List (Thing B K V) → Prop} {F : σ → List (Thing B K V) → Prop}
    (hx : Spec x s R P F) : Spec (catchPanic x) s R (fun o s' R' => match o with
      | some b => P b s' R'
      | none => F s' R') (fun _ _ => False) := by
  intro w H
  have h := hx w H
  rw [catchPanic]
  rcases hr : x s w with ⟨r, s', w'⟩
  rw [hr] at h
  cases r with
  | ok b => exact h
  | error e =>
    cases e with
    | panic => exact h
    | fatal => exact h

/-! ### Commands -/

/-- The key and value handed over by a command. -/
def givenT : Cmd K V Q → List (Thing B K V)
  | .insert _ k v => [.key k, .val v]
  | .insertUnique _ k v => [.key k, .val v]
  | .replace _ _ v => [.val v]
  | _ => []

/-- What a reply hands to the caller. -/
def returnedT (r : Reply V) : List (Thing B K V) := r.returned.map .val

/-- All trees but one are the same. -/
def Kept (o : Option Nat) (gs gs' : GF B K V) : Prop := ∀ j, j < gs.length → o ≠ some j → gs'[j]? = gs[j]?

theorem Kept.refl (o : Option Nat) (gs : GF B K V) : Kept o gs gs := fun _ _ _ => rfl

theorem Kept.set (gs : GF B K V) (i : Nat) (o : Option (GT B K V)) : Kept (some i) gs (gs.set i o) := fun j _ h => by
  rw [List.getElem?_set_ne fun e => h (by rw [e])]

theorem Kept.same {gs : GF B K V} {i : Nat} {G : GT B K V} (o : Option Nat) (hi : gs[i]? = some (some G)) : Kept o gs (gs.set i (some G)) := fun j hj _ => by
  obtain ⟨hl, he⟩ := List.getElem?_eq_some_iff.1 hi
  rw [← he, List.set_getElem_self]

theorem Kept.append (o : Option Nat) (gs : GF B K V) (G : GT B K V) : Kept o gs (gs ++ [some G]) := fun j hj _ => List.getElem?_append_left hj

/-- The variables after a call that returned. -/
def After (gs : GF B K V) (c : Cmd K V Q) (r : Reply V) (gs' : GF B K V) (W : List (Thing B K V)) : Prop :=
  W = returnedT r ∧ Effect (contF gs) c r (contF gs') ∧ Kept (target c) gs gs'

/-- The variables after a call that panicked. -/
def Burst (gs : GF B K V) (c : Cmd K V Q) (gs' : GF B K V) (_ : List (Thing B K V)) : Prop :=
  Survived (contF gs) c (contF gs') ∧ Kept (target c) gs gs'

theorem set_same {gs : GF B K V} {i : Nat} {G : GT B K V} (hi : gs[i]? = some (some G)) : gs.set i (some G) = gs := by
  obtain ⟨hl, he⟩ := List.getElem?_eq_some_iff.1 hi
  rw [← he, List.set_getElem_self]

/-- The same as before a reading call. -/
theorem reading {gs : GF B K V} {i : Nat} {G : GT B K V} (hi : gs[i]? = some (some G)) {c : Cmd K V Q}
    (hc : Burst gs c gs []) : ∃ W G', G'.alloc = G.alloc ∧ rawT G = rawT G' ∧ (treeT E G).Perm (treeT E G' ++ W) ∧ Burst gs c (gs.set i (some G')) W :=
  ⟨[], G, rfl, rfl, by simp, by rw [set_same hi]; exact hc⟩

/-- No tree in the variable. -/
theorem effect_none {gs : GF B K V} {c : Cmd K V Q} {r : Reply V} {i : Nat} (hn : ∀ G, gs[i]? ≠ some (some G))
    (hc : (match c with
      | .insert i _ _ | .insertUnique i _ _ | .remove i _ | .get i _ | .replace i _ _ | .len i | .isEmpty i | .clone i => some i
      | _ => none) = some i) : Effect (contF gs) c r (contF gs) := by
  have h := contF_none hn
  cases c <;> cases hc <;> (rw [Effect]; split <;> rename_i he <;> first | rfl | exact absurd he (h _))

theorem cmd_spec (hF : ∀ n, Z n → Fit E n) {gs : GF B K V} (hg : Good Z gs) (c : Cmd K V Q) (hc : ∀ d, c = .new d → Z d.maxChildren) {R : List (Thing B K V)}
    (hR : R.Perm (ownF E gs ++ givenT c)) :
    Spec (Cmd.run E c : U B K V Q (Vars B) (Reply V)) (rawF gs) R (fun r => FWhole E Z (After gs c r)) (FWhole E Z (Burst gs c)) := by
  cases c with
  | new d =>
    have S := hc d rfl
    have hR : R.Perm ([] ++ ownF E gs) := by
      change R.Perm (ownF E gs ++ []) at hR
      simpa using hR
    refine .call (newTree_spec d (hF _ S) (rawF gs)) hR ?_ ?_
    · rintro t _ R₁ ⟨rfl, G, ha, rfl, hX, hG⟩
      refine .place (.put (.pure ⟨gs ++ [some G], [], hg.append (by rw [ha]; exact S), rawF_append gs G, ?_, rfl, ?_⟩))
      · rw [own_append]
        permsU [hG]
      · have hX' : entsT G = [] := List.perm_nil.1 (by rw [List.append_nil] at hX; exact hX)
        rw [contF_append, hX']; exact ⟨rfl, .append _ _ _⟩
    · rintro _ R₁ ⟨rfl, rfl⟩
      exact ⟨gs, [], hg, rfl, by simp, rfl, .refl _ _⟩
  | insert i k v =>
    refine onVar_spec hF (Y := [.key k, .val v]) hg i hR ?_ ?_
    · intro hn
      refine (dropPair_quiet k v).call (Fr := ownF E gs) (hR.trans List.perm_append_comm) ?_
      rintro _ _ rfl
      exact .pure ⟨gs, [], hg, rfl, by simp, rfl, effect_none hn rfl, .refl _ _⟩
    · intro G hi S
      refine .bind (insertEntry_spec G S 0 (k, v)) ?_ ?_
      · rintro _ t R' ⟨G', ha, rfl, hX, h⟩
        refine .pure ⟨[], G', ha, rfl, h, rfl, ?_, .set _ _ _⟩
        rw [Effect, contF_get hi]
        refine ⟨entsT G', by rw [contF_set]; rfl, ?_⟩
        change (entsT G' ++ []).Perm (entsT G ++ [(k, v)]) at hX
        show (entsT G').Perm ((k, v) :: entsT G)
        perms [hX]
      · rintro t R' ⟨G', lost, L, ha, rfl, hX, h⟩
        refine ⟨L, G', ha, rfl, h, ?_⟩
        refine ⟨?_, .set _ _ _⟩
        rw [Survived, contF_get hi]
        change (entsT G' ++ lost).Perm (entsT G ++ [(k, v)]) at hX
        exact ⟨entsT G', by rw [contF_set]; rfl, lost, hX.trans List.perm_append_comm⟩
  | insertUnique i k v =>
    refine onVar_spec hF (Y := [.key k, .val v]) hg i hR ?_ ?_
    · intro hn
      refine (dropPair_quiet k v).call (Fr := ownF E gs) (hR.trans List.perm_append_comm) ?_
      rintro _ _ rfl
      exact .pure ⟨gs, [], hg, rfl, by simp, rfl, effect_none hn rfl, .refl _ _⟩
    · intro G hi S
      refine .bind (insertUnique_spec G S k v) ?_ ?_
      · rintro r t R' ⟨A, D, hs, G', ha, rfl, hX, h⟩
        refine .pure ⟨_, G', ha, rfl, h, rfl, ?_, .set _ _ _⟩
        rw [Effect, contF_get hi]
        refine ⟨entsT G', by rw [contF_set]; rfl, ?_⟩
        cases r with
        | none =>
          obtain ⟨rfl, rfl⟩ := hs
          show (entsT G').Perm ((k, v) :: entsT G)
          perms [hX]
        | some old =>
          obtain ⟨k', hm, rfl, rfl⟩ := hs
          exact swapped_perm hm hX
      · rintro t R' ⟨A, ⟨k', rfl, hk⟩, G', lost, L, ha, rfl, hX, h⟩
        refine ⟨L, G', ha, rfl, h, ?_⟩
        refine ⟨?_, .set _ _ _⟩
        rw [Survived, contF_get hi]
        exact ⟨entsT G', by rw [contF_set]; rfl, k', lost, hk, hX.trans List.perm_append_comm⟩
  | remove i q =>
    refine onVar_spec hF (Y := []) hg i hR (fun hn => .pure ⟨gs, [], hg, rfl, hR, rfl, effect_none hn rfl, .refl _ _⟩) ?_
    intro G hi S
    rw [List.append_nil]
    refine .bind (remove_spec G S q) ?_ ?_
    · rintro r t R' ⟨D, ht, G', ha, rfl, hX, h⟩
      refine .pure ⟨_, G', ha, rfl, h, rfl, ?_, .set _ _ _⟩
      rw [Effect, contF_get hi]
      refine ⟨entsT G', by rw [contF_set]; rfl, ?_⟩
      cases r with
      | none =>
        obtain rfl : D = [] := List.map_eq_nil_iff.1 ht
        show (entsT G').Perm (entsT G)
        perms [hX]
      | some v =>
        obtain ⟨⟨k, v'⟩, rfl, hv⟩ := List.map_eq_singleton_iff.1 ht
        obtain rfl : v' = v := hv
        refine ⟨k, ?_⟩
        perms [hX]
    · rintro t R' ⟨G', lost, L, ha, rfl, hX, h⟩
      refine ⟨L, G', ha, rfl, h, ?_⟩
      refine ⟨?_, .set _ _ _⟩
      rw [Survived, contF_get hi]
      exact ⟨entsT G', by rw [contF_set]; rfl, lost, hX⟩
  | get i q =>
    refine onVar_spec hF (Y := []) hg i hR (fun hn => .pure ⟨gs, [], hg, rfl, hR, rfl, effect_none hn rfl, .refl _ _⟩) ?_
    intro G hi S
    rw [List.append_nil]
    refine .bind (get_spec G S q) ?_ (by rintro _ _ ⟨rfl, rfl⟩; exact reading hi ⟨rfl, .refl _ _⟩)
    rintro r _ _ ⟨hv, rfl, rfl⟩
    refine .pure ⟨[], G, rfl, rfl, by simp, rfl, ?_, .same _ hi⟩
    rw [Effect, contF_get hi]
    refine ⟨entsT G, by rw [contF_set]; rfl, ?_⟩
    cases r with
    | none => exact rfl
    | some v => exact ⟨rfl, hv v rfl⟩
  | replace i q v =>
    refine onVar_spec hF (Y := [.val v]) hg i hR ?_ ?_
    · intro hn
      refine (dropValue_quiet v).call (Fr := ownF E gs) (hR.trans List.perm_append_comm) ?_
      rintro _ _ rfl
      exact .pure ⟨gs, [], hg, rfl, by simp, rfl, effect_none hn rfl, .refl _ _⟩
    · intro G hi S
      refine .bind (setValue_spec G S q v) ?_ (by rintro _ _ ⟨rfl, rfl⟩; exact reading hi ⟨rfl, .refl _ _⟩)
      intro r t R' h
      cases r with
      | none =>
        obtain ⟨rfl, rfl⟩ := h
        refine .pure ⟨[], G, rfl, rfl, by simp, rfl, ?_, .set _ _ _⟩
        rw [Effect, contF_get hi]
        exact ⟨entsT G, by rw [contF_set]; rfl, rfl⟩
      | some old =>
        obtain ⟨k, hm, G', ha, rfl, hX, h⟩ := h
        refine .pure ⟨_, G', ha, rfl, h, rfl, ?_, .set _ _ _⟩
        rw [Effect, contF_get hi]
        exact ⟨entsT G', by rw [contF_set]; rfl, swapped_perm hm hX⟩
  | len i =>
    refine onVar_spec hF (Y := []) hg i hR (fun hn => .pure ⟨gs, [], hg, rfl, hR, rfl, effect_none hn rfl, .refl _ _⟩) ?_
    intro G hi S
    rw [List.append_nil]
    refine .place (.read (lenNode_read (B := B) (K := K) (V := V) S G.level G.g) (.pure ⟨[], G, rfl, rfl, by simp, rfl, ?_, .same _ hi⟩))
    rw [Effect, contF_get hi]
    exact ⟨entsT G, by rw [contF_set]; rfl, rfl, rfl⟩
  | isEmpty i =>
    refine onVar_spec hF (Y := []) hg i hR (fun hn => .pure ⟨gs, [], hg, rfl, hR, rfl, effect_none hn rfl, .refl _ _⟩) ?_
    intro G hi S
    rw [List.append_nil]
    refine .place ?_
    refine .len (E := E) (cap := G.alloc.maxChildren) (l := G.level) (v := G.g.vec) (kids := G.g.kids) (Fr := bT G.g.bounds.mem :: thingsL E G.alloc.maxChildren G.level G.g.kids) (by permsU) ?_
    intro hlen _
    refine .pure ⟨[], G, rfl, rfl, by simp, rfl, ?_, .same _ hi⟩
    rw [Effect, contF_get hi]
    refine ⟨entsT G, by rw [contF_set]; rfl, rfl, ?_⟩
    intro h
    have h0 : G.g.vec.len = 0 := beq_iff_eq.1 h
    rw [h0] at hlen
    show G.g.kids.flatMap _ = []
    rw [List.length_eq_zero_iff.1 hlen.symm]; rfl
  | clone i =>
    refine .bind (onVar_spec hF (Y := []) (P := fun r gs' W => match r with
      | none => gs' = gs ∧ W = [] ∧ ∀ G, gs[i]? ≠ some (some G)
      | some t => ∃ G G' : GT B K V, gs' = gs ∧ gs[i]? = some (some G) ∧ Z G'.alloc.maxChildren ∧ t = rawT G' ∧ W = treeT E G' ∧ (entsT G').length = (entsT G).length)
      (F := Burst gs (.clone i)) hg i hR (fun hn => .pure ⟨gs, [], hg, rfl, hR, rfl, rfl, hn⟩) ?_) ?_ (fun _ _ h => h)
    · intro G hi S
      refine .place ?_
      refine .bind (cloneNode_spec S G.level (rawT G) G.g _ [] (.refl _)) ?_ ?_
      · rintro _ s R' ⟨rfl, g', rfl, hn, h⟩
        exact .pure ⟨_, G, rfl, rfl, by permsU [h], G, ⟨G.alloc, G.level, g'⟩, set_same hi, hi, hg G (List.mem_of_getElem? hi), rfl, rfl, hn⟩
      · rintro s R' ⟨rfl, L, h⟩
        exact ⟨L, G, rfl, rfl, by permsU [h], by rw [set_same hi]; exact ⟨rfl, .refl _ _⟩⟩
    · rintro r _ R' ⟨gs', W, hg', rfl, h, hZ⟩
      refine .place ?_
      cases r with
      | none =>
        obtain ⟨rfl, rfl, hn⟩ := hZ
        exact .pure ⟨gs', [], hg', rfl, h, rfl, effect_none hn rfl, .refl _ _⟩
      | some t =>
        obtain ⟨G, G', rfl, hi, S, rfl, rfl, hn⟩ := hZ
        refine .put (.pure ⟨gs' ++ [some G'], [], hg'.append S, rawF_append gs' G', ?_, rfl, ?_, .append _ _ _⟩)
        · rw [own_append]
          permsU [h]
        · rw [Effect, contF_get hi]
          exact ⟨entsT G', contF_append gs' G', hn⟩
  | drop i =>
    refine .place (.put ?_)
    by_cases hi : ∃ G, gs[i]? = some (some G)
    · obtain ⟨G, hi⟩ := hi
      have hl := (List.getElem?_eq_some_iff.1 hi).1
      have S := hg G (List.mem_of_getElem? hi)
      have h1 := own_get (E := E) hi
      have h2 := own_set (E := E) hl none
      rw [rawF_get hi]
      refine (dropContainer_quiet (hF _ S) G.level G.g).call (Fr := ownF E (gs.eraseIdx i)) (by
        have hR' : R.Perm (ownF E gs ++ []) := hR
        permsU [hR', h1]) ?_
      rintro _ _ rfl
      exact .pure ⟨gs.set i none, [], hg.set_none i, by rw [← rawF_set]; rfl, by
        simp only [Option.elim_none] at h2
        permsU [h2], rfl, contF_set gs i none, .set _ _ _⟩
    · have hi' : ∀ G, gs[i]? ≠ some (some G) := fun G hG => hi ⟨G, hG⟩
      have hn := rawF_none hi'
      rw [set_none hn]
      split
      next t ht => exact absurd ht (hn t)
      next => exact .pure ⟨gs, [], hg, rfl, hR, rfl, (set_none (contF_none hi')).symm, .refl _ _⟩

/-- Any program whose panics are caught. -/
theorem run_spec (hF : ∀ n, Z n → Fit E n) : ∀ (cmds : List (Cmd K V Q)) {gs : GF B K V}, Good Z gs → (∀ d, Cmd.new d ∈ cmds → Z d.maxChildren) →
    ∀ {R : List (Thing B K V)}, R.Perm (ownF E gs ++ cmds.flatMap givenT) →
    Spec (run E cmds : U B K V Q (Vars B) (List (Option (Reply V)))) (rawF gs) R
      (fun rs => FWhole E Z fun _ W => ∃ L, W = L ++ rs.flatMap (fun o => o.elim [] returnedT) ∧ ((∀ o ∈ rs, o.isSome) → L = [])) (fun _ _ => False) := by
  intro cmds
  induction cmds with
  | nil => intro gs hg _ R hR; exact .pure ⟨gs, [], hg, rfl, hR, [], rfl, fun _ => rfl⟩
  | cons c cmds ih =>
    intro gs hg hc R hR
    rw [run]
    refine .call (Fr := cmds.flatMap givenT) (catchPanic_spec (cmd_spec hF hg c (fun d hd => hc d (by rw [hd]; exact List.mem_cons_self)) (.refl _))) (by
      rw [List.append_assoc]; exact hR) ?_ (fun _ _ h => h.elim)
    intro o f R₁ h
    have key : FWhole E Z (fun _ W => ∃ L, W = L ++ o.elim [] returnedT ∧ (o.isSome → L = [])) f R₁ := by
      cases o with
      | none => obtain ⟨gs', L, h1, h2, h3, _⟩ := h; exact ⟨gs', L, h1, h2, h3, L, by simp, by simp⟩
      | some r => obtain ⟨gs', _, h1, h2, h3, rfl, _⟩ := h; exact ⟨gs', _, h1, h2, h3, [], rfl, fun _ => rfl⟩
    clear h
    obtain ⟨gs', _, hg', rfl, h, L, rfl, hL⟩ := key
    refine .call (Fr := L ++ o.elim [] returnedT) (ih hg' (fun d hd => hc d (List.mem_cons_of_mem _ hd)) (.refl _)) (by permsU [h]) ?_ (fun _ _ h => h.elim)
    rintro rs f R₂ ⟨gs'', _, hg'', rfl, h', L', rfl, hL'⟩
    refine .pure ⟨gs'', _, hg'', rfl, (by permsU [h']), L' ++ L, rfl, ?_⟩
    intro hall
    rw [hL' fun o ho => hall o (List.mem_cons_of_mem _ ho), hL (hall o List.mem_cons_self)]; rfl

/-! ### Reading everything -/

theorem walk_read (S : Fit E cap) : ∀ (l : Nat) (g : Gh B K V l) (h : Raw.Heap (UCell B K V)), Has h (chunksT (nodeT E cap l g)) →
    walk E l (raw g) h = .ok (ents l g, h) := by
  intro l
  induction l with
  | zero =>
    intro g h H
    rw [walk, read_entries (X := []) S g (by rw [List.append_nil]) H]
    have : ents (B := Own B) 0 g = g.kids := by
      show g.kids.flatMap (fun e => [e]) = g.kids
      simp
    rw [this]
  | succ l ih =>
    intro g h H
    have key : ∀ cs : List (Gh B K V l), (∀ c ∈ cs, Has h (chunksT (nodeT E cap l c))) →
        walkAll (walk E l) (cs.map raw) h = .ok (cs.flatMap (entsI (l + 1)), h) := by
      intro cs
      induction cs with
      | nil => intro _; rw [List.map_nil, walkAll]; rfl
      | cons c cs ihc =>
        intro H
        rw [List.map_cons, walkAll, bind_ok (ih c h (H c List.mem_cons_self)), bind_ok (ihc fun d hd => H d (List.mem_cons_of_mem _ hd))]
        rfl
    rw [walk, bind_ok (read_nodes (X := []) S g (by rw [List.append_nil]) H)]
    refine key g.kids fun c hc => ?_
    obtain ⟨i, hi, rfl⟩ := List.getElem_of_mem hc
    have hp : (nodeT E cap (l + 1) g).Perm (nodeT E cap l g.kids[i] ++ (bT g.bounds.mem :: vT E cap (l + 1) g.vec g.kids :: thingsL E cap (l + 1) (g.kids.eraseIdx i))) := by
      have := flatMap_get (thingsI E cap (l + 1)) hi
      permsU [this]
    have := H.perm (chunksT_perm hp)
    rw [chunksT_append] at this
    exact this.left

theorem keysT_flatMap {α : Type} (xs : List α) (t : α → List (Thing B K V)) : keysT (xs.flatMap t) = xs.flatMap fun x => keysT (t x) := by
  induction xs with
  | nil => rfl
  | cons x xs ih => rw [List.flatMap_cons, keysT_append, ih, List.flatMap_cons]

theorem valsT_flatMap {α : Type} (xs : List α) (t : α → List (Thing B K V)) : valsT (xs.flatMap t) = xs.flatMap fun x => valsT (t x) := by
  induction xs with
  | nil => rfl
  | cons x xs ih => rw [List.flatMap_cons, valsT_append, ih, List.flatMap_cons]

theorem keysT_items (E : TEnv) (cap : Nat) : ∀ (l : Nat) (i : It B K V l), keysT (thingsI E cap l i) = (entsI l i).map (·.1) ∧
    valsT (thingsI E cap l i) = (entsI l i).map (·.2) := by
  intro l
  induction l with
  | zero => intro i; exact ⟨rfl, rfl⟩
  | succ l ih =>
    intro g
    have h : thingsI E cap (l + 1) g = nodeT E cap l g := rfl
    refine ⟨?_, ?_⟩
    · rw [h]
      show keysT (thingsL E cap l g.kids) = ((g.kids.flatMap (entsI l)).map (·.1))
      rw [keysT_flatMap, List.map_flatMap]
      congr 1; funext i; exact (ih i).1
    · rw [h]
      show valsT (thingsL E cap l g.kids) = ((g.kids.flatMap (entsI l)).map (·.2))
      rw [valsT_flatMap, List.map_flatMap]
      congr 1; funext i; exact (ih i).2

theorem keysT_tree (E : TEnv) (G : GT B K V) : keysT (treeT E G) = (ents G.level G.g).map (·.1) := (keysT_items E G.alloc.maxChildren (G.level + 1) G.g).1
theorem valsT_tree (E : TEnv) (G : GT B K V) : valsT (treeT E G) = (ents G.level G.g).map (·.2) := (keysT_items E G.alloc.maxChildren (G.level + 1) G.g).2

end RTree.Unwind
