import Verif.Proofs.UnwindInsert
/-!
# Lookup and unique insertion, with user code that can panic
-/

namespace RTree.Unwind

open Raw

variable {B K V Q σ τ β γ : Type} {E : TEnv} {cap : Nat}

theorem read_entries (S : Fit E cap) (g : Gh B K V 0) {R X : List (Thing B K V)} (hR : R.Perm (nodeT E cap 0 g ++ X)) {h : Raw.Heap (UCell B K V)} (H : Has h (chunksT R)) :
    entries E (raw g).vec h = .ok (g.kids, h) :=
  entries_read (kids := g.kids) S (has_vec (E := E) (cap := cap) (l := 0) (v := g.vec) (kids := g.kids) (Fr := bT g.bounds.mem :: thingsL E cap 0 g.kids ++ X) H (by permsU [hR]))

theorem read_nodes (S : Fit E cap) {l : Nat} (g : Gh B K V (l + 1)) {R X : List (Thing B K V)} (hR : R.Perm (nodeT E cap (l + 1) g ++ X)) {h : Raw.Heap (UCell B K V)}
    (H : Has h (chunksT R)) : nodes E (raw g).vec h = .ok (g.kids.map raw, h) :=
  nodes_read (kids := g.kids) S (has_vec (E := E) (cap := cap) (l := l + 1) (v := g.vec) (kids := g.kids) (Fr := bT g.bounds.mem :: thingsL E cap (l + 1) g.kids ++ X) H
    (by permsU [hR]))

/-- The place of an entry in a tree, through which its value can be replaced. -/
def Loc (E : TEnv) (cap l : Nat) (g : Gh B K V l) (p : FCVec × Nat) : Prop :=
  ∃ (kids : List (K × V)) (_ : p.2 < kids.length) (X : List (Thing B K V)), kids[p.2] ∈ ents l g ∧
    (nodeT E cap l g).Perm (vT (B := B) E cap 0 p.1 kids :: .val kids[p.2].2 :: X) ∧
    ∀ v : V, ∃ g' : Gh B K V l, raw g' = raw g ∧ (ents l g' ++ [kids[p.2]]).Perm (ents l g ++ [(kids[p.2].1, v)]) ∧
      (nodeT E cap l g').Perm (vT (B := B) E cap 0 p.1 (kids.set p.2 (kids[p.2].1, v)) :: .val v :: X)

theorem Loc.leaf (g : Gh B K V 0) {i : Nat} (hi : i < g.kids.length) : Loc E cap 0 g (g.vec, i) := by
  refine ⟨g.kids, hi, bT g.bounds.mem :: .key g.kids[i].1 :: thingsL E cap 0 (g.kids.eraseIdx i), List.mem_flatMap.2 ⟨g.kids[i], List.getElem_mem hi, List.mem_singleton.2 rfl⟩, ?_, ?_⟩
  · have := flatMap_get (thingsI (B := B) E cap 0) hi
    have e : thingsI (B := B) E cap 0 g.kids[i] = [.key g.kids[i].1, .val g.kids[i].2] := rfl
    rw [e] at this
    permsU [this]
  · intro v
    refine ⟨{ g with kids := g.kids.set i (g.kids[i].1, v) }, rfl, ?_, ?_⟩
    · have e1 := flatMap_set (entsI (B := Own B) (K := K) (V := V) 0) hi (g.kids[i].1, v)
      have e2 := flatMap_get (entsI (B := Own B) (K := K) (V := V) 0) hi
      have e3 : ∀ e, entsI (B := Own B) (K := K) (V := V) 0 e = [e] := fun _ => rfl
      rw [e3] at e1 e2
      show ((g.kids.set i (g.kids[i].1, v)).flatMap _ ++ [g.kids[i]]).Perm (g.kids.flatMap _ ++ [(g.kids[i].1, v)])
      permsU [e1, e2]
    have := flatMap_set (thingsI (B := B) E cap 0) hi (g.kids[i].1, v)
    have e : thingsI (B := B) E cap 0 (g.kids[i].1, v) = [.key g.kids[i].1, .val v] := rfl
    rw [e] at this
    permsU [this]

theorem Loc.inner {l : Nat} (g : Gh B K V (l + 1)) {i : Nat} (hi : i < g.kids.length) {p : FCVec × Nat} (h : Loc E cap l g.kids[i] p) :
    Loc E cap (l + 1) g p := by
  obtain ⟨kids, hk, X, hm, h1, h2⟩ := h
  refine ⟨kids, hk, bT g.bounds.mem :: vT E cap (l + 1) g.vec g.kids :: X ++ thingsL E cap (l + 1) (g.kids.eraseIdx i),
    List.mem_flatMap.2 ⟨g.kids[i], List.getElem_mem hi, hm⟩, ?_, ?_⟩
  · have := flatMap_get (thingsI E cap (l + 1)) hi
    permsU [this, h1]
  · intro v
    obtain ⟨c, h3, h3', h4⟩ := h2 v
    refine ⟨{ g with kids := g.kids.set i c }, rfl, ?_, ?_⟩
    · have e1 := flatMap_set (entsI (B := Own B) (K := K) (V := V) (l + 1)) hi c
      have e2 := flatMap_get (entsI (B := Own B) (K := K) (V := V) (l + 1)) hi
      permsU [e1, e2, h3']
    have := flatMap_set (thingsI E cap (l + 1)) hi c
    have e : (g.kids.set i c).map (cell (l + 1)) = g.kids.map (cell (l + 1)) := by
      rw [List.map_set]
      have : cell (l + 1) c = cell (l + 1) g.kids[i] := by rw [cell, h3]; rfl
      rw [this]
      apply List.ext_getElem (by simp)
      intro j h5 h6
      rw [List.getElem_set]
      split
      · subst j; simp
      · rfl
    simp only [nodeT, vT, e]
    permsU [this, h4]

/-- Neither the place nor what is owned changes. -/
abbrev Still (s : σ) (R : List (Thing B K V)) (s' : σ) (R' : List (Thing B K V)) : Prop := s' = s ∧ R' = R

theorem position_spec (p : Code B K V Q → K → Bool) (s : σ) (R : List (Thing B K V)) : ∀ (es : List (K × V)) (i : Nat),
    Spec (position p es i : U B K V Q σ (Option Nat)) s R (fun r s' R' => (∀ j, r = some j → i ≤ j ∧ j < i + es.length) ∧ Still s R s' R') (Still s R) := by
  intro es
  induction es with
  | nil => intro i; exact .pure ⟨by rintro _ ⟨⟩, rfl, rfl⟩
  | cons e es ih =>
    intro i
    refine .ask ?_ ⟨rfl, rfl⟩
    intro b
    cases b with
    | true =>
      refine .pure ⟨?_, rfl, rfl⟩
      rintro j ⟨⟩
      simp
    | false =>
      refine (ih (i + 1)).mono ?_ (fun _ _ h => h)
      rintro r s' R' ⟨h1, h2⟩
      refine ⟨?_, h2⟩
      intro j hj
      have := h1 j hj
      rw [List.length_cons]
      omega

theorem find_spec (S : Fit E cap) (b : Code B K V Q → B) (p : Code B K V Q → K → Bool) (s : σ) (R : List (Thing B K V)) : ∀ (l : Nat) (g : Gh B K V l)
    (X : List (Thing B K V)), R.Perm (nodeT E cap l g ++ X) →
    Spec (find E b p l (raw g) : U B K V Q σ (Option (FCVec × Nat))) s R (fun r s' R' => (∀ q, r = some q → Loc E cap l g q) ∧ Still s R s' R') (Still s R) := by
  intro l
  induction l with
  | zero =>
    intro g X hR
    refine .read (fun h H => read_entries S g hR H) ?_
    refine .bind (position_spec p s R g.kids 0) ?_ (fun _ _ h => h)
    rintro r _ _ ⟨hj, rfl, rfl⟩
    refine .pure ⟨?_, rfl, rfl⟩
    intro q hq
    cases r with
    | none => cases hq
    | some j =>
      cases hq
      exact .leaf g (by have := hj j rfl; omega)
  | succ l ih =>
    intro g X hR
    refine .read (fun h H => read_nodes S g hR H) ?_
    have key : ∀ cs : List (Gh B K V l), (∀ c ∈ cs, c ∈ g.kids) →
        Spec (findChildren b (find E b p l) (cs.map raw) : U B K V Q σ (Option (FCVec × Nat))) s R
          (fun r s' R' => (∀ q, r = some q → Loc E cap (l + 1) g q) ∧ Still s R s' R') (Still s R) := by
      intro cs
      induction cs with
      | nil => intro _; exact .pure ⟨by rintro _ ⟨⟩, rfl, rfl⟩
      | cons c cs ihc =>
        intro hc
        have hcs := ihc fun d hd => hc d (List.mem_cons_of_mem _ hd)
        refine .ask ?_ ⟨rfl, rfl⟩
        intro yes
        cases yes with
        | false => exact hcs
        | true =>
          obtain ⟨i, hi, rfl⟩ := List.getElem_of_mem (hc c List.mem_cons_self)
          have hp : R.Perm (nodeT E cap l g.kids[i] ++ (bT g.bounds.mem :: vT E cap (l + 1) g.vec g.kids :: thingsL E cap (l + 1) (g.kids.eraseIdx i) ++ X)) := by
            have := flatMap_get (thingsI E cap (l + 1)) hi
            permsU [hR, this]
          refine .bind (ih g.kids[i] _ hp) ?_ (fun _ _ h => h)
          rintro r _ _ ⟨hq, rfl, rfl⟩
          cases r with
          | none => exact hcs
          | some q =>
            refine .pure ⟨?_, rfl, rfl⟩
            rintro _ ⟨⟩
            exact .inner g hi (hq q rfl)
    exact key g.kids fun _ h => h

theorem readEntry_read (S : Fit E cap) {h : Raw.Heap (UCell B K V)} {v : FCVec} {kids : List (K × V)} (H : Has h [vecC E.entry cap v (kids.map (cell (B := Own B) 0))])
    {i : Nat} (hi : i < kids.length) : readEntry E (v, i) h = .ok (kids[i], h) := by
  have := FCVec.get_ok H.owns S.entry i
  have hx : index (kids.map (cell (B := Own B) 0)) i = .ok (.entry kids[i]) := by simp [index, hi, cell]
  rw [hx] at this
  rw [readEntry, bind_ok this]; rfl

/-- Reading the entry at its place. -/
theorem Loc.read (S : Fit E cap) {l : Nat} {g : Gh B K V l} {p : FCVec × Nat} (hp : Loc E cap l g p) {R X : List (Thing B K V)} (hR : R.Perm (nodeT E cap l g ++ X)) :
    ∃ e : K × V, e ∈ ents l g ∧ ∀ h : Raw.Heap (UCell B K V), Has h (chunksT R) → readEntry E p h = .ok (e, h) := by
  obtain ⟨kids, hi, Y, hm, h1, _⟩ := hp
  refine ⟨kids[p.2], hm, fun h H => ?_⟩
  exact readEntry_read (v := p.1) S (has_vec (B := B) (l := 0) (kids := kids) (Fr := .val kids[p.2].2 :: Y ++ X) H (by
    show R.Perm (vT E cap 0 p.1 kids :: _)
    permsU [hR, h1])) hi

/-- Replacing the value at its place. -/
theorem replaceValue_quiet (S : Fit E cap) {l : Nat} {g : Gh B K V l} {p : FCVec × Nat} (hp : Loc E cap l g p) (v : V) :
    Quiet (mem (replaceValue E p v) : U B K V Q σ V) (nodeT E cap l g ++ [.val v]) (fun old R' => ∃ (g' : Gh B K V l) (k : K), raw g' = raw g ∧ (k, old) ∈ ents l g ∧
      (ents l g' ++ [(k, old)]).Perm (ents l g ++ [(k, v)]) ∧ R'.Perm (nodeT E cap l g' ++ [.val old])) := by
  obtain ⟨kids, hi, Y, hm, h1, h2⟩ := hp
  obtain ⟨g', h3, h3', h4⟩ := h2 v
  intro s
  refine .last (F₀ := fun _ _ => False) (Fr := .val kids[p.2].2 :: .val v :: Y) (.memOk (cs := [vecC E.entry cap p.1 (kids.map (cell (B := Own B) 0))])
    (M := fun old cs' => old = kids[p.2].2 ∧ cs' = [vecC E.entry cap p.1 ((kids.set p.2 (kids[p.2].1, v)).map (cell (B := Own B) 0))]) ?_) ?_ ?_ (fun _ _ h => h)
  · intro h H
    have hr := readEntry_read S H hi
    obtain ⟨h', h5, t⟩ := FCVec.set_tr H S.entry (i := p.2) (by simpa using hi) (.entry (kids[p.2].1, v))
    refine ⟨_, h', _, ?_, ⟨rfl, rfl⟩, ?_⟩
    · rw [replaceValue, bind_ok hr, bind_ok h5]; rfl
    · rw [List.map_set]; exact t
  · show (nodeT E cap l g ++ [Thing.val v]).Perm ([vT (B := B) E cap 0 p.1 kids] ++ _)
    permsU [h1]
  · rintro _ _ _ ⟨rfl, _, rfl, rfl, rfl⟩
    refine ⟨rfl, g', kids[p.2].1, h3, hm, h3', ?_⟩
    show ([vT (B := B) E cap 0 p.1 (kids.set p.2 (kids[p.2].1, v))] ++ _).Perm _
    permsU [h4]

theorem onlyLoop_spec (key : K) (s : σ) (R : List (Thing B K V)) : ∀ (ns : List (UNode B)) (i : Nat) (found : Option Nat),
    Spec (onlyLoop key ns i found : U B K V Q σ (GetOnly Nat)) s R (fun _ s' R' => Still s R s' R') (Still s R) := by
  intro ns
  induction ns with
  | nil => rintro i (_ | j) <;> exact .pure ⟨rfl, rfl⟩
  | cons n ns ih =>
    rintro i (_ | j)
    · rw [onlyLoop.eq_3]
      refine .ask ?_ ⟨rfl, rfl⟩
      rintro (_ | _)
      · exact ih _ _
      · exact ih _ _
    · rw [onlyLoop.eq_4]
      refine .ask ?_ ⟨rfl, rfl⟩
      rintro (_ | _)
      · exact ih _ _
      · exact .pure ⟨rfl, rfl⟩

/-- What a unique insertion adds and takes away: it adds the new pair; or it replaces the value of some key. -/
def Swapped (X : List (K × V)) (key : K) (value : V) : Option V → List (K × V) → List (K × V) → Prop
  | none, A, D => A = [(key, value)] ∧ D = []
  | some old, A, D => ∃ k, (k, old) ∈ X ∧ A = [(k, value)] ∧ D = [(k, old)]

theorem Swapped.mono {X X' : List (K × V)} {key : K} {value : V} {r : Option V} {A D : List (K × V)} (h : Swapped X key value r A D) (hX : ∀ e ∈ X, e ∈ X') :
    Swapped X' key value r A D := by
  cases r with
  | none => exact h
  | some old => obtain ⟨k, h1, h2⟩ := h; exact ⟨k, hX _ h1, h2⟩

/-- A panicking unique insertion lost the new pair, added it, or replaced the value of some key. -/
def Part (X : List (K × V)) (key : K) (value : V) (A : List (K × V)) : Prop := ∃ k, A = [(k, value)] ∧ (k = key ∨ ∃ old, (k, old) ∈ X)

theorem Part.mono {X X' : List (K × V)} {key : K} {value : V} {A : List (K × V)} (h : Part X key value A) (hX : ∀ e ∈ X, e ∈ X') : Part X' key value A := by
  obtain ⟨k, h1, h2⟩ := h
  exact ⟨k, h1, h2.imp_right fun ⟨old, h⟩ => ⟨old, hX _ h⟩⟩

theorem Part.new (X : List (K × V)) (key : K) (value : V) : Part X key value [(key, value)] := ⟨key, rfl, .inl rfl⟩

theorem Swapped.part {X : List (K × V)} {key : K} {value : V} {r : Option V} {A D : List (K × V)} (h : Swapped X key value r A D) : Part X key value A := by
  cases r with
  | none => exact ⟨key, h.1, .inl rfl⟩
  | some old => obtain ⟨k, h1, h2, _⟩ := h; exact ⟨k, h2, .inr ⟨old, h1⟩⟩

/-- The node after a panicking unique insertion. -/
def BrokenU (E : TEnv) (cap l : Nat) (key : K) (value : V) (X : List (K × V)) (n : UNode B) (R : List (Thing B K V)) : Prop :=
  ∃ A, Part X key value A ∧ Broken E cap l (X ++ A) n R

/-- After a unique insertion into a node with entries `X`. -/
def InsU (E : TEnv) (cap l : Nat) (key : K) (value : V) (X : List (K × V)) (r : Option V × Option (Nat × UNode B)) (n : UNode B) (R : List (Thing B K V)) : Prop :=
  ∃ (so : Option (Gh B K V l)) (A D : List (K × V)), r.2 = sib l so ∧ Swapped X key value r.1 A D ∧
    Whole E cap l (X ++ A) (D ++ sibE l so) (r.1.toList.map .val ++ sibT E cap l so) n R

/-- Bounds are dropped before a unique insertion returns. -/
theorem returning_insU (S : Fit E cap) {l : Nat} {key : K} {value : V} {X : List (K × V)} {b : B} {x : U B K V Q (UNode B) (Option V × Option (Nat × UNode B))} {n : UNode B}
    {R : List (Thing B K V)} (hx : Spec x n R (InsU E cap l key value X) (BrokenU E cap l key value X)) :
    Spec (returning b (fun r => do
      dropOption r.1
      dropSibling E cap r.2) x) n R (InsU E cap l key value X) (BrokenU E cap l key value X) := by
  refine returning_spec hx ?_
  rintro ⟨old, _⟩ n' R' ⟨so, A, D, h, hsw, g, rfl, hX, hR'⟩
  obtain rfl := h
  refine ⟨old.toList.map .val ++ sibT E cap l so, nodeT E cap l g, by permsU [hR'], ?_, ⟨A, hsw.part, g, _, _, rfl, hX, List.perm_append_comm⟩,
    ⟨A, hsw.part, g, _, [], rfl, hX, by rw [List.append_nil]⟩⟩
  intro s
  refine (dropOption_quiet old).call (.refl _) ?_
  rintro _ _ rfl
  exact dropSibling_quiet S l so s

theorem replaced_spec (S : Fit E cap) {l : Nat} {g : Gh B K V l} {p : FCVec × Nat} (hp : Loc E cap l g p) (b : B) (key : K) (value : V) {R : List (Thing B K V)}
    (hR : R.Perm (nodeT E cap l g ++ [.key key, .val value])) :
    Spec (replaced E b key value p : U B K V Q (UNode B) (Option V × Option (Nat × UNode B)))
      (raw g) R (InsU E cap l key value (ents l g)) (BrokenU E cap l key value (ents l g)) := by
  refine (replaceValue_quiet S hp value).call (Fr := [.key key]) (by permsU [hR]) ?_
  rintro old R₁ ⟨g', k, h1, hm, hX, h2⟩
  have hB : ∀ L R', R'.Perm (nodeT E cap l g' ++ L) → BrokenU E cap l key value (ents l g) (raw g) R' := fun L R' h =>
    ⟨[(k, value)], ⟨k, rfl, .inr ⟨old, hm⟩⟩, g', [(k, old)], L, h1.symm, hX, h⟩
  refine destroyed_call (T := [.key key]) (T' := [.val old]) (Fr := nodeT E cap l g') (by permsU [h2]) (dropKey_quiet key) (dropValue_quiet old)
    (hB [.val old] _ (by permsU)) (hB [] _ (by rw [List.append_nil])) ?_
  refine (dropKey_quiet key).call (Fr := nodeT E cap l g' ++ [.val old]) (by permsU [h2]) ?_
  rintro _ _ rfl
  refine destroyed_call (T := []) (T' := [.val old]) (Fr := nodeT E cap l g') (by permsU) pure_quiet (dropValue_quiet old)
    (hB [.val old] _ (by permsU)) (hB [] _ (by rw [List.append_nil])) ?_
  exact .pure ⟨none, [(k, value)], [(k, old)], rfl, ⟨k, hm, rfl, rfl⟩, g', h1.symm, hX, .refl _⟩

theorem insertedNew_spec {a : Alloc} (S : Fit E a.maxChildren) (l : Nat) (g : Gh B K V l) (b : B) (key : K) (value : V) {R : List (Thing B K V)}
    (hR : R.Perm (nodeT E a.maxChildren l g ++ [.key key, .val value])) :
    Spec (notReplaced E a b key value l : U B K V Q (UNode B) (Option V × Option (Nat × UNode B))) (raw g) R
      (InsU E a.maxChildren l key value (ents l g)) (BrokenU E a.maxChildren l key value (ents l g)) := by
  refine .perm hR (.bind (returning_ins S (insertNode_spec S 0 (key, value) l g)) ?_ (fun _ _ h => ⟨_, .new _ _ _, h⟩))
  rintro r n' R' ⟨so, rfl, h⟩
  exact .pure ⟨so, _, _, rfl, ⟨rfl, rfl⟩, h⟩

theorem insertUniqueNode_spec {a : Alloc} (S : Fit E a.maxChildren) (key : K) (value : V) : ∀ (l : Nat) (g : Gh B K V l),
    Spec (insertUniqueNode E a key value l : U B K V Q (UNode B) (Option V × Option (Nat × UNode B))) (raw g)
      (nodeT E a.maxChildren l g ++ [.key key, .val value]) (InsU E a.maxChildren l key value (ents l g)) (BrokenU E a.maxChildren l key value (ents l g)) := by
  intro l
  induction l with
  | zero =>
    intro g
    have hp : (nodeT E a.maxChildren 0 g ++ [Thing.key key, Thing.val value]).Perm ([Thing.key key, Thing.val value] ++ nodeT E a.maxChildren 0 g) := List.perm_append_comm
    have hF : BrokenU E a.maxChildren 0 key value (ents 0 g) (raw g) (nodeT E a.maxChildren 0 g) := ⟨_, .new _ _ _, g, _, [], rfl, .refl _, by rw [List.append_nil]⟩
    refine guarded_ask hp (dropPair_quiet key value) hF ?_
    intro b
    refine .bind (guarded_keep (P := fun r s' R' => (∀ j, r = some j → j < g.kids.length) ∧ Still (raw g) (nodeT E a.maxChildren 0 g ++ [.key key, .val value]) s' R')
      ?_ hp (dropPair_quiet key value) hF) ?_ (fun _ _ h => h)
    · refine .place ?_
      refine .read (fun h H => read_entries S g (.refl _) H) ?_
      refine (position_spec _ _ _ g.kids 0).mono ?_ (fun _ _ h => h)
      rintro r s' R' ⟨h1, h2⟩
      exact ⟨fun j hj => by have := h1 j hj; omega, h2⟩
    · rintro r _ _ ⟨hj, rfl, rfl⟩
      cases r with
      | some i =>
        refine .place ?_
        exact replaced_spec S (.leaf g (hj i rfl)) b key value (.refl _)
      | none => exact insertedNew_spec S 0 g b key value (.refl _)
  | succ l ih =>
    intro g
    have hp : (nodeT E a.maxChildren (l + 1) g ++ [Thing.key key, Thing.val value]).Perm ([Thing.key key, Thing.val value] ++ nodeT E a.maxChildren (l + 1) g) := List.perm_append_comm
    have hF : BrokenU E a.maxChildren (l + 1) key value (ents (l + 1) g) (raw g) (nodeT E a.maxChildren (l + 1) g) := ⟨_, .new _ _ _, g, _, [], rfl, .refl _, by rw [List.append_nil]⟩
    refine guarded_ask hp (dropPair_quiet key value) hF ?_
    intro b
    refine .bind (guarded_keep (P := fun _ s' R' => Still (raw g) (nodeT E a.maxChildren (l + 1) g ++ [.key key, .val value]) s' R')
      ?_ hp (dropPair_quiet key value) hF) ?_ (fun _ _ h => h)
    · refine .place ?_
      refine .read (fun h H => read_nodes S g (.refl _) H) ?_
      exact onlyLoop_spec key _ _ _ _ _
    · rintro only _ _ ⟨rfl, rfl⟩
      cases only with
      | none => exact insertedNew_spec S (l + 1) g b key value (.refl _)
      | only i =>
        refine returning_insU S ?_
        refine .bind (onChild_spec (Y := fun r A D y => ∃ (so : Option (Gh B K V l)) (D' : List (K × V)), r.2 = sib l so ∧ Swapped (ents (l + 1) g) key value r.1 A D' ∧ D = D' ++ sibE l so ∧
          y = r.1.toList.map .val ++ sibT E a.maxChildren l so) (Z := Part (ents (l + 1) g) key value) ⟨_, .new _ _ _⟩ S l g i (.refl _) ?_)
          ?_ (fun _ _ h => h)
        · intro c hc
          refine (ih c).mono ?_ (by rintro _ _ ⟨A, hA, h⟩; exact ⟨A, hA.mono fun e he => List.mem_flatMap.2 ⟨c, hc, he⟩, h⟩)
          rintro r n' R' ⟨so, A, D, h1, h3, h2⟩
          exact ⟨_, _, _, ⟨so, D, h1, h3.mono fun e he => List.mem_flatMap.2 ⟨c, hc, he⟩, rfl, rfl⟩, h2⟩
        · rintro ⟨old, _⟩ n' R' ⟨A, _, _, ⟨so, D, h1, hsw, rfl, rfl⟩, g', rfl, hX, hR'⟩
          obtain rfl := h1
          refine .call (Fr := []) (P₀ := fun r n' R' => ∃ so' : Option (Gh B K V (l + 1)), r = sib (l + 1) so' ∧
            Whole E a.maxChildren (l + 1) (ents (l + 1) g ++ A) (D ++ sibE (l + 1) so') (old.toList.map .val ++ sibT E a.maxChildren (l + 1) so') n' R') (F₀ := BrokenU E a.maxChildren (l + 1) key value (ents (l + 1) g)) ?_ (by rw [List.append_nil]) ?_
            (fun _ _ h => by rw [List.append_nil]; exact h)
          · refine .guarded (F₀ := fun n' R' => ∃ R₁, BrokenU E a.maxChildren (l + 1) key value (ents (l + 1) g) n' R₁ ∧ R' = R₁ ++ old.toList.map .val) ?_ ?_
            · refine .last (Fr := old.toList.map .val) (afterChild_spec S l b g' so (.refl _)) (by permsU [hR']) ?_ ?_
              · rintro r n'' R₁ ⟨so', h1, g'', h2, h4, h3⟩
                exact ⟨so', h1, g'', h2, by permsU [h4, hX], by permsU [h3]⟩
              · intro n'' R₁ h
                exact ⟨R₁, ⟨A, hsw.part, h.lose (D := D) (by permsU [hX])⟩, rfl⟩
            · rintro n'' _ ⟨R₁, h, rfl⟩
              exact (dropOption_quiet old).last List.perm_append_comm (by rintro _ _ rfl; exact h)
          · rintro r n'' R₁ ⟨so', h1, h2⟩
            rw [List.append_nil]
            exact .pure ⟨so', A, D, h1, hsw, h2⟩
      | multiple =>
        refine .bind (guarded_keep (P := fun r s' R' => (∀ q, r = some q → Loc E a.maxChildren (l + 1) g q) ∧
          Still (raw g) (nodeT E a.maxChildren (l + 1) g ++ [.key key, .val value]) s' R') ?_ hp (dropPair_quiet key value) hF) ?_ (fun _ _ h => h)
        · refine .place ?_
          exact find_spec S _ _ _ _ (l + 1) g [.key key, .val value] (.refl _)
        · rintro r _ _ ⟨hq, rfl, rfl⟩
          cases r with
          | some q => exact replaced_spec S (hq q rfl) b key value (.refl _)
          | none => exact insertedNew_spec S (l + 1) g b key value (.refl _)

end RTree.Unwind
