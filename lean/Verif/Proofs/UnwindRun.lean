import Verif.Proofs.UnwindForest
/-!
# Cloning, reading, and programs, with user code that can panic
-/

namespace RTree.Unwind

open Raw

variable {B K V Q σ τ β γ : Type} {E : TEnv} {cap : Nat}

/-! ### Cloning -/

/-- A vector under construction, leaked things, and what was there before. -/
def Making (E : TEnv) (cap l : Nat) (s : σ) (R₀ : List (Thing B K V)) (p : σ × FCVec) (L : List (Thing B K V)) (R : List (Thing B K V)) : Prop :=
  p.1 = s ∧ ∃ kids : List (It B K V l), R.Perm (vT E cap l p.2 kids :: thingsL E cap l kids ++ L ++ R₀)

/-- A vector with `n` entries, complete. -/
def Made (E : TEnv) (cap l : Nat) (s : σ) (R₀ : List (Thing B K V)) (n : Nat) (p : σ × FCVec) (R : List (Thing B K V)) : Prop :=
  p.1 = s ∧ ∃ kids : List (It B K V l), (kids.flatMap (entsI l)).length = n ∧ R.Perm (vT E cap l p.2 kids :: thingsL E cap l kids ++ R₀)

theorem entsI_zero (e : K × V) : entsI (B := B) 0 e = [e] := rfl

theorem cloneEntries_spec (S : Fit E cap) (s : σ) (R₀ : List (Thing B K V)) : ∀ (es : List (K × V)) (v : FCVec) (kids : List (K × V)) (R : List (Thing B K V)),
    R.Perm (vT (B := B) E cap 0 v kids :: thingsL (B := B) E cap 0 kids ++ R₀) →
    Spec (cloneEntries E cap es : U B K V Q (σ × FCVec) Unit) (s, v) R (fun _ p R' => Made E cap 0 s R₀ (kids.length + es.length) p R') (fun p R' => Making E cap 0 s R₀ p [] R') := by
  intro es
  induction es with
  | nil => intro v kids R hR; exact .pure ⟨rfl, kids, by
      show (kids.flatMap (fun e => [e])).length = _
      simp, hR⟩
  | cons e es ih =>
    intro v kids R hR
    have hF : Making E cap 0 s R₀ (s, v) [] R := ⟨rfl, kids, by
      show R.Perm (vT (B := B) E cap 0 v kids :: thingsL (B := B) E cap 0 kids ++ [] ++ R₀)
      permsU [hR]⟩
    refine .ask ?_ hF
    intro k
    refine (makeKey_quiet k).call (Fr := R) (.refl _) ?_
    rintro _ _ rfl
    refine guarded_ask (T := [.key k]) (Fr := R) (.refl _) (dropKey_quiet k) hF ?_
    intro x
    refine (makeValue_quiet x).call (Fr := [.key k] ++ R) (.refl _) ?_
    rintro _ _ rfl
    have e1 : thingsI (B := B) E cap 0 (k, x) = [.key k, .val x] := rfl
    refine .call (Fr := thingsL (B := B) E cap 0 kids ++ R₀) (.onSnd (pushLocal_spec (B := B) S 0 v kids (k, x))) (by
      show List.Perm _ (vT (B := B) E cap 0 v kids :: [.key k, .val x] ++ _)
      permsU [hR]) ?_ ?_
    · rintro _ ⟨_, v'⟩ _ ⟨rfl, rfl⟩
      refine (ih v' (kids ++ [(k, x)]) _ ?_).mono (fun _ p R' h => by
        have e : (kids ++ [(k, x)]).length + es.length = kids.length + (e :: es).length := by simp; omega
        rw [e] at h; exact h) (fun _ _ h => h)
      show List.Perm (vT (B := B) E cap 0 v' (kids ++ [(k, x)]) :: [.key k, .val x] ++ _) _
      simp only [thingsL, List.flatMap_append, List.flatMap_cons, List.flatMap_nil, e1]
      permsU
    · rintro ⟨_, v'⟩ _ ⟨rfl, rfl, rfl⟩
      exact ⟨rfl, kids, by
        show List.Perm _ (vT (B := B) E cap 0 _ kids :: thingsL (B := B) E cap 0 kids ++ [] ++ R₀)
        simp⟩

theorem cloneNodes_spec (S : Fit E cap) (l : Nat) (s : σ) {rec : UNode B → U B K V Q σ (UNode B)} (R₀ : List (Thing B K V)) : ∀ (cs : List (Gh B K V l)),
    (∀ c ∈ cs, ∀ R X, R.Perm (R₀ ++ X) → Spec (rec (raw c)) s R (fun n s' R' => s' = s ∧ ∃ g : Gh B K V l, n = raw g ∧ (ents l g).length = (ents l c).length ∧ R'.Perm (nodeT E cap l g ++ R))
      (fun s' R' => s' = s ∧ ∃ L, R'.Perm (L ++ R))) →
    ∀ (v : FCVec) (kids : List (Gh B K V l)) (R : List (Thing B K V)), R.Perm (vT E cap (l + 1) v kids :: thingsL E cap (l + 1) kids ++ R₀) →
    Spec (cloneNodes E cap rec (cs.map raw) : U B K V Q (σ × FCVec) Unit) (s, v) R (fun _ p R' => Made E cap (l + 1) s R₀ ((kids.flatMap (entsI (l + 1))).length + (cs.flatMap (entsI (B := Own B) (K := K) (V := V) (l + 1))).length) p R')
      (fun p R' => ∃ L, Making E cap (l + 1) s R₀ p L R') := by
  intro cs
  induction cs with
  | nil => intro _ v kids R hR; exact .pure ⟨rfl, kids, rfl, hR⟩
  | cons c cs ih =>
    intro hrec v kids R hR
    rw [List.map_cons, cloneNodes]
    refine .bind (.onFst (hrec c List.mem_cons_self R (vT E cap (l + 1) v kids :: thingsL E cap (l + 1) kids) (hR.trans List.perm_append_comm))) ?_ ?_
    · rintro n ⟨s', v'⟩ R' ⟨hv, hs, g, rfl, hlen, hR'⟩
      obtain rfl : v' = v := hv
      obtain rfl : s' = s := hs
      refine .call (Fr := restT E cap (l + 1) g ++ thingsL E cap (l + 1) kids ++ R₀) (.onSnd (pushLocal_spec S (l + 1) v' kids g)) (by
        show R'.Perm (vT E cap (l + 1) v' kids :: [bT g.bounds.mem] ++ (vT E cap l g.vec g.kids :: thingsL E cap l g.kids ++ _ ++ _))
        permsU [hR', hR]) ?_ ?_
      · rintro _ ⟨s', v''⟩ _ ⟨rfl, rfl⟩
        refine (ih (fun d hd => hrec d (List.mem_cons_of_mem _ hd)) v'' (kids ++ [g]) _ ?_).mono (fun _ p R' h => by
          have e : ((kids ++ [g]).flatMap (entsI (l + 1))).length + (cs.flatMap (entsI (B := Own B) (K := K) (V := V) (l + 1))).length =
              (kids.flatMap (entsI (l + 1))).length + ((c :: cs).flatMap (entsI (B := Own B) (K := K) (V := V) (l + 1))).length := by
            simp only [List.flatMap_append, List.flatMap_cons, List.flatMap_nil, List.length_append, List.append_nil, entsI_succ]
            simp only [ents] at hlen
            omega
          rw [e] at h; exact h) (fun _ _ h => h)
        show List.Perm (vT E cap (l + 1) v'' (kids ++ [g]) :: [bT g.bounds.mem] ++ (vT E cap l g.vec g.kids :: thingsL E cap l g.kids ++ _ ++ _)) _
        permsU
      · rintro ⟨s', v''⟩ _ ⟨rfl, rfl, rfl⟩
        exact ⟨restT E cap (l + 1) g, rfl, kids, by
          show List.Perm _ (vT E cap (l + 1) _ kids :: thingsL E cap (l + 1) kids ++ restT E cap (l + 1) g ++ R₀)
          permsU⟩
    · rintro ⟨s', v'⟩ R' ⟨hv, hs, L, hR'⟩
      obtain rfl : v' = v := hv
      exact ⟨L, hs, kids, by permsU [hR', hR]⟩

theorem cloneNode_spec (S : Fit E cap) : ∀ (l : Nat) (s : σ) (g : Gh B K V l) (R X : List (Thing B K V)), R.Perm (nodeT E cap l g ++ X) →
    Spec (cloneNode E cap l (raw g) : U B K V Q σ (UNode B)) s R (fun n s' R' => s' = s ∧ ∃ g' : Gh B K V l, n = raw g' ∧ (ents l g').length = (ents l g).length ∧ R'.Perm (nodeT E cap l g' ++ R))
      (fun s' R' => s' = s ∧ ∃ L, R'.Perm (L ++ R)) := by
  intro l
  induction l with
  | zero =>
    intro s g R X hR
    have hF : s = s ∧ ∃ L, R.Perm (L ++ R) := ⟨rfl, [], .refl _⟩
    refine .ask ?_ hF
    intro b
    refine .bind (P₀ := fun _ => Still s R) (F₀ := Still s R) (.panicIf (fun _ => ⟨rfl, rfl⟩) (fun _ => ⟨rfl, rfl⟩)) ?_ (by rintro _ _ ⟨rfl, rfl⟩; exact hF)
    rintro _ s R ⟨rfl, rfl⟩
    refine .call (Fr := R) (new_spec S 0 s) (.refl _) ?_ (by rintro _ _ ⟨rfl, rfl⟩; exact hF)
    rintro v s _ ⟨rfl, rfl⟩
    refine .bind (Spec.withLocal (P := fun _ p R' => Made E cap 0 s R g.kids.length p R') (F₁ := fun p R' => Making E cap 0 s R p [] R') ?_ ?_) ?_ (fun _ _ h => h)
    · refine .read (fun h H => read_entries (X := vT E cap 0 v ([] : List (It B K V 0)) :: X) S g (by permsU [hR]) H) ?_
      refine (cloneEntries_spec S s R g.kids v [] _ (.refl _)).mono (fun _ p R' h => ?_) (fun _ _ h => h)
      rw [List.length_nil, Nat.zero_add] at h; exact h
    · rintro ⟨s', v'⟩ R' ⟨hs, kids, hR'⟩
      obtain rfl : s' = s := hs
      have h1 := things_split (E := E) (cap := cap) 0 kids
      refine (dropVec_quiet S 0 v' kids).last (Fr := restL E cap 0 kids ++ R) (by permsU [hR', h1]) ?_
      rintro _ _ rfl
      exact ⟨rfl, restL E cap 0 kids, .refl _⟩
    · rintro ⟨_, v'⟩ s' R' ⟨hs, kids, hn, hR'⟩
      obtain rfl : s' = s := hs
      refine (newBounds_quiet b).call (Fr := R') (.refl _) ?_
      rintro o _ rfl
      exact .pure ⟨rfl, ⟨o, v', kids⟩, rfl, hn.trans (by
        show _ = (g.kids.flatMap (fun e => [e])).length
        simp), by permsU [hR']⟩
  | succ l ih =>
    intro s g R X hR
    have hF : s = s ∧ ∃ L, R.Perm (L ++ R) := ⟨rfl, [], .refl _⟩
    refine .ask ?_ hF
    intro b
    refine .call (Fr := R) (new_spec S (l + 1) s) (.refl _) ?_ (by rintro _ _ ⟨rfl, rfl⟩; exact hF)
    rintro v s _ ⟨rfl, rfl⟩
    refine .bind (Spec.withLocal (P := fun _ p R' => Made E cap (l + 1) s R (ents (l + 1) g).length p R') (F₁ := fun p R' => ∃ L, Making E cap (l + 1) s R p L R') ?_ ?_) ?_ (fun _ _ h => h)
    · refine .read (fun h H => read_nodes (X := vT E cap (l + 1) v ([] : List (It B K V (l + 1))) :: X) S g (by permsU [hR]) H) ?_
      refine (cloneNodes_spec S l s R g.kids ?_ v [] _ (.refl _)).mono (fun _ p R' h => by
        rw [List.flatMap_nil, List.length_nil, Nat.zero_add] at h; exact h) (fun _ _ h => h)
      intro c hc R' X' hR'
      obtain ⟨i, hi, rfl⟩ := List.getElem_of_mem hc
      refine ih s g.kids[i] R' (bT g.bounds.mem :: vT E cap (l + 1) g.vec g.kids :: thingsL E cap (l + 1) (g.kids.eraseIdx i) ++ X ++ X') ?_
      have := flatMap_get (thingsI E cap (l + 1)) hi
      permsU [hR', hR, this]
    · rintro ⟨s', v'⟩ R' ⟨L, hs, kids, hR'⟩
      obtain rfl : s' = s := hs
      have h1 := things_split (E := E) (cap := cap) (l + 1) kids
      refine (dropVec_quiet S (l + 1) v' kids).last (Fr := restL E cap (l + 1) kids ++ L ++ R) (by permsU [hR', h1]) ?_
      rintro _ _ rfl
      exact ⟨rfl, restL E cap (l + 1) kids ++ L, .refl _⟩
    · rintro ⟨_, v'⟩ s' R' ⟨hs, kids, hn, hR'⟩
      obtain rfl : s' = s := hs
      refine (newBounds_quiet b).call (Fr := R') (.refl _) ?_
      rintro o _ rfl
      exact .pure ⟨rfl, ⟨o, v', kids⟩, rfl, hn, by permsU [hR']⟩

/-! ### Reading -/

theorem get_spec (G : GT B K V) (S : Fit E G.alloc.maxChildren) (q : Q) :
    Spec (get E q : U B K V Q (UTree B) (Option V)) (rawT G) (treeT E G) (fun r s' R' => (∀ v, r = some v → ∃ k, (k, v) ∈ entsT G) ∧ Still (rawT G) (treeT E G) s' R')
      (Still (rawT G) (treeT E G)) := by
  refine .place ?_
  refine .bind (find_spec S _ _ _ _ G.level G.g [] (by rw [List.append_nil])) ?_ (fun _ _ h => h)
  rintro r _ _ ⟨hq, rfl, rfl⟩
  cases r with
  | none => exact .pure ⟨(by intro v h; cases h), rfl, rfl⟩
  | some p =>
    obtain ⟨e, hm, he⟩ := (hq p rfl).read (R := treeT E G) (X := []) S (by rw [List.append_nil])
    exact .read he (.pure ⟨(by rintro v ⟨⟩; exact ⟨e.1, hm⟩), rfl, rfl⟩)

theorem setValue_spec (G : GT B K V) (S : Fit E G.alloc.maxChildren) (q : Q) (v : V) :
    Spec (setValue E q v : U B K V Q (UTree B) (Option V)) (rawT G) (treeT E G ++ [.val v])
      (fun r t R' => match r with
        | none => t = rawT G ∧ R' = treeT E G
        | some old => ∃ k, (k, old) ∈ entsT G ∧ TWhole E G.alloc (entsT G ++ [(k, v)]) [(k, old)] [.val old] t R')
      (Still (rawT G) (treeT E G)) := by
  refine .place ?_
  refine .bind (guarded_keep (find_spec S _ _ _ _ G.level G.g [.val v] (.refl _)) List.perm_append_comm (dropValue_quiet v)
    (F := Still (rawT G) (treeT E G)) ⟨rfl, rfl⟩) ?_ (fun _ _ h => h)
  rintro r _ _ ⟨hq, rfl, rfl⟩
  cases r with
  | none =>
    refine (dropValue_quiet v).call (Fr := treeT E G) (by permsU) ?_
    rintro _ _ rfl
    exact .pure ⟨rfl, by simp⟩
  | some p =>
    refine (replaceValue_quiet S (hq p rfl) v).call (Fr := []) (by rw [List.append_nil]) ?_
    rintro old R₁ ⟨g', k, h1, hm, hX, h2⟩
    exact .pure ⟨k, hm, ⟨G.alloc, G.level, g'⟩, rfl, by rw [rawT, rawT, h1], hX, by
      show List.Perm _ (nodeT E G.alloc.maxChildren G.level g' ++ [Thing.val old])
      permsU [h2]⟩

theorem vec_len {l : Nat} (g : Gh B K V l) {h : Raw.Heap (UCell B K V)} (H : Has h (chunksT (nodeT E cap l g))) : g.vec.len = g.kids.length := by
  have h1 := has_vec (E := E) (cap := cap) (l := l) (v := g.vec) (kids := g.kids) (Fr := bT g.bounds.mem :: thingsL E cap l g.kids) H (by permsU)
  have := h1.owns.len
  rwa [List.length_map] at this

theorem lenNode_read (S : Fit E cap) : ∀ (l : Nat) (g : Gh B K V l) (h : Raw.Heap (UCell B K V)), Has h (chunksT (nodeT E cap l g)) →
    Raw.lenNode E l (raw g) h = .ok ((ents l g).length, h) := by
  intro l
  induction l with
  | zero =>
    intro g h H
    have e : (ents (B := Own B) 0 g).length = g.kids.length := by
      show (g.kids.flatMap (fun e => [e])).length = _
      simp
    rw [e, ← vec_len g H]; rfl
  | succ l ih =>
    intro g h H
    have key : ∀ (cs : List (Gh B K V l)) (k : Nat), (∀ c ∈ cs, Has h (chunksT (nodeT E cap l c))) →
        ((cs.map raw).foldlM (fun size c => do pure (size + (← Raw.lenNode E l c))) k : Raw.M (UCell B K V) Nat) h =
          .ok (k + (cs.flatMap (entsI (B := Own B) (K := K) (V := V) (l + 1))).length, h) := by
      intro cs
      induction cs with
      | nil => intro k _; rfl
      | cons c cs ihc =>
        intro k H
        rw [List.map_cons, List.foldlM_cons]
        have h1 : ((do pure (k + (← Raw.lenNode E l (raw c)))) : Raw.M (UCell B K V) Nat) h = .ok (k + (ents l c).length, h) := by
          rw [bind_ok (ih c h (H c List.mem_cons_self))]; rfl
        rw [bind_ok h1, ihc _ fun d hd => H d (List.mem_cons_of_mem _ hd), List.flatMap_cons, List.length_append, Nat.add_assoc]; rfl
    rw [Raw.lenNode, bind_ok (read_nodes (X := []) S g (by rw [List.append_nil]) H), key g.kids 0, Nat.zero_add]
    intro c hc
    obtain ⟨i, hi, rfl⟩ := List.getElem_of_mem hc
    have hp : (nodeT E cap (l + 1) g).Perm (nodeT E cap l g.kids[i] ++ (bT g.bounds.mem :: vT E cap (l + 1) g.vec g.kids :: thingsL E cap (l + 1) (g.kids.eraseIdx i))) := by
      have := flatMap_get (thingsI E cap (l + 1)) hi
      permsU [this]
    have := H.perm (chunksT_perm hp)
    rw [chunksT_append] at this
    exact this.left

end RTree.Unwind
