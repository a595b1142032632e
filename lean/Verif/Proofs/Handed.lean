import Verif.Proofs.Pool
/-!
# Starting threads and waiting for them
-/

namespace RTree.Raw

variable {B K V Q : Type} {E : TEnv}

set_option linter.unusedSectionVars false

theorem handed_cons {T : Type} (owner : Nat → Option Nat) (who : Option Nat) (o : Option T) (f : List (Option T)) :
    handedTo owner who (o :: f) = (if owner 0 = who then o else none) :: handedTo (fun i => owner (i + 1)) who f := by
  rw [handedTo, List.mapIdx_cons]; rfl

theorem handed_map {T U : Type} (F : T → U) (owner : Nat → Option Nat) (who : Option Nat) (f : List (Option T)) :
    handedTo owner who (f.map fun o => o.map F) = (handedTo owner who f).map fun o => o.map F := by
  induction f generalizing owner with
  | nil => rfl
  | cons o f ih =>
    rw [List.map_cons, handed_cons, handed_cons, List.map_cons, ih]
    split <;> rfl

theorem handed_mem {T : Type} {owner : Nat → Option Nat} {who : Option Nat} {f : List (Option T)} {t : T} (h : some t ∈ handedTo owner who f) : some t ∈ f := by
  induction f generalizing owner with
  | nil => exact h
  | cons o f ih =>
    rw [handed_cons, List.mem_cons] at h
    rcases h with h | h
    · split at h
      · rw [h]; exact List.mem_cons_self
      · cases h
    · exact List.mem_cons_of_mem _ (ih h)

namespace Forest

theorem rawF_handed (owner : Nat → Option Nat) (who : Option Nat) (gs : Forest B K V) : handedTo owner who (rawF gs) = rawF (handedTo owner who gs) :=
  handed_map _ owner who gs

theorem absF_handed (owner : Nat → Option Nat) (who : Option Nat) (gs : Forest B K V) : handedTo owner who (absF gs) = absF (handedTo owner who gs) :=
  handed_map _ owner who gs

/-- The blocks of a variable. -/
def ownO (E : TEnv) (o : Option (GTree B K V)) : List (Chunk (Cell B K V)) := o.elim [] (GTree.own E)

theorem own_cons (o : Option (GTree B K V)) (gs : Forest B K V) : own E (o :: gs) = ownO E o ++ own E gs := rfl

theorem handed_sub (owner : Nat → Option Nat) (who : Option Nat) (gs : Forest B K V) : (fps (own E (handedTo owner who gs))).Sublist (fps (own E gs)) := by
  induction gs generalizing owner with
  | nil => exact .refl _
  | cons o gs ih =>
    rw [handed_cons, own_cons, own_cons, fps_append, fps_append]
    split
    · exact (List.Sublist.refl _).append (ih _)
    · exact (List.nil_sublist (fps (ownO E o))).append (ih _)

theorem handed_has {h : Heap (Cell B K V)} (owner : Nat → Option Nat) (who : Option Nat) {gs : Forest B K V} (H : Has h (own E gs)) :
    ∀ c ∈ own E (handedTo owner who gs), c.holds h := by
  induction gs generalizing owner with
  | nil => intro c hc; cases hc
  | cons o gs ih =>
    intro c hc
    rw [own_cons] at H
    rw [handed_cons, own_cons, List.mem_append] at hc
    rcases hc with hc | hc
    · split at hc
      · exact H.left.holds c hc
      · cases hc
    · exact ih _ H.right c hc

theorem handed_apart (owner : Nat → Option Nat) {w w' : Option Nat} (hw : w ≠ w') {gs : Forest B K V} (hn : (fps (own E gs)).Nodup) {a : Nat}
    (h1 : a ∈ fps (own E (handedTo owner w gs))) (h2 : a ∈ fps (own E (handedTo owner w' gs))) : False := by
  induction gs generalizing owner with
  | nil => cases h1
  | cons o gs ih =>
    rw [own_cons, fps_append, List.nodup_append] at hn
    rw [handed_cons, own_cons, fps_append, List.mem_append] at h1 h2
    rcases h1 with h1 | h1
    · split at h1
      next e1 =>
        rcases h2 with h2 | h2
        · split at h2
          next e2 => exact hw (e1.symm.trans e2)
          next => cases h2
        · exact hn.2.2 a h1 a ((handed_sub _ _ _).subset h2) rfl
      next => cases h1
    · rcases h2 with h2 | h2
      · split at h2
        · exact hn.2.2 a h2 a ((handed_sub _ _ _).subset h1) rfl
        · cases h2
      · exact ih _ hn.2.1 h1 h2

theorem handed_all (owner : Nat → Option Nat) {gs : Forest B K V} {a : Nat} (h : a ∈ fps (own E gs)) :
    ∃ i, i < gs.length ∧ a ∈ fps (own E (handedTo owner (owner i) gs)) := by
  induction gs generalizing owner with
  | nil => cases h
  | cons o gs ih =>
    rw [own_cons, fps_append, List.mem_append] at h
    rcases h with h | h
    · refine ⟨0, by simp, ?_⟩
      rw [handed_cons, own_cons, fps_append, if_pos rfl]
      exact List.mem_append_left _ h
    · obtain ⟨i, hi, hm⟩ := ih (fun i => owner (i + 1)) h
      refine ⟨i + 1, by simpa using hi, ?_⟩
      rw [handed_cons, own_cons, fps_append]
      exact List.mem_append_right _ hm

end Forest

open Forest

/-- The blocks in the list; the others are gone. -/
def keep {α : Type} (l : List Nat) (h : Heap α) : Heap α := h.mapIdx fun i o => if i ∈ l then o else none

theorem keep_length {α : Type} (l : List Nat) (h : Heap α) : (keep l h).length = h.length := by simp [keep]

theorem keep_in {α : Type} {l : List Nat} {h : Heap α} {a : Nat} (ha : a ∈ l) : (keep l h)[a]? = h[a]? := by
  rw [keep, List.getElem?_mapIdx]
  simp only [if_pos ha]
  cases h[a]? <;> rfl

theorem keep_alive {α : Type} {l : List Nat} {h : Heap α} {a : Nat} (ha : Alive (keep l h) a) : a ∈ l := by
  refine Classical.byContradiction fun hn => ?_
  obtain ⟨b, hb⟩ := ha
  rw [keep, List.getElem?_mapIdx] at hb
  simp only [if_neg hn] at hb
  cases hx : h[a]? with
  | none => rw [hx] at hb; cases hb
  | some o => rw [hx] at hb; cases hb

variable [Bounds B] [Volume B] [Bounded K B] [BEq K] [Bounded Q B] [BEq Q]

theorem Good.handed {gs : Forest B K V} (hg : Good E gs) (owner : Nat → Option Nat) (who : Option Nat) : Good E (handedTo owner who gs) :=
  fun t ht => hg t (handed_mem ht)

theorem handed_keep {h : Heap (Cell B K V)} {gs : Forest B K V} (H : Has h (own E gs)) (owner : Nat → Option Nat) (who : Option Nat) :
    Mine E (keep (fps (own E (handedTo owner who gs))) h) (handedTo owner who gs) := by
  refine ⟨⟨fun c hc => c.loc (handed_has owner who H c hc) fun a ha => keep_in (mem_fps.2 ⟨c, hc, ha⟩), ?_⟩, fun a ha => keep_alive ha⟩
  exact (handed_sub owner who gs).nodup H.nodup

/-- What thread `j` is to do. -/
def StartPost (E : TEnv) (borrow : K → Q) (owner : Nat → Option Nat) (gs : Forest B K V) (code : List (List (ThreadCmd B K V Q))) (j : Nat)
    (y : Res ((List (Option (RTree B)) × List (ThreadEvent K V)) × Heap (Cell B K V))) : Prop :=
  ThreadPost E (handedTo owner (some j) gs)
    (specThread borrow (handedTo owner none (absF gs)) (handedTo owner (some j) (absF gs)) ((code[j]?).getD [])) y

theorem startPost_ub (E : TEnv) (borrow : K → Q) (owner : Nat → Option Nat) (gs : Forest B K V) (code : List (List (ThreadCmd B K V Q))) (j : Nat) :
    ¬ StartPost E borrow owner gs code j (.error .ub) := by
  intro h
  simp only [StartPost, ThreadPost] at h
  split at h
  · obtain ⟨_, _, _, h, _⟩ := h; cases h
  · obtain ⟨h, hu⟩ := h
    cases h
    rcases hu with h | h | h | h <;> cases h

theorem start_inv (borrow : K → Q) {h : Heap (Cell B K V)} {gs : Forest B K V} (hg : Good E gs) (tr : Tr [] [] h (own E gs)) (owner : Nat → Option Nat)
    (code : List (List (ThreadCmd B K V Q))) (hown : ∀ i j, owner i = some j → j < code.length)
    (hS : ∀ cs ∈ code, ∀ c, ThreadCmd.mine (.new c) ∈ cs → Sizes E c.maxChildren) :
    PoolInv (keep (fps (own E (handedTo owner none gs))) h) (StartPost E borrow owner gs code)
      ⟨h, Steps.start E borrow owner (rawF gs) code⟩ (fun j => keep (fps (own E (handedTo owner (some j) gs))) h) := by
  have H := tr.has
  have view : ∀ j : Nat, View (keep (fps (own E (handedTo owner none gs))) h) (keep (fps (own E (handedTo owner (some j) gs))) h) := fun j =>
    ⟨by rw [keep_length, keep_length], fun a h1 h2 =>
      handed_apart owner (by simp) H.nodup (keep_alive h1) (keep_alive h2)⟩
  refine ⟨?_, ?_, ?_, view, ?_, ?_, ?_⟩
  · intro a ha; exact (keep_in (keep_alive ha)).symm
  · intro j a ha; exact (keep_in (keep_alive ha)).symm
  · intro i j a hij h1 h2
    exact handed_apart owner (fun e => hij (Option.some.inj e)) H.nodup (keep_alive h1) (keep_alive h2)
  · intro j; simp only [keep_length]; exact Nat.le_refl _
  · intro j p hp γ
    simp only [Steps.start, List.getElem?_mapIdx, Option.map_eq_some_iff] at hp
    obtain ⟨cs, hcs, rfl⟩ := hp
    rw [StartPost, hcs, rawF_handed, rawF_handed, absF_handed, absF_handed]
    exact thread_sim borrow (hg.handed owner none) (handed_keep H owner none).has γ cs (hg.handed owner (some j)) (handed_keep H owner (some j)) (view j)
      (hS cs (List.mem_of_getElem? hcs))
  · intro a ha
    have hm : a ∈ fps (own E gs) := by
      refine Classical.byContradiction fun hn => ?_
      obtain ⟨b, hb⟩ := ha
      rw [tr.step.dead a (List.getElem?_eq_some_iff.1 hb).1 hn (.inr (Nat.zero_le _))] at hb
      cases hb
    have hh : ∀ who, a ∈ fps (own E (handedTo owner who gs)) → Alive (keep (fps (own E (handedTo owner who gs))) h) a := by
      intro who h1
      obtain ⟨b, hb⟩ := ha
      exact ⟨b, by rw [keep_in h1, hb]⟩
    obtain ⟨i, _, hi⟩ := handed_all owner hm
    cases ho : owner i with
    | none => rw [ho] at hi; exact .inl (hh _ hi)
    | some j =>
      rw [ho] at hi
      exact .inr ⟨j, by simpa [Steps.start] using hown i j ho, hh _ hi⟩

/-! ### All threads are done -/

theorem own_flatten (gss : List (Forest B K V)) : own E gss.flatten = gss.flatMap (own E) := by
  induction gss with
  | nil => rfl
  | cons gs gss ih => rw [List.flatten_cons, List.flatMap_cons, ← ih]; simp [own]

theorem own_append' (gs gs' : Forest B K V) : own E (gs ++ gs') = own E gs ++ own E gs' := by simp [own]

/-- Parts of the memory put together again. -/
theorem parts_has {h : Heap (Cell B K V)} : ∀ (gss : List (Forest B K V)) (g : Nat → Heap (Cell B K V)),
    (∀ j gs, gss[j]? = some gs → Mine E (g j) gs ∧ ∀ a, Alive (g j) a → h[a]? = (g j)[a]?) →
    (∀ i j a, i ≠ j → Alive (g i) a → ¬ Alive (g j) a) →
    Has h (gss.flatMap (own E)) ∧ ∀ a, a ∈ fps (gss.flatMap (own E)) ↔ ∃ j, j < gss.length ∧ Alive (g j) a
  | [], _, _, _ => by
    refine ⟨.nil, fun a => ⟨fun h => ?_, fun h => ?_⟩⟩
    · cases h
    · obtain ⟨j, hj, _⟩ := h; simp at hj
  | gs :: gss, g, hm, ha => by
    obtain ⟨m, hh⟩ := hm 0 gs rfl
    obtain ⟨ih1, ih2⟩ := parts_has (h := h) gss (fun j => g (j + 1)) (fun j gs' hj => hm (j + 1) gs' hj) (fun i j a hij => ha (i + 1) (j + 1) a (by omega))
    have live : ∀ a ∈ fps (own E gs), Alive (g 0) a := own_live m.has
    rw [List.flatMap_cons]
    refine ⟨⟨?_, ?_⟩, ?_⟩
    · intro c hc
      rcases List.mem_append.1 hc with hc | hc
      · exact c.loc (m.has.holds c hc) fun a hac => hh a (live a (mem_fps.2 ⟨c, hc, hac⟩))
      · exact ih1.holds c hc
    · rw [fps_append, List.nodup_append]
      refine ⟨m.has.nodup, ih1.nodup, ?_⟩
      rintro a h1 _ h2 rfl
      obtain ⟨j, _, hj⟩ := (ih2 a).1 h2
      exact ha 0 (j + 1) a (by omega) (live a h1) hj
    · intro a
      rw [fps_append, List.mem_append, ih2]
      constructor
      · rintro (h1 | ⟨j, hj, h1⟩)
        · exact ⟨0, by simp, live a h1⟩
        · exact ⟨j + 1, by simpa using hj, h1⟩
      · rintro ⟨j, hj, h1⟩
        cases j with
        | zero => exact .inl (m.only a h1)
        | succ j => exact .inr ⟨j, by simpa using hj, h1⟩

/-- The memory when all threads are done. -/
theorem join_inv (borrow : K → Q) {s : Heap (Cell B K V)} {gs : Forest B K V} (hg : Good E gs) {owner : Nat → Option Nat} {code : List (List (ThreadCmd B K V Q))}
    {P : Pool (Cell B K V) (List (Option (RTree B)) × List (ThreadEvent K V))} {g : Nat → Heap (Cell B K V)}
    (hs : Mine E s (handedTo owner none gs)) (I : PoolInv s (StartPost E borrow owner gs code) P g)
    {results : List (List (Option (RTree B)) × List (ThreadEvent K V))} (hd : P.threads = results.map .done) :
    ∃ gss : List (Forest B K V), results.map (·.1) = gss.map rawF ∧
      (∀ j gs', gss[j]? = some gs' → ∃ outs, specThread borrow (handedTo owner none (absF gs)) (handedTo owner (some j) (absF gs)) ((code[j]?).getD []) =
        .ok (absF gs', outs)) ∧
      Good E (handedTo owner none gs ++ gss.flatten) ∧ Has P.heap (own E (handedTo owner none gs ++ gss.flatten)) ∧
      ∀ a, Alive P.heap a → a ∈ fps (own E (handedTo owner none gs ++ gss.flatten)) := by
  -- the trees of each thread
  have each : ∀ j r, results[j]? = some r → ∃ gs' outs, r.1 = rawF gs' ∧
      specThread borrow (handedTo owner none (absF gs)) (handedTo owner (some j) (absF gs)) ((code[j]?).getD []) = .ok (absF gs', outs) ∧
      Good E gs' ∧ Mine E (g j) gs' := by
    intro j r hr
    have hp := I.post j (.done r) (by rw [hd, List.getElem?_map, hr]; rfl) (fun _ => 0)
    simp only [StartPost, ThreadPost] at hp
    split at hp
    next rr hx =>
      obtain ⟨s', g', gs', e1, rel⟩ := hp
      cases e1
      obtain ⟨f, outs⟩ := rr
      obtain rfl : f = absF gs' := rel.abs
      exact ⟨gs', outs, rel.raw, hx, rel.good, rel.mine⟩
    next => cases hp.1
  have collect : ∀ (rs : List (List (Option (RTree B)) × List (ThreadEvent K V))) (P : Nat → List (Option (RTree B)) → Forest B K V → Prop),
      (∀ j r, rs[j]? = some r → ∃ gs', P j r.1 gs') → ∃ gss : List (Forest B K V), gss.length = rs.length ∧
        ∀ j r gs', rs[j]? = some r → gss[j]? = some gs' → P j r.1 gs' := by
    intro rs
    induction rs with
    | nil => intro P _; exact ⟨[], rfl, fun j r gs' h => by simp at h⟩
    | cons r rs ih =>
      intro P h
      obtain ⟨gs', h0⟩ := h 0 r rfl
      obtain ⟨gss, hl, hi⟩ := ih (fun j => P (j + 1)) (fun j r' hj => h (j + 1) r' hj)
      refine ⟨gs' :: gss, by simp [hl], fun j r' gs'' h1 h2 => ?_⟩
      cases j with
      | zero => cases h1; cases h2; exact h0
      | succ j => exact hi j r' gs'' h1 h2
  obtain ⟨gss, hl, hall⟩ := collect results (fun j rf gs' => rf = rawF gs' ∧
    (∃ outs, specThread borrow (handedTo owner none (absF gs)) (handedTo owner (some j) (absF gs)) ((code[j]?).getD []) = .ok (absF gs', outs)) ∧
    Good E gs' ∧ Mine E (g j) gs') (fun j r hr => by
      obtain ⟨gs', outs, h1, h2, h3, h4⟩ := each j r hr
      exact ⟨gs', h1, ⟨outs, h2⟩, h3, h4⟩)
  have hall' : ∀ j gs', gss[j]? = some gs' → ∃ r, results[j]? = some r ∧ r.1 = rawF gs' ∧
    (∃ outs, specThread borrow (handedTo owner none (absF gs)) (handedTo owner (some j) (absF gs)) ((code[j]?).getD []) = .ok (absF gs', outs)) ∧
    Good E gs' ∧ Mine E (g j) gs' := by
    intro j gs' hj
    have hlt := (List.getElem?_eq_some_iff.1 hj).1
    have hr : results[j]? = some (results[j]'(by omega)) := List.getElem?_eq_getElem _
    exact ⟨_, hr, hall j _ gs' hr hj⟩
  have hlen : P.threads.length = gss.length := by rw [hd, List.length_map, hl]
  obtain ⟨hh, hfp⟩ := parts_has (E := E) (h := P.heap) gss g
    (fun j gs' hj => by obtain ⟨_, _, _, _, _, h4⟩ := hall' j gs' hj; exact ⟨h4, fun a ha => I.parts j a ha⟩) I.apart
  have lives : ∀ a ∈ fps (own E (handedTo owner none gs)), Alive s a := own_live hs.has
  refine ⟨gss, ?_, ?_, ?_, ?_, ?_⟩
  · refine List.ext_getElem? fun j => ?_
    rw [List.getElem?_map, List.getElem?_map]
    cases hj : gss[j]? with
    | none =>
      have := List.getElem?_eq_none_iff.1 hj
      rw [List.getElem?_eq_none (by omega : results.length ≤ j)]; rfl
    | some gs' =>
      obtain ⟨r, hr, h1, _⟩ := hall' j gs' hj
      rw [hr]
      exact congrArg some h1
  · intro j gs' hj
    obtain ⟨_, _, _, h2, _⟩ := hall' j gs' hj
    exact h2
  · intro t ht
    rcases List.mem_append.1 ht with ht | ht
    · exact hg.handed owner none t ht
    · obtain ⟨gs', h1, h2⟩ := List.mem_flatten.1 ht
      obtain ⟨j, hj⟩ := List.mem_iff_getElem?.1 h1
      obtain ⟨_, _, _, _, h3, _⟩ := hall' j gs' hj
      exact h3 t h2
  · rw [own_append', own_flatten]
    refine ⟨?_, ?_⟩
    · intro c hc
      rcases List.mem_append.1 hc with hc | hc
      · exact c.loc (hs.has.holds c hc) fun a ha => I.shared a (lives a (mem_fps.2 ⟨c, hc, ha⟩))
      · exact hh.holds c hc
    · rw [fps_append, List.nodup_append]
      refine ⟨hs.has.nodup, hh.nodup, ?_⟩
      rintro a h1 _ h2 rfl
      obtain ⟨j, _, h3⟩ := (hfp a).1 h2
      exact (I.view j).apart a (lives a h1) h3
  · intro a ha
    rw [own_append', own_flatten, fps_append, List.mem_append]
    rcases I.all a ha with h | ⟨j, hj, h⟩
    · exact .inl (hs.only a h)
    · exact .inr ((hfp a).2 ⟨j, by omega, h⟩)

end RTree.Raw
