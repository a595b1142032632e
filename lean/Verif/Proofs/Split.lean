import Verif.Spec
import Verif.Proofs.Vec
/-! Lemmas about selection and splitting. -/

namespace RTree

/-- A panic provoked by an unsound configuration or overflowing volumes, when not everything is `g`ood. -/
def Allowed (g : Prop) (e : Panic) : Prop := ¬ g ∧ UserPanic e

theorem Sat.foldlM {α β : Type} {E : Panic → Prop} {I : β → Prop} {f : β → α → Res β} {l : List α}
    {b : β} (hb : I b) (hf : ∀ b, I b → ∀ a ∈ l, Sat (f b a) E I) : Sat (l.foldlM f b) E I := by
  induction l generalizing b with
  | nil => exact hb
  | cons a l ih =>
    rw [List.foldlM_cons]
    exact Sat.bind (hf b hb a (by simp)) fun b' hb' => ih hb' fun b hb a ha => hf b hb a (by simp [ha])

theorem Sat.mapM {α β : Type} {E : Panic → Prop} {f : α → Res β} {l : List α}
    (hf : ∀ a ∈ l, Sat (f a) E fun _ => True) : Sat (l.mapM f) E (fun r => r.length = l.length) := by
  induction l with
  | nil => simp
  | cons a l ih =>
    rw [List.mapM_cons]
    refine Sat.bind (hf a (by simp)) fun b _ => ?_
    refine Sat.bind (ih fun a ha => hf a (by simp [ha])) fun bs hbs => ?_
    simpa using hbs

theorem Sat.minBy {α : Type} {E : Panic → Prop} {cmp : α → α → Res Ordering} {l : List α}
    (h : ∀ x ∈ l, ∀ y ∈ l, Sat (cmp x y) E fun _ => True) :
    Sat (minBy cmp l) E fun r => (r = none → l = []) ∧ ∀ x, r = some x → x ∈ l := by
  cases l with
  | nil => simp [RTree.minBy]
  | cons x xs =>
    unfold RTree.minBy
    refine Sat.bind (P := fun r => r ∈ x :: xs) (Sat.foldlM (by simp) ?_) ?_
    · intro b hb a ha
      refine Sat.bind (h b hb a (by simp [ha])) fun o _ => ?_
      cases o <;> simp <;> grind
    · intro r hr; simp; simpa using hr

section

variable {B : Type} [Bounds B] [Volume B] [VolumeLaws B] {α : Type} {g : Prop}

open VolumeLaws (volOk)

theorem sat_volume {b : B} (h : g → volOk b) :
    Sat (arith (Volume.volume b)) (Allowed g) fun v => Volume.volume b = some v :=
  Sat.arith (fun _ h => h) fun hn => ⟨fun hg => by
    obtain ⟨v, hv⟩ := VolumeLaws.volume (h hg); simp [hn] at hv, by simp [UserPanic]⟩

theorem sat_sub {a b : B} {u v} (ha : g → volOk a) (hb : g → volOk b)
    (hu : Volume.volume a = some u) (hv : Volume.volume b = some v) :
    Sat (arith (Volume.sub (B := B) u v)) (Allowed g) fun _ => True :=
  Sat.arith (fun _ _ => trivial) fun hn => ⟨fun hg => by
    obtain ⟨d, hd⟩ := VolumeLaws.sub (ha hg) (hb hg) hu hv; simp [hn] at hd, by simp [UserPanic]⟩

theorem sat_volumeIncrease {a b : B} (ha : g → volOk a) (hb : g → volOk b) :
    Sat (volumeIncrease a b) (Allowed g) fun _ => True := by
  unfold volumeIncrease
  refine Sat.bind (sat_volume fun hg => VolumeLaws.union (ha hg) (hb hg)) fun u hu => ?_
  refine Sat.bind (sat_volume ha) fun v hv => ?_
  exact sat_sub (fun hg => VolumeLaws.union (ha hg) (hb hg)) ha hu hv

theorem sat_selectCmp {e a b : B} (he : g → volOk e) (ha : g → volOk a) (hb : g → volOk b) :
    Sat (selectCmp e a b) (Allowed g) fun _ => True := by
  unfold selectCmp
  refine Sat.bind (sat_volumeIncrease ha he) fun u hu => ?_
  refine Sat.bind (sat_volumeIncrease hb he) fun v hv => ?_
  simp only []
  split
  · refine Sat.bind (sat_volume ha) fun _ _ => Sat.bind (sat_volume hb) fun _ _ => by simp
  · simp

theorem sat_select {cs : List B} {e : B} (he : g → volOk e) (hcs : g → ∀ c ∈ cs, volOk c) :
    Sat (select cs e) (Allowed g) fun r => (r = none → cs = []) ∧ ∀ i, r = some i → i < cs.length := by
  unfold select
  refine Sat.bind (Sat.minBy ?_) fun r hr => ?_
  · intro x hx y hy
    refine sat_selectCmp he (fun hg => hcs hg _ ?_) (fun hg => hcs hg _ ?_)
    · exact List.fst_mem_of_mem_zipIdx hx
    · exact List.fst_mem_of_mem_zipIdx hy
  · refine ⟨fun h => ?_, fun i h => ?_⟩
    · simpa using hr.1 (by simpa using h)
    · cases r with
      | none => simp at h
      | some x =>
        have hx := hr.2 x rfl
        simp at h; subst h
        have := List.snd_lt_of_mem_zipIdx hx
        simpa using this

omit [Volume B] [VolumeLaws B] in
theorem unionFold_concat (bs : List B) (b : B) (h : bs ≠ []) :
    unionFold (bs ++ [b]) = Bounds.union (unionFold bs) b := by
  cases bs with
  | nil => simp at h
  | cons x xs => simp [unionFold, List.foldl_append]

theorem volOk_unionFold {bs : List B} (h : bs ≠ []) (hb : ∀ b ∈ bs, volOk b) : volOk (unionFold bs) := by
  cases bs with
  | nil => simp at h
  | cons x xs =>
    simp only [unionFold]
    clear h
    induction xs generalizing x with
    | nil => simpa using hb
    | cons y ys ih =>
      rw [List.foldl_cons]
      apply ih
      intro b hb'
      rcases List.mem_cons.1 hb' with rfl | h
      · exact VolumeLaws.union (hb _ (by simp)) (hb _ (by simp))
      · exact hb b (by simp [h])

theorem sat_worstCombination {bf : α → B} {values : List α} {overflow : α}
    (hlen : g → 1 ≤ values.length) (hv : g → ∀ v ∈ overflow :: values, volOk (bf v)) :
    Sat (worstCombination bf values overflow) (Allowed g) fun r =>
      r.1 < values.length ∧ r.2 ≤ values.length ∧ 1 ≤ r.2 := by
  have hv0 : g → volOk (bf overflow) := fun hg => hv hg _ (by simp)
  have hv1 : ∀ v ∈ values, g → volOk (bf v) := fun v h hg => hv hg _ (by simp [h])
  unfold worstCombination
  cases hvs : values with
  | nil => exact ⟨fun hg => by simpa [hvs] using hlen hg, by simp [UserPanic]⟩
  | cons v0 vs =>
  rw [← hvs]
  have hpos : 0 < values.length := by simp [hvs]
  simp only [List.isEmpty_iff, hvs, reduceCtorEq, if_false]
  rw [← hvs]
  let I : Worst B → Prop := fun acc =>
    acc.2.1 < values.length ∧ acc.2.2 ≤ values.length ∧ 1 ≤ acc.2.2
  show Sat (do
    let acc ← values.zipIdx.foldlM (worstWithOverflow bf overflow) (Volume.negInf (B := B), 0, values.length)
    let acc ← (pairIndices values.length).foldlM (worstPair bf values overflow) acc
    pure (acc.2.1, acc.2.2)) _ _
  refine Sat.bind (P := I) (Sat.foldlM (by refine ⟨?_, ?_, ?_⟩ <;> simp <;> omega) ?_) fun acc hacc => ?_
  · intro acc hacc iv hiv
    have h1 := List.fst_mem_of_mem_zipIdx hiv
    have h2 := List.snd_lt_of_mem_zipIdx hiv
    unfold worstWithOverflow
    refine Sat.bind (sat_volume fun hg => VolumeLaws.union (hv1 _ h1 hg) (hv0 hg)) fun vol _ => ?_
    split
    · exact ⟨by simpa using h2, hacc.2⟩
    · exact hacc
  · refine Sat.bind (P := I) (Sat.foldlM hacc ?_) fun acc hacc => hacc
    intro acc hacc ij hij
    have hij' : ij.1 < values.length ∧ ij.2 < values.length ∧ 1 ≤ ij.2 := by
      simp only [pairIndices, List.mem_flatMap, List.mem_map, List.mem_range, List.mem_range'_1] at hij
      obtain ⟨i, hi, j, hj, rfl⟩ := hij
      simp; omega
    unfold worstPair
    refine Sat.bind (Sat.index (P := fun v => v ∈ values) hij'.1 (by simp)) fun vi hvi => ?_
    refine Sat.bind (Sat.index (P := fun v => v ∈ values) hij'.2.1 (by simp)) fun vj hvj => ?_
    refine Sat.bind (sat_volume fun hg =>
      VolumeLaws.union (hv1 _ hvi hg) (VolumeLaws.union (hv1 _ hvj hg) (hv0 hg))) fun vol _ => ?_
    split
    · exact ⟨hij'.1, Nat.le_of_lt hij'.2.1, hij'.2.2⟩
    · exact hacc

theorem sat_seedSplitGroups {bf : α → B} {values : List α} {overflow : α}
    (hlen : g → 1 ≤ values.length) (hv : g → ∀ v ∈ overflow :: values, volOk (bf v)) :
    Sat (seedSplitGroups bf values overflow) (Allowed g) fun r =>
      r.1.length = values.length ∧ (r.2 :: r.1).Perm (overflow :: values) := by
  unfold seedSplitGroups
  refine Sat.bind (sat_worstCombination hlen hv) fun r hr => ?_
  obtain ⟨i1, i2⟩ := r
  simp only at hr
  obtain ⟨l', hl', hperm, hlen', _⟩ := Vec.swap_spec values 0 i1 (by omega) hr.1
  simp only [hl']
  show Sat (if i2 < l'.length then _ else _) _ _
  split
  · rename_i h
    refine Sat.bind (Sat.index (P := fun v => v = l'[i2]) h rfl) ?_
    rintro _ rfl
    refine ⟨by simpa using hlen', ?_⟩
    exact (Vec.perm_set l' i2 h overflow).trans (hperm.cons _)
  · exact ⟨hlen', hperm.cons _⟩

theorem sat_bestCandidate {bf : α → B} {children : List α} {bounds : B}
    (hb : g → volOk bounds) (hc : g → ∀ v ∈ children, volOk (bf v)) :
    Sat (bestCandidate bf children bounds) (Allowed g) fun r =>
      (r = none → children = []) ∧ ∀ x, r = some x → x.1 < children.length := by
  unfold bestCandidate
  refine Sat.bind (sat_volume hb) fun bv hbv => ?_
  refine Sat.bind (P := fun vols => vols.length = children.length) ?_ fun vols hvols => ?_
  · refine Sat.mapM fun v hv => ?_
    have hu : g → volOk (Bounds.union (bf v) bounds) := fun hg => VolumeLaws.union (hc hg v hv) (hb hg)
    refine Sat.bind (sat_volume hu) fun u hu' => ?_
    exact sat_sub hu hb hu' hbv
  · refine Sat.bind (Sat.minBy (by intros; simp)) fun r hr => ?_
    refine ⟨fun h => ?_, fun x h => ?_⟩
    · have := hr.1 (by simpa using h)
      simp at this; subst this; simpa using hvols.symm
    · cases r with
      | none => simp at h
      | some y =>
        have hy := List.snd_lt_of_mem_zipIdx (hr.2 y rfl)
        simp at h; subst h
        simp at hy ⊢; omega

/-- `n + 1` values can be split into two groups of `m`. -/
def Fits (m n : Nat) : Prop := 2 * m ≤ n + 1 ∧ m + 1 ≤ n

/-- Loop invariant of the split. -/
structure SplitInv (bf : α → B) (minC cap : Nat) (values : List α) (overflow : α)
    (s : SplitState B α) : Prop where
  one : 1 ≤ s.group1Len
  le : s.group1Len ≤ s.values.length
  two : 1 ≤ s.group2.length
  total : s.values.length + s.group2.length = values.length + 1
  perm : (s.values ++ s.group2).Perm (overflow :: values)
  b1 : s.bounds1 = unionFold ((s.values.take s.group1Len).map bf)
  b2 : s.bounds2 = unionFold (s.group2.map bf)
  m1 : Fits minC values.length → minC + 1 ≤ s.values.length ∨ minC ≤ s.group1Len
  m2 : Fits minC values.length → minC ≤ s.group2.length + (s.values.length - s.group1Len) + 1
  m3 : Fits minC values.length → 2 * minC ≤ values.length → minC ≤ s.group2.length + (s.values.length - s.group1Len)

theorem sat_splitStep {bf : α → B} {minC cap : Nat} {values : List α} {overflow : α}
    {s : SplitState B α} (hcap : values.length ≤ cap)
    (hv : g → ∀ v ∈ overflow :: values, volOk (bf v))
    (hs : SplitInv bf minC cap values overflow s) (hlt : s.group1Len < s.values.length) :
    Sat (splitStep bf minC cap s) (Allowed g) fun s' =>
      SplitInv bf minC cap values overflow s' ∧
      s'.values.length - s'.group1Len < s.values.length - s.group1Len := by
  have hmem : ∀ v ∈ s.values, v ∈ overflow :: values := fun v h => hs.perm.mem_iff.1 (by simp [h])
  have hmem2 : ∀ v ∈ s.group2, v ∈ overflow :: values := fun v h => hs.perm.mem_iff.1 (by simp [h])
  have hlp := hs.one; have hl2 := hs.two; have htot := hs.total
  have hne1 : (s.values.take s.group1Len).map bf ≠ [] := by
    have : 0 < ((s.values.take s.group1Len).map bf).length := by simp; omega
    intro h; simp [h] at this
  have hne2 : s.group2.map bf ≠ [] := by
    have : 0 < (s.group2.map bf).length := by simp; omega
    intro h; simp [h] at this
  have hb1 : g → volOk s.bounds1 := fun h => by
    rw [hs.b1]; refine volOk_unionFold hne1 ?_
    intro b hb
    obtain ⟨v, hv', rfl⟩ := List.mem_map.1 hb
    exact hv h v (hmem v (List.mem_of_mem_take hv'))
  have hb2 : g → volOk s.bounds2 := fun h => by
    rw [hs.b2]; refine volOk_unionFold hne2 ?_
    intro b hb
    obtain ⟨v, hv', rfl⟩ := List.mem_map.1 hb
    exact hv h v (hmem2 v hv')
  have hrem : g → ∀ v ∈ s.values.drop s.group1Len, volOk (bf v) :=
    fun h v hv' => hv h v (hmem v (List.mem_of_mem_drop hv'))
  have hremlen : (s.values.drop s.group1Len).length = s.values.length - s.group1Len := by simp
  have hremne : s.values.drop s.group1Len ≠ [] := by
    intro h; rw [h] at hremlen; simp at hremlen; omega
  unfold splitStep
  simp only []
  refine Sat.bind (sat_bestCandidate hb1 hrem) fun r1 hr1 => ?_
  refine Sat.bind (P := fun c => c.1 < s.values.length - s.group1Len)
    (Sat.unwrap (fun c hc => by have := hr1.2 c hc; omega) fun h => absurd (hr1.1 h) hremne) fun c1 hc1 => ?_
  refine Sat.bind (sat_bestCandidate hb2 hrem) fun r2 hr2 => ?_
  refine Sat.bind (P := fun c => c.1 < s.values.length - s.group1Len)
    (Sat.unwrap (fun c hc => by have := hr2.2 c hc; omega) fun h => absurd (hr2.1 h) hremne) fun c2 hc2 => ?_
  generalize hadd : (if Volume.lt (B := B) c1.2 c2.2 = true then _ else _ : Bool) = add
  cases add <;> simp only [if_true, if_false, Bool.false_eq_true]
  rotate_left
  · -- add to group 1
    have hm2' : Fits minC values.length → minC ≤ s.group2.length + (s.values.length - s.group1Len) := by
      intro h
      have e1 := hs.m1 h; have e2 := hs.m2 h; have e3 := h.1
      split at hadd <;> simp at hadd <;> omega
    have hm3' : Fits minC values.length → 2 * minC ≤ values.length →
        minC + 1 ≤ s.group2.length + (s.values.length - s.group1Len) := by
      intro h h2
      have e1 := hs.m1 h; have e2 := hs.m3 h h2; have e3 := h.1
      split at hadd <;> simp at hadd <;> omega
    refine Sat.bind (Sat.index (P := fun v => v = s.values[s.group1Len + c1.1]) (by omega) (by simp)) ?_
    rintro _ rfl
    obtain ⟨l', hl', hperm, hlen', hl'eq⟩ :=
      Vec.swap_spec s.values (s.group1Len + c1.1) s.group1Len (by omega) hlt
    rw [hl']
    refine Sat.bind (P := fun l => l' = l) rfl ?_
    rintro _ rfl
    refine ⟨⟨?_, ?_, hl2, ?_, ?_, ?_, hs.b2, ?_, ?_, ?_⟩, ?_⟩ <;> simp only [hlen']
    · omega
    · omega
    · exact htot
    · exact (hperm.append_right _).trans hs.perm
    · have htake : l'.take (s.group1Len + 1) = s.values.take s.group1Len ++ [s.values[s.group1Len + c1.1]] := by
        rw [List.take_add_one]
        congr 1
        · rw [hl'eq, List.take_set_of_le (Nat.le_refl _), List.take_set_of_le (by omega)]
        · have := congrArg (·[s.group1Len]?) hl'eq
          rw [this, List.getElem?_set_self (by simpa using hlt)]; rfl
      rw [htake, List.map_append, List.map_singleton, unionFold_concat _ _ hne1, ← hs.b1]
    · intro h; have := hs.m1 h; omega
    · intro h; have := hm2' h; omega
    · intro h h2; have := hm3' h h2; omega
    · omega
  · -- add to group 2
    have hm1' : Fits minC values.length → minC + 2 ≤ s.values.length ∨ minC ≤ s.group1Len := by
      intro h
      have e1 := hs.m1 h; have e2 := hs.m2 h; have e3 := h.1
      split at hadd <;> simp at hadd <;> omega
    refine Sat.bind (Sat.index (P := fun v => v = s.values[s.group1Len + c2.1]) (by omega) (by simp)) ?_
    rintro _ rfl
    obtain ⟨l', hl', hperm, hlen', htake⟩ :=
      Vec.swapRemove_spec s.values (s.group1Len + c2.1) (by omega)
    rw [hl']
    refine Sat.bind (P := fun l => l = (s.values[s.group1Len + c2.1], l')) rfl ?_
    rintro _ rfl
    have hpush : Vec.push cap s.group2 s.values[s.group1Len + c2.1] =
        .ok (s.group2 ++ [s.values[s.group1Len + c2.1]]) := by
      unfold Vec.push; rw [if_neg (by omega)]
    rw [hpush]
    refine Sat.bind (P := fun l => l = (s.group2 ++ [s.values[s.group1Len + c2.1]])) rfl ?_
    rintro _ rfl
    refine ⟨⟨hlp, ?_, ?_, ?_, ?_, ?_, ?_, ?_, ?_, ?_⟩, ?_⟩ <;>
      simp only [List.length_append, List.length_singleton]
    · omega
    · omega
    · omega
    · refine List.Perm.trans ?_ hs.perm
      refine List.Perm.trans ?_ (hperm.append_right _)
      rw [← List.append_assoc]
      exact (List.perm_append_singleton _ _).trans (by simp)
    · have : l'.take s.group1Len = s.values.take s.group1Len := by
        have := congrArg (List.take s.group1Len) htake
        simpa [List.take_take] using this
      rw [this]; exact hs.b1
    · rw [List.map_append, List.map_singleton, unionFold_concat _ _ hne2, ← hs.b2]
    · intro h; have := hm1' h; omega
    · intro h; have := hs.m2 h; omega
    · intro h h2; have := hs.m3 h h2; omega
    · omega

theorem sat_splitLoop {bf : α → B} {minC cap : Nat} {values : List α} {overflow : α}
    (hcap : values.length ≤ cap)
    (hv : g → ∀ v ∈ overflow :: values, volOk (bf v)) (fuel : Nat) (s : SplitState B α)
    (hs : SplitInv bf minC cap values overflow s)
    (hfuel : s.values.length - s.group1Len ≤ fuel) :
    Sat (splitLoop bf minC cap fuel s) (Allowed g) fun s' =>
      SplitInv bf minC cap values overflow s' ∧ s'.group1Len = s'.values.length := by
  induction fuel generalizing s with
  | zero =>
    unfold splitLoop
    rw [if_neg (by omega)]
    exact ⟨hs, by have := hs.le; omega⟩
  | succ fuel ih =>
    unfold splitLoop
    split
    · rename_i hlt
      refine Sat.bind (sat_splitStep hcap hv hs hlt) fun s' hs' => ?_
      exact ih s' hs'.1 (by omega)
    · exact ⟨hs, by have := hs.le; omega⟩

/-- The full specification of a split. -/
theorem sat_split {bf : α → B} {minC cap : Nat} {values : List α} {overflow : α}
    (hcap : values.length ≤ cap) (hg : g → 1 ≤ values.length)
    (hv : g → ∀ v ∈ overflow :: values, volOk (bf v)) :
    Sat (split bf minC cap values overflow) (Allowed g) fun r =>
      (r.group1 ++ r.group2).Perm (overflow :: values) ∧
      1 ≤ r.group1.length ∧ 1 ≤ r.group2.length ∧
      r.group1.length ≤ values.length ∧ r.group2.length ≤ values.length ∧
      r.bounds1 = unionFold (r.group1.map bf) ∧ r.bounds2 = unionFold (r.group2.map bf) ∧
      (Fits minC values.length → minC ≤ r.group1.length ∧ minC ≤ r.group2.length + 1 ∧
        (2 * minC ≤ values.length → minC ≤ r.group2.length)) := by
  unfold split
  split
  · rename_i h
    exact ⟨fun hgood => by have := hg hgood; omega, by simp [UserPanic]⟩
  · rename_i h
    refine Sat.bind (sat_seedSplitGroups (fun _ => by omega) hv) fun r hr => ?_
    obtain ⟨vs, seed⟩ := r
    simp only at hr
    have hpush : Vec.push cap [] seed = .ok [seed] := by
      unfold Vec.push; rw [if_neg (by simp; omega)]; rfl
    simp only [hpush]
    refine Sat.bind (P := fun l => l = [seed]) rfl ?_
    rintro _ rfl
    refine Sat.bind (Sat.index (P := fun v => v = vs[0]'(by omega)) (by omega) rfl) ?_
    rintro _ rfl
    refine Sat.bind (sat_splitLoop hcap hv _ _ ?_ (by simp)) fun s hs => ?_
    · refine ⟨by simp, by simp; omega, by simp, by simp; omega, ?_, ?_, rfl, ?_, ?_, ?_⟩
      · exact (List.perm_append_singleton _ _).trans hr.2
      · cases vs with
        | nil => simp at hr; omega
        | cons a l => simp [unionFold]
      · intro h; have := h.1; have := h.2; simp; omega
      · intro h; have := h.1; have := h.2; simp; omega
      · intro h h2; have := h.1; have := h.2; simp; omega
    · obtain ⟨hi, heq⟩ := hs
      have e1 := hi.one; have e2 := hi.two; have e3 := hi.total
      refine ⟨hi.perm, by simp; omega, hi.two, by simp; omega, by simp; omega, ?_, hi.b2, ?_⟩
      · have := hi.b1; rw [heq, List.take_length] at this; exact this
      · intro h
        have h1 := hi.m1 h; have h2 := hi.m2 h; have h3 := hi.m3 h
        simp; omega

end

end RTree
