import Verif.Proofs.Sep
import Verif.Model.RawTree
/-!
# The splitter in memory, and splitting commutes with renaming the values
-/

namespace RTree.Raw

variable {α β γ : Type}

@[simp] theorem lift_ok {b : β} {h : Heap α} : lift (.ok b : Res β) h = .ok (b, h) := rfl
@[simp] theorem lift_error {e : Panic} {h : Heap α} : lift (.error e : Res β) h = .error e := rfl

/-- The same pure computation on both sides. -/
theorem Sim.lift (x : Res β) (h : Heap α) : Sim x (Raw.lift x h) fun a b h' => a = b ∧ h = h' := by
  cases x with
  | ok a => exact .ok ⟨rfl, rfl⟩
  | error e => exact .err e

theorem Sim.lift' {x : Res β} {y : Res γ} (f : β → γ) (hy : y = f <$> x) (h : Heap α) :
    Sim x (Raw.lift y h) fun a b h' => f a = b ∧ h = h' := by
  cases x with
  | ok a => subst hy; exact .ok ⟨rfl, rfl⟩
  | error e => subst hy; exact .err e

section

variable {B : Type} [Bounds B] [Volume B] {e : Env} {cap : Nat} {bf : α → B} {minChildren : Nat}

theorem splitStep_eq (s : SplitState B α) : RTree.splitStep bf minChildren cap s = (do
    let c ← splitChoice bf minChildren s.group1Len s.group2.length s.bounds1 s.bounds2 (s.values.drop s.group1Len)
    let x ← index (s.values.drop s.group1Len) c.2
    if c.1 then do
      let values ← Vec.swap s.values (s.group1Len + c.2) s.group1Len
      pure { s with bounds1 := Bounds.union s.bounds1 (bf x), values := values, group1Len := s.group1Len + 1 }
    else do
      let (y, values) ← Vec.swapRemove s.values (s.group1Len + c.2)
      let group2 ← Vec.push cap s.group2 y
      pure { s with bounds2 := Bounds.union s.bounds2 (bf x), values := values, group2 := group2 }) := by
  rw [RTree.splitStep, splitChoice]
  rcases bestCandidate bf (s.values.drop s.group1Len) s.bounds1 with e₁ | o₁
  · rfl
  rcases o₁ with _ | c1
  · rfl
  rcases bestCandidate bf (s.values.drop s.group1Len) s.bounds2 with e₂ | o₂
  · rfl
  rcases o₂ with _ | c2
  · rfl
  simp only [ok_bind, unwrap, pure_eq_ok]
  generalize (if Volume.lt c1.2 c2.2 = true then
      decide (s.group2.length + (s.values.drop s.group1Len).length > minChildren)
    else decide (s.group1Len + (s.values.drop s.group1Len).length - 1 = minChildren)) = b
  cases b <;> simp

/-- The loop states of both sides. -/
def SplitRel (e : Env) (cap : Nat) (h₀ : Heap α) (cs₀ : List (Chunk α)) (s : SplitState B α) (rs : RSplit B) (h : Heap α) : Prop :=
  Tr h₀ cs₀ h [vecC e cap rs.values s.values, vecC e cap rs.group2 s.group2] ∧ rs.group1Len = s.group1Len ∧
    rs.bounds1 = s.bounds1 ∧ rs.bounds2 = s.bounds2

omit [Bounds B] [Volume B] in
theorem SplitRel.len {h₀ h : Heap α} {cs₀ : List (Chunk α)} {s : SplitState B α} {rs : RSplit B} (r : SplitRel e cap h₀ cs₀ s rs h) :
    rs.values.len = s.values.length ∧ rs.group2.len = s.group2.length :=
  ⟨(r.1.has.holds _ List.mem_cons_self).len, (r.1.has.holds _ (List.mem_cons_of_mem _ List.mem_cons_self)).len⟩

theorem splitStep_sim (hs : 0 < e.size) {h₀ h : Heap α} {cs₀ : List (Chunk α)} {s : SplitState B α} {rs : RSplit B}
    (r : SplitRel e cap h₀ cs₀ s rs h) :
    Sim (RTree.splitStep bf minChildren cap s) (Raw.splitStep e bf minChildren cap rs h) (SplitRel e cap h₀ cs₀) := by
  obtain ⟨hlen1, hlen2⟩ := r.len
  obtain ⟨t, hg, hb1, hb2⟩ := r
  have H1 : Has h [vecC e cap rs.values s.values] := t.sub (fr := [vecC e cap rs.group2 s.group2]) (.refl _)
  rw [splitStep_eq, Raw.splitStep]
  refine .step (FCVec.slice_ok H1.owns hs) ?_
  rw [hg, hb1, hb2, hlen2]
  refine .bind (.lift _ _) ?_
  rintro c _ _ ⟨rfl, rfl⟩
  refine .bind (.lift _ _) ?_
  rintro x _ _ ⟨rfl, rfl⟩
  cases c.1 with
  | true =>
    simp only [if_true]
    refine .bind (FCVec.swap_sim H1 hs _ _) ?_
    intro l' _ h' t'
    exact .ok ⟨t.app (fr := [vecC e cap rs.group2 s.group2]) (.refl _) t', rfl, rfl, rfl⟩
  | false =>
    simp only [Bool.false_eq_true, if_false]
    refine .bind (FCVec.swapRemove_sim H1 hs _) ?_
    rintro ⟨y, l'⟩ ⟨v', y'⟩ h' ⟨rfl, t'⟩
    have t2 := t.app (fr := [vecC e cap rs.group2 s.group2]) (.refl _) t'
    have hp : [vecC e cap v' l', vecC e cap rs.group2 s.group2].Perm ([vecC e cap rs.group2 s.group2] ++ [vecC e cap v' l']) :=
      List.Perm.swap _ _ _
    refine .bind (FCVec.push_sim (t2.sub hp) hs _) ?_
    intro g' w' h'' t''
    exact .ok ⟨(t2.app hp t'').perm_right (List.Perm.swap _ _ _), rfl, rfl, rfl⟩

theorem splitLoop_sim (hs : 0 < e.size) {h₀ : Heap α} {cs₀ : List (Chunk α)} : ∀ (fuel : Nat) {h : Heap α} {s : SplitState B α}
    {rs : RSplit B}, SplitRel e cap h₀ cs₀ s rs h →
    Sim (RTree.splitLoop bf minChildren cap fuel s) (Raw.splitLoop e bf minChildren cap fuel rs h) (SplitRel e cap h₀ cs₀) := by
  intro fuel
  induction fuel with
  | zero =>
    intro h s rs r
    rw [RTree.splitLoop, Raw.splitLoop, r.len.1, r.2.1]
    split
    · exact .err _
    · exact .ok r
  | succ fuel ih =>
    intro h s rs r
    rw [RTree.splitLoop, Raw.splitLoop, r.len.1, r.2.1]
    split
    · exact .bind (splitStep_sim hs r) fun _ _ _ r => ih r
    · exact .ok r

theorem seedSplit_sim (hs : 0 < e.size) {h : Heap α} {v : FCVec} {l : List α} (H : Has h [vecC e cap v l]) (overflow : α) :
    Sim (RTree.seedSplitGroups bf l overflow) (Raw.seedSplitGroups e bf v overflow h) fun r s h' =>
      r.2 = s ∧ Tr h [vecC e cap v l] h' [vecC e cap v r.1] := by
  rw [RTree.seedSplitGroups, Raw.seedSplitGroups]
  refine .step (FCVec.slice_ok H.owns hs) ?_
  refine .bind (.lift _ _) ?_
  rintro ⟨i1, i2⟩ _ _ ⟨rfl, rfl⟩
  refine .bind (FCVec.swap_sim H hs _ _) ?_
  intro l' _ h' t
  have hlen : v.len = l'.length := t.has.owns.len
  simp only [hlen]
  by_cases hi : i2 < l'.length
  · simp only [hi, if_true]
    obtain ⟨h'', h1, t'⟩ := FCVec.set_tr t.has hs hi overflow
    rw [h1]
    refine .skip (a := l'[i2]) (by simp [index, hi]) (.ok ⟨rfl, t.trans t'⟩)
  · simp only [hi, if_false]
    exact .ok ⟨rfl, t⟩

theorem split_sim (hs : 0 < e.size) (hm : cap * e.size ≤ e.maxBytes) (hz : 0 < cap * e.size ∨ e.zeroOk = true)
    {h : Heap α} {v : FCVec} {l : List α} (H : Has h [vecC e cap v l]) (overflow : α) :
    Sim (RTree.split bf minChildren cap l overflow) (Raw.split e bf minChildren cap v overflow h) fun r s h' =>
      s.bounds1 = r.bounds1 ∧ s.bounds2 = r.bounds2 ∧
      Tr h [vecC e cap v l] h' [vecC e cap s.values r.group1, vecC e cap s.group2 r.group2] := by
  have hlen : v.len = l.length := H.owns.len
  rw [RTree.split, Raw.split, hlen]
  by_cases h0 : l.length < 1
  · simp only [h0, if_true]
    rw [bind_err (panicIf_pos h0)]
    exact .err _
  simp only [h0, if_false, pure_eq_ok]
  refine .step (panicIf_neg h0) ?_
  obtain ⟨g, h₁, hg, tg⟩ := FCVec.new_tr h hm hz
  refine .step hg ?_
  have tg : Tr h [vecC e cap v l] h₁ [vecC e cap g [], vecC e cap v l] := tg.frame (ds := [vecC e cap v l]) H
  have hp : ∀ l' : List α, [vecC e cap g [], vecC e cap v l'].Perm ([vecC e cap v l'] ++ [vecC e cap g []]) := fun l' => List.Perm.swap _ _ _
  refine .bind (seedSplit_sim hs (tg.sub (hp l)) overflow) ?_
  rintro ⟨l', seed⟩ _ h₂ ⟨rfl, t'⟩
  have t2 : Tr h [vecC e cap v l] h₂ [vecC e cap v l', vecC e cap g []] := tg.app (hp l) t'
  have hp2 : [vecC e cap v l', vecC e cap g []].Perm ([vecC e cap g []] ++ [vecC e cap v l']) := List.Perm.swap _ _ _
  refine .bind (FCVec.push_sim (t2.sub hp2) hs seed) ?_
  intro g2 w h₃ t3
  have t4 : Tr h [vecC e cap v l] h₃ [vecC e cap v l', vecC e cap w g2] := (t2.app hp2 t3).perm_right (List.Perm.swap _ _ _)
  have Hv : Has h₃ [vecC e cap v l'] := t4.sub (fr := [vecC e cap w g2]) (.refl _)
  have hlen' : l'.length = l.length := by rw [← Hv.owns.len, hlen]
  have hget := FCVec.get_ok Hv.owns hs 0
  have hi : 0 < l'.length := by omega
  refine .bind (y := v.get e 0) (R := fun a b h' => a = b ∧ h₃ = h') ?_ ?_
  · rw [hget]
    simp only [index, List.getElem?_eq_getElem hi]
    exact .ok ⟨rfl, rfl⟩
  rintro v0 _ _ ⟨rfl, rfl⟩
  rw [hlen']
  have key := splitLoop_sim (bf := bf) (minChildren := minChildren) hs (h₀ := h) (cs₀ := [vecC e cap v l]) l.length
    (s := { values := l', group1Len := 1, bounds1 := bf v0, bounds2 := bf seed, group2 := g2 })
    (rs := { values := v, group1Len := 1, bounds1 := bf v0, bounds2 := bf seed, group2 := w }) (h := h₃)
    ⟨t4, rfl, rfl, rfl⟩
  generalize RTree.splitLoop bf minChildren cap l.length _ = x at key ⊢
  cases x with
  | ok s =>
    obtain ⟨b, h', h1, t, _, hb1, hb2⟩ := key
    exact ⟨b, h', h1, hb1, hb2, t⟩
  | error p => cases p <;> exact key

end

/-! ### Splitting commutes with renaming the values -/

section Map

variable (f : α → β)

theorem map_ok (g : α → β) (a : α) : g <$> (Except.ok a : Res α) = .ok (g a) := rfl
theorem map_error (g : α → β) (e : Panic) : g <$> (Except.error e : Res α) = .error e := rfl

theorem index_map (l : List α) (i : Nat) : index (l.map f) i = f <$> index l i := by
  rw [index, index, List.getElem?_map]
  cases l[i]? <;> rfl

theorem push_map (cap : Nat) (l : List α) (a : α) : Vec.push cap (l.map f) (f a) = List.map f <$> Vec.push cap l a := by
  rw [Vec.push, Vec.push, List.length_map]
  split <;> simp [map_ok, map_error]

theorem swap_map (l : List α) (i j : Nat) : Vec.swap (l.map f) i j = List.map f <$> Vec.swap l i j := by
  rw [Vec.swap, Vec.swap, List.getElem?_map, List.getElem?_map]
  cases l[i]? <;> cases l[j]? <;> simp [List.map_set, map_ok, map_error]

theorem swapRemove_map (l : List α) (i : Nat) :
    Vec.swapRemove (l.map f) i = (fun r => (f r.1, r.2.map f)) <$> Vec.swapRemove l i := by
  rw [Vec.swapRemove, Vec.swapRemove, List.getElem?_map, List.getLast?_map]
  cases l[i]? <;> cases l.getLast? <;> simp [List.map_set, List.map_dropLast, map_ok, map_error]

variable {B : Type} [Bounds B] [Volume B] (bf : β → B)

theorem zipIdx_map' (l : List α) : (l.map f).zipIdx = l.zipIdx.map fun x => (f x.1, x.2) := by
  rw [List.zipIdx_map]; rfl

theorem worstCombination_map (l : List α) (x : α) :
    worstCombination bf (l.map f) (f x) = worstCombination (bf ∘ f) l x := by
  rw [worstCombination, worstCombination, List.length_map, zipIdx_map']
  have hp : worstPair bf (l.map f) (f x) = worstPair (bf ∘ f) l x := by
    funext acc ij
    rw [worstPair, worstPair, index_map, index_map]
    cases index l ij.1 <;> cases index l ij.2 <;> rfl
  have hw : ∀ acc : Worst B, List.foldlM (worstWithOverflow bf (f x)) acc (l.zipIdx.map fun x => (f x.1, x.2)) =
      List.foldlM (worstWithOverflow (bf ∘ f) x) acc l.zipIdx := by
    intro acc; rw [List.foldlM_map]; rfl
  rw [hp]
  simp only [List.isEmpty_map, hw]

theorem bestCandidate_map (l : List α) (b : B) : bestCandidate bf (l.map f) b = bestCandidate (bf ∘ f) l b := by
  rw [bestCandidate, bestCandidate]
  simp only [List.mapM_map]
  rfl

theorem splitChoice_map (m g1 g2 : Nat) (b1 b2 : B) (l : List α) :
    splitChoice bf m g1 g2 b1 b2 (l.map f) = splitChoice (bf ∘ f) m g1 g2 b1 b2 l := by
  rw [splitChoice, splitChoice, bestCandidate_map, bestCandidate_map, List.length_map]

theorem seedSplitGroups_map (l : List α) (x : α) :
    RTree.seedSplitGroups bf (l.map f) (f x) = (fun r => (r.1.map f, f r.2)) <$> RTree.seedSplitGroups (bf ∘ f) l x := by
  rw [RTree.seedSplitGroups, RTree.seedSplitGroups, worstCombination_map]
  cases worstCombination (bf ∘ f) l x with
  | error e => rfl
  | ok ij =>
    simp only [ok_bind, swap_map]
    cases Vec.swap l 0 ij.1 with
    | error e => rfl
    | ok l' =>
      simp only [map_ok, ok_bind, List.length_map, index_map]
      split
      · cases index l' ij.2 with
        | error e => rfl
        | ok y => simp [List.map_set, map_ok]
      · rfl

/-- Renaming the values of a loop state. -/
def mapState (s : SplitState B α) : SplitState B β :=
  { values := s.values.map f, group1Len := s.group1Len, bounds1 := s.bounds1, bounds2 := s.bounds2, group2 := s.group2.map f }

theorem splitStep_map (m cap : Nat) (s : SplitState B α) :
    RTree.splitStep bf m cap (mapState f s) = mapState f <$> RTree.splitStep (bf ∘ f) m cap s := by
  rw [splitStep_eq, splitStep_eq]
  simp only [mapState, List.length_map, ← List.map_drop, splitChoice_map]
  cases splitChoice (bf ∘ f) m s.group1Len s.group2.length s.bounds1 s.bounds2 (s.values.drop s.group1Len) with
  | error e => rfl
  | ok c =>
    simp only [ok_bind, index_map]
    cases index (s.values.drop s.group1Len) c.2 with
    | error e => rfl
    | ok x =>
      simp only [map_ok, ok_bind, swap_map, swapRemove_map]
      cases c.1 with
      | true =>
        simp only [if_true]
        cases Vec.swap s.values (s.group1Len + c.2) s.group1Len <;> rfl
      | false =>
        simp only [Bool.false_eq_true, if_false]
        cases Vec.swapRemove s.values (s.group1Len + c.2) with
        | error e => rfl
        | ok r =>
          simp only [map_ok, ok_bind, push_map]
          cases Vec.push cap s.group2 r.1 <;> rfl

theorem splitLoop_map (m cap : Nat) : ∀ (fuel : Nat) (s : SplitState B α),
    RTree.splitLoop bf m cap fuel (mapState f s) = mapState f <$> RTree.splitLoop (bf ∘ f) m cap fuel s := by
  intro fuel
  induction fuel with
  | zero =>
    intro s
    rw [RTree.splitLoop, RTree.splitLoop]
    simp only [mapState, List.length_map]
    split <;> rfl
  | succ fuel ih =>
    intro s
    have hl : (mapState f s).group1Len < (mapState f s).values.length ↔ s.group1Len < s.values.length := by simp [mapState]
    rw [RTree.splitLoop, RTree.splitLoop]
    by_cases h : s.group1Len < s.values.length
    · rw [if_pos h, if_pos (hl.2 h), splitStep_map]
      cases RTree.splitStep (bf ∘ f) m cap s with
      | error e => rfl
      | ok s' => exact ih s'
    · rw [if_neg h, if_neg (mt hl.1 h)]; rfl

/-- Renaming the values in the result of a split. -/
def mapResult (r : SplitResult B α) : SplitResult B β := ⟨r.bounds1, r.group1.map f, r.bounds2, r.group2.map f⟩

theorem split_map (m cap : Nat) (l : List α) (x : α) :
    RTree.split bf m cap (l.map f) (f x) = mapResult f <$> RTree.split (bf ∘ f) m cap l x := by
  rw [RTree.split, RTree.split, List.length_map]
  split
  · rfl
  · simp only [seedSplitGroups_map]
    cases RTree.seedSplitGroups (bf ∘ f) l x with
    | error e => rfl
    | ok r =>
      have hp := push_map f cap [] r.2
      rw [List.map_nil] at hp
      simp only [map_ok, pure_eq_ok, ok_bind, hp]
      cases Vec.push cap [] r.2 with
      | error e => rfl
      | ok g =>
        simp only [map_ok, ok_bind, index_map, List.length_map]
        cases index r.1 0 with
        | error e => rfl
        | ok v0 =>
          simp only [map_ok, ok_bind]
          have := splitLoop_map f bf m cap r.1.length
            { values := r.1, group1Len := 1, bounds1 := bf (f v0), bounds2 := bf (f r.2), group2 := g }
          simp only [mapState] at this
          rw [this]
          simp only [Function.comp_apply]
          generalize RTree.splitLoop (bf ∘ f) m cap r.1.length _ = y
          cases y <;> rfl

end Map

end RTree.Raw
