import Verif.Model.Work
/-!
# The counting functions compute what the others compute, and how often they call user code
-/

namespace RTree.Work

variable {α β : Type}

/-- `w` computes what `x` computes, with at most `k` calls. -/
structure Does (w : W α) (x : Res α) (k : Nat) : Prop where
  ok : ∀ a, x = .ok a → ∀ n, ∃ j, j ≤ k ∧ w n = .ok (a, n + j)
  error : ∀ e, x = .error e → ∀ n, w n = .error e

theorem Does.pure {a : α} {k : Nat} : Does (pure a) (.ok a) k := ⟨fun _ h n => by cases h; exact ⟨0, Nat.zero_le _, rfl⟩, fun _ h => by cases h⟩

theorem Does.lift {x : Res α} {k : Nat} : Does (lift x) x k :=
  ⟨fun _ h n => by cases h; exact ⟨0, Nat.zero_le _, rfl⟩, fun _ h n => by cases h; rfl⟩

theorem Does.mono {w : W α} {x : Res α} {k k' : Nat} (h : Does w x k) (hk : k ≤ k') : Does w x k' :=
  ⟨fun a ha n => by
    obtain ⟨j, hj, e⟩ := h.ok a ha n
    exact ⟨j, Nat.le_trans hj hk, e⟩, h.error⟩

theorem bind_of_ok {w : W α} {f : α → W β} {n m : Nat} {a : α} (h : w n = .ok (a, m)) : (w >>= f) n = f a m :=
  congrArg (fun r => match r with | .ok (a, n') => f a n' | .error e => .error e) h

theorem bind_of_error {w : W α} {f : α → W β} {n : Nat} {e : Panic} (h : w n = .error e) : (w >>= f) n = .error e :=
  congrArg (fun r => match r with | .ok (a, n') => f a n' | .error e => .error e) h

theorem Does.bind {w : W α} {x : Res α} {f : α → W β} {g : α → Res β} {k k' : Nat} (h : Does w x k) (hf : ∀ a, x = .ok a → Does (f a) (g a) k') :
    Does (w >>= f) (x >>= g) (k + k') := by
  cases x with
  | error e => exact ⟨fun _ h => by (cases h), fun e' he n => by cases he; exact bind_of_error (h.error e rfl n)⟩
  | ok a =>
    refine ⟨fun b hb n => ?_, fun e he n => ?_⟩
    · obtain ⟨j, hj, e⟩ := h.ok a rfl n
      obtain ⟨i, hi, e2⟩ := (hf a rfl).ok b hb (n + j)
      exact ⟨j + i, by omega, by rw [bind_of_ok e, e2, Nat.add_assoc]⟩
    · obtain ⟨j, hj, e1⟩ := h.ok a rfl n
      rw [bind_of_ok e1]
      exact (hf a rfl).error e he _

/-- A computation without user code first. -/
theorem Does.first {x : Res α} {f : α → W β} {g : α → Res β} {k : Nat} (hf : ∀ a, x = .ok a → Does (f a) (g a) k) : Does (Work.lift x >>= f) (x >>= g) k :=
  (Does.bind (k := 0) .lift hf).mono (by omega)

/-- An assertion that holds. -/
theorem Does.skip {f : Unit → W β} {x : Res β} {k : Nat} (h : Does (f ()) x k) : Does (Work.lift (.ok ()) >>= f) x k := h

theorem Does.skip' {a : α} {f : α → W β} {x : Res β} {k : Nat} (h : Does (f a) x k) : Does (Work.lift (.ok a) >>= f) x k := h

/-- Calls before a computation. -/
theorem Does.tick {x : Res β} {f : W β} {m k : Nat} (h : Does f x k) : Does (calls m >>= fun _ => f) x (m + k) :=
  ⟨fun b hb n => by
    obtain ⟨j, hj, e⟩ := h.ok b hb (n + m)
    exact ⟨m + j, by omega, by
      show f (n + m) = _
      rw [e, Nat.add_assoc]⟩, fun e he n => h.error e he (n + m)⟩

/-- A call of user code whose result is used. -/
theorem Does.user {a : α} {x : Res β} {f : α → W β} {m k : Nat} (h : Does (f a) x k) :
    Does ((calls m >>= fun _ => (Pure.pure a : W α)) >>= f) x (m + k) :=
  Does.tick (f := f a) h

theorem Does.ite {c : Prop} [Decidable c] {w w' : W α} {x x' : Res α} {k : Nat} (h : c → Does w x k) (h' : ¬ c → Does w' x' k) :
    Does (if c then w else w') (if c then x else x') k := by
  split
  · exact h ‹_›
  · exact h' ‹_›

theorem Does.fold {X : Type} {f : β → X → W β} {g : β → X → Res β} {k : Nat} : ∀ (l : List X) (b : β), (∀ b x, x ∈ l → Does (f b x) (g b x) k) →
    Does (l.foldlM f b) (l.foldlM g b) (l.length * k)
  | [], _, _ => .pure
  | x :: l, b, h => by
    rw [List.foldlM_cons, List.foldlM_cons]
    exact (Does.bind (h b x List.mem_cons_self) fun b' _ => Does.fold l b' fun b x hx => h b x (List.mem_cons_of_mem _ hx)).mono (by
      rw [List.length_cons, Nat.succ_mul]; omega)

variable {B K V Q : Type}

section

variable [Bounds B] [Volume B]

omit [Bounds B] in
theorem does_volume (b : B) {x : Volume.Vol B → Res β} {f : Volume.Vol B → W β} {k : Nat} (h : ∀ v, Does (f v) (x v) k) :
    Does (volume b >>= f) (arith (Volume.volume b) >>= x) (1 + k) := by
  refine Does.bind (k := 1) ?_ fun v _ => h v
  exact Does.tick (m := 1) (k := 0) Does.lift

theorem does_allBounds (bf : α → B) : ∀ l : List α, Does (allBounds bf l) (.ok (l.map bf)) l.length
  | [] => .pure
  | a :: l => by
    rw [allBounds, List.map_cons, List.length_cons, Nat.add_comm]
    refine Does.user (m := 1) ?_
    have := Does.bind (f := fun bs => (Pure.pure (bf a :: bs) : W (List B))) (g := fun bs => .ok (bf a :: bs)) (k' := 0) (does_allBounds bf l) fun bs _ => .pure
    exact this

/-! ### Selection -/

theorem does_volumeIncrease (lhs rhs : B) : Does (volumeIncrease lhs rhs) (RTree.volumeIncrease lhs rhs) 3 :=
  Does.user (m := 1) (does_volume _ (k := 1) fun _ => does_volume _ (k := 0) fun _ => .lift)

theorem does_selectCmp (bounds : B) (lhs rhs : B) : Does (selectCmp bounds lhs rhs) (RTree.selectCmp bounds lhs rhs) 12 := by
  refine Does.user (m := 1) (k := 11) (Does.bind (k := 3) (k' := 8) (does_volumeIncrease _ _) fun a _ => ?_)
  refine Does.user (m := 1) (k := 7) (Does.bind (k := 3) (k' := 4) (does_volumeIncrease _ _) fun b _ => ?_)
  refine Does.ite (fun _ => ?_) fun _ => .pure
  refine Does.user (m := 1) (k := 3) (does_volume _ (k := 2) fun va => ?_)
  exact Does.user (m := 1) (k := 1) (does_volume _ (k := 0) fun vb => .pure)

theorem does_minBy {cmp : α → α → W Ordering} {cmp' : α → α → Res Ordering} {k : Nat} (h : ∀ x y, Does (cmp x y) (cmp' x y) k) :
    ∀ l, Does (minBy cmp l) (RTree.minBy cmp' l) ((l.length - 1) * k)
  | [] => .pure
  | x :: l => by
    refine Does.bind (k := l.length * k) (k' := 0) (Does.fold l x fun acc y _ => ?_) fun _ _ => .pure
    refine Does.bind (k' := 0) (h acc y) fun o _ => ?_
    cases o <;> exact .pure

theorem does_select (children : List B) (bounds : B) : Does (select children bounds) (RTree.select children bounds) ((children.length - 1) * 12) := by
  have h := does_minBy (cmp := fun (x y : B × Nat) => selectCmp bounds x.1 y.1)
    (cmp' := fun x y => RTree.selectCmp bounds x.1 y.1) (fun x y => does_selectCmp bounds x.1 y.1) children.zipIdx
  rw [List.length_zipIdx] at h
  exact Does.bind (k' := 0) h fun _ _ => .pure

/-! ### Splitting -/

omit [Bounds B] [Volume B] in
/-- The pairs `i < j < n`: `n (n - 1) / 2` of them. -/
theorem length_pairIndices (n : Nat) : 2 * (pairIndices n).length = n * (n - 1) := by
  cases n with
  | zero => rfl
  | succ n =>
    have h : ∀ k, k ≤ n → 2 * ((List.range k).flatMap fun i => (List.range' (i + 1) (n + 1 - (i + 1))).map fun j => (i, j)).length + k * (k + 1) = 2 * k * (n + 1) := by
      intro k hk
      induction k with
      | zero => simp
      | succ k ih =>
        have := ih (by omega)
        rw [List.range_succ, List.flatMap_append, List.length_append]
        simp only [List.flatMap_cons, List.flatMap_nil, List.append_nil, List.length_map, List.length_range']
        obtain ⟨d, rfl⟩ : ∃ d, n = k + d := ⟨n - k, by omega⟩
        have e : k + d + 1 - (k + 1) = d := by omega
        rw [e]
        simp only [Nat.mul_add, Nat.add_mul] at this ⊢
        omega
    have := h n (Nat.le_refl n)
    unfold pairIndices
    rw [Nat.add_sub_cancel]
    simp only [Nat.mul_add, Nat.add_mul] at this ⊢
    rw [Nat.mul_assoc] at this
    omega

theorem does_worstWithOverflow (bf : α → B) (overflow : α) (acc : Worst B) (iv : α × Nat) :
    Does (worstWithOverflow bf overflow acc iv) (RTree.worstWithOverflow bf overflow acc iv) 4 := by
  refine Does.user (m := 1) (k := 3) (Does.user (m := 1) (k := 2) (Does.user (m := 1) (k := 1) (does_volume _ (k := 0) fun vol => ?_)))
  exact Does.ite (fun _ => .pure) fun _ => .pure

theorem does_worstPair (bf : α → B) (values : List α) (overflow : α) (acc : Worst B) (ij : Nat × Nat) :
    Does (worstPair bf values overflow acc ij) (RTree.worstPair bf values overflow acc ij) 6 := by
  refine Does.bind (k := 0) .lift fun vi _ => Does.user (m := 1) (k := 5) ?_
  refine Does.bind (k := 0) .lift fun vj _ => Does.user (m := 1) (k := 4) (Does.user (m := 1) (k := 3) (Does.user (m := 1) (k := 2) (Does.user (m := 1) (k := 1)
    (does_volume _ (k := 0) fun vol => ?_))))
  exact Does.ite (fun _ => .pure) fun _ => .pure

theorem does_worstCombination (bf : α → B) (values : List α) (overflow : α) :
    Does (worstCombination bf values overflow) (RTree.worstCombination bf values overflow) (values.length * 4 + 3 * (values.length * (values.length - 1))) := by
  rw [← length_pairIndices, show 3 * (2 * (pairIndices values.length).length) = (pairIndices values.length).length * 6 by omega]
  unfold worstCombination RTree.worstCombination
  cases values with
  | nil => exact ⟨fun _ h => by (cases h), fun _ h n => by cases h; rfl⟩
  | cons v values =>
    generalize hvs : v :: values = vs
    have h := Does.fold (f := worstWithOverflow bf overflow) vs.zipIdx (Volume.negInf (B := B), 0, vs.length) fun acc iv _ => does_worstWithOverflow bf overflow acc iv
    rw [List.length_zipIdx] at h
    have e : vs.isEmpty = false := by rw [← hvs]; rfl
    rw [e]
    simp only [Bool.false_eq_true, if_false]
    refine Does.mono (k := 0 + (vs.length * 4 + ((pairIndices vs.length).length * 6 + 0))) ?_ (by omega)
    exact Does.bind (k := 0) (x := .ok ()) .lift fun _ _ => Does.bind h fun acc _ => Does.bind (k' := 0)
      (Does.fold (pairIndices vs.length) acc fun acc ij _ => does_worstPair bf vs overflow acc ij) fun _ _ => .pure

theorem does_seedSplitGroups (bf : α → B) (values : List α) (overflow : α) :
    Does (seedSplitGroups bf values overflow) (RTree.seedSplitGroups bf values overflow) (values.length * 4 + 3 * (values.length * (values.length - 1))) := by
  refine Does.bind (k' := 0) (does_worstCombination bf values overflow) fun ij _ => ?_
  refine Does.bind (k := 0) (k' := 0) .lift fun vs _ => ?_
  refine Does.ite (fun _ => ?_) fun _ => .pure
  exact Does.bind (k := 0) (k' := 0) .lift fun _ _ => .pure

theorem does_increases (bf : α → B) (bounds : B) (bv : Volume.Vol B) : ∀ l : List α,
    Does (increases bf bounds bv l) (l.mapM fun value => do
      let u ← arith (Volume.volume (Bounds.union (bf value) bounds))
      arith (Volume.sub (B := B) u bv)) (l.length * 3)
  | [] => .pure
  | a :: l => by
    rw [List.mapM_cons, List.length_cons, Nat.succ_mul, Nat.add_comm, bind_assoc]
    refine (Does.user (m := 1) (Does.user (m := 1) (does_volume _ (k := l.length * 3) fun u => ?_))).mono (by omega)
    refine (Does.bind (k := 0) .lift fun x _ => Does.bind (k' := 0) (does_increases bf bounds bv l) fun xs _ => .pure).mono (by omega)

theorem does_bestCandidate (bf : α → B) (children : List α) (bounds : B) :
    Does (bestCandidate bf children bounds) (RTree.bestCandidate bf children bounds) (1 + children.length * 3) := by
  refine does_volume _ fun bv => Does.bind (k' := 0) (does_increases bf bounds bv children) fun vols _ => ?_
  exact Does.bind (k := 0) (k' := 0) .lift fun _ _ => .pure

theorem does_splitStep (bf : α → B) (minC cap : Nat) (s : SplitState B α) :
    Does (splitStep bf minC cap s) (RTree.splitStep bf minC cap s) (6 * (s.values.length - s.group1Len) + 4) := by
  have hb := fun b => does_bestCandidate bf (s.values.drop s.group1Len) b
  rw [List.length_drop] at hb
  refine (Does.bind (k' := (s.values.length - s.group1Len) * 3 + 3) (hb _) fun c1 _ => Does.first fun c1 _ => ?_).mono (by omega)
  refine (Does.bind (k' := 2) (hb _) fun c2 _ => Does.first fun c2 _ => ?_).mono (by omega)
  refine Does.ite (fun _ => ?_) fun _ => ?_
  · refine Does.bind (k := 0) (k' := 2) .lift fun v _ => Does.user (m := 1) (k := 1) (Does.user (m := 1) (k := 0) ?_)
    exact Does.bind (k := 0) (k' := 0) .lift fun _ _ => .pure
  · refine Does.bind (k := 0) (k' := 2) .lift fun v _ => Does.user (m := 1) (k := 1) (Does.user (m := 1) (k := 0) ?_)
    exact Does.bind (k := 0) (k' := 0) .lift fun _ _ => Does.bind (k := 0) (k' := 0) .lift fun _ _ => .pure

omit [Bounds B] [Volume B] in
theorem swap_length {l l' : List α} {i j : Nat} (h : Vec.swap l i j = .ok l') : l'.length = l.length := by
  unfold Vec.swap at h
  split at h
  · cases h; simp
  · cases h

omit [Bounds B] [Volume B] in
theorem swapRemove_length {l : List α} {i : Nat} {r : α × List α} (h : Vec.swapRemove l i = .ok r) : r.2.length + 1 = l.length := by
  unfold Vec.swapRemove at h
  split at h
  · rename_i h1 h2
    cases h
    have : 0 < l.length := by
      cases l with
      | nil => cases h1
      | cons => simp
    simp
    omega
  · cases h

theorem splitStep_measure {bf : α → B} {minC cap : Nat} {s s' : SplitState B α} (h : RTree.splitStep bf minC cap s = .ok s') :
    s'.values.length - s'.group1Len = s.values.length - s.group1Len - 1 := by
  unfold RTree.splitStep at h
  obtain ⟨c1, -, h⟩ := bind_eq_ok.1 h
  obtain ⟨c1, -, h⟩ := bind_eq_ok.1 h
  obtain ⟨c2, -, h⟩ := bind_eq_ok.1 h
  obtain ⟨c2, -, h⟩ := bind_eq_ok.1 h
  generalize hadd : (if Volume.lt (B := B) c1.2 c2.2 = true then _ else _ : Bool) = add at h
  cases add
  · simp only [Bool.false_eq_true, if_false] at h
    obtain ⟨v, -, h⟩ := bind_eq_ok.1 h
    obtain ⟨r, hr, h⟩ := bind_eq_ok.1 h
    obtain ⟨g, -, h⟩ := bind_eq_ok.1 h
    have := swapRemove_length hr
    cases h
    show r.2.length - s.group1Len = _
    omega
  · simp only [if_true] at h
    obtain ⟨v, -, h⟩ := bind_eq_ok.1 h
    obtain ⟨r, hr, h⟩ := bind_eq_ok.1 h
    have := swap_length hr
    cases h
    show r.length - (s.group1Len + 1) = _
    omega

/-- `3 d (d + 1) + 4 d` calls for `d` values to be distributed. -/
theorem does_splitLoop (bf : α → B) (minC cap : Nat) : ∀ (fuel d : Nat) (s : SplitState B α), s.values.length - s.group1Len = d →
    Does (splitLoop bf minC cap fuel s) (RTree.splitLoop bf minC cap fuel s) (3 * (d * d) + 7 * d)
  | 0, d, s, hd => by
    rw [splitLoop, RTree.splitLoop]
    exact Does.ite (fun _ => .lift) fun _ => .pure
  | fuel + 1, d, s, hd => by
    rw [splitLoop, RTree.splitLoop]
    refine Does.ite (fun hlt => ?_) fun _ => .pure
    obtain ⟨e, rfl⟩ : ∃ e, d = e + 1 := ⟨d - 1, by omega⟩
    refine (Does.bind (does_splitStep bf minC cap s) fun s' hs' => does_splitLoop bf minC cap fuel e s' (by rw [splitStep_measure hs']; omega)).mono ?_
    rw [hd]
    simp only [Nat.mul_add, Nat.add_mul]
    omega

omit [Volume B] in
theorem seedSplitGroups_length [Volume B] {bf : α → B} {values : List α} {overflow : α} {r : List α × α} (h : RTree.seedSplitGroups bf values overflow = .ok r) :
    r.1.length = values.length := by
  unfold RTree.seedSplitGroups at h
  obtain ⟨ij, -, h⟩ := bind_eq_ok.1 h
  obtain ⟨vs, hvs, h⟩ := bind_eq_ok.1 h
  have := swap_length hvs
  split at h
  · obtain ⟨v, -, h⟩ := bind_eq_ok.1 h
    cases h
    simp [this]
  · cases h
    exact this

/-- A split of `n` values and one more: at most `6 n² + 2 n` calls. -/
theorem does_split (bf : α → B) (minC cap : Nat) (values : List α) (overflow : α) :
    Does (split bf minC cap values overflow) (RTree.split bf minC cap values overflow) (6 * (values.length * values.length) + 2 * values.length) := by
  unfold split RTree.split
  cases values with
  | nil => exact ⟨fun _ h => by (cases h), fun _ h n => by cases h; rfl⟩
  | cons v values =>
    generalize hvs : v :: values = vs
    have hlen : ¬ vs.length < 1 := by rw [← hvs, List.length_cons]; omega
    obtain ⟨d, hd⟩ : ∃ d, vs.length = d + 1 := ⟨vs.length - 1, by omega⟩
    rw [if_neg hlen, if_neg hlen]
    refine Does.skip ?_
    refine (Does.bind (k' := 2 + (3 * (d * d) + 7 * d)) (does_seedSplitGroups bf vs overflow) fun r hr => ?_).mono ?_
    · refine Does.first (fun g2 _ => Does.first fun v0 _ => (Does.user (m := 1) (Does.user (m := 1) (k := 3 * (d * d) + 7 * d)
        (Does.bind (k' := 0) (does_splitLoop bf minC cap r.1.length d _ ?_) fun _ _ => .pure))).mono (by omega))
      show r.1.length - 1 = d
      rw [seedSplitGroups_length hr]
      omega
    · rw [hd, Nat.add_sub_cancel]
      simp only [Nat.mul_add, Nat.add_mul]
      omega

end

end RTree.Work
