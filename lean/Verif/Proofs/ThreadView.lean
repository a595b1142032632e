import Verif.Threads
import Verif.Proofs.Steps
/-!
# What a thread sees of the memory

The memory of a thread is split into the blocks of the shared trees, which nobody changes, and the blocks of its own trees.
`Prog.runOwn` runs a program on the two parts: it may look at both and change only the second.
-/

namespace RTree.Raw

variable {α β δ : Type}

/-- The block is there and not freed. -/
def Alive (h : Heap α) (a : Nat) : Prop := ∃ b, h[a]? = some (some b)

theorem Alive.lt {h : Heap α} {a : Nat} (ha : Alive h a) : a < h.length := by
  obtain ⟨b, hb⟩ := ha
  exact (List.getElem?_eq_some_iff.1 hb).1

theorem not_alive {h : Heap α} {a : Nat} (ha : ¬ Alive h a) : h[a]? = none ∨ h[a]? = some none := by
  cases hx : h[a]? with
  | none => exact .inl rfl
  | some o => cases o with
    | none => exact .inr rfl
    | some b => exact absurd ⟨b, hx⟩ ha

/-- A program that looks at `s` and `g` and changes only `g`. -/
def Prog.runOwn (s : Heap α) (gap : Nat → Nat) : Prog α β → M α β
  | .done b => pure b
  | .fail e => panic e
  | .look i k => fun g =>
    match s[i]? with
    | some (some b) => (k b).runOwn s gap g
    | _ =>
      match g[i]? with
      | some (some b) => (k b).runOwn s gap g
      | _ => .error .ub
  | .put i x k => fun g =>
    match g[i]? with
    | some (some _) => k.runOwn s gap (g.set i x)
    | _ => .error .ub
  | .make b k => fun g => (k ⟨g.length + gap g.length, 0⟩).runOwn s gap (g ++ List.replicate (gap g.length) none ++ [some b])

section

variable {s g g' : Heap α} {γ γ' : Nat → Nat}

theorem runOwn_look_shared {i : Nat} {k : Block α → Prog α β} {b : Block α} (h : s[i]? = some (some b)) :
    (Prog.look i k).runOwn s γ g = (k b).runOwn s γ g := by
  simp only [Prog.runOwn, h]

theorem runOwn_look_own {i : Nat} {k : Block α → Prog α β} {b : Block α} (hs : ¬ Alive s i) (h : g[i]? = some (some b)) :
    (Prog.look i k).runOwn s γ g = (k b).runOwn s γ g := by
  rcases not_alive hs with h1 | h1 <;> simp only [Prog.runOwn, h, h1]

theorem runOwn_look_ub {i : Nat} {k : Block α → Prog α β} (hs : ¬ Alive s i) (h : ¬ Alive g i) :
    (Prog.look i k).runOwn s γ g = .error .ub := by
  rcases not_alive hs with h1 | h1 <;> rcases not_alive h with h2 | h2 <;> simp only [Prog.runOwn, h1, h2]

theorem runOwn_put {i : Nat} {x : Option (Block α)} {k : Prog α β} (h : Alive g i) :
    (Prog.put i x k).runOwn s γ g = k.runOwn s γ (g.set i x) := by
  obtain ⟨b, h⟩ := h
  simp only [Prog.runOwn, h]

theorem runOwn_put_ub {i : Nat} {x : Option (Block α)} {k : Prog α β} (h : ¬ Alive g i) :
    (Prog.put i x k).runOwn s γ g = .error .ub := by
  rcases not_alive h with h1 | h1 <;> simp only [Prog.runOwn, h1]

theorem runOwn_bind (p : Prog α β) (f : β → Prog α δ) : (p >>= f).runOwn s γ = (p.runOwn s γ >>= fun b => (f b).runOwn s γ) := by
  funext h
  show (p.bind f).runOwn s γ h = _
  induction p generalizing h with
  | done b => rfl
  | fail e => rfl
  | look i k ih =>
    rw [bind_apply]
    simp only [Prog.bind, Prog.runOwn]
    cases s[i]? with
    | none =>
      cases h[i]? with
      | none => rfl
      | some o => cases o with
        | none => rfl
        | some b => exact ih b h
    | some o => cases o with
      | some b => exact ih b h
      | none =>
        cases h[i]? with
        | none => rfl
        | some o => cases o with
          | none => rfl
          | some b => exact ih b h
  | put i x k ih =>
    rw [bind_apply]
    simp only [Prog.bind, Prog.runOwn]
    cases h[i]? with
    | none => rfl
    | some o => cases o with
      | none => rfl
      | some b => exact ih _
  | make b k ih => exact ih _ _

/-- Only what the allocator does from now on matters. -/
theorem runOwn_congr (p : Prog α β) : ∀ {g : Heap α}, (∀ m, g.length ≤ m → γ m = γ' m) → p.runOwn s γ g = p.runOwn s γ' g := by
  induction p with
  | done b => intros; rfl
  | fail e => intros; rfl
  | look i k ih =>
    intro g hg
    by_cases hs : Alive s i
    · obtain ⟨b, hb⟩ := hs
      rw [runOwn_look_shared hb, runOwn_look_shared hb, ih b hg]
    · by_cases ho : Alive g i
      · obtain ⟨b, hb⟩ := ho
        rw [runOwn_look_own hs hb, runOwn_look_own hs hb, ih b hg]
      · rw [runOwn_look_ub hs ho, runOwn_look_ub hs ho]
  | put i x k ih =>
    intro g hg
    by_cases ho : Alive g i
    · rw [runOwn_put ho, runOwn_put ho, ih (by simpa using hg)]
    · rw [runOwn_put_ub ho, runOwn_put_ub ho]
  | make b k ih =>
    intro g hg
    have := hg g.length (Nat.le_refl _)
    simp only [Prog.runOwn]
    rw [this]
    refine ih _ fun m hm => hg m ?_
    simp at hm
    omega

/-- Blocks are only added at the end. -/
theorem runOwn_mono (p : Prog α β) : ∀ {g g' : Heap α} {b : β}, p.runOwn s γ g = .ok (b, g') →
    g.length ≤ g'.length ∧ ∀ a, a < g.length → Alive g' a → Alive g a := by
  induction p with
  | done b => intro g g' b' h; cases h; exact ⟨Nat.le_refl _, fun _ _ h => h⟩
  | fail e => intro g g' b' h; cases h
  | look i k ih =>
    intro g g' b' h
    by_cases hs : Alive s i
    · obtain ⟨b, hb⟩ := hs
      rw [runOwn_look_shared hb] at h; exact ih b h
    · by_cases ho : Alive g i
      · obtain ⟨b, hb⟩ := ho
        rw [runOwn_look_own hs hb] at h; exact ih b h
      · rw [runOwn_look_ub hs ho] at h; cases h
  | put i x k ih =>
    intro g g' b' h
    by_cases ho : Alive g i
    · rw [runOwn_put ho] at h
      obtain ⟨h1, h2⟩ := ih h
      rw [List.length_set] at h1 h2
      refine ⟨h1, fun a ha hl => ?_⟩
      obtain ⟨b, hb⟩ := h2 a ha hl
      by_cases hi : i = a
      · subst hi; exact ho
      · rw [List.getElem?_set_ne hi] at hb
        exact ⟨b, hb⟩
    · rw [runOwn_put_ub ho] at h; cases h
  | make b k ih =>
    intro g g' b' h
    obtain ⟨h1, h2⟩ := ih _ h
    simp only [List.length_append, List.length_replicate, List.length_singleton] at h1 h2
    refine ⟨by omega, fun a ha hl => ?_⟩
    obtain ⟨c, hc⟩ := h2 a (by omega) hl
    rw [List.append_assoc, List.getElem?_append_left ha] at hc
    exact ⟨c, hc⟩

/-- The parts do not overlap, and new blocks of the second are not in the first. -/
structure View (s g : Heap α) : Prop where
  len : s.length ≤ g.length
  apart : ∀ a, Alive s a → ¬ Alive g a

theorem View.after (v : View s g) {p : Prog α β} {b : β} (h : p.runOwn s γ g = .ok (b, g')) : View s g' := by
  obtain ⟨h1, h2⟩ := runOwn_mono p h
  refine ⟨Nat.le_trans v.len h1, fun a ha hg => v.apart a ha (h2 a ?_ hg)⟩
  have := ha.lt
  have := v.len
  omega

/-- A program that is at ease with its own part does not look at the other. -/
theorem runOwn_run (p : Prog α β) : ∀ {g : Heap α}, View s g → p.run γ g ≠ .error .ub → p.runOwn s γ g = p.run γ g := by
  induction p with
  | done b => intros; rfl
  | fail e => intros; rfl
  | look i k ih =>
    intro g v h
    by_cases ho : Alive g i
    · have hs : ¬ Alive s i := fun hs => v.apart i hs ho
      obtain ⟨b, hb⟩ := ho
      rw [runOwn_look_own hs hb]
      have e : (Prog.look i k).run γ g = (k b).run γ g := by simp only [Prog.run, hb]
      rw [e] at h ⊢
      exact ih b v h
    · exfalso
      apply h
      rcases not_alive ho with h1 | h1 <;> simp only [Prog.run, h1]
  | put i x k ih =>
    intro g v h
    by_cases ho : Alive g i
    · have hs : ¬ Alive s i := fun hs => v.apart i hs ho
      rw [runOwn_put ho]
      have e : (Prog.put i x k).run γ g = k.run γ (g.set i x) := by
        obtain ⟨b, hb⟩ := ho
        simp only [Prog.run, hb]
      rw [e] at h ⊢
      refine ih ⟨by simpa using v.len, fun a ha hg => ?_⟩ h
      obtain ⟨b, hb⟩ := hg
      by_cases hi : i = a
      · subst hi; exact hs ha
      · rw [List.getElem?_set_ne hi] at hb
        exact v.apart a ha ⟨b, hb⟩
    · exfalso
      apply h
      rcases not_alive ho with h1 | h1 <;> simp only [Prog.run, h1]
  | make b k ih =>
    intro g v h
    refine ih _ ⟨?_, fun a ha hg => ?_⟩ h
    · have := v.len
      simp only [List.length_append, List.length_replicate, List.length_singleton]
      omega
    · have h1 := ha.lt
      have h2 := v.len
      obtain ⟨c, hc⟩ := hg
      rw [List.append_assoc, List.getElem?_append_left (by omega)] at hc
      exact v.apart a ha ⟨c, hc⟩

/-! ### Programs that change only what they make -/

/-- All changes are to blocks from `n` on, and the result satisfies `R`. -/
def Prog.Fresh (n : Nat) (R : β → Prop) : Prog α β → Prop
  | .done b => R b
  | .fail _ => True
  | .look _ k => ∀ b, (k b).Fresh n R
  | .put i _ k => n ≤ i ∧ k.Fresh n R
  | .make _ k => ∀ p : Ptr, n ≤ p.block → (k p).Fresh n R

theorem Prog.Fresh.bind {n : Nat} {R : β → Prop} {R' : δ → Prop} {f : β → Prog α δ} : ∀ {p : Prog α β}, p.Fresh n R → (∀ b, R b → (f b).Fresh n R') →
    (p >>= f).Fresh n R' := by
  intro p hp hf
  show (p.bind f).Fresh n R'
  induction p with
  | done b => exact hf b hp
  | fail e => trivial
  | look i k ih => exact fun b => ih b (hp b)
  | put i x k ih => exact ⟨hp.1, ih hp.2⟩
  | make b k ih => exact fun q hq => ih q (hp q hq)

theorem Prog.Fresh.mono {n : Nat} {R R' : β → Prop} (h : ∀ b, R b → R' b) {p : Prog α β} (hp : p.Fresh n R) : p.Fresh n R' := by
  induction p with
  | done b => exact h b hp
  | fail e => trivial
  | look i k ih => exact fun b => ih b (hp b)
  | put i x k ih => exact ⟨hp.1, ih hp.2⟩
  | make b k ih => exact fun q hq => ih q (hp q hq)

/-- The two parts together. -/
def merge (s g : Heap α) : Heap α := g.mapIdx fun i o => (s[i]?.join).or o

@[simp] theorem merge_length : (merge s g).length = g.length := by simp [merge]

theorem merge_get (a : Nat) : (merge s g)[a]? = g[a]?.map fun o => (s[a]?.join).or o := by simp [merge]

theorem merge_shared (v : s.length ≤ g.length) {a : Nat} (h : Alive s a) : (merge s g)[a]? = s[a]? := by
  have hl := h.lt
  obtain ⟨b, hb⟩ := h
  rw [merge_get, hb, List.getElem?_eq_getElem (by omega)]
  rfl

theorem merge_own {a : Nat} (h : ¬ Alive s a) : (merge s g)[a]? = g[a]? := by
  rw [merge_get]
  have e : s[a]?.join = none := by rcases not_alive h with h | h <;> rw [h] <;> rfl
  rw [e]
  cases g[a]? <;> rfl

theorem merge_set {i : Nat} (h : s.length ≤ i) (x : Option (Block α)) : merge s (g.set i x) = (merge s g).set i x := by
  refine List.ext_getElem? fun a => ?_
  rw [merge_get, List.getElem?_set, List.getElem?_set]
  by_cases hi : i = a
  · subst hi
    rw [List.getElem?_eq_none h, merge_length]
    simp only [if_pos]
    split <;> rfl
  · simp only [if_neg hi, merge_get]

theorem merge_append (v : s.length ≤ g.length) (l : List (Option (Block α))) : merge s (g ++ l) = merge s g ++ l := by
  refine List.ext_getElem? fun a => ?_
  by_cases h : a < g.length
  · rw [List.getElem?_append_left (by rw [merge_length]; exact h), merge_get, merge_get, List.getElem?_append_left h]
  · rw [List.getElem?_append_right (by rw [merge_length]; omega), merge_get, List.getElem?_append_right (by omega), merge_length,
      List.getElem?_eq_none (by omega : s.length ≤ a)]
    cases l[a - g.length]? <;> rfl

/-- A program that changes only what it makes does with the two parts what it does with both together. -/
theorem run_merge {R : β → Prop} (p : Prog α β) : ∀ {g : Heap α}, p.Fresh s.length R → s.length ≤ g.length →
    p.run γ (merge s g) = (p.runOwn s γ g).map fun r => (r.1, merge s r.2) := by
  induction p with
  | done b => intros; rfl
  | fail e => intros; rfl
  | look i k ih =>
    intro g hp v
    by_cases hs : Alive s i
    · obtain ⟨b, hb⟩ := hs
      rw [runOwn_look_shared hb, ← ih b (hp b) v]
      have := merge_shared (g := g) v ⟨b, hb⟩
      rw [hb] at this
      simp only [Prog.run, this]
    · have hm := merge_own (g := g) hs
      by_cases ho : Alive g i
      · obtain ⟨b, hb⟩ := ho
        rw [runOwn_look_own hs hb, ← ih b (hp b) v]
        rw [hb] at hm
        simp only [Prog.run, hm]
      · rw [runOwn_look_ub hs ho]
        rcases not_alive ho with h1 | h1 <;> rw [h1] at hm <;> simp only [Prog.run, hm] <;> rfl
  | put i x k ih =>
    intro g hp v
    have hm := merge_own (s := s) (g := g) (a := i) fun h => by have := h.lt; have := hp.1; omega
    by_cases ho : Alive g i
    · rw [runOwn_put ho, ← ih hp.2 (by simpa using v), merge_set hp.1]
      obtain ⟨b, hb⟩ := ho
      rw [hb] at hm
      simp only [Prog.run, hm]
    · rw [runOwn_put_ub ho]
      rcases not_alive ho with h1 | h1 <;> rw [h1] at hm <;> simp only [Prog.run, hm] <;> rfl
  | make b k ih =>
    intro g hp v
    simp only [Prog.run, Prog.runOwn]
    rw [← ih _ (hp _ (by show s.length ≤ g.length + γ g.length; omega)) (by simp; omega), merge_length, List.append_assoc, List.append_assoc, merge_append v]

end

/-! ### What `&self` allows -/

namespace Steps

variable {n : Nat}

theorem fresh_pure {R : β → Prop} {b : β} (h : R b) : (pure b : Prog α β).Fresh n R := h

theorem fresh_panicIf {c : Prop} [Decidable c] {e : Panic} : (panicIf c e : Prog α Unit).Fresh n fun _ => True := by
  rw [panicIf]; split <;> trivial

theorem fresh_lift {x : Res β} : (lift x : Prog α β).Fresh n fun _ => True := by cases x <;> trivial

theorem fresh_alloc (E : Env) (m : Nat) : (alloc E m : Prog α Ptr).Fresh n fun p => n ≤ p.block := by
  rw [alloc, layoutArray]
  refine Prog.Fresh.bind (R := fun _ => True) (by split <;> trivial) fun b _ => .bind (R := fun _ => True) fresh_panicIf fun _ _ => ?_
  exact fun p hp => hp

theorem fresh_block (p : Ptr) : (block p : Prog α (Block α)).Fresh n fun _ => True := fun _ => trivial

theorem fresh_setSlots {p : Ptr} (hp : n ≤ p.block) (l : List (Option α)) : (setSlots p l).Fresh n fun _ => True :=
  .bind (fresh_block p) fun _ _ => ⟨hp, trivial⟩

theorem fresh_add (E : Env) (p : Ptr) (m : Nat) : (add E p m : Prog α Ptr).Fresh n fun q => q.block = p.block :=
  .bind (fresh_block p) fun _ _ => by split <;> trivial

theorem fresh_read (E : Env) (p : Ptr) : (read E p : Prog α α).Fresh n fun _ => True :=
  .bind (fresh_block p) fun _ _ => by
    split
    · split <;> trivial
    · trivial

theorem fresh_write (E : Env) {p : Ptr} (hp : n ≤ p.block) (a : α) : (write E p a).Fresh n fun _ => True :=
  .bind (fresh_block p) fun _ _ => by
    split
    · exact fresh_setSlots hp _
    · trivial

namespace FCVec

theorem fresh_new (E : Env) (cap : Nat) : (new E cap : Prog α FCVec).Fresh n fun v => n ≤ v.buf.block :=
  .bind (fresh_alloc E cap) fun _ h => h

theorem fresh_push (E : Env) (cap : Nat) {v : FCVec} (hv : n ≤ v.buf.block) (a : α) : (push E cap v a).Fresh n fun v => n ≤ v.buf.block :=
  .bind fresh_panicIf fun _ _ => .bind (fresh_add E v.buf v.len) fun p hp => .bind (fresh_write E (by rw [hp]; exact hv) a) fun _ _ => hv

theorem fresh_sliceLoop (E : Env) (v : FCVec) : ∀ m i, (sliceLoop E v m i : Prog α (List α)).Fresh n fun _ => True
  | 0, _ => trivial
  | m + 1, i => .bind (fresh_add E _ _) fun p _ => .bind (fresh_read E p) fun _ _ => .bind (fresh_sliceLoop E v m (i + 1)) fun _ _ => trivial

theorem fresh_slice (E : Env) (v : FCVec) : (slice E v : Prog α (List α)).Fresh n fun _ => True := fresh_sliceLoop E v _ _

theorem fresh_get (E : Env) (v : FCVec) (i : Nat) : (get E v i : Prog α α).Fresh n fun _ => True := by
  rw [get]
  split
  · exact .bind (fresh_add E _ _) fun p _ => fresh_read E p
  · trivial

theorem fresh_pushAll (E : Env) (cap : Nat) : ∀ (l : List α) {v : FCVec}, n ≤ v.buf.block → (pushAll E cap v l).Fresh n fun v => n ≤ v.buf.block
  | [], _, hv => hv
  | a :: l, _, hv => .bind (fresh_push E cap hv a) fun _ hv' => fresh_pushAll E cap l hv'

theorem fresh_clone (E : Env) (cap : Nat) (cl : α → α) (v : FCVec) : (clone E cap cl v).Fresh n fun _ => True :=
  .bind fresh_panicIf fun _ _ => .bind (fresh_new E cap) fun _ hv => .bind (fresh_slice E v) fun _ _ => (fresh_pushAll E cap _ hv).mono fun _ _ => trivial

end FCVec

variable {B K V Q : Type}

theorem fresh_foldlM {X : Type} {R : β → Prop} {f : β → X → Prog α β} (h : ∀ b x, R b → (f b x).Fresh n R) : ∀ (l : List X) (b : β), R b →
    (l.foldlM f b).Fresh n R
  | [], _, hb => hb
  | x :: l, b, hb => by
    rw [List.foldlM_cons]
    exact .bind (h b x hb) fun b' hb' => fresh_foldlM h l b' hb'

theorem fresh_nodes (E : TEnv) (v : FCVec) : (nodes E v : Prog (Cell B K V) _).Fresh n fun _ => True :=
  .bind (FCVec.fresh_slice _ _) fun _ _ => fresh_lift

theorem fresh_entries (E : TEnv) (v : FCVec) : (entries E v : Prog (Cell B K V) _).Fresh n fun _ => True :=
  .bind (FCVec.fresh_slice _ _) fun _ _ => fresh_lift

theorem fresh_lenNode (E : TEnv) : ∀ l (node : RNode B), (lenNode E l node : Prog (Cell B K V) _).Fresh n fun _ => True
  | 0, _ => trivial
  | l + 1, _ => .bind (fresh_nodes E _) fun cs _ =>
    fresh_foldlM (R := fun _ => True) (fun _ c _ => .bind (fresh_lenNode E l c) fun _ _ => fresh_pure trivial) cs _ trivial

theorem fresh_cloneNode (E : TEnv) (a : Alloc) : ∀ l (node : RNode B), (cloneNode E a l node : Prog (Cell B K V) _).Fresh n fun _ => True
  | 0, _ => .bind (FCVec.fresh_clone _ _ _ _) fun _ _ => trivial
  | l + 1, _ => .bind (FCVec.fresh_new _ _) fun _ hv => .bind (fresh_nodes E _) fun cs _ =>
    .bind (R := fun v => n ≤ v.buf.block)
      (fresh_foldlM (fun _ c hv => .bind (fresh_cloneNode E a l c) fun _ _ => FCVec.fresh_push _ _ hv _) cs _ hv) fun _ _ => trivial

section

variable [Bounds B] [Bounded Q B] [BEq Q]

omit [BEq Q] in
theorem fresh_findChildren (q : Q) {rec : RNode B → Prog (Cell B K V) (Option (FCVec × Nat))} (h : ∀ c, (rec c).Fresh n fun _ => True) :
    ∀ cs, (findChildren q rec cs).Fresh n fun _ => True
  | [] => trivial
  | c :: cs => by
    rw [findChildren]
    split
    · refine .bind (h c) fun o _ => ?_
      cases o with
      | none => exact fresh_findChildren q h cs
      | some p => trivial
    · exact fresh_findChildren q h cs

theorem fresh_find (E : TEnv) (borrow : K → Q) (q : Q) : ∀ l (node : RNode B), (find E borrow q l node : Prog (Cell B K V) _).Fresh n fun _ => True
  | 0, _ => .bind (fresh_entries E _) fun _ _ => trivial
  | l + 1, _ => .bind (fresh_nodes E _) fun _ _ => fresh_findChildren q (fresh_find E borrow q l) _

theorem fresh_tget (E : TEnv) (borrow : K → Q) (t : RTree B) (q : Q) : (RTree.get E borrow t q : Prog (Cell B K V) _).Fresh n fun _ => True := by
  refine .bind (fresh_find E borrow q _ _) fun o _ => ?_
  cases o with
  | none => trivial
  | some p => exact .bind (.bind (FCVec.fresh_get _ _ _) fun _ _ => fresh_lift) fun _ _ => trivial

end

theorem fresh_tclone (E : TEnv) (t : RTree B) : (RTree.clone E t : Prog (Cell B K V) _).Fresh n fun _ => True :=
  .bind (fresh_cloneNode E _ _ _) fun _ _ => trivial

theorem fresh_tlen (E : TEnv) (t : RTree B) : (RTree.len E t : Prog (Cell B K V) _).Fresh n fun _ => True := fresh_lenNode E _ _

theorem fresh_queryLeaf (E : TEnv) (borrow : K → Q) (f : SpatialFilter B Q) (v : FCVec) : ∀ m i,
    (queryLeaf E borrow f v m i : Prog (Cell B K V) _).Fresh n fun _ => True
  | 0, _ => trivial
  | m + 1, i => .bind (FCVec.fresh_get _ _ _) fun _ _ => .bind (R := fun _ => True) fresh_lift fun _ _ => .bind (fresh_queryLeaf E borrow f v m (i + 1)) fun _ _ => fresh_pure trivial

theorem fresh_queryInner (E : TEnv) (f : SpatialFilter B Q) {rec : RNode B → Prog (Cell B K V) (List (K × V))} (h : ∀ c, (rec c).Fresh n fun _ => True)
    (v : FCVec) : ∀ m i, (queryInner E f rec v m i).Fresh n fun _ => True
  | 0, _ => trivial
  | m + 1, i => .bind (R := fun _ => True) (.bind (FCVec.fresh_get _ _ _) fun _ _ => fresh_lift) fun c _ => .bind (R := fun _ => True) (by
      split
      · exact h c
      · trivial) fun _ _ => .bind (fresh_queryInner E f h v m (i + 1)) fun _ _ => fresh_pure trivial

theorem fresh_queryNode (E : TEnv) (borrow : K → Q) (f : SpatialFilter B Q) : ∀ l (node : RNode B),
    (queryNode E borrow f l node : Prog (Cell B K V) _).Fresh n fun _ => True
  | 0, _ => fresh_queryLeaf E borrow f _ _ _
  | l + 1, _ => fresh_queryInner E f (fresh_queryNode E borrow f l) _ _ _

theorem fresh_titer (E : TEnv) (t : RTree B) : (RTree.iter E t : Prog (Cell B K V) _).Fresh n fun _ => True := fresh_queryNode E id _ _ _

theorem fresh_tfilterIter (E : TEnv) (borrow : K → Q) (f : SpatialFilter B Q) (t : RTree B) :
    (RTree.filterIter E borrow f t : Prog (Cell B K V) _).Fresh n fun _ => True := by
  rw [RTree.filterIter]
  split
  · exact fresh_queryNode E borrow f _ _
  · trivial

section

variable {S : Type} [LE S]

theorem fresh_pushEntries (E : TEnv) (hp : RawHeap B K V S) (r : Ranking B K (Option S)) (v : FCVec) : ∀ m i q,
    (Sorted.pushEntries E hp r v m i q).Fresh n fun _ => True
  | 0, _, _ => trivial
  | m + 1, i, _ => .bind (FCVec.fresh_get _ _ _) fun _ _ => .bind (R := fun _ => True) fresh_lift fun _ _ => .bind (R := fun _ => True) fresh_lift fun _ _ =>
      fresh_pushEntries E hp r v m (i + 1) _

theorem fresh_pushNodes (E : TEnv) (hp : RawHeap B K V S) (r : Ranking B K (Option S)) (l : Nat) (v : FCVec) : ∀ m i q,
    (Sorted.pushNodes E hp r l v m i q).Fresh n fun _ => True
  | 0, _, _ => trivial
  | m + 1, i, _ => .bind (R := fun _ => True) (.bind (FCVec.fresh_get _ _ _) fun _ _ => fresh_lift) fun _ _ => .bind (R := fun _ => True) fresh_lift fun _ _ =>
      fresh_pushNodes E hp r l v m (i + 1) _

theorem fresh_nextLoop (E : TEnv) (hp : RawHeap B K V S) (r : Ranking B K (Option S)) : ∀ fuel q,
    (Sorted.nextLoop E hp r fuel q).Fresh n fun _ => True
  | 0, _ => trivial
  | fuel + 1, q => by
    rw [Sorted.nextLoop]
    cases hp.pop q with
    | none => trivial
    | some x =>
      obtain ⟨⟨⟨m, level⟩, value⟩, q⟩ := x
      match level with
      | 0 => exact .bind (R := fun _ => True) fresh_lift fun _ _ => trivial
      | 1 => exact .bind (R := fun _ => True) fresh_lift fun _ _ => .bind (fresh_pushEntries E hp r _ _ _ _) fun _ _ => fresh_nextLoop E hp r fuel _
      | l + 2 => exact .bind (R := fun _ => True) fresh_lift fun _ _ => .bind (fresh_pushNodes E hp r _ _ _ _ _) fun _ _ => fresh_nextLoop E hp r fuel _

theorem fresh_takeLoop (E : TEnv) (hp : RawHeap B K V S) (r : Ranking B K (Option S)) (fuel : Nat) : ∀ k q,
    (Sorted.takeLoop E hp r fuel k q).Fresh n fun _ => True
  | 0, _ => trivial
  | k + 1, q => .bind (fresh_nextLoop E hp r fuel q) fun x _ => by
    obtain ⟨o, q⟩ := x
    cases o with
    | none => trivial
    | some e => exact .bind (fresh_takeLoop E hp r fuel k q) fun _ _ => trivial

theorem fresh_tfilterFirstAscBy (E : TEnv) (hp : RawHeap B K V S) (r : Ranking B K (Option S)) (k : Nat) (t : RTree B) :
    (RTree.filterFirstAscBy E hp r k t).Fresh n fun _ => True :=
  .bind (R := fun _ => True) fresh_lift fun _ _ => fresh_takeLoop E hp r _ k _

end

theorem fresh_productRound {visit : Nat → Nat → Prog (Cell B K V) (EntryPairs K V)} (h : ∀ i j, (visit i j).Fresh n fun _ => True) (j : Nat) : ∀ m i,
    (productRound visit j m i).Fresh n fun _ => True
  | 0, _ => trivial
  | m + 1, i => .bind (h i j) fun _ _ => .bind (fresh_productRound h j m (i + 1)) fun _ _ => fresh_pure trivial

theorem fresh_productLoop {visit : Nat → Nat → Prog (Cell B K V) (EntryPairs K V)} (h : ∀ i j, (visit i j).Fresh n fun _ => True) (k : Nat) : ∀ m j,
    (productLoop visit k m j).Fresh n fun _ => True
  | 0, _ => trivial
  | m + 1, j => .bind (fresh_productRound h j k 0) fun _ _ => .bind (fresh_productLoop h k m (j + 1)) fun _ _ => fresh_pure trivial

theorem fresh_sliceAt (E : TEnv) (level : Nat) (node : RNode B) (i : Nat) : (sliceAt E level node i : Prog (Cell B K V) _).Fresh n fun _ => True := by
  cases level with
  | zero => trivial
  | succ l => exact .bind (FCVec.fresh_get _ _ _) fun _ _ => fresh_lift

theorem fresh_joinNode (E : TEnv) (borrow : K → Q) (f : JoinFilter B B Q Q) (p0 p1 : Nat) : ∀ l (n0 n1 : RNode B),
    (joinNode E borrow f p0 p1 l n0 n1 : Prog (Cell B K V) _).Fresh n fun _ => True
  | 0, n0, n1 => fresh_productLoop (fun i j => .bind (FCVec.fresh_get _ _ _) fun _ _ => .bind (R := fun _ => True) fresh_lift fun _ _ =>
      .bind (FCVec.fresh_get _ _ _) fun _ _ => .bind (R := fun _ => True) fresh_lift fun _ _ => fresh_pure trivial) _ _ _
  | l + 1, n0, n1 => fresh_productLoop (fun i j => .bind (fresh_sliceAt E _ n0 i) fun c0 _ => .bind (fresh_sliceAt E _ n1 j) fun c1 _ => by
      split
      · exact fresh_joinNode E borrow f p0 p1 l c0 c1
      · trivial) _ _ _

theorem fresh_tjoin (E : TEnv) (borrow : K → Q) (f : JoinFilter B B Q Q) (t0 t1 : RTree B) :
    (RTree.join E borrow f t0 t1 : Prog (Cell B K V) _).Fresh n fun _ => True := by
  simp only [RTree.join]
  split
  · exact fresh_joinNode E borrow f _ _ _ _ _
  · trivial

end Steps

end RTree.Raw
