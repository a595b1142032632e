import Verif.Model.FCVec
import Verif.Model.Vec
/-!
# The raw-memory vector refines the list vector

`Owns E cap h v l`: in memory `h`, `v` is a vector of capacity `cap` whose elements are `l`.
-/

namespace RTree.Raw

variable {α β γ : Type}

theorem bind_apply (x : M α β) (f : β → M α γ) (h : Heap α) :
    (x >>= f) h = match x h with | .ok (b, h') => f b h' | .error e => .error e := rfl

@[simp] theorem pure_apply (b : β) (h : Heap α) : (pure b : M α β) h = .ok (b, h) := rfl

@[simp] theorem panic_apply (e : Panic) (h : Heap α) : (panic e : M α β) h = .error e := rfl

theorem bind_ok {x : M α β} {f : β → M α γ} {h h' : Heap α} {b : β} (hx : x h = .ok (b, h')) :
    (x >>= f) h = f b h' := by rw [bind_apply, hx]

theorem bind_err {x : M α β} {f : β → M α γ} {h : Heap α} {e : Panic} (hx : x h = .error e) :
    (x >>= f) h = .error e := by rw [bind_apply, hx]

theorem panicIf_pos {c : Prop} [Decidable c] {e : Panic} {h : Heap α} (hc : c) : panicIf c e h = .error e := by
  rw [panicIf, if_pos hc]; rfl

theorem panicIf_neg {c : Prop} [Decidable c] {e : Panic} {h : Heap α} (hc : ¬ c) : panicIf c e h = .ok ((), h) := by
  rw [panicIf, if_neg hc]; rfl

theorem ite_apply {c : Prop} [Decidable c] (x y : M α β) (h : Heap α) :
    (if c then x else y) h = if c then x h else y h := by split <;> rfl

/-- Block number `b` of `h` is alive, has `cap` slots of `E.size` bytes, and they are `slots`. -/
structure HasBlock (E : Env) (cap : Nat) (h : Heap α) (b : Nat) (slots : List (Option α)) : Prop where
  alive : h[b]? = some (some ⟨cap * E.size, slots⟩)
  length : slots.length = cap

/-- All blocks other than `b` are the same, and no block was added. -/
def SameBut (b : Nat) (h h' : Heap α) : Prop := h'.length = h.length ∧ ∀ j, j ≠ b → h'[j]? = h[j]?

theorem SameBut.refl (b : Nat) (h : Heap α) : SameBut b h h := ⟨rfl, fun _ _ => rfl⟩

theorem SameBut.trans {b : Nat} {h₁ h₂ h₃ : Heap α} (h : SameBut b h₁ h₂) (h' : SameBut b h₂ h₃) : SameBut b h₁ h₃ :=
  ⟨h'.1.trans h.1, fun j hj => (h'.2 j hj).trans (h.2 j hj)⟩

theorem SameBut.set (b : Nat) (h : Heap α) (x : Option (Block α)) : SameBut b h (h.set b x) :=
  ⟨by simp, fun j hj => List.getElem?_set_ne (Ne.symm hj)⟩

section Prim

variable {E : Env} {cap b : Nat} {h : Heap α} {slots : List (Option α)}

theorem HasBlock.lt (hb : HasBlock E cap h b slots) : b < h.length := by
  have := hb.alive
  by_cases hlt : b < h.length
  · exact hlt
  · rw [List.getElem?_eq_none (by omega)] at this; cases this

theorem HasBlock.block (hb : HasBlock E cap h b slots) (o : Nat) :
    block ⟨b, o⟩ h = .ok (⟨cap * E.size, slots⟩, h) := by simp [Raw.block, hb.alive]

theorem HasBlock.add (hb : HasBlock E cap h b slots) {i n : Nat} (hi : i + n ≤ cap) :
    add E ⟨b, i * E.size⟩ n h = .ok (⟨b, (i + n) * E.size⟩, h) := by
  have : (i + n) * E.size ≤ cap * E.size := Nat.mul_le_mul_right _ hi
  rw [Nat.add_mul] at this ⊢
  rw [Raw.add, bind_ok (hb.block _)]
  simp [this]

theorem HasBlock.add0 (hb : HasBlock E cap h b slots) {n : Nat} (hi : n ≤ cap) :
    Raw.add E ⟨b, 0⟩ n h = .ok (⟨b, n * E.size⟩, h) := by
  have := hb.add (i := 0) (n := n) (by omega)
  simpa using this

theorem HasBlock.sub (hb : HasBlock E cap h b slots) {i n : Nat} (hi : n ≤ i) :
    Raw.sub E ⟨b, i * E.size⟩ n h = .ok (⟨b, (i - n) * E.size⟩, h) := by
  have : n * E.size ≤ i * E.size := Nat.mul_le_mul_right _ hi
  rw [Raw.sub, bind_ok (hb.block _)]
  simp [this, Nat.sub_mul]

theorem in_range (E : Env) {i cap : Nat} (hi : i < cap) : i * E.size + E.size ≤ cap * E.size := by
  have := Nat.mul_le_mul_right E.size (show i + 1 ≤ cap from hi)
  rwa [Nat.add_mul, Nat.one_mul] at this

theorem HasBlock.read (hb : HasBlock E cap h b slots) (hs : 0 < E.size) {i : Nat} {a : α} (hi : slots[i]? = some (some a)) :
    Raw.read E ⟨b, i * E.size⟩ h = .ok (a, h) := by
  have hlt : i < cap := by
    rw [← hb.length]
    by_cases hlt : i < slots.length
    · exact hlt
    · rw [List.getElem?_eq_none (by omega)] at hi; cases hi
  rw [Raw.read, bind_ok (hb.block _)]
  simp [in_range E hlt, Nat.mul_div_cancel _ hs, hi]

theorem HasBlock.setSlots (hb : HasBlock E cap h b slots) (o : Nat) (slots' : List (Option α)) :
    Raw.setSlots ⟨b, o⟩ slots' h = .ok ((), h.set b (some ⟨cap * E.size, slots'⟩)) := by
  rw [Raw.setSlots, bind_ok (hb.block _)]
  rfl

theorem HasBlock.update (hb : HasBlock E cap h b slots) {slots' : List (Option α)} (hl : slots'.length = cap) :
    HasBlock E cap (h.set b (some ⟨cap * E.size, slots'⟩)) b slots' :=
  ⟨by rw [List.getElem?_set_self hb.lt], hl⟩

theorem HasBlock.write (hb : HasBlock E cap h b slots) (hs : 0 < E.size) {i : Nat} (hi : i < cap) (a : α) :
    ∃ h', Raw.write E ⟨b, i * E.size⟩ a h = .ok ((), h') ∧ HasBlock E cap h' b (slots.set i (some a)) ∧
      SameBut b h h' := by
  refine ⟨h.set b (some ⟨cap * E.size, slots.set i (some a)⟩), ?_, hb.update (by simp [hb.length]), .set ..⟩
  rw [Raw.write, bind_ok (hb.block _)]
  simp only [in_range E hi, if_true, Nat.mul_div_cancel _ hs]
  exact hb.setSlots _ _

theorem HasBlock.copy (hb : HasBlock E cap h b slots) (hs : 0 < E.size) {i j n : Nat} (hi : i + n ≤ cap) (hj : j + n ≤ cap) :
    ∃ h', Raw.copy E ⟨b, i * E.size⟩ ⟨b, j * E.size⟩ n h = .ok ((), h') ∧
      HasBlock E cap h' b (slots.take j ++ (slots.drop i).take n ++ slots.drop (j + n)) ∧ SameBut b h h' := by
  refine ⟨_, ?_, hb.update (slots' := slots.take j ++ (slots.drop i).take n ++ slots.drop (j + n)) ?_, .set ..⟩
  · have h1 : (i + n) * E.size ≤ cap * E.size := Nat.mul_le_mul_right _ hi
    have h2 : (j + n) * E.size ≤ cap * E.size := Nat.mul_le_mul_right _ hj
    rw [Nat.add_mul] at h1 h2
    rw [Raw.copy, bind_ok (hb.block _)]
    have hc : ¬ (b ≠ b ∨ i * E.size + n * E.size > cap * E.size ∨ j * E.size + n * E.size > cap * E.size) := by omega
    rw [bind_ok (panicIf_neg hc), if_neg (by omega)]
    simp only [Nat.mul_div_cancel _ hs]
    exact hb.setSlots _ _
  · simp [hb.length]; omega

theorem HasBlock.dealloc (hb : HasBlock E cap h b slots) (hm : cap * E.size ≤ E.maxBytes)
    (hz : 0 < cap * E.size ∨ E.zeroOk = true) :
    Raw.dealloc E ⟨b, 0⟩ cap h = .ok ((), h.set b none) := by
  have hl : (layoutArray E cap : M α Nat) h = .ok (cap * E.size, h) := by simp [layoutArray, hm]
  rw [Raw.dealloc, bind_ok hl, bind_ok (hb.block _)]
  have hc : ¬ ((0 : Nat) ≠ 0 ∨ cap * E.size ≠ cap * E.size ∨ (cap * E.size = 0 ∧ E.zeroOk = false)) := by
    rcases hz with hz | hz
    · omega
    · simp [hz]
  rw [bind_ok (panicIf_neg hc)]
  rfl

end Prim

/-- In memory `h`, `v` is a vector of capacity `cap` whose elements are `l`. -/
structure Owns (E : Env) (cap : Nat) (h : Heap α) (v : FCVec) (l : List α) : Prop where
  off : v.buf.off = 0
  len : v.len = l.length
  fits : l.length ≤ cap
  layout : cap * E.size ≤ E.maxBytes
  nonzero : 0 < cap * E.size ∨ E.zeroOk = true
  mem : ∃ slots, HasBlock E cap h v.buf.block slots ∧ ∀ k, k < l.length → slots[k]? = some l[k]?

namespace Owns

variable {E : Env} {cap : Nat} {h : Heap α} {v : FCVec} {l : List α}

theorem buf_eq (ho : Owns E cap h v l) : v.buf = ⟨v.buf.block, 0⟩ := by
  obtain ⟨⟨b, o⟩, n⟩ := v
  have := ho.off
  subst this; rfl

theorem alive (ho : Owns E cap h v l) : v.buf.block < h.length := by
  obtain ⟨s, hb, _⟩ := ho.mem
  exact hb.lt

/-- A step of this vector leaves every other vector alone. -/
theorem frame (ho : Owns E cap h v l) {b : Nat} {h' : Heap α} (hs : SameBut b h h') (hb : v.buf.block ≠ b) :
    Owns E cap h' v l := by
  obtain ⟨s, ⟨h1, h2⟩, h3⟩ := ho.mem
  exact ⟨ho.off, ho.len, ho.fits, ho.layout, ho.nonzero, s, ⟨(hs.2 _ hb).trans h1, h2⟩, h3⟩

/-- Allocating another block leaves the vector alone. -/
theorem append (ho : Owns E cap h v l) (x : Heap α) : Owns E cap (h ++ x) v l := by
  obtain ⟨s, ⟨h1, h2⟩, h3⟩ := ho.mem
  exact ⟨ho.off, ho.len, ho.fits, ho.layout, ho.nonzero, s, ⟨by rw [List.getElem?_append_left ho.alive, h1], h2⟩, h3⟩

end Owns

/-! ### The allocator's choice of a place -/

theorem gapped_length (E : Env) (h : Heap α) : (gapped E h).length = h.length + E.gap h.length := by simp [gapped]

theorem gapped_get (E : Env) {h : Heap α} {j : Nat} (hj : j < h.length) : (gapped E h)[j]? = h[j]? := List.getElem?_append_left hj

theorem gapped_new (E : Env) {h : Heap α} {j : Nat} (hj : h.length ≤ j) (hl : j < (gapped E h).length) : (gapped E h)[j]? = some none := by
  rw [gapped_length] at hl
  rw [gapped, List.getElem?_append_right hj, List.getElem?_replicate, if_pos (by omega)]

/-- An allocator that puts blocks next to each other. -/
theorem gapped_zero {E : Env} (hE : E.gap = fun _ => 0) (h : Heap α) : gapped E h = h := by simp [gapped, hE]

section Ops

variable {E : Env} {cap : Nat} {h : Heap α} {v : FCVec} {l : List α}

theorem FCVec.new_ok (h : Heap α) (hm : cap * E.size ≤ E.maxBytes) (hz : 0 < cap * E.size ∨ E.zeroOk = true) :
    ∃ v x, (FCVec.new E cap : M α FCVec) h = .ok (v, gapped E h ++ [x]) ∧ Owns E cap (gapped E h ++ [x]) v [] ∧ v.buf.block = (gapped E h).length := by
  refine ⟨⟨⟨(gapped E h).length, 0⟩, 0⟩, some ⟨cap * E.size, List.replicate cap none⟩, ?_,
    ⟨rfl, rfl, Nat.zero_le _, hm, hz, _, ⟨by simp; rfl, by simp⟩, by simp⟩, rfl⟩
  have hl : (layoutArray E cap : M α Nat) h = .ok (cap * E.size, h) := by simp [layoutArray, hm]
  have ha : (alloc E cap : M α Ptr) h = .ok (⟨(gapped E h).length, 0⟩, gapped E h ++ [some ⟨cap * E.size, List.replicate cap none⟩]) := by
    rw [alloc, bind_ok hl]
    have hc : ¬ (cap * E.size = 0 ∧ E.zeroOk = false) := by
      rcases hz with hz | hz
      · omega
      · simp [hz]
    rw [bind_ok (panicIf_neg hc)]
    rfl
  rw [FCVec.new, bind_ok ha]
  rfl

theorem FCVec.sliceLoop_ok (hs : 0 < E.size) {slots : List (Option α)} {b : Nat} (hb : HasBlock E cap h b slots)
    (hmem : ∀ k, k < l.length → slots[k]? = some l[k]?) (hc : l.length ≤ cap) (n : Nat) : ∀ (i m : Nat), i + n = l.length →
    FCVec.sliceLoop E ⟨⟨b, 0⟩, m⟩ n i h = .ok (l.drop i, h) := by
  induction n with
  | zero => intro i m hi; rw [List.drop_eq_nil_of_le (by omega)]; rfl
  | succ n ih =>
    intro i m hi
    have hlt : i < l.length := by omega
    rw [FCVec.sliceLoop, bind_ok (hb.add0 (by omega)), bind_ok (hb.read hs (a := l[i]) (by rw [hmem i hlt]; simp)),
      bind_ok (ih (i + 1) m (by omega)), List.drop_eq_getElem_cons hlt]
    rfl

theorem FCVec.slice_ok (ho : Owns E cap h v l) (hs : 0 < E.size) : FCVec.slice E v h = .ok (l, h) := by
  obtain ⟨slots, hb, hmem⟩ := ho.mem
  have := FCVec.sliceLoop_ok hs hb hmem ho.fits l.length 0 v.len (by omega)
  rw [← ho.buf_eq] at this
  rw [FCVec.slice]
  conv => lhs; arg 3; rw [ho.len]
  simpa using this

theorem FCVec.get_ok (ho : Owns E cap h v l) (hs : 0 < E.size) (i : Nat) :
    FCVec.get E v i h = match RTree.index l i with | .ok a => .ok (a, h) | .error e => .error e := by
  obtain ⟨slots, hb, hmem⟩ := ho.mem
  have hf := ho.fits
  rw [FCVec.get, ho.len, ho.buf_eq, ite_apply]
  by_cases hlt : i < l.length
  · rw [if_pos hlt, bind_ok (hb.add0 (by omega)), hb.read hs (a := l[i]) (by rw [hmem i hlt]; simp)]
    simp [RTree.index, hlt]
  · rw [if_neg hlt]
    simp [RTree.index, hlt]

theorem FCVec.set_ok (ho : Owns E cap h v l) (hs : 0 < E.size) {i : Nat} (hi : i < l.length) (a : α) :
    ∃ h', FCVec.set E v i a h = .ok (l[i], h') ∧ Owns E cap h' v (l.set i a) ∧ SameBut v.buf.block h h' := by
  obtain ⟨slots, hb, hmem⟩ := ho.mem
  have hf := ho.fits
  obtain ⟨h', hw, hb', hsame⟩ := hb.write hs (i := i) (by omega) a
  refine ⟨h', ?_, ⟨ho.off, by simp [ho.len], by simpa using hf, ho.layout, ho.nonzero, _, hb', ?_⟩, hsame⟩
  · rw [FCVec.set, ho.len, ho.buf_eq, ite_apply, if_pos hi, bind_ok (hb.add0 (by omega)),
      bind_ok (hb.read hs (a := l[i]) (by rw [hmem i hi]; simp)), bind_ok hw]
    rfl
  · intro k hk
    have hk : k < l.length := by simpa using hk
    have hsl := hb.length
    by_cases hki : k = i
    · subst hki
      rw [List.getElem?_set_self (by omega), List.getElem?_set_self hi]
    · rw [List.getElem?_set_ne (Ne.symm hki), List.getElem?_set_ne (Ne.symm hki), hmem k hk]

/-- Appending within the capacity. -/
theorem FCVec.append_ok (ho : Owns E cap h v l) (hs : 0 < E.size) (hlt : l.length < cap) (a : α) :
    ∃ h', (do let p ← Raw.add E v.buf v.len; Raw.write E p a; pure { v with len := v.len + 1 } : M α FCVec) h =
        .ok ({ v with len := v.len + 1 }, h') ∧
      Owns E cap h' { v with len := v.len + 1 } (l ++ [a]) ∧ SameBut v.buf.block h h' := by
  obtain ⟨slots, hb, hmem⟩ := ho.mem
  obtain ⟨h', hw, hb', hsame⟩ := hb.write hs (i := l.length) hlt a
  refine ⟨h', ?_, ⟨ho.off, by simp [ho.len], by simp; omega, ho.layout, ho.nonzero, _, hb', ?_⟩, hsame⟩
  · rw [ho.buf_eq, ho.len, bind_ok (hb.add0 (by omega)), bind_ok hw]
    rfl
  · intro k hk
    have hk : k < l.length + 1 := by simpa using hk
    have hsl := hb.length
    by_cases hki : k = l.length
    · subst hki
      rw [List.getElem?_set_self (by omega), List.getElem?_concat_length]
    · rw [List.getElem?_set_ne (Ne.symm hki), List.getElem?_append_left (by omega), hmem k (by omega)]

theorem FCVec.push_ok (ho : Owns E cap h v l) (hs : 0 < E.size) (a : α) :
    match Vec.push cap l a with
    | .ok l' => ∃ v' h', FCVec.push E cap v a h = .ok (v', h') ∧ Owns E cap h' v' l' ∧ SameBut v.buf.block h h' ∧ v'.buf = v.buf
    | .error e => FCVec.push E cap v a h = .error e := by
  have hf := ho.fits
  rw [Vec.push]
  by_cases hc : l.length = cap
  · simp only [hc, if_true]
    rw [FCVec.push]
    exact bind_err (panicIf_pos (by rw [ho.len]; exact hc))
  · simp only [hc, if_false]
    obtain ⟨h', h1, h2, h3⟩ := FCVec.append_ok ho hs (by omega) a
    refine ⟨_, h', ?_, h2, h3, rfl⟩
    rw [FCVec.push, bind_ok (panicIf_neg (by rw [ho.len]; exact hc))]
    exact h1

theorem FCVec.tryPush_ok (ho : Owns E cap h v l) (hs : 0 < E.size) (a : α) :
    ∃ v' h', FCVec.tryPush E cap v a h = .ok ((v', (Vec.tryPush cap l a).2), h') ∧
      Owns E cap h' v' (Vec.tryPush cap l a).1 ∧ SameBut v.buf.block h h' ∧ v'.buf = v.buf := by
  have hf := ho.fits
  rw [Vec.tryPush]
  by_cases hc : l.length = cap
  · simp only [hc, if_true]
    refine ⟨v, h, ?_, ho, .refl _ _, rfl⟩
    rw [FCVec.tryPush, if_pos (by rw [ho.len]; exact hc)]
    rfl
  · simp only [hc, if_false]
    obtain ⟨slots, hb, hmem⟩ := ho.mem
    obtain ⟨h', h1, h2, h3⟩ := FCVec.append_ok ho hs (by omega) a
    refine ⟨_, h', ?_, h2, h3, rfl⟩
    rw [FCVec.tryPush, if_neg (by rw [ho.len]; exact hc)]
    rw [bind_apply] at h1 ⊢
    split at h1
    · rw [bind_apply] at h1 ⊢
      split at h1
      · injection h1 with h1
        injection h1 with _ h1
        subst h1; rfl
      · cases h1
    · cases h1

theorem FCVec.insert_ok (ho : Owns E cap h v l) (hs : 0 < E.size) (i : Nat) (a : α) :
    match Vec.insert cap l i a with
    | .ok l' => ∃ v' h', FCVec.insert E cap v i a h = .ok (v', h') ∧ Owns E cap h' v' l' ∧ SameBut v.buf.block h h' ∧ v'.buf = v.buf
    | .error e => FCVec.insert E cap v i a h = .error e := by
  have hf := ho.fits
  rw [Vec.insert]
  by_cases hi : i > l.length
  · simp only [hi, if_true]
    rw [FCVec.insert]
    exact bind_err (panicIf_pos (by rw [ho.len]; exact hi))
  · simp only [hi, if_false]
    by_cases hc : l.length = cap
    · simp only [hc, if_true]
      rw [FCVec.insert, bind_ok (panicIf_neg (by rw [ho.len]; exact hi))]
      exact bind_err (panicIf_pos (by rw [ho.len]; exact hc))
    · simp only [hc, if_false]
      obtain ⟨slots, hb, hmem⟩ := ho.mem
      have hsl := hb.length
      obtain ⟨h₁, c1, c2, c3⟩ := hb.copy hs (i := i) (j := i + 1) (n := l.length - i) (by omega) (by omega)
      obtain ⟨h₂, w1, w2, w3⟩ := c2.write hs (i := i) (by omega) a
      refine ⟨{ v with len := v.len + 1 }, h₂, ?_, ⟨ho.off, by simp [ho.len]; omega, by simp; omega, ho.layout, ho.nonzero, _, w2, ?_⟩,
        c3.trans w3, rfl⟩
      · rw [FCVec.insert, bind_ok (panicIf_neg (by rw [ho.len]; exact hi)), bind_ok (panicIf_neg (by rw [ho.len]; exact hc)), ho.buf_eq, ho.len, bind_ok (hb.add0 (by omega)), bind_ok (hb.add0 (by omega)), bind_ok c1,
          bind_ok (c2.add0 (by omega)), bind_ok w1]
        rfl
      · intro k hk
        have hk : k < l.length + 1 := by simp at hk; omega
        rcases Nat.lt_trichotomy k i with hki | hki | hki
        · rw [List.getElem?_set_ne (by omega), List.getElem?_append_left (by simp; omega),
            List.getElem?_append_left (by simp; omega), List.getElem?_take_of_lt (by omega), hmem k (by omega),
            List.getElem?_append_left (by simp; omega), List.getElem?_take_of_lt hki]
        · subst hki
          rw [List.getElem?_set_self, List.getElem?_append_right (by simp; omega)]
          · simp [show min k l.length = k by omega]
          · simp only [List.length_append, List.length_take, List.length_drop]; omega
        · rw [List.getElem?_set_ne (by omega), List.getElem?_append_left (by simp; omega),
            List.getElem?_append_right (by simp; omega), List.getElem?_take_of_lt (by simp; omega), List.getElem?_drop,
            List.getElem?_append_right (by simp; omega)]
          simp only [List.length_take]
          rw [show min (i + 1) slots.length = i + 1 by omega, show min i l.length = i by omega]
          rw [show k - i = (k - i - 1) + 1 by omega, List.getElem?_cons_succ, List.getElem?_drop,
            show i + (k - (i + 1)) = k - 1 by omega, show i + (k - i - 1) = k - 1 by omega, hmem _ (by omega)]

theorem FCVec.remove_ok (ho : Owns E cap h v l) (hs : 0 < E.size) (i : Nat) :
    match Vec.remove l i with
    | .ok (a, l') => ∃ v' h', FCVec.remove E v i h = .ok ((v', a), h') ∧ Owns E cap h' v' l' ∧ SameBut v.buf.block h h' ∧ v'.buf = v.buf
    | .error e => FCVec.remove E v i h = .error e := by
  have hf := ho.fits
  rw [Vec.remove]
  by_cases hi : i < l.length
  · rw [List.getElem?_eq_getElem hi]
    obtain ⟨slots, hb, hmem⟩ := ho.mem
    have hsl := hb.length
    obtain ⟨h₁, c1, c2, c3⟩ := hb.copy hs (i := i + 1) (j := i) (n := l.length - i - 1) (by omega) (by omega)
    refine ⟨{ v with len := v.len - 1 }, h₁, ?_, ⟨ho.off, by simp [ho.len]; omega, by simp; omega, ho.layout, ho.nonzero, _, c2, ?_⟩,
      c3, rfl⟩
    · rw [FCVec.remove, bind_ok (panicIf_neg (by rw [ho.len]; omega)), ho.buf_eq, ho.len, bind_ok (hb.add0 (by omega)),
        bind_ok (hb.read hs (a := l[i]) (by rw [hmem i hi]; simp)), bind_ok (hb.add0 (by omega)), bind_ok (hb.add0 (by omega)),
        bind_ok c1]
      rfl
    · intro k hk
      have hk : k < l.length - 1 := by simp at hk; omega
      by_cases hki : k < i
      · rw [List.getElem?_append_left (by simp; omega), List.getElem?_append_left (by simp; omega),
          List.getElem?_take_of_lt (by omega), hmem k (by omega),
          List.getElem?_append_left (by simp; omega), List.getElem?_take_of_lt hki]
      · rw [List.getElem?_append_left (by simp; omega), List.getElem?_append_right (by simp; omega),
          List.getElem?_take_of_lt (by simp; omega), List.getElem?_drop, List.getElem?_append_right (by simp; omega)]
        simp only [List.length_take]
        rw [show min i slots.length = i by omega, show min i l.length = i by omega, List.getElem?_drop, hmem _ (by omega)]
  · rw [List.getElem?_eq_none (by omega)]
    simp only
    rw [FCVec.remove]
    exact bind_err (panicIf_pos (by rw [ho.len]; omega))

theorem FCVec.swapRemove_ok (ho : Owns E cap h v l) (hs : 0 < E.size) (i : Nat) :
    match Vec.swapRemove l i with
    | .ok (a, l') => ∃ v' h', FCVec.swapRemove E v i h = .ok ((v', a), h') ∧ Owns E cap h' v' l' ∧ SameBut v.buf.block h h' ∧ v'.buf = v.buf
    | .error e => FCVec.swapRemove E v i h = .error e := by
  have hf := ho.fits
  rw [Vec.swapRemove]
  by_cases hi : i < l.length
  · have hne : l ≠ [] := by intro h0; rw [h0] at hi; simp at hi
    rw [List.getElem?_eq_getElem hi, List.getLast?_eq_some_getLast hne]
    obtain ⟨slots, hb, hmem⟩ := ho.mem
    have hsl := hb.length
    obtain ⟨h₁, c1, c2, c3⟩ := hb.copy hs (i := l.length - 1) (j := i) (n := 1) (by omega) (by omega)
    refine ⟨{ v with len := v.len - 1 }, h₁, ?_, ⟨ho.off, by simp [ho.len], by simp; omega, ho.layout, ho.nonzero, _, c2, ?_⟩,
      c3, rfl⟩
    · rw [FCVec.swapRemove, bind_ok (panicIf_neg (by rw [ho.len]; omega)), ho.buf_eq, ho.len, bind_ok (hb.add0 (by omega)),
        bind_ok (hb.read hs (a := l[i]) (by rw [hmem i hi]; simp)), bind_ok (hb.add0 (by omega)), bind_ok (hb.add0 (by omega)),
        bind_ok c1]
      rfl
    · intro k hk
      have hk : k < l.length - 1 := by simp at hk; omega
      rw [List.getElem?_dropLast, if_pos (by simpa using hk)]
      rcases Nat.lt_trichotomy k i with hki | hki | hki
      · rw [List.getElem?_append_left (by simp; omega), List.getElem?_append_left (by simp; omega),
          List.getElem?_take_of_lt (by omega), hmem k (by omega), List.getElem?_set_ne (by omega)]
      · subst hki
        rw [List.getElem?_append_left (by simp; omega), List.getElem?_append_right (by simp; omega),
          List.getElem?_take_of_lt (by simp; omega), List.getElem?_drop, List.getElem?_set_self hi]
        simp only [List.length_take]
        rw [show l.length - 1 + (k - min k slots.length) = l.length - 1 by omega, hmem _ (by omega), List.getLast_eq_getElem]
        simp
      · rw [List.getElem?_append_right (by simp; omega), List.getElem?_drop, List.getElem?_set_ne (by omega)]
        simp only [List.length_append, List.length_take, List.length_drop]
        rw [show i + 1 + (k - (min i slots.length + min 1 (slots.length - (l.length - 1)))) = k by omega, hmem _ (by omega)]
  · rw [List.getElem?_eq_none (by omega)]
    simp only
    rw [FCVec.swapRemove]
    exact bind_err (panicIf_pos (by rw [ho.len]; omega))

theorem FCVec.swap_ok (ho : Owns E cap h v l) (hs : 0 < E.size) (i j : Nat) :
    match Vec.swap l i j with
    | .ok l' => ∃ h', FCVec.swap E v i j h = .ok ((), h') ∧ Owns E cap h' v l' ∧ SameBut v.buf.block h h'
    | .error e => FCVec.swap E v i j h = .error e := by
  have hf := ho.fits
  by_cases hij : i < l.length ∧ j < l.length
  · obtain ⟨hi, hj⟩ := hij
    rw [Vec.swap, List.getElem?_eq_getElem hi, List.getElem?_eq_getElem hj]
    obtain ⟨slots, hb, hmem⟩ := ho.mem
    have hsl := hb.length
    obtain ⟨h₁, w1, w2, w3⟩ := hb.write hs (i := i) (by omega) l[j]
    obtain ⟨h₂, x1, x2, x3⟩ := w2.write hs (i := j) (by omega) l[i]
    refine ⟨h₂, ?_, ⟨ho.off, by simp [ho.len], by simpa using hf, ho.layout, ho.nonzero, _, x2, ?_⟩, w3.trans x3⟩
    · rw [FCVec.swap, bind_ok (panicIf_neg (by rw [ho.len]; omega)), ho.buf_eq, bind_ok (hb.add0 (by omega)),
        bind_ok (hb.add0 (by omega)), swapPtr, bind_ok (hb.read hs (a := l[i]) (by rw [hmem i hi]; simp)),
        bind_ok (hb.read hs (a := l[j]) (by rw [hmem j hj]; simp)), bind_ok w1]
      exact x1
    · intro k hk
      have hk : k < l.length := by simpa using hk
      by_cases hkj : k = j
      · subst hkj
        rw [List.getElem?_set_self (by simp; omega), List.getElem?_set_self (by simpa using hj)]
      · rw [List.getElem?_set_ne (Ne.symm hkj), List.getElem?_set_ne (Ne.symm hkj)]
        by_cases hki : k = i
        · subst hki
          rw [List.getElem?_set_self (by omega), List.getElem?_set_self hi]
        · rw [List.getElem?_set_ne (Ne.symm hki), List.getElem?_set_ne (Ne.symm hki), hmem k hk]
  · have he : Vec.swap l i j = .error .indexOutOfBounds := by
      rw [Vec.swap]
      by_cases hi : i < l.length
      · have hj : ¬ j < l.length := fun hj => hij ⟨hi, hj⟩
        rw [List.getElem?_eq_none (l := l) (i := j) (by omega)]
        split
        · rename_i h1 h2; cases h2
        · rfl
      · rw [List.getElem?_eq_none (l := l) (i := i) (by omega)]
    rw [he]
    simp only
    rw [FCVec.swap]
    exact bind_err (panicIf_pos (by rw [ho.len]; omega))

theorem FCVec.pop_ok (ho : Owns E cap h v l) (hs : 0 < E.size) :
    match Vec.pop l with
    | some (a, l') => ∃ v', FCVec.pop E v h = .ok ((v', some a), h) ∧ Owns E cap h v' l' ∧ v'.buf = v.buf
    | none => FCVec.pop E v h = .ok ((v, none), h) ∧ l = [] := by
  have hf := ho.fits
  rw [Vec.pop]
  by_cases hne : l = []
  · subst hne
    simp only [List.getLast?_nil]
    refine ⟨?_, trivial⟩
    rw [FCVec.pop, if_pos (by rw [ho.len]; rfl)]
    rfl
  · have hpos : 0 < l.length := List.length_pos_iff.2 hne
    rw [List.getLast?_eq_some_getLast hne]
    obtain ⟨slots, hb, hmem⟩ := ho.mem
    refine ⟨{ v with len := v.len - 1 }, ?_, ⟨ho.off, by simp [ho.len], by simp; omega, ho.layout, ho.nonzero, _, hb, ?_⟩, rfl⟩
    · rw [FCVec.pop, if_neg (by rw [ho.len]; omega), ho.buf_eq, ho.len, bind_ok (hb.add0 (by omega)),
        bind_ok (hb.read hs (a := l.getLast hne) (by rw [hmem _ (by omega), List.getLast_eq_getElem]; simp))]
      rfl
    · intro k hk
      have hk : k < l.length - 1 := by simpa using hk
      rw [hmem k (by omega), List.getElem?_dropLast, if_pos hk]

theorem FCVec.popLoop_ok (hs : 0 < E.size) (n : Nat) : ∀ {v : FCVec} {l : List α}, Owns E cap h v l → l.length < n →
    FCVec.popLoop E n v h = .ok (l.reverse, h) := by
  induction n with
  | zero => intro v l _ h0; omega
  | succ n ih =>
    intro v l ho hn
    have hp := FCVec.pop_ok ho hs
    rw [Vec.pop] at hp
    by_cases hne : l = []
    · subst hne
      simp only [List.getLast?_nil] at hp
      rw [FCVec.popLoop, bind_ok hp.1]
      rfl
    · rw [List.getLast?_eq_some_getLast hne] at hp
      obtain ⟨v', hp, ho', _⟩ := hp
      have hpos : 0 < l.length := List.length_pos_iff.2 hne
      rw [FCVec.popLoop, bind_ok hp]
      have hrev : l.reverse = l.getLast hne :: l.dropLast.reverse := by
        conv => lhs; rw [← List.dropLast_concat_getLast hne]
        simp
      simp only
      rw [bind_ok (ih ho' (by simp; omega)), hrev]
      rfl

/-- Dropping the vector drops its elements, last first, and frees the block. -/
theorem FCVec.drop_ok (ho : Owns E cap h v l) (hs : 0 < E.size) :
    FCVec.drop E cap v h = .ok (l.reverse, h.set v.buf.block none) := by
  obtain ⟨slots, hb, hmem⟩ := ho.mem
  rw [FCVec.drop, bind_ok (FCVec.popLoop_ok hs _ ho (by rw [ho.len]; omega))]
  have := hb.dealloc ho.layout ho.nonzero
  rw [← ho.buf_eq] at this
  rw [bind_ok this]
  rfl

theorem FCVec.pushAll_ok (hs : 0 < E.size) (as : List α) : ∀ {h : Heap α} {v : FCVec} {l : List α}, Owns E cap h v l →
    l.length + as.length ≤ cap → ∃ v' h', FCVec.pushAll E cap v as h = .ok (v', h') ∧ Owns E cap h' v' (l ++ as) ∧
      SameBut v.buf.block h h' ∧ v'.buf = v.buf := by
  induction as with
  | nil => intro h v l ho _; exact ⟨v, h, rfl, by simpa using ho, .refl _ _, rfl⟩
  | cons a as ih =>
    intro h v l ho hc
    simp only [List.length_cons] at hc
    have hp := FCVec.push_ok ho hs a
    rw [Vec.push, if_neg (by omega)] at hp
    obtain ⟨v₁, h₁, p1, p2, p3, p4⟩ := hp
    obtain ⟨v₂, h₂, q1, q2, q3, q4⟩ := ih p2 (by simp; omega)
    refine ⟨v₂, h₂, ?_, by simpa using q2, ?_, q4.trans p4⟩
    · rw [FCVec.pushAll, bind_ok p1]; exact q1
    · rw [p4] at q3; exact p3.trans q3

/-- Cloning makes a second vector with the cloned elements and leaves the first one alone. -/
theorem FCVec.clone_ok {cap' : Nat} (ho : Owns E cap h v l) (hs : 0 < E.size) (cl : α → α) (hfit : l.length ≤ cap')
    (hm : cap' * E.size ≤ E.maxBytes) (hz : 0 < cap' * E.size ∨ E.zeroOk = true) :
    ∃ v' h', FCVec.clone E cap' cl v h = .ok (v', h') ∧ Owns E cap' h' v' (l.map cl) ∧ Owns E cap h' v l ∧
      v'.buf.block = (gapped E h).length ∧ h'.length = (gapped E h).length + 1 ∧ ∀ j, j < (gapped E h).length → h'[j]? = (gapped E h)[j]? := by
  obtain ⟨v₁, x, n1, n2, n3⟩ := FCVec.new_ok (E := E) (cap := cap') h hm hz
  have ho : Owns E cap (gapped E h) v l := ho.append _
  have hv : v₁.buf.block ≠ v.buf.block := by have := ho.alive; omega
  obtain ⟨v₂, h₂, p1, p2, p3, p4⟩ := FCVec.pushAll_ok hs (l.map cl) n2 (by simpa using hfit)
  refine ⟨v₂, h₂, ?_, by simpa using p2, (ho.append [x]).frame p3 hv.symm, by rw [p4, n3], ?_, ?_⟩
  · rw [FCVec.clone, bind_ok (panicIf_neg (by rw [ho.len]; omega)), bind_ok n1,
      bind_ok (FCVec.slice_ok (ho.append [x]) hs)]
    exact p1
  · rw [p3.1]; simp
  · intro j hj
    rw [p3.2 j (by omega), List.getElem?_append_left hj]

end Ops

/-! ### By-value iteration -/

/-- In memory `h`, `it` has the elements `l` still to yield. -/
structure OwnsIter (E : Env) (cap : Nat) (h : Heap α) (it : IntoIter) (l : List α) : Prop where
  cap_eq : it.cap = cap
  layout : cap * E.size ≤ E.maxBytes
  nonzero : 0 < cap * E.size ∨ E.zeroOk = true
  mem : ∃ (b i : Nat) (slots : List (Option α)), it.buf = ⟨b, 0⟩ ∧ it.fst = ⟨b, i * E.size⟩ ∧
    it.lst = ⟨b, (i + l.length) * E.size⟩ ∧ i + l.length ≤ cap ∧ HasBlock E cap h b slots ∧
    ∀ k, k < l.length → slots[i + k]? = some l[k]?

section Iter

variable {E : Env} {cap : Nat} {h : Heap α} {l : List α} {it : IntoIter}

theorem IntoIter.new_ok {v : FCVec} (ho : Owns E cap h v l) :
    ∃ it, IntoIter.new E cap v h = .ok (it, h) ∧ OwnsIter E cap h it l ∧ it.buf = v.buf := by
  obtain ⟨slots, hb, hmem⟩ := ho.mem
  refine ⟨⟨v.buf, cap, v.buf, ⟨v.buf.block, l.length * E.size⟩⟩, ?_, ⟨rfl, ho.layout, ho.nonzero, v.buf.block, 0, slots,
    ho.buf_eq, by simpa using ho.buf_eq, by simp, by simpa using ho.fits, hb, by simpa using hmem⟩, rfl⟩
  have := hb.add0 ho.fits
  rw [← ho.buf_eq] at this
  rw [IntoIter.new, ho.len, bind_ok this]
  rfl

theorem OwnsIter.eq_iff (hs : 0 < E.size) (ho : OwnsIter E cap h it l) : it.fst = it.lst ↔ l = [] := by
  obtain ⟨b, i, slots, h1, h2, h3, h4, h5, h6⟩ := ho.mem
  rw [h2, h3]
  simp only [Ptr.mk.injEq, true_and, Nat.add_mul]
  constructor
  · intro h
    have : l.length * E.size = 0 := by omega
    rcases Nat.mul_eq_zero.1 this with h | h
    · exact List.length_eq_zero_iff.1 h
    · omega
  · rintro rfl; simp

theorem IntoIter.next_ok (ho : OwnsIter E cap h it l) (hs : 0 < E.size) :
    ∃ it', IntoIter.next E it h = .ok ((it', l.head?), h) ∧ OwnsIter E cap h it' l.tail ∧ it'.buf = it.buf := by
  by_cases hne : l = []
  · refine ⟨it, ?_, by subst hne; exact ho, rfl⟩
    rw [IntoIter.next, if_pos ((ho.eq_iff hs).2 hne)]
    subst hne; rfl
  · have hn : ¬ it.fst = it.lst := fun h => hne ((ho.eq_iff hs).1 h)
    obtain ⟨b, i, slots, h1, h2, h3, h4, h5, h6⟩ := ho.mem
    obtain ⟨a, t, rfl⟩ := List.exists_cons_of_ne_nil hne
    simp only [List.length_cons] at h3 h4 h6
    refine ⟨{ it with fst := ⟨b, (i + 1) * E.size⟩ }, ?_, ⟨ho.cap_eq, ho.layout, ho.nonzero, b, i + 1, slots, h1, rfl,
      by rw [h3]; simp; congr 1; omega, by simp; omega, h5, ?_⟩, rfl⟩
    · have hr : Raw.read E it.fst h = .ok (a, h) := by
        rw [h2]; exact h5.read hs (by have := h6 0 (by omega); simpa using this)
      rw [IntoIter.next, if_neg hn, bind_ok hr, h2, bind_ok (h5.add (by omega))]
      rfl
    · intro k hk
      have := h6 (k + 1) (by simpa using hk)
      rw [show i + 1 + k = i + (k + 1) by omega, this]
      simp

theorem IntoIter.nextBack_ok (ho : OwnsIter E cap h it l) (hs : 0 < E.size) :
    ∃ it', IntoIter.nextBack E it h = .ok ((it', l.getLast?), h) ∧ OwnsIter E cap h it' l.dropLast ∧ it'.buf = it.buf := by
  by_cases hne : l = []
  · refine ⟨it, ?_, by subst hne; exact ho, rfl⟩
    rw [IntoIter.nextBack, if_pos ((ho.eq_iff hs).2 hne)]
    subst hne; rfl
  · have hn : ¬ it.fst = it.lst := fun h => hne ((ho.eq_iff hs).1 h)
    obtain ⟨b, i, slots, h1, h2, h3, h4, h5, h6⟩ := ho.mem
    have hpos : 0 < l.length := List.length_pos_iff.2 hne
    refine ⟨{ it with lst := ⟨b, (i + l.length - 1) * E.size⟩ }, ?_, ⟨ho.cap_eq, ho.layout, ho.nonzero, b, i, slots, h1, h2,
      by simp; congr 1; omega, by simp; omega, h5, ?_⟩, rfl⟩
    · have hr : Raw.read E ⟨b, (i + l.length - 1) * E.size⟩ h = .ok (l.getLast hne, h) := by
        refine h5.read hs ?_
        rw [show i + l.length - 1 = i + (l.length - 1) by omega, h6 _ (by omega), List.getLast_eq_getElem]
        simp
      rw [IntoIter.nextBack, if_neg hn, h3, bind_ok (h5.sub (by omega)), bind_ok hr, List.getLast?_eq_some_getLast hne]
      rfl
    · intro k hk
      have hk : k < l.length - 1 := by simpa using hk
      rw [h6 k (by omega), List.getElem?_dropLast, if_pos hk]

theorem IntoIter.sizeHint_ok (ho : OwnsIter E cap h it l) (hs : 0 < E.size) :
    IntoIter.sizeHint E it h = .ok (l.length, h) := by
  obtain ⟨b, i, slots, h1, h2, h3, h4, h5, h6⟩ := ho.mem
  rw [IntoIter.sizeHint, h2, h3]
  simp only [Nat.add_mul]
  rw [if_neg (by omega)]
  simp [Nat.add_sub_cancel_left, Nat.mul_div_cancel _ hs]

theorem IntoIter.drain_ok (hs : 0 < E.size) (n : Nat) : ∀ {it : IntoIter} {l : List α}, OwnsIter E cap h it l → l.length < n →
    IntoIter.drain E n it h = .ok (l, h) := by
  induction n with
  | zero => intro it l _ h0; omega
  | succ n ih =>
    intro it l ho hn
    obtain ⟨it', h1, h2, _⟩ := IntoIter.next_ok ho hs
    cases l with
    | nil => rw [IntoIter.drain, bind_ok h1]; rfl
    | cons a l =>
      rw [IntoIter.drain, bind_ok h1]
      simp only [List.head?_cons]
      simp only [List.length_cons] at hn
      rw [bind_ok (ih h2 (by simp; omega))]
      rfl

/-- Dropping the iterator drops the elements it has not yielded and frees the block. -/
theorem IntoIter.drop_ok (ho : OwnsIter E cap h it l) (hs : 0 < E.size) :
    IntoIter.drop E it h = .ok (l, h.set it.buf.block none) := by
  obtain ⟨b, i, slots, h1, h2, h3, h4, h5, h6⟩ := ho.mem
  have hle : l.length ≤ l.length * E.size := Nat.le_mul_of_pos_right _ hs
  have hfuel : l.length < it.lst.off - it.fst.off + 1 := by
    rw [h2, h3]; simp only [Nat.add_mul]; omega
  rw [IntoIter.drop, bind_ok (IntoIter.drain_ok hs _ ho hfuel), h1, ho.cap_eq, bind_ok (h5.dealloc ho.layout ho.nonzero)]
  rfl

end Iter

end RTree.Raw
