import Verif.Proofs.RawLeft
/-!
# The two-owner protocol of rc_mut.rs in raw memory
-/

namespace RTree.Raw

open Calls (own self put raise catching ask searchBy Stop JoinCode joiningCode LeftCmd LeftOut)
open IterStack (newBox)

variable {L I : Type} {J : JoinEnv}

/-- Boxes for `n` entries can be allocated. -/
structure RoomOk (J : JoinEnv) (n : Nat) : Prop where
  align : 0 < J.align
  size : 0 < J.value.size
  fits : n * J.value.size + 2 * J.align ≤ J.value.maxBytes

/-- The layout of a box for `n` entries. -/
def layoutOf (J : JoinEnv) (n : Nat) : Layout := Layout.forBox ⟨n * J.value.size, J.align⟩

theorem RoomOk.slice {n : Nat} (h : RoomOk J n) : J.slice n = .ok ⟨n * J.value.size, J.align⟩ := by
  have h1 := h.fits
  have h2 : n * J.value.size + (J.align - 1) ≤ J.value.maxBytes := by omega
  rw [JoinEnv.slice, Layout.array]
  dsimp only
  rw [if_pos h2]

theorem RoomOk.boxLayout {n : Nat} (h : RoomOk J n) : J.boxLayout n = .ok (layoutOf J n) := by
  have h1 := h.fits
  have h2 := h.align
  have h3 := Layout.roundUp_lt (n := 1) h2
  rw [JoinEnv.boxLayout, h.slice, ok_bind, Layout.boxLayout_eq (by exact h2)]
  dsimp only
  rw [if_pos (by omega)]
  rfl

namespace BoxMem

variable {m : BoxMem (StackEntry L I)} {b n : Nat} {shared : Bool} {slots : List (Option (StackEntry L I))}

/-- A box for `n` entries. -/
structure At (J : JoinEnv) (n : Nat) (m : BoxMem (StackEntry L I)) (b : Nat) (shared : Bool) (slots : List (Option (StackEntry L I))) : Prop where
  head : m.heads[b]? = some (some ⟨layoutOf J n, shared⟩)
  block : HasBlock J.value n m.values b slots

theorem At.lt (h : At J n m b shared slots) : b < m.heads.length := (List.getElem?_eq_some_iff.1 h.head).1

theorem head_ok (h : At J n m b shared slots) (c : Nat) : BoxMem.head b m c = (.ok ⟨layoutOf J n, shared⟩, m, c) := by
  unfold BoxMem.head
  rw [Calls.self_bind, h.head]
  rfl

/-- Another flag. -/
def flag (m : BoxMem (StackEntry L I)) (J : JoinEnv) (n b : Nat) (v : Bool) : BoxMem (StackEntry L I) := ⟨m.heads.set b (some ⟨layoutOf J n, v⟩), m.values⟩

/-- Freed. -/
def free (m : BoxMem (StackEntry L I)) (b : Nat) : BoxMem (StackEntry L I) := ⟨m.heads.set b none, m.values.set b none⟩

/-- Another value. -/
def fill (m : BoxMem (StackEntry L I)) (J : JoinEnv) (b : Nat) (s : List (StackEntry L I)) : BoxMem (StackEntry L I) := ⟨m.heads, holding J.value m.values b s⟩

/-- A new box. -/
def more (m : BoxMem (StackEntry L I)) (J : JoinEnv) (n : Nat) : BoxMem (StackEntry L I) :=
  ⟨m.heads ++ [some ⟨layoutOf J n, false⟩], m.values ++ [some ⟨n * J.value.size, List.replicate n none⟩]⟩

theorem setShared_ok (h : At J n m b shared slots) (v : Bool) (c : Nat) : setShared b v m c = (.ok (), m.flag J n b v, c) := by
  unfold setShared
  rw [Calls.bind_ok' (head_ok h c), Calls.self_bind]
  rfl

theorem takeShared_ok (h : At J n m b shared slots) (c : Nat) : takeShared b m c = (.ok shared, m.flag J n b false, c) := by
  unfold takeShared
  rw [Calls.bind_ok' (head_ok h c), Calls.bind_ok' (setShared_ok h false c)]
  rfl

theorem At.flag (h : At J n m b shared slots) (v : Bool) : At J n (m.flag J n b v) b v slots :=
  ⟨by rw [BoxMem.flag, List.getElem?_set_self h.lt], h.block⟩

theorem free_flag (m : BoxMem (StackEntry L I)) (J : JoinEnv) (n b : Nat) (v : Bool) : (m.flag J n b v).free b = m.free b := by
  simp [BoxMem.flag, BoxMem.free, List.set_set]

theorem flag_flag (m : BoxMem (StackEntry L I)) (J : JoinEnv) (n b : Nat) (v v' : Bool) : (m.flag J n b v).flag J n b v' = m.flag J n b v' := by
  simp [BoxMem.flag, List.set_set]

theorem dealloc_ok (h : At J n m b shared slots) (c : Nat) : BoxMem.dealloc b (layoutOf J n) m c = (.ok (), m.free b, c) := by
  unfold BoxMem.dealloc
  rw [Calls.bind_ok' (head_ok h c), if_pos rfl, Calls.self_bind]
  rfl

theorem allocate_ok (hn : RoomOk J n) (c : Nat) : allocate J n m c = (.ok m.heads.length, m.more J n, c) := by
  unfold allocate
  rw [hn.boxLayout, Calls.own_bind, Calls.self_bind, Calls.put_bind]
  rfl

theorem dropAlloc_shared (h : At J n m b true slots) (c : Nat) : dropAlloc J b n m c = (.ok (), m.flag J n b false, c) := by
  unfold dropAlloc
  rw [Calls.bind_ok' (takeShared_ok h c)]
  rfl

theorem dropAlloc_last (hn : RoomOk J n) (h : At J n m b false slots) (c : Nat) : dropAlloc J b n m c = (.ok (), m.free b, c) := by
  unfold dropAlloc
  rw [Calls.bind_ok' (takeShared_ok h c), if_neg (by simp), hn.boxLayout, Calls.own_bind, dealloc_ok (h.flag false), free_flag]

theorem dropHandle_shared (h : At J n m b true slots) (c : Nat) : dropHandle J b n m c = (.ok (), m.flag J n b false, c) := by
  unfold dropHandle
  rw [Calls.bind_ok' (takeShared_ok h c)]
  rfl

theorem dropInPlace_at {E : Env} {v : Heap (StackEntry L I)} {k : Nat} {leaf : L} {inners : List I} (hk : k < v.length) (hs : 0 < E.size) :
    dropInPlace E ⟨some ⟨k, 0⟩, inners.length + 1⟩ (holding E v k (newBox leaf inners)) = .ok (([leaf], inners), holding E v k (newBox leaf inners)) := by
  rw [dropInPlace, if_pos (by simp)]
  rw [bind_ok (b := [leaf]) (h' := holding E v k (newBox leaf inners)) (by rw [bind_ok (BoxStack.getLeaf_at hk hs)]; rfl)]
  rw [bind_ok (BoxStack.dropInner_at hk hs (inners.length + 1 - 1) 0 (by omega))]
  rfl

theorem dropHandle_last {leaf : L} {inners : List I} (hn : RoomOk J (inners.length + 1)) (h : At J (inners.length + 1) m b false ((newBox leaf inners).map some)) (c : Nat) :
    dropHandle J b (inners.length + 1) m c = (.ok (), m.free b, c) := by
  unfold dropHandle
  have h1 : holding J.value m.values b (newBox leaf inners) = m.values := by
    refine holding_of_get ?_
    rw [h.block.alive, IterStack.length_newBox]
  have h2 := dropInPlace_at (E := J.value) (v := m.values) (k := b) (leaf := leaf) (inners := inners) h.block.lt hn.size
  rw [h1] at h2
  rw [Calls.bind_ok' (takeShared_ok h c), if_neg (by simp), Calls.bind_ok' (RawLeftJoin.onValues_ok (m := m.flag J (inners.length + 1) b false) h2 c), hn.slice, Calls.own_bind]
  show BoxMem.dealloc b (layoutOf J (inners.length + 1)) (m.flag J (inners.length + 1) b false) c = _
  rw [dealloc_ok (h.flag false), free_flag]

end BoxMem

/-! ### The boxes of one left join -/

/-- Two memories have the same box `b`. -/
def BoxMem.Same (m m' : BoxMem (StackEntry L I)) (b : Nat) : Prop := m'.heads[b]? = m.heads[b]? ∧ m'.values[b]? = m.values[b]?

theorem BoxMem.At.same {m m' : BoxMem (StackEntry L I)} {n b : Nat} {shared : Bool} {slots} (h : BoxMem.At J n m b shared slots) (hs : m.Same m' b) : BoxMem.At J n m' b shared slots :=
  ⟨by rw [hs.1, h.head], ⟨by rw [hs.2, h.block.alive], h.block.length⟩⟩

/-- What a left join and its right-hand iterators may rely on; `vals` are the stacks of the right-hand iterators, of which those with a box in `handles` are alive. -/
structure BInv (J : JoinEnv) (n : Nat) (m : BoxMem (StackEntry L I)) (alloc : Option Nat) (handles : List (Option Nat)) (vals : List (List (StackEntry L I))) : Prop where
  live : ∀ (k b : Nat), handles[k]? = some (some b) → ∃ (leaf : L) (inners : List I), vals[k]? = some (newBox leaf inners) ∧ inners.length + 1 = n ∧
    BoxMem.At J n m b (decide (alloc = some b)) ((newBox leaf inners).map some)
  alloc : ∀ b, alloc = some b → ∃ slots, BoxMem.At J n m b (decide (some b ∈ handles)) slots
  inj : ∀ k k' b : Nat, handles[k]? = some (some b) → handles[k']? = some (some b) → k = k'

/-- The boxes that belong to it. -/
def Owned (alloc : Option Nat) (handles : List (Option Nat)) (b : Nat) : Prop := alloc = some b ∨ some b ∈ handles

/-- What an operation may do to the boxes of others: nothing.  Boxes that are no longer owned are free. -/
structure BStep (m m' : BoxMem (StackEntry L I)) (own own' : Nat → Prop) : Prop where
  grow : m.heads.length ≤ m'.heads.length ∧ m.values.length ≤ m'.values.length
  eqlen : m.heads.length = m.values.length → m'.heads.length = m'.values.length
  others : ∀ b, b < m.heads.length → ¬ own b → m.Same m' b
  only : ∀ b, own' b → own b ∨ m.heads.length ≤ b
  freed : ∀ b, b < m'.heads.length → own b ∨ m.heads.length ≤ b → ¬ own' b → m'.heads[b]? = some none ∧ m'.values[b]? = some none

namespace BInv

variable {n : Nat} {m m' : BoxMem (StackEntry L I)} {alloc : Option Nat} {handles : List (Option Nat)} {vals : List (List (StackEntry L I))}

theorem frame (h : BInv J n m alloc handles vals) (hs : ∀ b, Owned alloc handles b → m.Same m' b) : BInv J n m' alloc handles vals where
  live k b hk := by
    obtain ⟨leaf, inners, h1, h2, h3⟩ := h.live k b hk
    exact ⟨leaf, inners, h1, h2, h3.same (hs b (.inr (List.mem_of_getElem? hk)))⟩
  alloc b hb := by
    obtain ⟨slots, h1⟩ := h.alloc b hb
    exact ⟨slots, h1.same (hs b (.inl hb))⟩
  inj := h.inj

theorem owned_lt (h : BInv J n m alloc handles vals) {b : Nat} (hb : Owned alloc handles b) : b < m.heads.length := by
  rcases hb with hb | hb
  · obtain ⟨_, h1⟩ := h.alloc b hb
    exact h1.lt
  · obtain ⟨k, hk⟩ := List.mem_iff_getElem?.1 hb
    obtain ⟨_, _, _, _, h1⟩ := h.live k b hk
    exact h1.lt

/-- A right-hand iterator that is gone. -/
theorem push_none (h : BInv J n m alloc handles vals) (hl : handles.length = vals.length) (v : List (StackEntry L I)) : BInv J n m alloc (handles ++ [none]) (vals ++ [v]) where
  live k b hk := by
    have hkl : k < handles.length := by
      by_cases hkl : k < handles.length
      · exact hkl
      · rw [List.getElem?_append_right (by omega)] at hk
        cases hc : k - handles.length <;> simp [hc] at hk
    rw [List.getElem?_append_left hkl] at hk
    obtain ⟨leaf, inners, h1, h2⟩ := h.live k b hk
    exact ⟨leaf, inners, by rw [List.getElem?_append_left (by omega), h1], h2⟩
  alloc b hb := by
    obtain ⟨slots, h1⟩ := h.alloc b hb
    exact ⟨slots, by simpa using h1⟩
  inj k k' b hk hk' := by
    have : ∀ k : Nat, (handles ++ [none])[k]? = some (some b) → handles[k]? = some (some b) := by
      intro k hk
      by_cases hkl : k < handles.length
      · rwa [List.getElem?_append_left hkl] at hk
      · rw [List.getElem?_append_right (by omega)] at hk
        cases hc : k - handles.length <;> simp [hc] at hk
    exact h.inj k k' b (this k hk) (this k' hk')

theorem pop_none {v : List (StackEntry L I)} (h : BInv J n m alloc (handles ++ [none]) (vals ++ [v])) (hl : handles.length = vals.length) : BInv J n m alloc handles vals where
  live k b hk := by
    have hkl := (List.getElem?_eq_some_iff.1 hk).1
    obtain ⟨leaf, inners, h1, h2⟩ := h.live k b (by rw [List.getElem?_append_left hkl, hk])
    rw [List.getElem?_append_left (by omega)] at h1
    exact ⟨leaf, inners, h1, h2⟩
  alloc b hb := by
    obtain ⟨slots, h1⟩ := h.alloc b hb
    exact ⟨slots, by simpa using h1⟩
  inj k k' b hk hk' := by
    have hkl := (List.getElem?_eq_some_iff.1 hk).1
    have hkl' := (List.getElem?_eq_some_iff.1 hk').1
    exact h.inj k k' b (by rw [List.getElem?_append_left hkl, hk]) (by rw [List.getElem?_append_left hkl', hk'])

end BInv

/-! ### Steps -/

namespace BoxMem

variable {m : BoxMem (StackEntry L I)} {b b' n : Nat} {shared : Bool} {slots : List (Option (StackEntry L I))}

theorem Same.refl (m : BoxMem (StackEntry L I)) (b : Nat) : m.Same m b := ⟨rfl, rfl⟩

theorem Same.trans {m' m'' : BoxMem (StackEntry L I)} (h : m.Same m' b) (h' : m'.Same m'' b) : m.Same m'' b := ⟨h'.1.trans h.1, h'.2.trans h.2⟩

theorem same_flag (h : b ≠ b') (v : Bool) : m.Same (m.flag J n b v) b' := ⟨List.getElem?_set_ne h, rfl⟩

theorem same_fill (h : b ≠ b') (s : List (StackEntry L I)) : m.Same (m.fill J b s) b' := ⟨rfl, get_holding_ne h s⟩

theorem same_free (h : b ≠ b') : m.Same (m.free b) b' := ⟨List.getElem?_set_ne h, List.getElem?_set_ne h⟩

theorem same_more (h : b < m.heads.length) (he : m.heads.length = m.values.length) : m.Same (m.more J n) b :=
  ⟨List.getElem?_append_left h, List.getElem?_append_left (by omega)⟩

theorem At.fill (h : At J n m b shared slots) {s : List (StackEntry L I)} (hs : s.length = n) : At J n (m.fill J b s) b shared (s.map some) := by
  refine ⟨h.head, ⟨?_, by simpa using hs⟩⟩
  have := get_holding (E := J.value) h.block.lt s
  rw [hs] at this
  exact this

theorem At.more (he : m.heads.length = m.values.length) : At J n (m.more J n) m.heads.length false (List.replicate n none) := by
  refine ⟨by simp [BoxMem.more], ⟨?_, by simp⟩⟩
  rw [he]
  simp [BoxMem.more]

theorem free_get (h : b < m.heads.length) (he : m.heads.length = m.values.length) : (m.free b).heads[b]? = some none ∧ (m.free b).values[b]? = some none :=
  ⟨List.getElem?_set_self h, List.getElem?_set_self (by omega)⟩

@[simp] theorem heads_flag (v : Bool) : (m.flag J n b v).heads.length = m.heads.length := by simp [flag]
@[simp] theorem values_flag (v : Bool) : (m.flag J n b v).values.length = m.values.length := rfl
@[simp] theorem heads_fill (s : List (StackEntry L I)) : (m.fill J b s).heads.length = m.heads.length := rfl
@[simp] theorem values_fill (s : List (StackEntry L I)) : (m.fill J b s).values.length = m.values.length := length_holding ..
@[simp] theorem heads_free : (m.free b).heads.length = m.heads.length := by simp [free]
@[simp] theorem values_free : (m.free b).values.length = m.values.length := by simp [free]
@[simp] theorem heads_more : (m.more J n).heads.length = m.heads.length + 1 := by simp [more]
@[simp] theorem values_more : (m.more J n).values.length = m.values.length + 1 := by simp [more]

end BoxMem

namespace BStep

variable {m m' m'' : BoxMem (StackEntry L I)} {own own' own'' : Nat → Prop}

theorem trans (h : BStep m m' own own') (h' : BStep m' m'' own' own'') : BStep m m'' own own'' where
  grow := ⟨Nat.le_trans h.grow.1 h'.grow.1, Nat.le_trans h.grow.2 h'.grow.2⟩
  eqlen he := h'.eqlen (h.eqlen he)
  others b hb hn := (h.others b hb hn).trans (h'.others b (Nat.lt_of_lt_of_le hb h.grow.1) fun ho => by
    rcases h.only b ho with ho | ho
    · exact hn ho
    · omega)
  only b hb := by
    have := h.grow.1
    rcases h'.only b hb with hb | hb
    · exact h.only b hb
    · exact .inr (by omega)
  freed b hb ho hn := by
    by_cases hb' : b < m'.heads.length
    · by_cases ho' : own' b
      · exact h'.freed b hb (.inl ho') hn
      · have h1 := h.freed b hb' ho ho'
        have h2 := h'.others b hb' ho'
        exact ⟨h2.1.trans h1.1, h2.2.trans h1.2⟩
    · exact h'.freed b hb (.inr (by omega)) hn

theorem refl (m : BoxMem (StackEntry L I)) (own : Nat → Prop) : BStep m m own own where
  grow := ⟨Nat.le_refl _, Nat.le_refl _⟩
  eqlen he := he
  others b _ _ := .refl m b
  only _ h := .inl h
  freed b hb ho hn := by
    rcases ho with ho | ho
    · exact absurd ho hn
    · omega

theorem mono {own2 own2' : Nat → Prop} (h : BStep m m' own own') (h1 : ∀ b, own b ↔ own2 b) (h2 : ∀ b, own' b ↔ own2' b) : BStep m m' own2 own2' where
  grow := h.grow
  eqlen := h.eqlen
  others b hb hn := h.others b hb (by rwa [h1])
  only b hb := by rw [← h1]; exact h.only b ((h2 b).2 hb)
  freed b hb ho hn := h.freed b hb (by rwa [h1]) (by rwa [h2])

end BStep

namespace BInv

variable {n : Nat} {m : BoxMem (StackEntry L I)} {a : Nat} {handles : List (Option Nat)} {vals : List (List (StackEntry L I))}

theorem get_push {k b x : Nat} (h : (handles ++ [some x])[k]? = some (some b)) : handles[k]? = some (some b) ∨ k = handles.length ∧ b = x := by
  rcases Mirror.get_snoc h with ⟨h1, _⟩ | ⟨h1, h2⟩
  · exact .inl h1
  · exact .inr ⟨h1, by simpa using h2.symm⟩

theorem make_unshared (h : BInv J n m (some a) handles vals) (hl : handles.length = vals.length) (ha : some a ∉ handles) {leaf : L} {inners : List I} (hn : inners.length + 1 = n) :
    BInv J n ((m.flag J n a true).fill J a (newBox leaf inners)) (some a) (handles ++ [some a]) (vals ++ [newBox leaf inners]) ∧
    BStep m ((m.flag J n a true).fill J a (newBox leaf inners)) (Owned (some a) handles) (Owned (some a) (handles ++ [some a])) := by
  obtain ⟨slots, h0⟩ := h.alloc a rfl
  have h1 : BoxMem.At J n ((m.flag J n a true).fill J a (newBox leaf inners)) a true ((newBox leaf inners).map some) :=
    (h0.flag true).fill (by rw [IterStack.length_newBox, hn])
  have same : ∀ b, a ≠ b → m.Same ((m.flag J n a true).fill J a (newBox leaf inners)) b := fun b hb => (BoxMem.same_flag hb true).trans (BoxMem.same_fill hb _)
  have hne : ∀ k b : Nat, handles[k]? = some (some b) → a ≠ b := fun k b hk hab => ha (by rw [hab]; exact List.mem_of_getElem? hk)
  refine ⟨⟨?_, ?_, ?_⟩, ⟨?_, ?_, ?_, ?_, ?_⟩⟩
  · intro k b hk
    rcases get_push hk with hk | ⟨rfl, rfl⟩
    · obtain ⟨leaf', inners', g1, g2, g3⟩ := h.live k b hk
      exact ⟨leaf', inners', by rw [List.getElem?_append_left (List.getElem?_eq_some_iff.1 g1).1, g1], g2, g3.same (same b (hne k b hk))⟩
    · exact ⟨leaf, inners, by rw [hl]; simp, hn, by simpa using h1⟩
  · intro b hb
    cases hb
    exact ⟨_, by simpa using h1⟩
  · intro k k' b hk hk'
    rcases get_push hk with hk1 | ⟨rfl, rfl⟩
    · rcases get_push hk' with hk2 | ⟨_, h2⟩
      · exact h.inj k k' b hk1 hk2
      · exact absurd h2.symm (hne k _ hk1)
    · rcases get_push hk' with hk' | ⟨rfl, _⟩
      · exact absurd rfl (hne k' _ hk')
      · rfl
  · simp
  · simp
  · intro b _ hb
    exact same b fun hab => hb (.inl (by rw [hab]))
  · rintro b (hb | hb)
    · exact .inl (.inl hb)
    · rcases List.mem_append.1 hb with hb | hb
      · exact .inl (.inr hb)
      · simp at hb; exact .inl (.inl (by rw [hb]))
  · rintro b hlt (hb | hb) hno
    · refine absurd ?_ hno
      rcases hb with hb | hb
      · exact .inl hb
      · exact .inr (List.mem_append_left _ hb)
    · simp at hlt; omega

theorem make_shared (h : BInv J n m (some a) handles vals) (he : m.heads.length = m.values.length) (hl : handles.length = vals.length) (ha : some a ∈ handles) {leaf : L} {inners : List I}
    (hn : inners.length + 1 = n) :
    BInv J n ((((m.more J n).flag J n a false).flag J n m.heads.length true).fill J m.heads.length (newBox leaf inners)) (some m.heads.length) (handles ++ [some m.heads.length])
      (vals ++ [newBox leaf inners]) ∧
    BStep m ((((m.more J n).flag J n a false).flag J n m.heads.length true).fill J m.heads.length (newBox leaf inners)) (Owned (some a) handles)
      (Owned (some m.heads.length) (handles ++ [some m.heads.length])) := by
  obtain ⟨slots, h0⟩ := h.alloc a rfl
  have halt := h0.lt
  have h2 : ((m.more J n).flag J n a false).Same (((m.more J n).flag J n a false)) m.heads.length := .refl _ _
  have h1 : BoxMem.At J n ((((m.more J n).flag J n a false).flag J n m.heads.length true).fill J m.heads.length (newBox leaf inners)) m.heads.length true ((newBox leaf inners).map some) :=
    (((BoxMem.At.more he).same (BoxMem.same_flag (show a ≠ m.heads.length by omega) false)).flag true).fill (by rw [IterStack.length_newBox, hn])
  have tail : ∀ b, m.heads.length ≠ b → ((m.more J n).flag J n a false).Same ((((m.more J n).flag J n a false).flag J n m.heads.length true).fill J m.heads.length (newBox leaf inners)) b :=
    fun b hb => (BoxMem.same_flag hb true).trans (BoxMem.same_fill hb _)
  have same : ∀ b, b < m.heads.length → a ≠ b → m.Same ((((m.more J n).flag J n a false).flag J n m.heads.length true).fill J m.heads.length (newBox leaf inners)) b := fun b hb hab =>
    (BoxMem.same_more hb he).trans ((BoxMem.same_flag hab false).trans (tail b (by omega)))
  have hlt : ∀ k b : Nat, handles[k]? = some (some b) → b < m.heads.length := fun k b hk => h.owned_lt (.inr (List.mem_of_getElem? hk))
  refine ⟨⟨?_, ?_, ?_⟩, ⟨?_, ?_, ?_, ?_, ?_⟩⟩
  · intro k b hk
    rcases get_push hk with hk | ⟨rfl, rfl⟩
    · obtain ⟨leaf', inners', g1, g2, g3⟩ := h.live k b hk
      have hb := hlt k b hk
      refine ⟨leaf', inners', by rw [List.getElem?_append_left (List.getElem?_eq_some_iff.1 g1).1, g1], g2, ?_⟩
      rw [decide_eq_false (by simp; omega)]
      by_cases hab : a = b
      · subst hab
        exact ((g3.same (BoxMem.same_more hb he)).flag false).same (tail a (by omega))
      · rw [decide_eq_false (by simpa using hab)] at g3
        exact g3.same (same b hb hab)
    · exact ⟨leaf, inners, by rw [hl]; simp, hn, by simpa using h1⟩
  · intro b hb
    cases hb
    exact ⟨_, by simpa using h1⟩
  · intro k k' b hk hk'
    rcases get_push hk with hk1 | ⟨rfl, rfl⟩
    · rcases get_push hk' with hk2 | ⟨_, h2⟩
      · exact h.inj k k' b hk1 hk2
      · have := hlt k _ hk1; omega
    · rcases get_push hk' with hk' | ⟨rfl, _⟩
      · have := hlt _ _ hk'; omega
      · rfl
  · simp
  · simp
  · intro b hlt hb
    exact same b hlt fun hab => hb (.inl (by rw [hab]))
  · rintro b (hb | hb)
    · cases hb; exact .inr (Nat.le_refl _)
    · rcases List.mem_append.1 hb with hb | hb
      · exact .inl (.inr hb)
      · simp at hb; exact .inr (by omega)
  · rintro b hlt (hb | hb) hno
    · refine absurd ?_ hno
      rcases hb with hb | hb
      · cases hb; exact .inr (List.mem_append_left _ ha)
      · exact .inr (List.mem_append_left _ hb)
    · simp at hlt
      exact absurd (.inl (by congr 1; omega)) hno

variable {alloc : Option Nat}

theorem get_none {k k' b : Nat} (h : (handles.set k none)[k']? = some (some b)) : k ≠ k' ∧ handles[k']? = some (some b) := by
  rcases Mirror.set_get h with ⟨_, h⟩ | h
  · cases h
  · exact h

theorem mem_none (h : BInv J n m alloc handles vals) {k b : Nat} (hk : handles[k]? = some (some b)) {b' : Nat} : some b' ∈ handles.set k none ↔ b ≠ b' ∧ some b' ∈ handles := by
  rw [List.mem_iff_getElem?]
  refine ⟨?_, ?_⟩
  · rintro ⟨k', hk'⟩
    obtain ⟨h1, h2⟩ := get_none hk'
    exact ⟨fun hb => h1 (h.inj k k' b hk (by rw [h2, hb])), List.mem_of_getElem? h2⟩
  · rintro ⟨h1, h2⟩
    obtain ⟨k', hk'⟩ := List.mem_iff_getElem?.1 h2
    refine ⟨k', ?_⟩
    rw [List.getElem?_set_ne ?_, hk']
    rintro rfl
    rw [hk] at hk'
    cases hk'
    exact h1 rfl

/-- A right-hand iterator is dropped. -/
theorem dropHandle (h : BInv J n m alloc handles vals) (hn : RoomOk J n) (he : m.heads.length = m.values.length) {k b : Nat} (hk : handles[k]? = some (some b)) (c : Nat) :
    ∃ m', BoxMem.dropHandle J b n m c = (.ok (), m', c) ∧ BInv J n m' alloc (handles.set k none) vals ∧ BStep m m' (Owned alloc handles) (Owned alloc (handles.set k none)) := by
  obtain ⟨leaf, inners, h1, h2, h3⟩ := h.live k b hk
  by_cases hab : alloc = some b
  · rw [decide_eq_true hab] at h3
    have same : ∀ b', b ≠ b' → m.Same (m.flag J n b false) b' := fun b' hb => BoxMem.same_flag hb false
    refine ⟨_, BoxMem.dropHandle_shared h3 c, ⟨?_, ?_, ?_⟩, ⟨?_, ?_, ?_, ?_, ?_⟩⟩
    · intro k' b' hk'
      obtain ⟨hne, hk'⟩ := get_none hk'
      obtain ⟨leaf', inners', g1, g2, g3⟩ := h.live k' b' hk'
      exact ⟨leaf', inners', g1, g2, g3.same (same b' fun hb => hne (h.inj k k' b hk (by rw [hk', hb])))⟩
    · intro b' hb'
      rw [hab] at hb'
      cases hb'
      exact ⟨_, by rw [decide_eq_false (by rw [mem_none h hk]; simp)]; exact h3.flag false⟩
    · intro k1 k2 b' h1 h2
      exact h.inj k1 k2 b' (get_none h1).2 (get_none h2).2
    · simp
    · simp
    · intro b' _ hb'
      exact same b' fun hb => hb' (.inl (by rw [hab, hb]))
    · rintro b' (hb | hb)
      · exact .inl (.inl hb)
      · exact .inl (.inr ((mem_none h hk).1 hb).2)
    · rintro b' hlt (hb | hb) hno
      · refine absurd ?_ hno
        by_cases hbb : b = b'
        · exact .inl (by rw [hab, hbb])
        · rcases hb with hb | hb
          · exact .inl hb
          · exact .inr ((mem_none h hk).2 ⟨hbb, hb⟩)
      · simp at hlt; omega
  · rw [decide_eq_false hab] at h3
    have same : ∀ b', b ≠ b' → m.Same (m.free b) b' := fun b' hb => BoxMem.same_free hb
    subst h2
    refine ⟨_, BoxMem.dropHandle_last hn h3 c, ⟨?_, ?_, ?_⟩, ⟨?_, ?_, ?_, ?_, ?_⟩⟩
    · intro k' b' hk'
      obtain ⟨hne, hk'⟩ := get_none hk'
      obtain ⟨leaf', inners', g1, g2, g3⟩ := h.live k' b' hk'
      exact ⟨leaf', inners', g1, g2, g3.same (same b' fun hb => hne (h.inj k k' b hk (by rw [hk', hb])))⟩
    · intro b' hb'
      obtain ⟨slots, g1⟩ := h.alloc b' hb'
      have hbb : b ≠ b' := fun hb => hab (by rw [hb', hb])
      have : decide (some b' ∈ handles.set k none) = decide (some b' ∈ handles) := by
        rw [decide_eq_decide, mem_none h hk]; simp [hbb]
      exact ⟨slots, by rw [this]; exact g1.same (same b' hbb)⟩
    · intro k1 k2 b' h1 h2
      exact h.inj k1 k2 b' (get_none h1).2 (get_none h2).2
    · simp
    · simp
    · intro b' _ hb'
      exact same b' fun hb => hb' (.inr (by rw [← hb]; exact List.mem_of_getElem? hk))
    · rintro b' (hb | hb)
      · exact .inl (.inl hb)
      · exact .inl (.inr ((mem_none h hk).1 hb).2)
    · rintro b' hlt (hb | hb) hno
      · by_cases hbb : b = b'
        · subst hbb
          exact BoxMem.free_get h3.lt he
        · refine absurd ?_ hno
          rcases hb with hb | hb
          · exact .inl hb
          · exact .inr ((mem_none h hk).2 ⟨hbb, hb⟩)
      · simp at hlt; omega

/-- The left join is dropped. -/
theorem dropAlloc (h : BInv J n m (some a) handles vals) (hn : RoomOk J n) (he : m.heads.length = m.values.length) (c : Nat) :
    ∃ m', BoxMem.dropAlloc J a n m c = (.ok (), m', c) ∧ BInv J n m' none handles vals ∧ BStep m m' (Owned (some a) handles) (Owned none handles) := by
  obtain ⟨slots, h0⟩ := h.alloc a rfl
  by_cases ha : some a ∈ handles
  · rw [decide_eq_true ha] at h0
    refine ⟨_, BoxMem.dropAlloc_shared h0 c, ⟨?_, (fun b hb => by cases hb), h.inj⟩, ⟨by simp, by simp, ?_, ?_, ?_⟩⟩
    · intro k b hk
      obtain ⟨leaf, inners, g1, g2, g3⟩ := h.live k b hk
      refine ⟨leaf, inners, g1, g2, ?_⟩
      rw [decide_eq_false (by simp)]
      by_cases hab : a = b
      · subst hab; exact g3.flag false
      · rw [decide_eq_false (by simpa using hab)] at g3
        exact g3.same (BoxMem.same_flag hab false)
    · intro b _ hb
      exact BoxMem.same_flag (fun hab => hb (.inl (by rw [hab]))) false
    · rintro b (hb | hb)
      · cases hb
      · exact .inl (.inr hb)
    · rintro b hlt (hb | hb) hno
      · refine absurd ?_ hno
        rcases hb with hb | hb
        · cases hb; exact .inr ha
        · exact .inr hb
      · simp at hlt; omega
  · rw [decide_eq_false ha] at h0
    have hne : ∀ k b : Nat, handles[k]? = some (some b) → a ≠ b := fun k b hk hab => ha (by rw [hab]; exact List.mem_of_getElem? hk)
    refine ⟨_, BoxMem.dropAlloc_last hn h0 c, ⟨?_, (fun b hb => by cases hb), h.inj⟩, ⟨by simp, by simp, ?_, ?_, ?_⟩⟩
    · intro k b hk
      obtain ⟨leaf, inners, g1, g2, g3⟩ := h.live k b hk
      refine ⟨leaf, inners, g1, g2, ?_⟩
      rw [decide_eq_false (by simp)]
      rw [decide_eq_false (by simpa using hne k b hk)] at g3
      exact g3.same (BoxMem.same_free (hne k b hk))
    · intro b _ hb
      exact BoxMem.same_free fun hab => hb (.inl (by rw [hab]))
    · rintro b (hb | hb)
      · cases hb
      · exact .inl (.inr hb)
    · rintro b hlt (hb | hb) hno
      · rcases hb with hb | hb
        · cases hb; exact BoxMem.free_get h0.lt he
        · exact absurd (.inr hb) hno
      · simp at hlt; omega

/-- A right-hand iterator moves on. -/
theorem use (h : BInv J n m alloc handles vals) {k b : Nat} (hk : handles[k]? = some (some b)) {leaf : L} {inners : List I} (hn : inners.length + 1 = n) :
    BInv J n (m.fill J b (newBox leaf inners)) alloc handles (vals.set k (newBox leaf inners)) ∧ BStep m (m.fill J b (newBox leaf inners)) (Owned alloc handles) (Owned alloc handles) := by
  obtain ⟨leaf0, inners0, h1, h2, h3⟩ := h.live k b hk
  have h4 := h3.fill (s := newBox leaf inners) (by rw [IterStack.length_newBox, hn])
  have same : ∀ b', b ≠ b' → m.Same (m.fill J b (newBox leaf inners)) b' := fun b' hb => BoxMem.same_fill hb _
  refine ⟨⟨?_, ?_, h.inj⟩, ⟨by simp, by simp, ?_, fun _ hb => .inl hb, ?_⟩⟩
  · intro k' b' hk'
    by_cases hkk : k = k'
    · subst hkk
      rw [hk] at hk'
      cases hk'
      exact ⟨leaf, inners, List.getElem?_set_self (List.getElem?_eq_some_iff.1 h1).1, hn, h4⟩
    · obtain ⟨leaf', inners', g1, g2, g3⟩ := h.live k' b' hk'
      exact ⟨leaf', inners', by rw [List.getElem?_set_ne hkk, g1], g2, g3.same (same b' fun hb => hkk (h.inj k k' b hk (by rw [hk', hb])))⟩
  · intro b' hb'
    obtain ⟨slots, g1⟩ := h.alloc b' hb'
    by_cases hbb : b = b'
    · subst hbb
      refine ⟨(newBox leaf inners).map some, ?_⟩
      rw [decide_eq_true (List.mem_of_getElem? hk)]
      rw [decide_eq_true hb'] at h4
      exact h4
    · exact ⟨slots, g1.same (same b' hbb)⟩
  · intro b' _ hb'
    exact same b' fun hb => hb' (.inr (by rw [← hb]; exact List.mem_of_getElem? hk))
  · rintro b' hlt (hb | hb) hno
    · exact absurd hb hno
    · simp at hlt; omega

/-- The box of a new left join. -/
theorem first (he : m.heads.length = m.values.length) : BInv J n (m.more J n) (some m.heads.length) [] [] ∧ BStep m (m.more J n) (fun _ => False) (Owned (some m.heads.length) []) := by
  refine ⟨⟨by simp, ?_, by simp⟩, ⟨by simp, by simp [he], ?_, ?_, ?_⟩⟩
  · intro b hb
    cases hb
    exact ⟨_, by simpa using BoxMem.At.more he⟩
  · intro b hb _
    exact BoxMem.same_more hb he
  · rintro b (hb | hb)
    · cases hb; exact .inr (Nat.le_refl _)
    · cases hb
  · rintro b hlt (hb | hb) hno
    · cases hb
    · simp at hlt
      exact absurd (.inl (by congr 1; omega)) hno

end BInv

end RTree.Raw
