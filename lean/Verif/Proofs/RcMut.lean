import Verif.Model.RcMut
import Verif.Proofs.LeftJoin
/-!
# The two-owner protocol of rc_mut.rs
-/

namespace RTree.RcMut

variable {T O β γ : Type}

theorem bind_apply (x : M T β) (f : β → M T γ) (h : Boxes T) :
    (x >>= f) h = match x h with | .ok (b, h') => f b h' | .error e => .error e := rfl

@[simp] theorem pure_apply (b : β) (h : Boxes T) : (pure b : M T β) h = .ok (b, h) := rfl

theorem bind_ok {x : M T β} {f : β → M T γ} {h h' : Boxes T} {b : β} (hx : x h = .ok (b, h')) :
    (x >>= f) h = f b h' := by rw [bind_apply, hx]

section Prim

variable {h : Boxes T} {b : Nat} {s : Bool} {x : Option T} {c : Cell T}

theorem lt_of_get {a : Option (Cell T)} (hb : h[b]? = some a) : b < h.length := by
  by_cases hlt : b < h.length
  · exact hlt
  · rw [List.getElem?_eq_none (by omega)] at hb; cases hb

theorem load_ok (hb : h[b]? = some (some c)) : load b h = .ok (c, h) := by simp [load, hb]

theorem store_ok (hb : h[b]? = some (some c)) (c' : Cell T) : store b c' h = .ok ((), h.set b (some c')) := by
  rw [store, bind_ok (load_ok hb)]; rfl

theorem free_ok (hb : h[b]? = some (some c)) : free b h = .ok ((), h.set b none) := by
  rw [free, bind_ok (load_ok hb)]; rfl

theorem get_set (hb : h[b]? = some (some c)) (c' : Option (Cell T)) : (h.set b c')[b]? = some c' :=
  List.getElem?_set_self (lt_of_get hb)

theorem takeShared_ok (hb : h[b]? = some (some ⟨s, x⟩)) :
    takeShared b h = .ok (s, h.set b (some ⟨false, x⟩)) := by
  rw [takeShared, bind_ok (load_ok hb), bind_ok (store_ok hb _)]
  rfl

theorem dropAlloc_ok (hb : h[b]? = some (some ⟨s, x⟩)) :
    dropAlloc b h = .ok ((), if s then h.set b (some ⟨false, x⟩) else h.set b none) := by
  rw [dropAlloc, bind_ok (takeShared_ok hb)]
  cases s with
  | true => rfl
  | false =>
    simp only [Bool.false_eq_true, if_false]
    rw [free_ok (get_set hb _)]
    simp

theorem dropHandle_ok {v : T} (hb : h[b]? = some (some ⟨s, some v⟩)) :
    dropHandle b h = .ok (if s then none else some v, if s then h.set b (some ⟨false, some v⟩) else h.set b none) := by
  rw [dropHandle, bind_ok (takeShared_ok hb)]
  cases s with
  | true => rfl
  | false =>
    simp only [Bool.false_eq_true, if_false]
    rw [bind_ok (load_ok (get_set hb _))]
    simp only
    rw [bind_ok (free_ok (get_set hb _))]
    simp

theorem deref_ok {v : T} (hb : h[b]? = some (some ⟨s, some v⟩)) : deref b h = .ok (v, h) := by
  rw [deref, bind_ok (load_ok hb)]
  rfl

theorem derefMut_ok {v : T} (hb : h[b]? = some (some ⟨s, some v⟩)) (v' : T) :
    derefMut b v' h = .ok ((), h.set b (some ⟨s, some v'⟩)) := by
  rw [derefMut, bind_ok (load_ok hb)]
  exact store_ok hb _

theorem makeMut_unshared (hb : h[b]? = some (some ⟨false, x⟩)) (v : T) :
    makeMut b v h = .ok (b, h.set b (some ⟨true, some v⟩)) := by
  rw [makeMut, bind_ok (load_ok hb)]
  simp only [Bool.false_eq_true, if_false]
  rw [bind_ok (pure_apply _ _), bind_ok (load_ok hb), bind_ok (store_ok hb _), bind_ok (load_ok (get_set hb _)),
    bind_ok (store_ok (get_set hb _) _)]
  simp

theorem makeMut_shared (hb : h[b]? = some (some ⟨true, x⟩)) (v : T) :
    makeMut b v h = .ok (h.length, h.set b (some ⟨false, x⟩) ++ [some ⟨true, some v⟩]) := by
  have hlt := lt_of_get hb
  have ha : (allocate : M T Nat) h = .ok (h.length, h ++ [some ⟨false, none⟩]) := rfl
  have hb' : (h ++ [some ⟨false, none⟩])[b]? = some (some ⟨true, x⟩) := by rw [List.getElem?_append_left hlt, hb]
  have hd := dropAlloc_ok hb'
  simp only [if_true] at hd
  rw [List.set_append_left _ _ hlt] at hd
  have hn : ∀ c : Cell T, (h.set b (some ⟨false, x⟩) ++ [some c])[h.length]? = some (some c) := by
    intro c
    rw [List.getElem?_append_right (by simp)]
    simp
  have hset : ∀ c c' : Cell T, (h.set b (some ⟨false, x⟩) ++ [some c]).set h.length (some c') =
      h.set b (some ⟨false, x⟩) ++ [some c'] := by
    intro c c'
    rw [List.set_append_right _ _ (by simp)]
    simp
  rw [makeMut, bind_ok (load_ok hb)]
  simp only [if_true]
  have hif : (do
      let b' ← allocate
      dropAlloc b
      pure b' : M T Nat) h = .ok (h.length, h.set b (some ⟨false, x⟩) ++ [some ⟨false, none⟩]) := by
    rw [bind_ok ha, bind_ok hd]; rfl
  rw [bind_ok hif, bind_ok (load_ok (hn _)), bind_ok (store_ok (hn _) _), hset, bind_ok (load_ok (hn _)),
    bind_ok (store_ok (hn _) _), hset]
  rfl

end Prim

/-- What the owners may rely on: boxes below `n` belong to others.  `vals` are the values of the live handles. -/
structure Inv (n : Nat) (h₀ h : Boxes T) (o : Owners) (vals : List (Option T)) : Prop where
  base : h₀.length = n
  le : n ≤ h.length
  others : ∀ j : Nat, j < n → h[j]? = h₀[j]?
  length : o.handles.length = vals.length
  live : ∀ (k b : Nat), o.handles[k]? = some (some b) → n ≤ b ∧ ∃ v : T, vals[k]? = some (some v) ∧
    h[b]? = some (some ⟨decide (o.alloc = some b), some v⟩)
  dead : ∀ k : Nat, o.handles[k]? = some none → vals[k]? = some none
  alloc : ∀ b : Nat, o.alloc = some b → n ≤ b ∧ ∃ x : Option T, h[b]? = some (some ⟨decide (∃ k : Fin o.handles.length, o.handles[k] = some b), x⟩)
  inj : ∀ k k' b : Nat, o.handles[k]? = some (some b) → o.handles[k']? = some (some b) → k = k'
  cover : ∀ b : Nat, n ≤ b → b < h.length → o.alloc = some b ∨ (∃ k : Nat, o.handles[k]? = some (some b)) ∨ h[b]? = some none

theorem owned_iff {l : List (Option Nat)} {b : Nat} : (∃ k : Fin l.length, l[k] = some b) ↔ ∃ k : Nat, l[k]? = some (some b) := by
  constructor
  · rintro ⟨k, hk⟩; exact ⟨k, by rw [← hk]; simp⟩
  · rintro ⟨k, hk⟩
    obtain ⟨hlt, he⟩ := List.getElem?_eq_some_iff.1 hk
    exact ⟨⟨k, hlt⟩, he⟩

namespace Inv

variable {n : Nat} {h₀ h : Boxes T} {o : Owners} {vals : List (Option T)}

/-- The owners right after `new_for_layout`. -/
theorem start (h : Boxes T) : Inv h.length h (h ++ [some ⟨false, none⟩]) ⟨some h.length, []⟩ [] where
  base := rfl
  le := by simp
  others j hj := List.getElem?_append_left hj
  length := rfl
  live k b hk := by simp at hk
  dead k hk := by simp at hk
  alloc b hb := by
    injection hb with hb; subst hb
    exact ⟨Nat.le_refl _, none, by simp⟩
  inj k k' b hk := by simp at hk
  cover b h1 h2 := .inl (by simp at h2; show some h.length = some b; congr 1; omega)

theorem make (hi : Inv n h₀ h o vals) {b : Nat} (hb : o.alloc = some b) (v : T) :
    ∃ b' h', makeMut b v h = .ok (b', h') ∧ Inv n h₀ h' ⟨some b', o.handles ++ [some b']⟩ (vals ++ [some v]) := by
  obtain ⟨hn, x, hx⟩ := hi.alloc b hb
  have hlt := lt_of_get hx
  by_cases hs : ∃ k : Fin o.handles.length, o.handles[k] = some b
  · rw [decide_eq_true hs] at hx
    obtain ⟨k₀, hk₀⟩ := owned_iff.1 hs
    have hle := hi.le
    refine ⟨h.length, _, makeMut_shared hx v, ?_⟩
    have hgetl : ∀ j, j < h.length → j ≠ b → (h.set b (some ⟨false, x⟩) ++ [some ⟨true, some v⟩])[j]? = h[j]? := by
      intro j hj hjb
      rw [List.getElem?_append_left (by simpa using hj), List.getElem?_set_ne (Ne.symm hjb)]
    have hgetb : (h.set b (some ⟨false, x⟩) ++ [some ⟨true, some v⟩])[b]? = some (some ⟨false, x⟩) := by
      rw [List.getElem?_append_left (by simpa using hlt), List.getElem?_set_self hlt]
    have hgetn : (h.set b (some ⟨false, x⟩) ++ [some ⟨true, some v⟩])[h.length]? = some (some ⟨true, some v⟩) := by
      rw [List.getElem?_append_right (by simp)]; simp
    have hsplit : ∀ k b', (o.handles ++ [some h.length])[k]? = some (some b') →
        (o.handles[k]? = some (some b') ∧ k < vals.length) ∨ (k = o.handles.length ∧ b' = h.length) := by
      intro k b' hk
      by_cases hkl : k < o.handles.length
      · rw [List.getElem?_append_left hkl] at hk
        exact .inl ⟨hk, by rw [← hi.length]; exact hkl⟩
      · rw [List.getElem?_append_right (by omega)] at hk
        have h0 : k - o.handles.length = 0 := by
          by_cases h0 : k - o.handles.length = 0
          · exact h0
          · rw [List.getElem?_eq_none (by simp; omega)] at hk; cases hk
        rw [h0] at hk
        simp at hk
        exact .inr ⟨by omega, hk.symm⟩
    refine ⟨?_, ?_, ?_, ?_, ?_, ?_, ?_, ?_, ?_⟩
    · exact hi.base
    · simp; omega
    · intro j hj
      rw [hgetl j (by omega) (by omega)]; exact hi.others j hj
    · simp [hi.length]
    · intro k b' hk
      rcases hsplit k b' hk with ⟨h1, h2⟩ | ⟨rfl, rfl⟩
      · obtain ⟨g1, v', g2, g3⟩ := hi.live k b' h1
        have hlt' := lt_of_get g3
        refine ⟨g1, v', by rw [List.getElem?_append_left h2, g2], ?_⟩
        have hne : decide (some h.length = some b') = false := by
          simp; omega
        rw [hne]
        by_cases hbb : b' = b
        · subst hbb
          rw [hgetb]
          rw [hx] at g3
          injection g3 with g3; injection g3 with g3; injection g3 with _ g3
          rw [g3]
        · rw [hgetl b' hlt' hbb, g3]
          have : decide (o.alloc = some b') = false := by rw [hb]; simp; exact fun h => hbb h.symm
          rw [this]
      · refine ⟨hle, v, by rw [List.getElem?_append_right (by rw [hi.length]; omega)]; simp [hi.length], ?_⟩
        rw [hgetn]; simp
    · intro k hk
      by_cases hkl : k < o.handles.length
      · rw [List.getElem?_append_left hkl] at hk
        rw [List.getElem?_append_left (by rw [← hi.length]; exact hkl)]
        exact hi.dead k hk
      · rw [List.getElem?_append_right (by omega)] at hk
        by_cases h0 : k - o.handles.length = 0
        · rw [h0] at hk; simp at hk
        · rw [List.getElem?_eq_none (by simp; omega)] at hk; cases hk
    · intro b' hb'
      injection hb' with hb'; subst hb'
      refine ⟨hle, some v, ?_⟩
      rw [hgetn, decide_eq_true (owned_iff.2 ⟨o.handles.length, by simp⟩)]
    · intro k k' b' hk hk'
      rcases hsplit k b' hk with ⟨h1, h2⟩ | ⟨h1, h2⟩ <;> rcases hsplit k' b' hk' with ⟨h3, h4⟩ | ⟨h3, h4⟩
      · exact hi.inj k k' b' h1 h3
      · obtain ⟨g1, v', g2, g3⟩ := hi.live k b' h1
        have := lt_of_get g3
        omega
      · obtain ⟨g1, v', g2, g3⟩ := hi.live k' _ h3
        have := lt_of_get g3
        omega
      · omega
    · intro b' h1 h2
      have h2 : b' < h.length + 1 := by simpa using h2
      by_cases hbl : b' = h.length
      · exact .inl (by rw [hbl])
      · rcases hi.cover b' h1 (by omega) with h3 | ⟨k, h3⟩ | h3
        · rw [hb] at h3; injection h3 with h3; subst h3
          obtain ⟨hk0l, _⟩ := List.getElem?_eq_some_iff.1 hk₀
          exact .inr (.inl ⟨k₀, by rw [List.getElem?_append_left hk0l, hk₀]⟩)
        · obtain ⟨hkl, _⟩ := List.getElem?_eq_some_iff.1 h3
          exact .inr (.inl ⟨k, by rw [List.getElem?_append_left hkl, h3]⟩)
        · by_cases hbb : b' = b
          · subst hbb; rw [hx] at h3; cases h3
          · exact .inr (.inr (by rw [hgetl b' (by omega) hbb, h3]))
  · rw [decide_eq_false hs] at hx
    have hle := hi.le
    refine ⟨b, _, makeMut_unshared hx v, ?_⟩
    have hno : ∀ k, o.handles[k]? ≠ some (some b) := fun k hk => hs (owned_iff.2 ⟨k, hk⟩)
    have hsplit : ∀ k b', (o.handles ++ [some b])[k]? = some (some b') →
        (o.handles[k]? = some (some b') ∧ k < vals.length) ∨ (k = o.handles.length ∧ b' = b) := by
      intro k b' hk
      by_cases hkl : k < o.handles.length
      · rw [List.getElem?_append_left hkl] at hk
        exact .inl ⟨hk, by rw [← hi.length]; exact hkl⟩
      · rw [List.getElem?_append_right (by omega)] at hk
        have h0 : k - o.handles.length = 0 := by
          by_cases h0 : k - o.handles.length = 0
          · exact h0
          · rw [List.getElem?_eq_none (by simp; omega)] at hk; cases hk
        rw [h0] at hk
        simp at hk
        exact .inr ⟨by omega, hk.symm⟩
    refine ⟨?_, ?_, ?_, ?_, ?_, ?_, ?_, ?_, ?_⟩
    · exact hi.base
    · simpa using hle
    · intro j hj
      rw [List.getElem?_set_ne (by omega)]; exact hi.others j hj
    · simp [hi.length]
    · intro k b' hk
      rcases hsplit k b' hk with ⟨h1, h2⟩ | ⟨rfl, rfl⟩
      · obtain ⟨g1, v', g2, g3⟩ := hi.live k b' h1
        have hbb : b' ≠ b := fun he => hno k (he ▸ h1)
        refine ⟨g1, v', by rw [List.getElem?_append_left h2, g2], ?_⟩
        rw [List.getElem?_set_ne (Ne.symm hbb), g3, hb]
      · refine ⟨hn, v, by rw [List.getElem?_append_right (by rw [hi.length]; omega)]; simp [hi.length], ?_⟩
        rw [List.getElem?_set_self hlt]; simp
    · intro k hk
      by_cases hkl : k < o.handles.length
      · rw [List.getElem?_append_left hkl] at hk
        rw [List.getElem?_append_left (by rw [← hi.length]; exact hkl)]
        exact hi.dead k hk
      · rw [List.getElem?_append_right (by omega)] at hk
        by_cases h0 : k - o.handles.length = 0
        · rw [h0] at hk; simp at hk
        · rw [List.getElem?_eq_none (by simp; omega)] at hk; cases hk
    · intro b' hb'
      injection hb' with hb'; subst hb'
      refine ⟨hn, some v, ?_⟩
      rw [List.getElem?_set_self hlt, decide_eq_true (owned_iff.2 ⟨o.handles.length, by simp⟩)]
    · intro k k' b' hk hk'
      rcases hsplit k b' hk with ⟨h1, h2⟩ | ⟨h1, h2⟩ <;> rcases hsplit k' b' hk' with ⟨h3, h4⟩ | ⟨h3, h4⟩
      · exact hi.inj k k' b' h1 h3
      · rw [h4] at h1; exact absurd h1 (hno k)
      · rw [h2] at h3; exact absurd h3 (hno k')
      · omega
    · intro b' h1 h2
      have h2 : b' < h.length := by simpa using h2
      rcases hi.cover b' h1 h2 with h3 | ⟨k, h3⟩ | h3
      · rw [hb] at h3; exact .inl h3
      · obtain ⟨hkl, _⟩ := List.getElem?_eq_some_iff.1 h3
        exact .inr (.inl ⟨k, by rw [List.getElem?_append_left hkl, h3]⟩)
      · by_cases hbb : b' = b
        · exact .inl (by rw [hbb])
        · exact .inr (.inr (by rw [List.getElem?_set_ne (Ne.symm hbb), h3]))

theorem use (hi : Inv n h₀ h o vals) {k b : Nat} (hk : o.handles[k]? = some (some b)) :
    ∃ v s, vals[k]? = some (some v) ∧ h[b]? = some (some ⟨s, some v⟩) ∧
      ∀ v', Inv n h₀ (h.set b (some ⟨s, some v'⟩)) o (vals.set k (some v')) := by
  obtain ⟨hn, v, hv, hb⟩ := hi.live k b hk
  have hlt := lt_of_get hb
  refine ⟨v, _, hv, hb, fun v' => ?_⟩
  obtain ⟨hkl, _⟩ := List.getElem?_eq_some_iff.1 hv
  refine ⟨?_, ?_, ?_, ?_, ?_, ?_, ?_, ?_, ?_⟩
  · exact hi.base
  · simpa using hi.le
  · intro j hj
    rw [List.getElem?_set_ne (by omega)]; exact hi.others j hj
  · simp [hi.length]
  · intro k' b' hk'
    obtain ⟨g1, v₁, g2, g3⟩ := hi.live k' b' hk'
    by_cases hkk : k' = k
    · subst hkk
      rw [hk] at hk'; injection hk' with hk'; injection hk' with hk'; subst hk'
      exact ⟨g1, v', List.getElem?_set_self hkl, List.getElem?_set_self hlt⟩
    · have hbb : b' ≠ b := fun he => hkk (hi.inj k' k b (he ▸ hk') hk)
      exact ⟨g1, v₁, by rw [List.getElem?_set_ne (Ne.symm hkk), g2], by rw [List.getElem?_set_ne (Ne.symm hbb), g3]⟩
  · intro k' hk'
    have hkk : k' ≠ k := fun he => by rw [he, hk] at hk'; cases hk'
    rw [List.getElem?_set_ne (Ne.symm hkk)]
    exact hi.dead k' hk'
  · intro b' hb'
    obtain ⟨g1, x, g2⟩ := hi.alloc b' hb'
    by_cases hbb : b' = b
    · subst hbb
      refine ⟨g1, some v', ?_⟩
      rw [List.getElem?_set_self hlt]
      rw [hb] at g2
      injection g2 with g2; injection g2 with g2; injection g2 with g2 _
      rw [g2]
    · exact ⟨g1, x, by rw [List.getElem?_set_ne (Ne.symm hbb), g2]⟩
  · exact hi.inj
  · intro b' h1 h2
    have h2 : b' < h.length := by simpa using h2
    rcases hi.cover b' h1 h2 with h3 | h3 | h3
    · exact .inl h3
    · exact .inr (.inl h3)
    · by_cases hbb : b' = b
      · subst hbb; rw [hb] at h3; cases h3
      · exact .inr (.inr (by rw [List.getElem?_set_ne (Ne.symm hbb), h3]))

theorem get_set_none {l : List (Option Nat)} {k k' b : Nat} (h : (l.set k none)[k']? = some (some b)) :
    k' ≠ k ∧ l[k']? = some (some b) := by
  by_cases hkk : k' = k
  · subst hkk
    by_cases hlt : k' < l.length
    · rw [List.getElem?_set_self hlt] at h; cases h
    · rw [List.getElem?_eq_none (by simp; omega)] at h; cases h
  · rw [List.getElem?_set_ne (Ne.symm hkk)] at h
    exact ⟨hkk, h⟩

theorem dropHandle (hi : Inv n h₀ h o vals) {k b : Nat} (hk : o.handles[k]? = some (some b)) :
    ∃ out h', RcMut.dropHandle b h = .ok (out, h') ∧ Inv n h₀ h' ⟨o.alloc, o.handles.set k none⟩ (vals.set k none) := by
  obtain ⟨hn, v, hv, hb⟩ := hi.live k b hk
  have hlt := lt_of_get hb
  obtain ⟨hkl, _⟩ := List.getElem?_eq_some_iff.1 hk
  have hkv : k < vals.length := by rw [← hi.length]; exact hkl
  have hnone : ¬ ∃ j : Fin (o.handles.set k none).length, (o.handles.set k none)[j] = some b := by
    intro hex
    obtain ⟨j, hj⟩ := owned_iff.1 hex
    obtain ⟨h1, h2⟩ := get_set_none hj
    exact h1 (hi.inj j k b h2 hk)
  refine ⟨_, _, dropHandle_ok hb, ?_⟩
  have hget : ∀ j, j ≠ b → (if decide (o.alloc = some b) then h.set b (some ⟨false, some v⟩) else h.set b none)[j]? = h[j]? := by
    intro j hj
    split <;> rw [List.getElem?_set_ne (Ne.symm hj)]
  have hlen : (if decide (o.alloc = some b) then h.set b (some ⟨false, some v⟩) else h.set b none).length = h.length := by
    split <;> simp
  refine ⟨?_, ?_, ?_, ?_, ?_, ?_, ?_, ?_, ?_⟩
  · exact hi.base
  · rw [hlen]; exact hi.le
  · intro j hj
    rw [hget j (by omega)]; exact hi.others j hj
  · simp [hi.length]
  · intro k' b' hk'
    obtain ⟨h1, h2⟩ := get_set_none hk'
    obtain ⟨g1, v₁, g2, g3⟩ := hi.live k' b' h2
    have hbb : b' ≠ b := fun he => h1 (hi.inj k' k b (he ▸ h2) hk)
    exact ⟨g1, v₁, by rw [List.getElem?_set_ne (Ne.symm h1), g2], by rw [hget b' hbb, g3]⟩
  · intro k' hk'
    by_cases hkk : k' = k
    · subst hkk; rw [List.getElem?_set_self hkv]
    · simp only at hk'
      rw [List.getElem?_set_ne (Ne.symm hkk)] at hk' ⊢
      exact hi.dead k' hk'
  · intro b' hb'
    simp only at hb'
    obtain ⟨g1, x, g2⟩ := hi.alloc b' hb'
    by_cases hbb : b' = b
    · subst hbb
      refine ⟨g1, some v, ?_⟩
      rw [decide_eq_true hb']
      simp only [if_true]
      rw [List.getElem?_set_self hlt, decide_eq_false hnone]
    · refine ⟨g1, x, ?_⟩
      rw [hget b' hbb, g2]
      congr 3
      rw [decide_eq_decide, owned_iff, owned_iff]
      constructor
      · rintro ⟨j, hj⟩
        refine ⟨j, ?_⟩
        rw [List.getElem?_set_ne, hj]
        intro he
        rw [← he, hk] at hj; injection hj with hj; injection hj with hj; exact hbb hj.symm
      · rintro ⟨j, hj⟩
        exact ⟨j, (get_set_none hj).2⟩
  · intro k₁ k₂ b' h1 h2
    exact hi.inj k₁ k₂ b' (get_set_none h1).2 (get_set_none h2).2
  · intro b' h1 h2
    rw [hlen] at h2
    by_cases hbb : b' = b
    · subst hbb
      by_cases ha : o.alloc = some b'
      · exact .inl ha
      · refine .inr (.inr ?_)
        rw [decide_eq_false ha]
        simp only [Bool.false_eq_true, if_false]
        exact List.getElem?_set_self hlt
    · rcases hi.cover b' h1 h2 with h3 | ⟨j, h3⟩ | h3
      · exact .inl h3
      · refine .inr (.inl ⟨j, ?_⟩)
        rw [List.getElem?_set_ne, h3]
        intro he
        rw [← he, hk] at h3; injection h3 with h3; injection h3 with h3; exact hbb h3.symm
      · exact .inr (.inr (by rw [hget b' hbb, h3]))

theorem dropAlloc (hi : Inv n h₀ h o vals) {b : Nat} (hb : o.alloc = some b) :
    ∃ h', RcMut.dropAlloc b h = .ok ((), h') ∧ Inv n h₀ h' ⟨none, o.handles⟩ vals := by
  obtain ⟨hn, x, hx⟩ := hi.alloc b hb
  have hlt := lt_of_get hx
  refine ⟨_, dropAlloc_ok hx, ?_⟩
  generalize hs : decide (∃ k : Fin o.handles.length, o.handles[k] = some b) = s at hx
  have hget : ∀ j, j ≠ b → (if s then h.set b (some ⟨false, x⟩) else h.set b none)[j]? = h[j]? := by
    intro j hj
    split <;> rw [List.getElem?_set_ne (Ne.symm hj)]
  have hlen : (if s then h.set b (some ⟨false, x⟩) else h.set b none).length = h.length := by
    split <;> simp
  refine ⟨?_, ?_, ?_, ?_, ?_, ?_, ?_, ?_, ?_⟩
  · exact hi.base
  · rw [hlen]; exact hi.le
  · intro j hj
    rw [hget j (by omega)]; exact hi.others j hj
  · exact hi.length
  · intro k b' hk
    obtain ⟨g1, v₁, g2, g3⟩ := hi.live k b' hk
    refine ⟨g1, v₁, g2, ?_⟩
    have hf : decide ((⟨none, o.handles⟩ : Owners).alloc = some b') = false := by simp
    rw [hf]
    by_cases hbb : b' = b
    · subst hbb
      have hst : s = true := by rw [← hs]; exact decide_eq_true (owned_iff.2 ⟨k, hk⟩)
      subst hst
      simp only [if_true]
      rw [List.getElem?_set_self hlt]
      rw [hx] at g3
      injection g3 with g3; injection g3 with g3; injection g3 with _ g3
      rw [g3]
    · rw [hget b' hbb, g3]
      have : decide (o.alloc = some b') = false := by rw [hb]; simp; exact fun h => hbb h.symm
      rw [this]
  · exact hi.dead
  · intro b' hb'; cases hb'
  · exact hi.inj
  · intro b' h1 h2
    rw [hlen] at h2
    by_cases hbb : b' = b
    · subst hbb
      cases s with
      | true => exact .inr (.inl (owned_iff.1 (of_decide_eq_true hs)))
      | false =>
        refine .inr (.inr ?_)
        simp only [Bool.false_eq_true, if_false]
        exact List.getElem?_set_self hlt
    · rcases hi.cover b' h1 h2 with h3 | h3 | h3
      · rw [hb] at h3; injection h3 with h3; exact absurd h3.symm hbb
      · exact .inr (.inl h3)
      · exact .inr (.inr (by rw [hget b' hbb, h3]))

/-- Once every owner is gone, every box is freed. -/
theorem all_freed (hi : Inv n h₀ h o vals) (ha : o.alloc = none) (hv : ∀ x ∈ vals, x = none) :
    h = h₀ ++ List.replicate (h.length - n) none := by
  have hle := hi.le
  have hbase := hi.base
  refine List.ext_getElem? fun j => ?_
  by_cases hj : j < n
  · rw [hi.others j hj, List.getElem?_append_left (by omega)]
  · rw [List.getElem?_append_right (by omega)]
    by_cases hjl : j < h.length
    · rcases hi.cover j (by omega) hjl with h3 | ⟨k, h3⟩ | h3
      · rw [ha] at h3; cases h3
      · obtain ⟨_, v, g2, _⟩ := hi.live k j h3
        have := hv _ (List.mem_of_getElem? g2)
        cases this
      · rw [h3, List.getElem?_replicate, if_pos (by omega)]
    · rw [List.getElem?_eq_none (by omega), List.getElem?_replicate, if_neg (by omega)]

end Inv

end RTree.RcMut
