import Verif.Proofs.FCVec
/-!
# Ownership of memory

A *chunk* is a set of blocks together with what they hold.  `Tr h cs h' cs'` says that a computation that owned exactly the chunks `cs`
in memory `h` ends in memory `h'` owning exactly the chunks `cs'`: every other block is untouched, and every block it owned or
allocated and does not own any more has been freed.
-/

namespace RTree.Raw

variable {α β γ δ : Type}

/-- Blocks (`fp`) and what they hold. -/
structure Chunk (α : Type) where
  fp : List Nat
  holds : Heap α → Prop
  loc : ∀ {h h' : Heap α}, holds h → (∀ b ∈ fp, h'[b]? = h[b]?) → holds h'
  alive : ∀ {h : Heap α}, holds h → ∀ b ∈ fp, b < h.length

/-- All blocks of the chunks. -/
def fps (cs : List (Chunk α)) : List Nat := cs.flatMap Chunk.fp

@[simp] theorem fps_nil : fps ([] : List (Chunk α)) = [] := rfl
@[simp] theorem fps_cons (c : Chunk α) (cs : List (Chunk α)) : fps (c :: cs) = c.fp ++ fps cs := rfl
@[simp] theorem fps_append (cs ds : List (Chunk α)) : fps (cs ++ ds) = fps cs ++ fps ds := by simp [fps]

theorem mem_fps {cs : List (Chunk α)} {b : Nat} : b ∈ fps cs ↔ ∃ c ∈ cs, b ∈ c.fp := by simp [fps]

theorem fps_perm {cs ds : List (Chunk α)} (h : cs.Perm ds) : (fps cs).Perm (fps ds) := h.flatMap_right _

/-- The chunks are there and do not overlap. -/
structure Has (h : Heap α) (cs : List (Chunk α)) : Prop where
  holds : ∀ c ∈ cs, c.holds h
  nodup : (fps cs).Nodup

namespace Has

variable {h : Heap α} {cs ds : List (Chunk α)}

theorem perm (hp : cs.Perm ds) (H : Has h cs) : Has h ds :=
  ⟨fun c hc => H.holds c (hp.mem_iff.2 hc), (fps_perm hp).nodup_iff.1 H.nodup⟩

theorem left (H : Has h (cs ++ ds)) : Has h cs :=
  ⟨fun c hc => H.holds c (List.mem_append_left _ hc), by have := H.nodup; rw [fps_append] at this; exact (List.nodup_append.1 this).1⟩

theorem right (H : Has h (cs ++ ds)) : Has h ds :=
  ⟨fun c hc => H.holds c (List.mem_append_right _ hc), by have := H.nodup; rw [fps_append] at this; exact (List.nodup_append.1 this).2.1⟩

theorem nil : Has h [] := ⟨by simp, by simp⟩

theorem head {c : Chunk α} (H : Has h (c :: cs)) : c.holds h := H.holds c List.mem_cons_self

theorem alive (H : Has h cs) {b : Nat} (hb : b ∈ fps cs) : b < h.length := by
  obtain ⟨c, hc, hb⟩ := mem_fps.1 hb
  exact c.alive (H.holds c hc) b hb

end Has

/-- What a computation may do to blocks: `old` are the blocks it owned before, `new` those it owns afterwards. -/
structure Step (h h' : Heap α) (old new : List Nat) : Prop where
  len : h.length ≤ h'.length
  frame : ∀ b, b < h.length → b ∉ old → h'[b]? = h[b]?
  fresh : ∀ b ∈ new, b ∈ old ∨ h.length ≤ b
  dead : ∀ b, b < h'.length → b ∉ new → (b ∈ old ∨ h.length ≤ b) → h'[b]? = some none

namespace Step

variable {h h₁ h₂ : Heap α} {old mid new : List Nat}

theorem refl (h : Heap α) (old : List Nat) : Step h h old old :=
  ⟨Nat.le_refl _, fun _ _ _ => rfl, fun _ hb => .inl hb, fun b hb hn ho => by
    rcases ho with ho | ho
    · exact absurd ho hn
    · omega⟩

theorem trans (s : Step h h₁ old mid) (t : Step h₁ h₂ mid new) : Step h h₂ old new := by
  refine ⟨Nat.le_trans s.len t.len, ?_, ?_, ?_⟩
  · intro b hb ho
    have hm : b ∉ mid := fun hm => by
      rcases s.fresh b hm with h | h
      · exact ho h
      · omega
    have := s.len
    rw [t.frame b (by omega) hm, s.frame b hb ho]
  · intro b hb
    rcases t.fresh b hb with h | h
    · exact s.fresh b h
    · have := s.len
      exact .inr (by omega)
  · intro b hb hn ho
    by_cases hm : b ∈ mid ∨ h₁.length ≤ b
    · exact t.dead b hb hn hm
    · have hm1 : b ∉ mid := fun h => hm (.inl h)
      have hm2 : b < h₁.length := Nat.lt_of_not_le fun h => hm (.inr h)
      rw [t.frame b hm2 hm1, s.dead b hm2 hm1 ho]

theorem congr {old' new' : List Nat} (s : Step h h₁ old new) (ho : ∀ b, b ∈ old ↔ b ∈ old') (hn : ∀ b, b ∈ new ↔ b ∈ new') :
    Step h h₁ old' new' :=
  ⟨s.len, fun b hb h => s.frame b hb (fun h' => h ((ho b).1 h')),
    fun b hb => (s.fresh b ((hn b).2 hb)).imp_left (ho b).1,
    fun b hb h h' => s.dead b hb (fun h'' => h ((hn b).1 h'')) (h'.imp_left (ho b).2)⟩

end Step

/-- See the head of the file. -/
structure Tr (h : Heap α) (cs : List (Chunk α)) (h' : Heap α) (cs' : List (Chunk α)) : Prop where
  step : Step h h' (fps cs) (fps cs')
  has : Has h' cs'

namespace Tr

variable {h h₁ h₂ : Heap α} {cs cs₁ cs₂ ds : List (Chunk α)}

theorem refl (H : Has h cs) : Tr h cs h cs := ⟨.refl _ _, H⟩

theorem trans (s : Tr h cs h₁ cs₁) (t : Tr h₁ cs₁ h₂ cs₂) : Tr h cs h₂ cs₂ := ⟨s.step.trans t.step, t.has⟩

/-- What is owned and not used stays as it is. -/
theorem frame (H : Has h (cs ++ ds)) (t : Tr h cs h₁ cs₁) : Tr h (cs ++ ds) h₁ (cs₁ ++ ds) := by
  have hnd := H.nodup
  rw [fps_append, List.nodup_append] at hnd
  have hdis : ∀ b, b ∈ fps ds → b ∉ fps cs := fun b hb hc => hnd.2.2 b hc b hb rfl
  have hal : ∀ b, b ∈ fps ds → b < h.length := fun b hb => H.right.alive hb
  refine ⟨⟨t.step.len, ?_, ?_, ?_⟩, ⟨?_, ?_⟩⟩
  · intro b hb ho
    rw [fps_append, List.mem_append] at ho
    exact t.step.frame b hb fun h => ho (.inl h)
  · intro b hb
    rw [fps_append, List.mem_append] at hb ⊢
    rcases hb with hb | hb
    · exact (t.step.fresh b hb).imp_left .inl
    · exact .inl (.inr hb)
  · intro b hb hn ho
    rw [fps_append, List.mem_append] at hn ho
    refine t.step.dead b hb (fun h => hn (.inl h)) ?_
    rcases ho with (ho | ho) | ho
    · exact .inl ho
    · exact absurd (.inr ho) hn
    · exact .inr ho
  · intro c hc
    rcases List.mem_append.1 hc with hc | hc
    · exact t.has.holds c hc
    · refine c.loc (H.holds c (List.mem_append_right _ hc)) fun b hb => ?_
      have hb' : b ∈ fps ds := mem_fps.2 ⟨c, hc, hb⟩
      exact t.step.frame b (hal b hb') (hdis b hb')
  · rw [fps_append, List.nodup_append]
    refine ⟨t.has.nodup, hnd.2.1, ?_⟩
    rintro b hb _ hb' rfl
    rcases t.step.fresh b hb with h | h
    · exact hdis b hb' h
    · have := hal b hb'; omega

theorem perm_left {cs' : List (Chunk α)} (hp : cs.Perm cs') (t : Tr h cs h₁ cs₁) : Tr h cs' h₁ cs₁ :=
  ⟨t.step.congr (fun _ => (fps_perm hp).mem_iff) (fun _ => Iff.rfl), t.has⟩

theorem perm_right (hp : cs₁.Perm cs₂) (t : Tr h cs h₁ cs₁) : Tr h cs h₁ cs₂ :=
  ⟨t.step.congr (fun _ => Iff.rfl) (fun _ => (fps_perm hp).mem_iff), t.has.perm hp⟩

/-- Appending a computation that uses the chunks `ds` and leaves `fr` alone. -/
theorem app {ds' fr : List (Chunk α)} (s : Tr h cs h₁ cs₁) (hp : cs₁.Perm (ds ++ fr)) (t : Tr h₁ ds h₂ ds') :
    Tr h cs h₂ (ds' ++ fr) :=
  s.trans ((t.frame (s.has.perm hp)).perm_left hp.symm)

/-- The part `ds` of what is owned. -/
theorem sub {fr : List (Chunk α)} (s : Tr h cs h₁ cs₁) (hp : cs₁.Perm (ds ++ fr)) : Has h₁ ds := (s.has.perm hp).left

/-- Seeing the owned chunks in another way. -/
theorem conv (t : Tr h cs h₁ cs₁) (hf : fps cs₁ = fps cs₂) (hh : (∀ c ∈ cs₁, c.holds h₁) → ∀ c ∈ cs₂, c.holds h₁) : Tr h cs h₁ cs₂ :=
  ⟨hf ▸ t.step, hh t.has.holds, hf ▸ t.has.nodup⟩

theorem conv_left (t : Tr h cs h₁ cs₁) (hf : fps cs = fps cs₂) : Tr h cs₂ h₁ cs₁ := ⟨hf ▸ t.step, t.has⟩

end Tr

/-! ### Running beside the value-level model -/

/-- The computation in memory does what the value-level computation does: it panics in the same way, and a returned value is
    related by `R`.  Nothing is said if the value-level computation is undefined. -/
def Sim (x : Res γ) (y : Res (β × Heap α)) (R : γ → β → Heap α → Prop) : Prop :=
  match x with
  | .ok a => ∃ b h', y = .ok (b, h') ∧ R a b h'
  | .error .ub => True
  | .error e => y = .error e

namespace Sim

variable {x : Res γ} {R R' : γ → β → Heap α → Prop}

theorem ok {a : γ} {b : β} {h' : Heap α} (hR : R a b h') : Sim (.ok a) (.ok (b, h')) R := ⟨b, h', rfl, hR⟩

theorem err (e : Panic) : Sim (.error e : Res γ) (.error e : Res (β × Heap α)) R := by
  cases e <;> first | trivial | rfl

theorem ub {y : Res (β × Heap α)} : Sim (.error .ub : Res γ) y R := trivial

theorem mono {y : Res (β × Heap α)} (s : Sim x y R) (hR : ∀ a b h', R a b h' → R' a b h') : Sim x y R' := by
  cases x with
  | ok a => obtain ⟨b, h', h1, h2⟩ := s; exact ⟨b, h', h1, hR _ _ _ h2⟩
  | error e => cases e <;> exact s

theorem bind {δ' : Type} {y : M α β} {h : Heap α} {f : γ → Res δ} {g : β → M α δ'} {S : δ → δ' → Heap α → Prop}
    (s : Sim x (y h) R) (hf : ∀ a b h', R a b h' → Sim (f a) (g b h') S) : Sim (x >>= f) ((y >>= g) h) S := by
  cases x with
  | ok a =>
    obtain ⟨b, h', h1, h2⟩ := s
    rw [ok_bind, bind_ok h1]
    exact hf a b h' h2
  | error e =>
    rw [error_bind]
    cases e <;> first | trivial | exact bind_err s

/-- A step in memory that the value-level model does not have. -/
theorem step {δ' : Type} {y : M α β} {h h' : Heap α} {b : β} {f : Res δ} {g : β → M α δ'} {S : δ → δ' → Heap α → Prop}
    (hy : y h = .ok (b, h')) (hf : Sim f (g b h') S) : Sim f ((y >>= g) h) S := by
  rw [bind_ok hy]; exact hf

/-- A step of the value-level model that memory does not have. -/
theorem skip {a : γ} {f : γ → Res δ} {y : Res (β × Heap α)} {S : δ → β → Heap α → Prop} (hx : x = .ok a) (hf : Sim (f a) y S) :
    Sim (x >>= f) y S := by
  rw [hx, ok_bind]; exact hf

theorem of_ok {a : γ} {y : Res (β × Heap α)} (s : Sim x y R) (hx : x = .ok a) : ∃ b h', y = .ok (b, h') ∧ R a b h' := by
  subst hx; exact s

end Sim

/-! ### Vectors as chunks -/

/-- A vector and its elements. -/
def vecC (E : Env) (cap : Nat) (v : FCVec) (l : List α) : Chunk α where
  fp := [v.buf.block]
  holds h := Owns E cap h v l
  loc ho hb := by
    obtain ⟨s, ⟨h1, h2⟩, h3⟩ := ho.mem
    exact ⟨ho.off, ho.len, ho.fits, ho.layout, ho.nonzero, s, ⟨(hb _ (by simp)).trans h1, h2⟩, h3⟩
  alive ho b hb := by
    obtain rfl : b = _ := by simpa using hb
    exact ho.alive

/-- A by-value iterator and the elements it has not yielded yet. -/
def iterC (E : Env) (cap : Nat) (it : IntoIter) (l : List α) : Chunk α where
  fp := [it.buf.block]
  holds h := OwnsIter E cap h it l
  loc ho hb := by
    obtain ⟨b, i, s, h1, h2, h3, h4, ⟨h5, h5'⟩, h6⟩ := ho.mem
    refine ⟨ho.cap_eq, ho.layout, ho.nonzero, b, i, s, h1, h2, h3, h4, ⟨(hb _ (by simp [h1])).trans h5, h5'⟩, h6⟩
  alive ho b hb := by
    obtain rfl : b = _ := by simpa using hb
    obtain ⟨b, i, s, h1, h2, h3, h4, h5, h6⟩ := ho.mem
    rw [h1]; exact h5.lt

theorem SameBut.step {b : Nat} {h h' : Heap α} (s : SameBut b h h') : Step h h' [b] [b] := by
  refine ⟨by rw [s.1]; exact Nat.le_refl _, fun j _ hj => s.2 j (by simpa using hj), fun j hj => .inl hj, ?_⟩
  intro j hj hn ho
  rcases ho with ho | ho
  · exact absurd ho hn
  · rw [s.1] at hj; omega

theorem freed_step {b : Nat} {h : Heap α} : Step h (h.set b none) [b] [] := by
  refine ⟨by simp, fun j _ hj => List.getElem?_set_ne (by simpa [eq_comm] using hj), by simp, ?_⟩
  intro j hj _ ho
  rw [List.length_set] at hj
  rcases ho with ho | ho
  · obtain rfl : j = b := by simpa using ho
    rw [List.getElem?_set_self hj]
  · omega

section Vec

variable {E : Env} {cap : Nat} {h : Heap α} {v : FCVec} {l : List α}

theorem Tr.of_same {h' : Heap α} {v' : FCVec} {l' : List α} (ho : Owns E cap h' v' l') (hs : SameBut v.buf.block h h') (hb : v'.buf = v.buf) :
    Tr h [vecC E cap v l] h' [vecC E cap v' l'] :=
  ⟨by simpa [vecC, hb] using hs.step, by simpa [vecC] using ho, by simp [vecC]⟩

theorem Has.owns (H : Has h [vecC E cap v l]) : Owns E cap h v l := H.head

theorem FCVec.new_tr (h : Heap α) (hm : cap * E.size ≤ E.maxBytes) (hz : 0 < cap * E.size ∨ E.zeroOk = true) :
    ∃ v h', (FCVec.new E cap : M α FCVec) h = .ok (v, h') ∧ Tr h [] h' [vecC E cap v []] := by
  obtain ⟨v, x, h1, h2, h3⟩ := FCVec.new_ok h hm hz
  have hg := gapped_length E h
  refine ⟨v, gapped E h ++ [x], h1, ⟨⟨by rw [List.length_append]; omega, ?_, ?_, ?_⟩, by simpa [vecC] using h2, by simp [vecC]⟩⟩
  · intro b hb _; rw [List.getElem?_append_left (by omega), gapped_get E hb]
  · intro b hb
    obtain rfl : b = v.buf.block := by simpa [vecC] using hb
    exact .inr (by omega)
  · intro b hb hn ho
    have hn : b ≠ v.buf.block := by simpa [vecC] using hn
    have hb : b < (gapped E h).length + 1 := by simpa using hb
    have ho : h.length ≤ b := by simpa using ho
    rw [List.getElem?_append_left (by omega), gapped_new E ho (by omega)]

theorem FCVec.push_sim (H : Has h [vecC E cap v l]) (hs : 0 < E.size) (a : α) :
    Sim (Vec.push cap l a) (FCVec.push E cap v a h) fun l' v' h' => Tr h [vecC E cap v l] h' [vecC E cap v' l'] := by
  have := FCVec.push_ok H.owns hs a
  split at this
  next l' hl' =>
    obtain ⟨v', h', h1, h2, h3, h4⟩ := this
    rw [hl', h1]
    exact .ok (.of_same h2 h3 h4)
  next e he => rw [he, this]; exact .err e

theorem FCVec.tryPush_tr (H : Has h [vecC E cap v l]) (hs : 0 < E.size) (a : α) :
    ∃ v' h', FCVec.tryPush E cap v a h = .ok ((v', (Vec.tryPush cap l a).2), h') ∧
      Tr h [vecC E cap v l] h' [vecC E cap v' (Vec.tryPush cap l a).1] := by
  obtain ⟨v', h', h1, h2, h3, h4⟩ := FCVec.tryPush_ok H.owns hs a
  exact ⟨v', h', h1, .of_same h2 h3 h4⟩

theorem FCVec.swapRemove_sim (H : Has h [vecC E cap v l]) (hs : 0 < E.size) (i : Nat) :
    Sim (Vec.swapRemove l i) (FCVec.swapRemove E v i h) fun r s h' =>
      s.2 = r.1 ∧ Tr h [vecC E cap v l] h' [vecC E cap s.1 r.2] := by
  have := FCVec.swapRemove_ok H.owns hs i
  split at this
  next a l' hl' =>
    obtain ⟨v', h', h1, h2, h3, h4⟩ := this
    rw [hl', h1]
    exact .ok ⟨rfl, .of_same h2 h3 h4⟩
  next e he => rw [he, this]; exact .err e

theorem FCVec.swap_sim (H : Has h [vecC E cap v l]) (hs : 0 < E.size) (i j : Nat) :
    Sim (Vec.swap l i j) (FCVec.swap E v i j h) fun l' _ h' => Tr h [vecC E cap v l] h' [vecC E cap v l'] := by
  have := FCVec.swap_ok H.owns hs i j
  split at this
  next l' hl' =>
    obtain ⟨h', h1, h2, h3⟩ := this
    rw [hl', h1]
    exact .ok (.of_same h2 h3 rfl)
  next e he => rw [he, this]; exact .err e

theorem FCVec.set_tr (H : Has h [vecC E cap v l]) (hs : 0 < E.size) {i : Nat} (hi : i < l.length) (a : α) :
    ∃ h', FCVec.set E v i a h = .ok (l[i], h') ∧ Tr h [vecC E cap v l] h' [vecC E cap v (l.set i a)] := by
  obtain ⟨h', h1, h2, h3⟩ := FCVec.set_ok H.owns hs hi a
  exact ⟨h', h1, .of_same h2 h3 rfl⟩

theorem FCVec.drop_tr (H : Has h [vecC E cap v l]) (hs : 0 < E.size) :
    ∃ h', FCVec.drop E cap v h = .ok (l.reverse, h') ∧ Tr h [vecC E cap v l] h' [] :=
  ⟨_, FCVec.drop_ok H.owns hs, by simpa [vecC] using freed_step, .nil⟩

theorem IntoIter.new_tr (H : Has h [vecC E cap v l]) :
    ∃ it, IntoIter.new E cap v h = .ok (it, h) ∧ Tr h [vecC E cap v l] h [iterC E cap it l] := by
  obtain ⟨it, h1, h2, h3⟩ := IntoIter.new_ok H.owns
  refine ⟨it, h1, ?_, by simpa [iterC] using h2, by simp [iterC]⟩
  simp only [fps_cons, fps_nil, vecC, iterC, h3]
  exact .refl _ _

theorem IntoIter.next_tr {it : IntoIter} (H : Has h [iterC E cap it l]) (hs : 0 < E.size) :
    ∃ it', IntoIter.next E it h = .ok ((it', l.head?), h) ∧ Tr h [iterC E cap it l] h [iterC E cap it' l.tail] := by
  obtain ⟨it', h1, h2, h3⟩ := IntoIter.next_ok H.head hs
  refine ⟨it', h1, ?_, by simpa [iterC] using h2, by simp [iterC]⟩
  simp only [fps_cons, fps_nil, iterC, h3]
  exact .refl _ _

theorem IntoIter.drop_tr {it : IntoIter} (H : Has h [iterC E cap it l]) (hs : 0 < E.size) :
    ∃ h', IntoIter.drop E it h = .ok (l, h') ∧ Tr h [iterC E cap it l] h' [] :=
  ⟨_, IntoIter.drop_ok H.head hs, by simpa [iterC] using freed_step, .nil⟩

theorem FCVec.clone_tr {cap' : Nat} (H : Has h [vecC E cap v l]) (hs : 0 < E.size) (cl : α → α) (hfit : l.length ≤ cap')
    (hm : cap' * E.size ≤ E.maxBytes) (hz : 0 < cap' * E.size ∨ E.zeroOk = true) :
    ∃ v' h', FCVec.clone E cap' cl v h = .ok (v', h') ∧
      Tr h [vecC E cap v l] h' [vecC E cap' v' (l.map cl), vecC E cap v l] := by
  have hal := H.owns.alive
  obtain ⟨v', h', h1, h2, h3, h4, h5, h6⟩ := FCVec.clone_ok H.owns hs cl hfit hm hz
  have hg := gapped_length E h
  refine ⟨v', h', h1, ⟨by omega, fun b hb _ => (h6 b (by omega)).trans (gapped_get E hb), ?_, ?_⟩, ?_, ?_⟩
  · intro b hb
    have hb : b = v'.buf.block ∨ b = v.buf.block := by simpa [vecC] using hb
    rcases hb with rfl | rfl
    · exact .inr (by omega)
    · exact .inl (by simp [vecC])
  · intro b hb hn ho
    have hn : ¬ b = v'.buf.block ∧ ¬ b = v.buf.block := by simpa [vecC] using hn
    have ho : b = v.buf.block ∨ h.length ≤ b := by simpa [vecC] using ho
    rw [h6 b (by omega), gapped_new E (by omega) (by omega)]
  · simpa [vecC] using ⟨h2, h3⟩
  · simp only [fps_cons, vecC, fps_nil, List.append_nil, List.cons_append, List.nil_append]
    have : v'.buf.block ≠ v.buf.block := by omega
    simpa using this

end Vec

end RTree.Raw
