import Verif.HonestSpec
import Verif.Proofs.HonestMem
import Verif.Proofs.Unwind
import Verif.Proofs.RawSplit
/-!
# With user code that behaves, the model with panics does what the raw-memory model does
-/

set_option linter.unusedSectionVars false

namespace RTree.Unwind

open Raw

variable {B K V Q σ τ α β γ δ : Type} [Bounds B] [Volume B] [Bounded K B] [BEq K] [Bounded Q B] [BEq Q] {borrow : K → Q} {L L' : Links} {E : TEnv} {a : Alloc}

/-- `y`, started on the place `s`, does what `x` does, unless something worse than a panic happens. -/
def Like (borrow : K → Q) (L : Links) (x : Raw.M (Cell B K V) α) (y : U B K V Q σ β) (s : σ) (P : Links → α → σ → β → Prop) : Prop :=
  ∀ h w, Alike L h w.heap → w.code = (fun _ => some (honest borrow)) → ∀ r g, x h = .ok (r, g) → (y s w).1 = .error .fatal ∨
    ∃ L' b s' w', L.Le L' ∧ y s w = (.ok b, s', w') ∧ Alike L' g w'.heap ∧ w'.code = (fun _ => some (honest borrow)) ∧ P L' r s' b

/-- `y` has no counterpart. -/
abbrev Only (borrow : K → Q) (L : Links) (y : U B K V Q σ β) (s : σ) (P : Links → σ → β → Prop) : Prop :=
  Like borrow L (pure () : Raw.M (Cell B K V) Unit) y s fun L' _ => P L'

theorem ubind_ok {x : U B K V Q σ α} {f : α → U B K V Q σ β} {s s' : σ} {w w' : World B K V Q} {b : α} (h : x s w = (.ok b, s', w')) :
    (x >>= f) s w = f b s' w' := by rw [bind_apply, h]

theorem ubind_fatal {x : U B K V Q σ α} {f : α → U B K V Q σ β} {s : σ} {w : World B K V Q} (h : (x s w).1 = .error .fatal) :
    ((x >>= f) s w).1 = .error .fatal := by
  rw [bind_apply]
  rcases hx : x s w with ⟨r, s', w'⟩
  rw [hx] at h
  dsimp only at h
  subst h
  rfl

/-- `y` answers `b` and touches neither the place nor memory. -/
def Idle (borrow : K → Q) (y : U B K V Q σ β) (s : σ) (b : β) : Prop :=
  ∀ w : World B K V Q, w.code = (fun _ => some (honest borrow)) → ∃ w', y s w = (.ok b, s, w') ∧ w'.heap = w.heap ∧ w'.code = fun _ => some (honest borrow)

namespace Like

variable {x : Raw.M (Cell B K V) α} {y : U B K V Q σ β} {s : σ} {P : Links → α → σ → β → Prop}

theorem pure {r : α} {b : β} (h : P L r s b) : Like borrow L (pure r : Raw.M (Cell B K V) α) (pure b) s P := by
  intro m w A hw r' g e
  cases e
  exact .inr ⟨L, b, s, w, .refl L, rfl, A, hw, h⟩

theorem bind {f : α → Raw.M (Cell B K V) γ} {g : β → U B K V Q σ δ} {R : Links → γ → σ → δ → Prop} (h : Like borrow L x y s P)
    (hf : ∀ L' a s' b, L.Le L' → P L' a s' b → Like borrow L' (f a) (g b) s' R) : Like borrow L (x >>= f) (y >>= g) s R := by
  intro m w A hw c g1 e
  cases hx : x m with
  | error e' => rw [Raw.bind_err hx] at e; cases e
  | ok r =>
    rw [Raw.bind_ok hx] at e
    rcases h m w A hw r.1 r.2 hx with hfatal | ⟨L1, b, s1, w1, l1, hy, A1, hw1, hP⟩
    · exact .inl (ubind_fatal hfatal)
    · rw [ubind_ok hy]
      rcases hf L1 r.1 s1 b l1 hP r.2 w1 A1 hw1 c g1 e with hfatal | ⟨L2, d, s2, w2, l2, hg, A2, hw2, hR⟩
      · exact .inl hfatal
      · exact .inr ⟨L2, d, s2, w2, l1.trans l2, hg, A2, hw2, hR⟩

theorem skip {x : Raw.M (Cell B K V) γ} {g : β → U B K V Q σ δ} {P : Links → σ → β → Prop} {R : Links → γ → σ → δ → Prop} (h : Only borrow L y s P)
    (hf : ∀ L' s' b, L.Le L' → P L' s' b → Like borrow L' x (g b) s' R) : Like borrow L x (y >>= g) s R :=
  bind (x := Pure.pure ()) (f := fun _ => x) h fun L' _ s' b l hP => hf L' s' b l hP

theorem rskip {γ : Type} {r : Res γ} {f : γ → Raw.M (Cell B K V) α} (h : ∀ c, r = .ok c → Like borrow L (f c) y s P) :
    Like borrow L (Raw.lift r >>= f) y s P := by
  intro m w A hw c g e
  cases r with
  | error e' => cases e
  | ok c => exact h c rfl m w A hw _ g e

theorem mono {R : Links → α → σ → β → Prop} (h : Like borrow L x y s P) (hP : ∀ L' a s' b, L.Le L' → P L' a s' b → R L' a s' b) : Like borrow L x y s R := by
  intro m w A hw c g e
  rcases h m w A hw c g e with h | ⟨L', b, s', w', l, h1, h2, h3, h4⟩
  · exact .inl h
  · exact .inr ⟨L', b, s', w', l, h1, h2, h3, hP _ _ _ _ l h4⟩

theorem panic {e : Panic} : Like borrow L (Raw.panic e : Raw.M (Cell B K V) α) y s P := by
  intro m w _ _ r g h; cases h

theorem mem {x : Raw.M (Cell B K V) α} {y : Raw.M (UCell B K V) β} {P : Links → α → β → Prop} (h : Mem L x y P) :
    Like borrow L x (Unwind.mem y : U B K V Q σ β) s fun L' r s' b => s' = s ∧ P L' r b := by
  intro m w A hw r g e
  obtain ⟨L', b, g', l, hy, A', hP⟩ := h m w.heap A r g e
  exact .inr ⟨L', b, s, { w with heap := g' }, l, by rw [Unwind.mem, hy], A', hw, rfl, hP⟩

theorem guarded {cleanup : U B K V Q σ Unit} (h : Like borrow L x y s P) : Like borrow L x (Unwind.guarded cleanup y) s P := by
  intro m w A hw r g e
  rcases h m w A hw r g e with h | ⟨L', b, s', w', l, h1, h2⟩
  · left
    rw [Unwind.guarded]
    rcases hx : y s w with ⟨r, s', w'⟩
    rw [hx] at h
    dsimp only at h
    subst h
    rfl
  · exact .inr ⟨L', b, s', w', l, by rw [Unwind.guarded, h1], h2⟩

theorem withLocal {t : τ} {cleanup : τ → U B K V Q σ Unit} {y : U B K V Q (σ × τ) β} {P : Links → α → σ × τ → β → Prop} (h : Like borrow L x y (s, t) P) :
    Like borrow L x (Unwind.withLocal t cleanup y) s fun L' r s' b => P L' r (s', b.2) b.1 := by
  intro m w A hw r g e
  rcases h m w A hw r g e with h | ⟨L', b, s', w', l, h1, h2, h3, h4⟩
  · left
    rw [Unwind.withLocal]
    rcases hx : y (s, t) w with ⟨r, s', w'⟩
    rw [hx] at h
    dsimp only at h
    subst h
    rfl
  · exact .inr ⟨L', (b, s'.2), s'.1, w', l, by rw [Unwind.withLocal, h1], h2, h3, h4⟩

theorem onFst {t : τ} (h : Like borrow L x y s P) : Like borrow L x (Unwind.onFst y) (s, t) fun L' r s' b => P L' r s'.1 b ∧ s'.2 = t := by
  intro m w A hw r g e
  rcases h m w A hw r g e with h | ⟨L', b, s', w', l, h1, h2, h3, h4⟩
  · exact .inl h
  · exact .inr ⟨L', b, (s', t), w', l, by rw [Unwind.onFst, h1], h2, h3, h4, rfl⟩

theorem onSnd {t : τ} (h : Like borrow L x y s P) : Like borrow L x (Unwind.onSnd y) (t, s) fun L' r s' b => s'.1 = t ∧ P L' r s'.2 b := by
  intro m w A hw r g e
  rcases h m w A hw r g e with h | ⟨L', b, s', w', l, h1, h2, h3, h4⟩
  · exact .inl h
  · exact .inr ⟨L', b, (t, s'), w', l, by rw [Unwind.onSnd, h1], h2, h3, rfl, h4⟩

theorem onRoot {t : UTree B} {y : U B K V Q (UNode B) β} {P : Links → α → UNode B → β → Prop} (h : Like borrow L x y t.root P) :
    Like borrow L x (Unwind.onRoot y) t fun L' r t' b => P L' r t'.root b ∧ t' = { t with root := t'.root } := by
  intro m w A hw r g e
  rcases h m w A hw r g e with h | ⟨L', b, s', w', l, h1, h2, h3, h4⟩
  · exact .inl h
  · exact .inr ⟨L', b, { t with root := s' }, w', l, by rw [Unwind.onRoot, h1], h2, h3, h4, rfl⟩

theorem ite {c c' : Prop} [Decidable c] [Decidable c'] (h : c' ↔ c) {x' : Raw.M (Cell B K V) α} {y' : U B K V Q σ β}
    (h1 : c → Like borrow L x y s P) (h2 : ¬ c → Like borrow L x' y' s P) : Like borrow L (if c then x else x') (if c' then y else y') s P := by
  by_cases hc : c
  · rw [if_pos hc, if_pos (h.2 hc)]; exact h1 hc
  · rw [if_neg hc, if_neg fun x => hc (h.1 x)]; exact h2 hc

theorem idle {y : U B K V Q σ β} {b : β} {g : β → U B K V Q σ δ} {R : Links → α → σ → δ → Prop} (h : Idle borrow y s b)
    (hf : Like borrow L x (g b) s R) : Like borrow L x (y >>= g) s R := by
  intro m w A hw r e hx
  obtain ⟨w', h1, h2, h3⟩ := h w hw
  rw [ubind_ok h1]
  exact hf m w' (h2 ▸ A) h3 r e hx

theorem final {r : α} {P : Links → σ → β → Prop} {R : Links → α → σ → β → Prop} (h : Only borrow L y s P) (hP : ∀ L' s' b, L.Le L' → P L' s' b → R L' r s' b) :
    Like borrow L (Pure.pure r : Raw.M (Cell B K V) α) y s R := by
  intro m w A hw c g e
  cases e
  rcases h m w A hw () m rfl with h | ⟨L', b, s', w', l, h1, h2, h3, h4⟩
  · exact .inl h
  · exact .inr ⟨L', b, s', w', l, h1, h2, h3, hP _ _ _ l h4⟩

theorem stop {r : α} {b : β} (h : Idle borrow y s b) (hP : P L r s b) : Like borrow L (Pure.pure r : Raw.M (Cell B K V) α) y s P := by
  intro m w A hw c g e
  cases e
  obtain ⟨w', h1, h2, h3⟩ := h w hw
  exact .inr ⟨L, b, s, w', .refl L, h1, h2 ▸ A, h3, hP⟩

theorem of_eq {x' : Raw.M (Cell B K V) α} (h : x = x') (k : Like borrow L x' y s P) : Like borrow L x y s P := h ▸ k

theorem put {t : σ} {g : Unit → U B K V Q σ δ} {R : Links → α → σ → δ → Prop} (hf : Like borrow L x (g ()) t R) :
    Like borrow L x (Unwind.put t >>= g) s R := hf

theorem last {R : Links → α → σ → δ → Prop} {f : β → δ} (h : Like borrow L x y s P) (hP : ∀ L' a s' b, L.Le L' → P L' a s' b → R L' a s' (f b)) :
    Like borrow L x (y >>= fun b => Pure.pure (f b)) s R := by
  have : x = x >>= Pure.pure := by
    funext m
    rw [Raw.bind_apply]
    split <;> rename_i h1 <;> rw [h1]
    rfl
  rw [this]
  exact h.bind fun L' a s' b l h1 => .pure (hP L' a s' b l h1)

end Like

namespace Idle

variable {s : σ} {b : β} {y : U B K V Q σ β}

theorem pure (b : β) : Idle (B := B) (V := V) borrow (pure b : U B K V Q σ β) s b := fun w hw => ⟨w, rfl, rfl, hw⟩

theorem bind {g : β → U B K V Q σ δ} {d : δ} (h : Idle borrow y s b) (hg : Idle borrow (g b) s d) : Idle borrow (y >>= g) s d := by
  intro w hw
  obtain ⟨w', h1, h2, h3⟩ := h w hw
  obtain ⟨w'', h4, h5, h6⟩ := hg w' h3
  exact ⟨w'', (ubind_ok h1).trans h4, h5.trans h2, h6⟩

theorem place : Idle (B := B) (V := V) borrow (Unwind.place : U B K V Q σ σ) s s := fun w hw => ⟨w, rfl, rfl, hw⟩

theorem user {f : Code B K V Q → Option β} (h : f (honest borrow) = some b) : Idle borrow (Unwind.user f) s b := by
  intro w hw
  refine ⟨{ w with code := fun n => w.code (n + 1) }, ?_, rfl, ?_⟩
  · rw [Unwind.user, hw]
    show (match f (honest borrow) with | none => _ | some b => _) = _
    rw [h]
  · show (fun n => w.code (n + 1)) = _
    rw [hw]

theorem guarded {cleanup : U B K V Q σ Unit} (h : Idle borrow y s b) : Idle borrow (Unwind.guarded cleanup y) s b := by
  intro w hw
  obtain ⟨w', h1, h2⟩ := h w hw
  exact ⟨w', by rw [Unwind.guarded, h1], h2⟩

theorem panicIf {c : Prop} [Decidable c] (h : ¬ c) : Idle borrow (Unwind.panicIf c : U B K V Q σ Unit) s () := by
  rw [Unwind.panicIf, if_neg h]; exact pure ()

theorem dropKey (k : K) : Idle (B := B) (V := V) borrow (dropKey k : U B K V Q σ Unit) s () := fun w hw => ⟨{ w with keys := k :: w.keys }, rfl, rfl, hw⟩
theorem dropValue (v : V) : Idle (B := B) borrow (dropValue v : U B K V Q σ Unit) s () := fun w hw => ⟨{ w with values := v :: w.values }, rfl, rfl, hw⟩
theorem makeKey (k : K) : Idle (B := B) (V := V) borrow (makeKey k : U B K V Q σ Unit) s () := fun w hw => ⟨{ w with madeKeys := k :: w.madeKeys }, rfl, rfl, hw⟩
theorem makeValue (v : V) : Idle (B := B) borrow (makeValue v : U B K V Q σ Unit) s () := fun w hw => ⟨{ w with madeValues := v :: w.madeValues }, rfl, rfl, hw⟩

theorem destroyed {ask : Code B K V Q → Option Bool} {locals result : U B K V Q σ Unit} (h : ask (honest borrow) = some true) :
    Idle borrow (Unwind.destroyed ask locals result) s () := by
  unfold Unwind.destroyed
  refine (Idle.guarded (Idle.user h)).bind ?_
  rw [if_pos rfl]
  exact pure ()

theorem onFst {t : τ} (h : Idle borrow y s b) : Idle borrow (Unwind.onFst y) (s, t) b := by
  intro w hw
  obtain ⟨w', h1, h2⟩ := h w hw
  exact ⟨w', by rw [Unwind.onFst, h1], h2⟩

theorem onSnd {t : τ} (h : Idle borrow y s b) : Idle borrow (Unwind.onSnd y) (t, s) b := by
  intro w hw
  obtain ⟨w', h1, h2⟩ := h w hw
  exact ⟨w', by rw [Unwind.onSnd, h1], h2⟩

end Idle

variable {s : σ}

theorem newBounds_only (b : B) : Only (K := K) (V := V) borrow L (newBounds b : U B K V Q σ (Own B)) s fun L' s' o => s' = s ∧ o.val = b ∧ L'.box o.mem := by
  intro m w A hw r g e
  cases e
  let L' : Links := ⟨L.to, fun n => L.box n ∨ n = w.heap.length⟩
  have le : L.Le L' := ⟨fun _ _ h => h, fun _ h => .inl h⟩
  refine .inr ⟨L', ⟨b, w.heap.length⟩, s, { w with heap := w.heap ++ [some ⟨0, []⟩] }, le, rfl, ?_, hw, rfl, rfl, .inr rfl⟩
  have len : (w.heap ++ [some (⟨0, []⟩ : Block (UCell B K V))]).length = w.heap.length + 1 := by rw [List.length_append]; rfl
  refine ⟨A.dom, ?_, A.func, A.inj, ?_, ?_, ?_⟩
  · intro a b t; have := A.cod a b t; show _ < (w.heap ++ [some _]).length; omega
  · intro a b k t hk
    obtain ⟨k', h1, h2⟩ := A.live a b k t hk
    exact ⟨k', by show (w.heap ++ [some _])[b]? = _; rw [List.getElem?_append_left (A.cod a b t), h1], h2.mono le⟩
  · rintro n (hn | rfl)
    · have := A.box n hn; show _ < (w.heap ++ [some _]).length; omega
    · show _ < (w.heap ++ [some _]).length; omega
  · rintro a b t (hn | rfl)
    · exact A.off a b t hn
    · have := A.cod a _ t; omega

theorem dropBounds_only {o : Own B} (ho : L.box o.mem) : Only (K := K) (V := V) borrow L (dropBounds o : U B K V Q σ Unit) s fun _ s' _ => s' = s := by
  intro m w A hw r g e
  cases e
  by_cases hb : ∃ k, w.heap[o.mem]? = some (some k)
  · obtain ⟨k, hk⟩ := hb
    have hx : freeBlock o.mem w.heap = .ok ((), w.heap.set o.mem none) := by
      rw [freeBlock, Raw.bind_ok (b := k) (h' := w.heap) (by unfold block; rw [hk])]; rfl
    refine .inr ⟨L, (), s, { w with heap := w.heap.set o.mem none }, .refl L, by rw [dropBounds, Unwind.mem, hx], ?_, hw, rfl⟩
    refine ⟨A.dom, ?_, A.func, A.inj, ?_, ?_, A.off⟩
    · intro a b t; show _ < (w.heap.set _ _).length; rw [List.length_set]; exact A.cod a b t
    · intro a b k t hk
      obtain ⟨k', h1, h2⟩ := A.live a b k t hk
      refine ⟨k', ?_, h2⟩
      show (w.heap.set _ _)[b]? = _
      rw [List.getElem?_set_ne fun x : o.mem = b => A.off a b t (x ▸ ho), h1]
    · intro n hn; show _ < (w.heap.set _ _).length; rw [List.length_set]; exact A.box n hn
  · left
    have hx : freeBlock o.mem w.heap = .error .ub := by
      rw [freeBlock, Raw.bind_err]
      unfold block
      split
      · rename_i k hk; exact absurd ⟨k, hk⟩ hb
      · rfl
    rw [dropBounds, Unwind.mem, hx]; rfl

theorem returning_like {b : B} {result : β → U B K V Q σ Unit} {x : Raw.M (Cell B K V) α} {y : U B K V Q σ β} {P : Links → α → σ → β → Prop}
    (h : Like borrow L x y s P) : Like borrow L x (returning b result y) s P := by
  unfold returning
  have : x = x >>= Pure.pure := by
    funext m
    rw [Raw.bind_apply]
    split <;> rename_i h1 <;> rw [h1]
    rfl
  rw [this]
  exact h.bind fun L1 r s1 b1 l1 h1 => .idle (.destroyed rfl) (.pure h1)

theorem setBounds_only {n : RNode B} {n' : UNode B} (hn : SameN L n n') (b : B) (locals : U B K V Q (UNode B) Unit) :
    Only borrow L (setBounds b locals) n' fun L' s' _ => SameN L' ⟨b, n.vec⟩ s' := by
  unfold setBounds
  refine .idle .place (Like.skip (dropBounds_only hn.box) ?_)
  rintro L2 n' _ l2 rfl
  have hn := hn.mono l2
  refine Like.skip (newBounds_only b) ?_
  rintro L3 n' o l3 ⟨rfl, ho, hb⟩
  have hn := hn.mono l3
  have h4 : SameN L3 ⟨b, n.vec⟩ { n' with bounds := o } := ⟨ho, hb, hn.vec⟩
  refine .put ?_
  intro m w A hw r g e
  cases e
  obtain ⟨w', h1, h2, h3⟩ := Idle.destroyed (borrow := borrow) (ask := fun c : Code B K V Q => c.dropBounds n'.bounds.val) (locals := locals) (result := pure ()) rfl w hw
  exact .inr ⟨L3, (), _, w', .refl _, h1, h2 ▸ A, h3, h4⟩

theorem onVec_like {f : Raw.M (Cell B K V) (FCVec × α)} {f' : FCVec → Raw.M (UCell B K V) (FCVec × β)} {n : RNode B} {n' : UNode B} (hn : SameN L n n')
    {P : Links → α → β → Prop} (h : Mem L f (f' n'.vec) fun L' r r' => SameV L' r.1 r'.1 ∧ P L' r.2 r'.2) :
    Like (Q := Q) borrow L f (onVec f') n' fun L' r s' b => SameN L' ⟨n.bounds, r.1⟩ s' ∧ P L' r.2 b := by
  unfold onVec
  refine .idle .place ?_
  have : f = f >>= Pure.pure := by
    funext m
    rw [Raw.bind_apply]
    split <;> rename_i h1 <;> rw [h1]
    rfl
  rw [this]
  refine (Like.mem h).bind ?_
  rintro L1 r _ r' l1 ⟨rfl, h1, h2⟩
  have hn := hn.mono l1
  exact .put (.pure ⟨⟨hn.val, hn.box, h1⟩, h2⟩)

end RTree.Unwind
