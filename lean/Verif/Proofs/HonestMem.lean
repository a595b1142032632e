import Verif.Model.Unwind
import Verif.Proofs.FCVec
/-!
# Memory with and without the memory of bounds

The model of `Verif/Model/RawTree.lean` keeps bounds in the nodes; that of `Verif/Model/Unwind.lean` allocates a block for the bounds of each node, so
blocks have other numbers there.  Here: the two memories correspond (`Alike`), and the operations on vectors keep it so (`Mem`).
-/

namespace RTree.Unwind

open Raw

variable {B K V α β γ δ : Type}

/-- Two lists of the same length whose elements are related. -/
inductive Pairs (r : α → β → Prop) : List α → List β → Prop
  | nil : Pairs r [] []
  | cons {a b as bs} (h : r a b) (t : Pairs r as bs) : Pairs r (a :: as) (b :: bs)

namespace Pairs

variable {r : α → β → Prop} {as as' : List α} {bs bs' : List β}

theorem length (h : Pairs r as bs) : as.length = bs.length := by
  induction h with
  | nil => rfl
  | cons _ _ ih => rw [List.length_cons, List.length_cons, ih]

theorem mono {r' : α → β → Prop} (h : Pairs r as bs) (hr : ∀ a b, r a b → r' a b) : Pairs r' as bs := by
  induction h with
  | nil => exact .nil
  | cons h _ ih => exact .cons (hr _ _ h) ih

theorem append (h : Pairs r as bs) (h' : Pairs r as' bs') : Pairs r (as ++ as') (bs ++ bs') := by
  induction h with
  | nil => exact h'
  | cons h _ ih => exact .cons h ih

theorem take (n : Nat) (h : Pairs r as bs) : Pairs r (as.take n) (bs.take n) := by
  induction h generalizing n with
  | nil => rw [List.take_nil, List.take_nil]; exact .nil
  | cons h _ ih =>
    cases n with
    | zero => exact .nil
    | succ n => exact .cons h (ih n)

theorem drop (n : Nat) (h : Pairs r as bs) : Pairs r (as.drop n) (bs.drop n) := by
  induction h generalizing n with
  | nil => rw [List.drop_nil, List.drop_nil]; exact .nil
  | cons h t ih =>
    cases n with
    | zero => exact .cons h t
    | succ n => exact ih n

theorem set {a : α} {b : β} (n : Nat) (h : Pairs r as bs) (hab : r a b) : Pairs r (as.set n a) (bs.set n b) := by
  induction h generalizing n with
  | nil => exact .nil
  | cons h t ih =>
    cases n with
    | zero => exact .cons hab t
    | succ n => exact .cons h (ih n)

theorem get (h : Pairs r as bs) (i : Nat) : Option.Rel r as[i]? bs[i]? := by
  induction h generalizing i with
  | nil => exact .none
  | cons h _ ih =>
    cases i with
    | zero => exact .some h
    | succ i => exact ih i

theorem replicate {a : α} {b : β} (n : Nat) (h : r a b) : Pairs r (List.replicate n a) (List.replicate n b) := by
  induction n with
  | zero => exact .nil
  | succ n ih => exact .cons h ih

theorem map_eq {f : α → γ} {g : β → γ} (h : Pairs r as bs) (hr : ∀ a b, r a b → g b = f a) : bs.map g = as.map f := by
  induction h with
  | nil => rfl
  | cons h _ ih => rw [List.map_cons, List.map_cons, ih, hr _ _ h]

theorem snoc {a : α} {b : β} (h : Pairs r as bs) (hab : r a b) : Pairs r (as ++ [a]) (bs ++ [b]) := h.append (.cons hab .nil)

end Pairs

/-- Which blocks correspond, and which blocks hold bounds. -/
structure Links where
  to : Nat → Nat → Prop
  box : Nat → Prop

/-- More blocks. -/
structure Links.Le (L L' : Links) : Prop where
  to : ∀ a b, L.to a b → L'.to a b
  box : ∀ m, L.box m → L'.box m

theorem Links.Le.refl (L : Links) : L.Le L := ⟨fun _ _ h => h, fun _ h => h⟩

theorem Links.Le.trans {L L' L'' : Links} (h : L.Le L') (h' : L'.Le L'') : L.Le L'' :=
  ⟨fun a b x => h'.to a b (h.to a b x), fun m x => h'.box m (h.box m x)⟩

variable {L L' : Links}

/-- Corresponding pointers. -/
structure SameP (L : Links) (p p' : Ptr) : Prop where
  to : L.to p.block p'.block
  off : p'.off = p.off

/-- Corresponding vectors. -/
structure SameV (L : Links) (v v' : FCVec) : Prop where
  buf : SameP L v.buf v'.buf
  len : v'.len = v.len

/-- Corresponding nodes. -/
structure SameN (L : Links) (n : RNode B) (n' : UNode B) : Prop where
  val : n'.bounds.val = n.bounds
  box : L.box n'.bounds.mem
  vec : SameV L n.vec n'.vec

/-- Corresponding elements of vectors. -/
inductive SameC (L : Links) : Cell B K V → UCell B K V → Prop
  | node {n n'} (h : SameN L n n') : SameC L (.node n) (.node n')
  | entry (e) : SameC L (.entry e) (.entry e)

/-- Corresponding slots: where nothing can be read, there may be anything. -/
inductive Over (r : α → β → Prop) : Option α → Option β → Prop
  | none (b) : Over r none b
  | some {a b} (h : r a b) : Over r (some a) (some b)

theorem Over.mono {r r' : α → β → Prop} {a : Option α} {b : Option β} (h : Over r a b) (hr : ∀ a b, r a b → r' a b) : Over r' a b := by
  cases h with
  | some h => exact .some (hr _ _ h)
  | none b => exact .none b

/-- Corresponding blocks. -/
structure SameB (L : Links) (k : Block (Cell B K V)) (k' : Block (UCell B K V)) : Prop where
  bytes : k'.bytes = k.bytes
  slots : Pairs (Over (SameC L)) k.slots k'.slots

theorem SameP.mono {p p' : Ptr} (h : SameP L p p') (l : L.Le L') : SameP L' p p' := ⟨l.to _ _ h.to, h.off⟩
theorem SameV.mono {v v' : FCVec} (h : SameV L v v') (l : L.Le L') : SameV L' v v' := ⟨h.buf.mono l, h.len⟩
theorem SameN.mono {n : RNode B} {n' : UNode B} (h : SameN L n n') (l : L.Le L') : SameN L' n n' := ⟨h.val, l.box _ h.box, h.vec.mono l⟩

theorem SameC.mono {c : Cell B K V} {c' : UCell B K V} (h : SameC L c c') (l : L.Le L') : SameC L' c c' := by
  cases h with
  | node h => exact .node (h.mono l)
  | entry e => exact .entry e

theorem rel_mono {r r' : α → β → Prop} {a : Option α} {b : Option β} (h : Option.Rel r a b) (hr : ∀ a b, r a b → r' a b) : Option.Rel r' a b := by
  cases h with
  | some h => exact .some (hr _ _ h)
  | none => exact .none

theorem SameB.mono {k : Block (Cell B K V)} {k' : Block (UCell B K V)} (h : SameB L k k') (l : L.Le L') : SameB L' k k' :=
  ⟨h.bytes, h.slots.mono fun _ _ x => x.mono fun _ _ y => y.mono l⟩

/-- Corresponding memories. -/
structure Alike (L : Links) (h : Raw.Heap (Cell B K V)) (h' : Raw.Heap (UCell B K V)) : Prop where
  dom : ∀ a b, L.to a b → a < h.length
  cod : ∀ a b, L.to a b → b < h'.length
  func : ∀ a b c, L.to a b → L.to a c → b = c
  inj : ∀ a b c, L.to a b → L.to c b → a = c
  live : ∀ a b k, L.to a b → h[a]? = some (some k) → ∃ k', h'[b]? = some (some k') ∧ SameB L k k'
  box : ∀ m, L.box m → m < h'.length
  off : ∀ a b, L.to a b → ¬ L.box b

/-- `y` does what `x` does. -/
def Mem (L : Links) (x : Raw.M (Cell B K V) α) (y : Raw.M (UCell B K V) β) (P : Links → α → β → Prop) : Prop :=
  ∀ h h', Alike L h h' → ∀ a g, x h = .ok (a, g) → ∃ L' b g', L.Le L' ∧ y h' = .ok (b, g') ∧ Alike L' g g' ∧ P L' a b

namespace Mem

variable {x : Raw.M (Cell B K V) α} {y : Raw.M (UCell B K V) β} {P : Links → α → β → Prop}

theorem pure {a : α} {b : β} (h : P L a b) : Mem L (pure a : Raw.M (Cell B K V) α) (pure b : Raw.M (UCell B K V) β) P := by
  intro m m' A a' g e
  cases e
  exact ⟨L, b, m', .refl L, rfl, A, h⟩

theorem bind {f : α → Raw.M (Cell B K V) γ} {g : β → Raw.M (UCell B K V) δ} {R : Links → γ → δ → Prop} (h : Mem L x y P)
    (hf : ∀ L' a b, L.Le L' → P L' a b → Mem L' (f a) (g b) R) : Mem L (x >>= f) (y >>= g) R := by
  intro m m' A c g1 e
  cases hx : x m with
  | error e' => rw [Raw.bind_err hx] at e; cases e
  | ok r =>
    rw [Raw.bind_ok hx] at e
    obtain ⟨L1, b, m1, l1, hy, A1, hP⟩ := h m m' A r.1 r.2 hx
    obtain ⟨L2, d, m2, l2, hg, A2, hR⟩ := hf L1 r.1 b l1 hP r.2 m1 A1 c g1 e
    exact ⟨L2, d, m2, l1.trans l2, (Raw.bind_ok hy).trans hg, A2, hR⟩

theorem mono {R : Links → α → β → Prop} (h : Mem L x y P) (hP : ∀ L' a b, L.Le L' → P L' a b → R L' a b) : Mem L x y R := by
  intro m m' A a g e
  obtain ⟨L1, b, m1, l1, hy, A1, h1⟩ := h m m' A a g e
  exact ⟨L1, b, m1, l1, hy, A1, hP _ _ _ l1 h1⟩

theorem panic {e : Panic} : Mem L (Raw.panic e : Raw.M (Cell B K V) α) y P := by
  intro m m' _ a g h; cases h

theorem panicIf {c c' : Prop} [Decidable c] [Decidable c'] {e e' : Panic} (h : c' → c) :
    Mem L (Raw.panicIf c e : Raw.M (Cell B K V) Unit) (Raw.panicIf c' e') fun _ _ _ => True := by
  unfold Raw.panicIf
  by_cases hc : c
  · rw [if_pos hc]; exact panic
  · rw [if_neg hc, if_neg fun x => hc (h x)]; exact pure trivial

theorem ite {c c' : Prop} [Decidable c] [Decidable c'] (h : c' ↔ c) {x' : Raw.M (Cell B K V) α} {y' : Raw.M (UCell B K V) β}
    (h1 : c → Mem L x y P) (h2 : ¬ c → Mem L x' y' P) : Mem L (if c then x else x') (if c' then y else y') P := by
  by_cases hc : c
  · rw [if_pos hc, if_pos (h.2 hc)]; exact h1 hc
  · rw [if_neg hc, if_neg fun x => hc (h.1 x)]; exact h2 hc

theorem lift {r : Res α} {r' : Res β} (h : ∀ a, r = .ok a → ∃ b, r' = .ok b ∧ P L a b) :
    Mem L (Raw.lift r : Raw.M (Cell B K V) α) (Raw.lift r') P := by
  intro m m' A a g e
  cases r with
  | error e' => cases e
  | ok a' =>
    cases e
    obtain ⟨b, rfl, hP⟩ := h a rfl
    exact ⟨L, b, m', .refl L, rfl, A, hP⟩

end Mem

variable {e : Env} {p p' q q' : Ptr} {v v' : FCVec} {c : Cell B K V} {c' : UCell B K V}

theorem block_mem (h : SameP L p p') : Mem L (block p : Raw.M (Cell B K V) _) (block p') fun L' => SameB L' := by
  intro m m' A k g x
  unfold block at x ⊢
  split at x
  · rename_i b hb
    cases x
    obtain ⟨k', h1, h2⟩ := A.live _ _ _ h.to hb
    refine ⟨L, k', m', .refl L, ?_, A, h2⟩
    rw [h1]
  · cases x

theorem modify_set {k : Block (Cell B K V)} {k' : Block (UCell B K V)} (h : SameP L p p') (hk : SameB L k k') :
    Mem L (modify fun m => m.set p.block (some k)) (modify fun m => m.set p'.block (some k')) fun _ _ _ => True := by
  intro m m' A _ g x
  cases x
  refine ⟨L, (), _, .refl L, rfl, ?_, trivial⟩
  refine ⟨?_, ?_, A.func, A.inj, ?_, ?_, A.off⟩
  · intro a b t; rw [List.length_set]; exact A.dom a b t
  · intro a b t; rw [List.length_set]; exact A.cod a b t
  · intro a b k1 t hk1
    by_cases ha : p.block = a
    · subst ha
      obtain rfl := A.func _ _ _ h.to t
      rw [List.getElem?_set_self (A.dom _ _ t)] at hk1
      cases hk1
      exact ⟨k', List.getElem?_set_self (A.cod _ _ t), hk⟩
    · rw [List.getElem?_set_ne ha] at hk1
      have hb : p'.block ≠ b := fun hb => ha (A.inj _ _ _ (hb ▸ h.to) t)
      rw [List.getElem?_set_ne hb]
      exact A.live _ _ _ t hk1
  · intro b hb; rw [List.length_set]; exact A.box b hb

theorem modify_free (h : SameP L p p') :
    Mem L (modify fun m : Raw.Heap (Cell B K V) => m.set p.block none) (modify fun m => m.set p'.block none) fun _ _ _ => True := by
  intro m m' A _ g x
  cases x
  refine ⟨L, (), _, .refl L, rfl, ?_, trivial⟩
  refine ⟨?_, ?_, A.func, A.inj, ?_, ?_, A.off⟩
  · intro a b t; rw [List.length_set]; exact A.dom a b t
  · intro a b t; rw [List.length_set]; exact A.cod a b t
  · intro a b k1 t hk1
    by_cases ha : p.block = a
    · subst ha
      rw [List.getElem?_set_self (A.dom _ _ t)] at hk1
      cases hk1
    · rw [List.getElem?_set_ne ha] at hk1
      have hb : p'.block ≠ b := fun hb => ha (A.inj _ _ _ (hb ▸ h.to) t)
      rw [List.getElem?_set_ne hb]
      exact A.live _ _ _ t hk1
  · intro b hb; rw [List.length_set]; exact A.box b hb

theorem place_mem {k : Block (Cell B K V)} {k' : Block (UCell B K V)} (hk : SameB L k k') :
    Mem L (Raw.place e k) (Raw.place e k') fun L' => SameP L' := by
  intro m m' A _ g x
  cases x
  let n := (gapped e m).length
  let n' := (gapped e m').length
  have hn : m.length ≤ n := by show _ ≤ (gapped e m).length; rw [gapped, List.length_append]; omega
  have hn' : m'.length ≤ n' := by show _ ≤ (gapped e m').length; rw [gapped, List.length_append]; omega
  let L' : Links := ⟨fun a b => L.to a b ∨ a = n ∧ b = n', L.box⟩
  have le : L.Le L' := ⟨fun _ _ t => .inl t, fun _ h => h⟩
  refine ⟨L', ⟨n', 0⟩, gapped e m' ++ [some k'], le, rfl, ?_, ⟨.inr ⟨rfl, rfl⟩, rfl⟩⟩
  have l1 : (gapped e m ++ [some k]).length = n + 1 := by rw [List.length_append]; rfl
  have l2 : (gapped e m' ++ [some k']).length = n' + 1 := by rw [List.length_append]; rfl
  refine ⟨?_, ?_, ?_, ?_, ?_, ?_, ?_⟩
  · rintro a b (t | ⟨rfl, rfl⟩)
    · have := A.dom a b t; omega
    · omega
  · rintro a b (t | ⟨rfl, rfl⟩)
    · have := A.cod a b t; omega
    · omega
  · rintro a b c (t | ⟨rfl, rfl⟩) (t' | ⟨h1, h2⟩)
    · exact A.func a b c t t'
    · have := A.dom a b t; omega
    · have := A.dom _ _ t'; omega
    · exact h2.symm
  · rintro a b c (t | ⟨rfl, rfl⟩) (t' | ⟨h1, h2⟩)
    · exact A.inj a b c t t'
    · have := A.cod a b t; omega
    · have := A.cod _ _ t'; omega
    · exact h1.symm
  · rintro a b k1 (t | ⟨rfl, rfl⟩) hk1
    · have ha := A.dom a b t
      have hb := A.cod a b t
      have e1 : (gapped e m ++ [some k])[a]? = m[a]? := by
        rw [List.getElem?_append_left (by omega), gapped, List.getElem?_append_left ha]
      have e2 : (gapped e m' ++ [some k'])[b]? = m'[b]? := by
        rw [List.getElem?_append_left (by omega), gapped, List.getElem?_append_left hb]
      rw [e1] at hk1
      rw [e2]
      obtain ⟨k2, h1, h2⟩ := A.live _ _ _ t hk1
      exact ⟨k2, h1, h2.mono le⟩
    · have e1 : (gapped e m ++ [some k])[n]? = some (some k) := List.getElem?_concat_length
      have e2 : (gapped e m' ++ [some k'])[n']? = some (some k') := List.getElem?_concat_length
      rw [e1] at hk1
      cases hk1
      exact ⟨k', e2, hk.mono le⟩
  · intro b hb; have := A.box b hb; omega
  · rintro a b (t | ⟨rfl, rfl⟩)
    · exact A.off a b t
    · intro hb; have := A.box _ hb; omega

theorem layout_mem (n : Nat) : Mem L (layoutArray e n : Raw.M (Cell B K V) Nat) (layoutArray e n) fun _ a b => b = a := by
  unfold layoutArray
  exact .ite .rfl (fun _ => .pure rfl) (fun _ => .panic)

theorem alloc_mem (n : Nat) : Mem L (alloc e n : Raw.M (Cell B K V) Ptr) (alloc e n) fun L' => SameP L' := by
  unfold alloc
  refine (layout_mem n).bind ?_
  rintro L1 b _ - rfl
  refine (Mem.panicIf id).bind fun L2 _ _ _ _ => place_mem ⟨rfl, .replicate n (.none _)⟩

theorem setSlots_mem {s : List (Option (Cell B K V))} {s' : List (Option (UCell B K V))} (h : SameP L p p') (hs : Pairs (Over (SameC L)) s s') :
    Mem L (setSlots p s) (setSlots p' s') fun _ _ _ => True := by
  unfold setSlots
  refine (block_mem h).bind fun L1 k k' l hk => ?_
  refine modify_set (h.mono l) ⟨hk.bytes, hs.mono fun _ _ x => x.mono fun _ _ y => y.mono l⟩

theorem dealloc_mem (n : Nat) (h : SameP L p p') : Mem L (dealloc e p n : Raw.M (Cell B K V) Unit) (dealloc e p' n) fun _ _ _ => True := by
  unfold dealloc
  refine (layout_mem n).bind ?_
  rintro L1 b _ l1 rfl
  refine (block_mem (h.mono l1)).bind fun L2 k k' l2 hk => ?_
  refine (Mem.panicIf (by rw [h.off, hk.bytes]; exact id)).bind fun L3 _ _ l3 _ => ?_
  exact modify_free (((h.mono l1).mono l2).mono l3)

theorem add_mem (n : Nat) (h : SameP L p p') : Mem L (add e p n : Raw.M (Cell B K V) Ptr) (add e p' n) fun L' => SameP L' := by
  unfold add
  refine (block_mem h).bind fun L1 k k' l1 hk => ?_
  refine .ite (by rw [h.off, hk.bytes]) (fun _ => .pure ⟨(h.mono l1).to, ?_⟩) (fun _ => .panic)
  show p'.off + _ = p.off + _
  rw [h.off]

theorem read_mem (h : SameP L p p') : Mem L (Raw.read e p : Raw.M (Cell B K V) _) (Raw.read e p') fun L' => SameC L' := by
  unfold Raw.read
  refine (block_mem h).bind fun L1 k k' l1 hk => ?_
  refine .ite (by rw [h.off, hk.bytes]) (fun _ => ?_) (fun _ => .panic)
  have hg := hk.slots.get (p.off / e.size)
  rw [h.off]
  generalize k.slots[p.off / e.size]? = o at hg
  generalize k'.slots[p.off / e.size]? = o' at hg
  cases hg with
  | none => exact .panic
  | some hg =>
    cases hg with
    | none => exact .panic
    | some hg => exact .pure hg

theorem write_mem (h : SameP L p p') (hc : SameC L c c') : Mem L (write e p c) (write e p' c') fun _ _ _ => True := by
  unfold write
  refine (block_mem h).bind fun L1 k k' l1 hk => ?_
  refine .ite (by rw [h.off, hk.bytes]) (fun _ => ?_) (fun _ => .panic)
  rw [h.off]
  exact setSlots_mem (h.mono l1) (hk.slots.set _ (.some (hc.mono l1)))

theorem same_block (A : Alike (B := B) (K := K) (V := V) L h h') (hp : SameP L p p') (hq : SameP L q q') : p.block = q.block ↔ p'.block = q'.block :=
  ⟨fun x => A.func _ _ _ hp.to (x ▸ hq.to), fun x => A.inj _ _ _ hp.to (x ▸ hq.to)⟩

theorem same_ptr (A : Alike (B := B) (K := K) (V := V) L h h') (hp : SameP L p p') (hq : SameP L q q') : p' = q' ↔ p = q := by
  have := same_block A hp hq
  have h1 := hp.off
  have h2 := hq.off
  cases p; cases q; cases p'; cases q'
  simp only [Ptr.mk.injEq] at *
  omega

theorem Mem.alike {x : Raw.M (Cell B K V) α} {y : Raw.M (UCell B K V) β} {P : Links → α → β → Prop}
    (h : ∀ (m : Raw.Heap (Cell B K V)) m', Alike L m m' → Mem L x y P) : Mem L x y P := fun m m' A => h m m' A m m' A

theorem copy_mem (n : Nat) (hp : SameP L p p') (hq : SameP L q q') : Mem L (copy e p q n : Raw.M (Cell B K V) Unit) (copy e p' q' n) fun _ _ _ => True := by
  refine Mem.alike fun m m' A => ?_
  have hb := same_block A hp hq
  unfold copy
  refine (block_mem hp).bind fun L1 k k' l1 hk => ?_
  refine (Mem.panicIf (by rw [hp.off, hq.off, hk.bytes, Ne, Ne, hb]; exact id)).bind fun L2 _ _ l2 _ => ?_
  refine .ite .rfl (fun _ => .pure trivial) fun _ => ?_
  rw [hp.off, hq.off]
  have hk := (hk.mono l2).slots
  exact setSlots_mem ((hp.mono l1).mono l2) (((hk.take _).append ((hk.drop _).take n)).append (hk.drop _))

theorem swapPtr_mem (hp : SameP L p p') (hq : SameP L q q') : Mem L (swapPtr e p q : Raw.M (Cell B K V) Unit) (swapPtr e p' q') fun _ _ _ => True := by
  unfold swapPtr
  refine (read_mem hp).bind fun L1 a a' l1 ha => ?_
  refine (read_mem (hq.mono l1)).bind fun L2 b b' l2 hb => ?_
  refine (write_mem ((hp.mono l1).mono l2) hb).bind fun L3 _ _ l3 _ => ?_
  exact write_mem (((hq.mono l1).mono l2).mono l3) ((ha.mono l2).mono l3)

/-! ### Vectors -/

theorem new_mem (cap : Nat) : Mem L (FCVec.new e cap : Raw.M (Cell B K V) FCVec) (FCVec.new e cap) fun L' => SameV L' := by
  unfold FCVec.new
  exact (alloc_mem cap).bind fun L1 p p' _ hp => .pure ⟨hp, rfl⟩

theorem sliceLoop_mem (h : SameV L v v') (n i : Nat) : Mem L (FCVec.sliceLoop e v n i : Raw.M (Cell B K V) _) (FCVec.sliceLoop e v' n i) fun L' => Pairs (SameC L') := by
  induction n generalizing i L with
  | zero => exact .pure .nil
  | succ n ih =>
    unfold FCVec.sliceLoop
    refine (add_mem i h.buf).bind fun L1 p p' l1 hp => ?_
    refine (read_mem hp).bind fun L2 a a' l2 ha => ?_
    refine (ih ((h.mono l1).mono l2) (i + 1)).bind fun L3 as as' l3 has => ?_
    exact .pure (.cons (ha.mono l3) has)

theorem slice_mem (h : SameV L v v') : Mem L (v.slice e : Raw.M (Cell B K V) _) (v'.slice e) fun L' => Pairs (SameC L') := by
  unfold FCVec.slice
  rw [h.len]
  exact sliceLoop_mem h _ _

theorem get_mem (h : SameV L v v') (i : Nat) : Mem L (v.get e i : Raw.M (Cell B K V) _) (v'.get e i) fun L' => SameC L' := by
  unfold FCVec.get
  refine .ite (by rw [h.len]) (fun _ => ?_) (fun _ => .panic)
  exact (add_mem i h.buf).bind fun L1 p p' l1 hp => read_mem hp

theorem set_mem (h : SameV L v v') (i : Nat) (hc : SameC L c c') : Mem L (v.set e i c) (v'.set e i c') fun L' => SameC L' := by
  unfold FCVec.set
  refine .ite (by rw [h.len]) (fun _ => ?_) (fun _ => .panic)
  refine (add_mem i h.buf).bind fun L1 p p' l1 hp => ?_
  refine (read_mem hp).bind fun L2 a a' l2 ha => ?_
  refine (write_mem (hp.mono l2) ((hc.mono l1).mono l2)).bind fun L3 _ _ l3 _ => ?_
  exact .pure (ha.mono l3)

theorem push_mem (cap : Nat) (h : SameV L v v') (hc : SameC L c c') : Mem L (v.push e cap c) (v'.push e cap c') fun L' => SameV L' := by
  unfold FCVec.push
  refine (Mem.panicIf (by rw [h.len]; exact id)).bind fun L1 _ _ l1 _ => ?_
  rw [h.len]
  refine (add_mem _ (h.buf.mono l1)).bind fun L2 p p' l2 hp => ?_
  refine (write_mem hp ((hc.mono l1).mono l2)).bind fun L3 _ _ l3 _ => ?_
  exact .pure ⟨((h.buf.mono l1).mono l2).mono l3, rfl⟩

theorem tryPush_mem (cap : Nat) (h : SameV L v v') (hc : SameC L c c') :
    Mem L (v.tryPush e cap c) (v'.tryPush e cap c') fun L' r r' => SameV L' r.1 r'.1 ∧ Option.Rel (SameC L') r.2 r'.2 := by
  unfold FCVec.tryPush
  refine .ite (by rw [h.len]) (fun _ => .pure ⟨h, .some hc⟩) (fun _ => ?_)
  rw [h.len]
  refine (add_mem _ h.buf).bind fun L2 p p' l2 hp => ?_
  refine (write_mem hp (hc.mono l2)).bind fun L3 _ _ l3 _ => ?_
  exact .pure ⟨⟨(h.buf.mono l2).mono l3, rfl⟩, .none⟩

theorem swapRemove_mem (h : SameV L v v') (i : Nat) :
    Mem L (v.swapRemove e i : Raw.M (Cell B K V) _) (v'.swapRemove e i) fun L' r r' => SameV L' r.1 r'.1 ∧ SameC L' r.2 r'.2 := by
  unfold FCVec.swapRemove
  rw [h.len]
  refine (Mem.panicIf id).bind fun L1 _ _ l1 _ => ?_
  have h := h.mono l1
  refine (add_mem i h.buf).bind fun L2 p p' l2 hp => ?_
  have h := h.mono l2
  refine (read_mem hp).bind fun L3 a a' l3 ha => ?_
  have h := h.mono l3
  refine (add_mem _ h.buf).bind fun L4 q q' l4 hq => ?_
  have h := h.mono l4
  refine (add_mem i h.buf).bind fun L5 r r' l5 hr => ?_
  have h := h.mono l5
  refine (copy_mem 1 (hq.mono l5) hr).bind fun L6 _ _ l6 _ => ?_
  exact .pure ⟨⟨h.buf.mono l6, rfl⟩, ((ha.mono l4).mono l5).mono l6⟩

theorem swap_mem (h : SameV L v v') (i j : Nat) : Mem L (v.swap e i j : Raw.M (Cell B K V) Unit) (v'.swap e i j) fun _ _ _ => True := by
  unfold FCVec.swap
  rw [h.len]
  refine (Mem.panicIf id).bind fun L1 _ _ l1 _ => ?_
  have h := h.mono l1
  refine (add_mem i h.buf).bind fun L2 p p' l2 hp => ?_
  refine (add_mem j (h.mono l2).buf).bind fun L3 q q' l3 hq => ?_
  exact swapPtr_mem (hp.mono l3) hq

theorem pop_mem (h : SameV L v v') : Mem L (v.pop e : Raw.M (Cell B K V) _) (v'.pop e) fun L' r r' => SameV L' r.1 r'.1 ∧ Option.Rel (SameC L') r.2 r'.2 := by
  unfold FCVec.pop
  rw [h.len]
  refine .ite .rfl (fun _ => .pure ⟨h, .none⟩) (fun _ => ?_)
  refine (add_mem _ h.buf).bind fun L2 p p' l2 hp => ?_
  refine (read_mem hp).bind fun L3 a a' l3 ha => ?_
  exact .pure ⟨⟨(h.buf.mono l2).mono l3, rfl⟩, .some ha⟩

theorem popLoop_mem (n : Nat) (h : SameV L v v') : Mem L (FCVec.popLoop e n v : Raw.M (Cell B K V) _) (FCVec.popLoop e n v') fun L' => Pairs (SameC L') := by
  induction n generalizing L v v' with
  | zero => exact .panic
  | succ n ih =>
    unfold FCVec.popLoop
    refine (pop_mem h).bind ?_
    rintro L1 ⟨w, o⟩ ⟨w', o'⟩ l1 ⟨hw, ho⟩
    cases ho with
    | none => exact .pure .nil
    | some ha => exact (ih hw).bind fun L2 as as' l2 has => .pure (.cons (ha.mono l2) has)

theorem drop_mem (cap : Nat) (h : SameV L v v') : Mem L (v.drop e cap : Raw.M (Cell B K V) _) (v'.drop e cap) fun L' => Pairs (SameC L') := by
  unfold FCVec.drop
  rw [h.len]
  refine (popLoop_mem _ h).bind fun L1 as as' l1 has => ?_
  refine (dealloc_mem cap (h.buf.mono l1)).bind fun L2 _ _ l2 _ => ?_
  exact .pure (has.mono fun _ _ x => x.mono l2)

/-- Corresponding iterators. -/
structure SameI (L : Links) (i i' : IntoIter) : Prop where
  buf : SameP L i.buf i'.buf
  cap : i'.cap = i.cap
  fst : SameP L i.fst i'.fst
  lst : SameP L i.lst i'.lst

theorem SameI.mono {i i' : IntoIter} (h : SameI L i i') (l : L.Le L') : SameI L' i i' := ⟨h.buf.mono l, h.cap, h.fst.mono l, h.lst.mono l⟩

theorem intoIter_mem (cap : Nat) (h : SameV L v v') : Mem L (IntoIter.new e cap v : Raw.M (Cell B K V) _) (IntoIter.new e cap v') fun L' => SameI L' := by
  unfold IntoIter.new
  rw [h.len]
  exact (add_mem _ h.buf).bind fun L1 p p' l1 hp => .pure ⟨h.buf.mono l1, rfl, h.buf.mono l1, hp⟩

theorem next_mem {i i' : IntoIter} (h : SameI L i i') :
    Mem L (i.next e : Raw.M (Cell B K V) _) (i'.next e) fun L' r r' => SameI L' r.1 r'.1 ∧ Option.Rel (SameC L') r.2 r'.2 := by
  refine Mem.alike fun m m' A => ?_
  unfold IntoIter.next
  refine .ite (same_ptr A h.fst h.lst) (fun _ => .pure ⟨h, .none⟩) (fun _ => ?_)
  refine (read_mem h.fst).bind fun L1 a a' l1 ha => ?_
  refine (add_mem 1 (h.mono l1).fst).bind fun L2 p p' l2 hp => ?_
  have h := (h.mono l1).mono l2
  exact .pure ⟨⟨h.buf, h.cap, hp, h.lst⟩, .some (ha.mono l2)⟩

theorem drain_mem (n : Nat) {i i' : IntoIter} (h : SameI L i i') : Mem L (IntoIter.drain e n i : Raw.M (Cell B K V) _) (IntoIter.drain e n i') fun L' => Pairs (SameC L') := by
  induction n generalizing L i i' with
  | zero => exact .panic
  | succ n ih =>
    unfold IntoIter.drain
    refine (next_mem h).bind ?_
    rintro L1 ⟨w, o⟩ ⟨w', o'⟩ l1 ⟨hw, ho⟩
    cases ho with
    | none => exact .pure .nil
    | some ha => exact (ih hw).bind fun L2 as as' l2 has => .pure (.cons (ha.mono l2) has)

theorem intoDrop_mem {i i' : IntoIter} (h : SameI L i i') : Mem L (i.drop e : Raw.M (Cell B K V) _) (i'.drop e) fun L' => Pairs (SameC L') := by
  unfold IntoIter.drop
  rw [h.lst.off, h.fst.off, h.cap]
  refine (drain_mem _ h).bind fun L1 as as' l1 has => ?_
  refine (dealloc_mem _ (h.buf.mono l1)).bind fun L2 _ _ l2 _ => ?_
  exact .pure (has.mono fun _ _ x => x.mono l2)

/-! ### Nodes -/

variable {E : TEnv}

theorem asNode_mem {c : Cell B K V} {c' : UCell B K V} (h : SameC L c c') : Mem L (lift c.asNode : Raw.M (Cell B K V) _) (lift c'.asNode) fun L' => SameN L' := by
  cases h with
  | node h => exact .lift fun a e => by cases e; exact ⟨_, rfl, h⟩
  | entry e => exact .lift fun a e => by cases e

theorem asEntry_mem {c : Cell B K V} {c' : UCell B K V} (h : SameC L c c') : Mem L (lift c.asEntry : Raw.M (Cell B K V) _) (lift c'.asEntry) fun _ a b => b = a := by
  cases h with
  | node h => exact .lift fun a e => by cases e
  | entry e => exact .lift fun a e => by cases e; exact ⟨_, rfl, rfl⟩

theorem mapM_lift {r : α → β → Prop} {s : γ → δ → Prop} {f : α → Res γ} {g : β → Res δ} {as : List α} {bs : List β} (h : Pairs r as bs)
    (hf : ∀ a b c, r a b → f a = .ok c → ∃ d, g b = .ok d ∧ s c d) : ∀ cs, as.mapM f = .ok cs → ∃ ds, bs.mapM g = .ok ds ∧ Pairs s cs ds := by
  induction h with
  | nil => intro cs e; cases e; exact ⟨[], rfl, .nil⟩
  | cons h _ ih =>
    intro cs e
    rw [List.mapM_cons] at e
    obtain ⟨c, h1, e⟩ := bind_eq_ok.1 e
    obtain ⟨cs', h2, e⟩ := bind_eq_ok.1 e
    cases e
    obtain ⟨d, h3, h4⟩ := hf _ _ _ h h1
    obtain ⟨ds, h5, h6⟩ := ih _ h2
    refine ⟨d :: ds, ?_, .cons h4 h6⟩
    rw [List.mapM_cons, h3, ok_bind, h5, ok_bind]; rfl

theorem nodes_mem (h : SameV L v v') : Mem L (nodes E v : Raw.M (Cell B K V) _) (nodes E v') fun L' => Pairs (SameN L') := by
  unfold nodes
  refine (slice_mem h).bind fun L1 as as' l1 has => .lift (mapM_lift has ?_)
  intro a b c hab e
  cases hab with
  | node h => cases e; exact ⟨_, rfl, h⟩
  | entry e' => cases e

theorem entries_mem (h : SameV L v v') : Mem L (entries E v : Raw.M (Cell B K V) _) (entries E v') fun _ a b => b = a := by
  unfold entries
  refine (slice_mem h).bind fun L1 as as' l1 has => .lift fun cs e => ?_
  obtain ⟨ds, h1, h2⟩ := mapM_lift (s := fun c d => d = c) has (g := Cell.asEntry) (by
    intro a b c hab e
    cases hab with
    | node h => cases e
    | entry e' => cases e; exact ⟨_, rfl, rfl⟩) cs e
  refine ⟨ds, h1, ?_⟩
  have := h2.map_eq (f := id) (g := id) fun a b x => x
  rwa [List.map_id, List.map_id] at this

theorem nodeAt_mem (h : SameV L v v') (i : Nat) : Mem L (nodeAt E v i : Raw.M (Cell B K V) _) (nodeAt E v' i) fun L' => SameN L' := by
  unfold nodeAt
  exact (get_mem h i).bind fun L1 a a' l1 ha => asNode_mem ha

theorem putNode_mem {n : RNode B} {n' : UNode B} (h : SameV L v v') (i : Nat) (hn : SameN L n n') :
    Mem L (putNode E v i n : Raw.M (Cell B K V) _) (putNode E v' i n') fun _ _ _ => True := by
  unfold putNode
  exact (set_mem h i (.node hn)).bind fun _ _ _ _ _ => .pure trivial

theorem readEntry_mem (h : SameV L v v') (i : Nat) : Mem L (readEntry E (v, i) : Raw.M (Cell B K V) _) (readEntry E (v', i)) fun _ a b => b = a := by
  unfold readEntry
  exact (get_mem h i).bind fun L1 a a' l1 ha => asEntry_mem ha

theorem replaceValue_mem (h : SameV L v v') (i : Nat) (x : V) : Mem L (replaceValue E (v, i) x : Raw.M (Cell B K V) _) (replaceValue E (v', i) x) fun _ a b => b = a := by
  unfold replaceValue
  refine (readEntry_mem h i).bind ?_
  rintro L1 a _ l1 rfl
  exact (set_mem (h.mono l1) i (.entry _)).bind fun _ _ _ _ _ => .pure rfl

theorem Mem.fold {R : Links → α → β → Prop} {S : Links → γ → δ → Prop} {f : α → γ → Raw.M (Cell B K V) α} {g : β → δ → Raw.M (UCell B K V) β}
    {cs : List γ} {ds : List δ} (h : Pairs (S L) cs ds) (hS : ∀ {L L' : Links} {c d}, S L c d → L.Le L' → S L' c d) {a : α} {b : β} (hab : R L a b)
    (hf : ∀ L' a b c d, L.Le L' → R L' a b → S L' c d → Mem L' (f a c) (g b d) R) : Mem L (cs.foldlM f a) (ds.foldlM g b) R := by
  induction cs generalizing L ds a b with
  | nil => cases h; exact .pure hab
  | cons c cs ih =>
    cases h with
    | cons hc h =>
      rw [List.foldlM_cons, List.foldlM_cons]
      refine (hf L a b _ _ (.refl L) hab hc).bind fun L1 a1 b1 l1 h1 => ?_
      exact ih (h.mono fun _ _ x => hS x l1) h1 fun L2 _ _ _ _ l2 => hf L2 _ _ _ _ (l1.trans l2)

theorem lenNode_mem (l : Nat) {n : RNode B} {n' : UNode B} (h : SameV L n.vec n'.vec) : Mem L (Raw.lenNode E l n : Raw.M (Cell B K V) _) (Raw.lenNode E l n') fun _ a b => b = a := by
  induction l generalizing L n n' with
  | zero => exact .pure h.len
  | succ l ih =>
    unfold Raw.lenNode
    refine (nodes_mem h).bind fun L1 cs cs' l1 hcs => ?_
    refine Mem.fold (R := fun _ a b => b = a) (S := fun L' => SameN L') hcs (fun h l => h.mono l) rfl ?_
    rintro L2 k _ c c' - rfl hc
    exact (ih hc.vec).bind fun L3 a b _ e => .pure (by rw [e])

end RTree.Unwind
