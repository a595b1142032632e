import Verif.DestructorSpec
import Verif.Proofs.Forest
import Verif.Proofs.RemoveValue
/-!
# Dropping trees when destructors panic
-/

namespace RTree

variable {B K V Q : Type}

theorem destructors_append (xs ys : List (K × V)) : destructors (xs ++ ys) = destructors xs ++ destructors ys := by simp [destructors]

theorem destructors_length (xs : List (K × V)) : (destructors xs).length = 2 * xs.length := by
  induction xs with
  | nil => rfl
  | cons x xs ih => simp [destructors] at ih ⊢; omega

theorem destructors_keys (xs : List (K × V)) : (destructors xs).filterMap Sum.getLeft? = xs.map (·.1) := by
  induction xs with
  | nil => rfl
  | cons x xs ih => exact congrArg (x.1 :: ·) ih

theorem destructors_values (xs : List (K × V)) : (destructors xs).filterMap Sum.getRight? = xs.map (·.2) := by
  induction xs with
  | nil => rfl
  | cons x xs ih => exact congrArg (x.2 :: ·) ih

theorem dropPairs_split (bomb : Nat → Bool) : ∀ (n : Nat) (xs : List (K × V)), (dropPairs bomb n xs).1 ++ (dropPairs bomb n xs).2.2 = xs
  | _, [] => rfl
  | n, e :: es => by
    rw [dropPairs]
    split
    · rfl
    · split
      · rfl
      · simp [dropPairs_split bomb (n + 2) es]

theorem dropPairs_finished (bomb : Nat → Bool) : ∀ (n : Nat) (xs : List (K × V)), (dropPairs bomb n xs).2.1 = .finished → (dropPairs bomb n xs).1 = xs ∧ (dropPairs bomb n xs).2.2 = []
  | _, [], _ => ⟨rfl, rfl⟩
  | n, e :: es, h => by
    rw [dropPairs] at h ⊢
    split at h
    · cases h
    · split at h
      · cases h
      next h1 h2 =>
        rw [if_neg h1, if_neg h2]
        have := dropPairs_finished bomb (n + 2) es h
        exact ⟨congrArg (e :: ·) this.1, this.2⟩

theorem dropPairs_append (bomb : Nat → Bool) : ∀ (n : Nat) (xs ys : List (K × V)), dropPairs bomb n (xs ++ ys) =
    if (dropPairs bomb n xs).2.1 = .finished then
      (xs ++ (dropPairs bomb (n + 2 * xs.length) ys).1, (dropPairs bomb (n + 2 * xs.length) ys).2)
    else ((dropPairs bomb n xs).1, (dropPairs bomb n xs).2.1, (dropPairs bomb n xs).2.2 ++ ys)
  | n, [], ys => by simp [dropPairs]
  | n, e :: es, ys => by
    rw [List.cons_append, dropPairs, dropPairs]
    split
    · simp
    · split
      · simp
      · have ih := dropPairs_append bomb (n + 2) es ys
        rw [ih]
        have e1 : n + 2 + 2 * es.length = n + 2 * (e :: es).length := by simp; omega
        rw [e1]
        split <;> rfl

namespace Raw

variable {E : TEnv} {bomb : Nat → Bool}

/-- How dropping ends, as a result. -/
def outcome : Ending → Except Halt Unit
  | .finished => .ok ()
  | .panicked => .error .panic
  | .aborted => .error .abort

theorem DM.bind_ok {β γ : Type} {x : DM B K V β} {f : β → DM B K V γ} {s s' : Dying B K V} {b : β} (h : x s = (.ok b, s')) : (x >>= f) s = f b s' := by
  show (match x s with | (.ok b, s) => f b s | (.error e, s) => (.error e, s)) = _
  rw [h]

theorem DM.bind_error {β γ : Type} {x : DM B K V β} {f : β → DM B K V γ} {s s' : Dying B K V} {e : Halt} (h : x s = (.error e, s')) : (x >>= f) s = (.error e, s') := by
  show (match x s with | (.ok b, s) => f b s | (.error e, s) => (.error e, s)) = _
  rw [h]

theorem inMem_ok {β : Type} {x : TM B K V β} {h h' : Heap (Cell B K V)} {b : β} (L : List (K ⊕ V)) (hx : x h = .ok (b, h')) : inMem x ⟨h, L⟩ = (.ok b, ⟨h', L⟩) := by
  show (match x h with | .ok (b, h) => (Except.ok b, (⟨h, L⟩ : Dying B K V)) | .error e => (.error (Halt.fault e), ⟨h, L⟩)) = (.ok b, ⟨h', L⟩)
  rw [hx]

theorem destroyPair_eq (e : K × V) (h : Heap (Cell B K V)) (L : List (K ⊕ V)) :
    destroyPair bomb e ⟨h, L⟩ = (outcome (dropPairs bomb L.length [e]).2.1, ⟨h, L ++ destructors (dropPairs bomb L.length [e]).1⟩) := by
  simp only [destroyPair, destroy, dropPairs]
  cases h1 : bomb L.length <;> cases h2 : bomb (L.length + 1) <;> simp [destructors, outcome, h2]

/-- Dropping one by one what `dropPairs` drops. -/
theorem outcome_chain {x : DM B K V Unit} {y : Unit → DM B K V Unit} {h h1 h2 : Heap (Cell B K V)} {L : List (K ⊕ V)} {xs ys : List (K × V)}
    (hx : x ⟨h, L⟩ = (outcome (dropPairs bomb L.length xs).2.1, ⟨h1, L ++ destructors (dropPairs bomb L.length xs).1⟩))
    (hy : (dropPairs bomb L.length xs).2.1 = .finished → y () ⟨h1, L ++ destructors xs⟩ =
      (outcome (dropPairs bomb (L.length + 2 * xs.length) ys).2.1, ⟨h2, L ++ destructors xs ++ destructors (dropPairs bomb (L.length + 2 * xs.length) ys).1⟩)) :
    (x >>= y) ⟨h, L⟩ = (outcome (dropPairs bomb L.length (xs ++ ys)).2.1,
      ⟨if (dropPairs bomb L.length xs).2.1 = .finished then h2 else h1, L ++ destructors (dropPairs bomb L.length (xs ++ ys)).1⟩) := by
  rw [dropPairs_append]
  cases he : (dropPairs bomb L.length xs).2.1 with
  | finished =>
    rw [he] at hx
    rw [DM.bind_ok hx, (dropPairs_finished bomb _ _ he).1, hy he]
    simp [destructors_append]
  | panicked =>
    rw [he] at hx
    rw [DM.bind_error hx]
    simp [outcome]
  | aborted =>
    rw [he] at hx
    rw [DM.bind_error hx]
    simp [outcome]

theorem dropPairs_nil (n : Nat) : dropPairs bomb n ([] : List (K × V)) = ([], .finished, []) := rfl

theorem popAll_leaf {e : Env} {cap : Nat} (hs : 0 < e.size) (n : Nat) : ∀ {v : FCVec} {es : List (K × V)} {h : Heap (Cell B K V)} (L : List (K ⊕ V)),
    Owns e cap h v (es.map fun x => (Cell.entry x : Cell B K V)) → es.length < n →
    popAll e (dropLeafCell bomb) n v ⟨h, L⟩ = (outcome (dropPairs bomb L.length es.reverse).2.1, ⟨h, L ++ destructors (dropPairs bomb L.length es.reverse).1⟩) := by
  induction n with
  | zero => intro v es h L _ h0; omega
  | succ n ih =>
    intro v es h L ho hn
    have hp := FCVec.pop_ok ho hs
    rw [Vec.pop] at hp
    by_cases hne : es = []
    · subst hne
      simp only [List.map_nil, List.getLast?_nil] at hp
      rw [popAll, DM.bind_ok (inMem_ok L hp.1)]
      simp [dropPairs, outcome, destructors]
      rfl
    · rw [List.getLast?_map, List.getLast?_eq_some_getLast hne] at hp
      obtain ⟨v', hp, ho', _⟩ := hp
      have hpos : 0 < es.length := List.length_pos_iff.2 hne
      rw [popAll, DM.bind_ok (inMem_ok L hp)]
      have hrev : es.reverse = [es.getLast hne] ++ es.dropLast.reverse := by
        conv => lhs; rw [← List.dropLast_concat_getLast hne]
        simp
      rw [hrev]
      have hc : dropLeafCell bomb (Cell.entry (es.getLast hne) : Cell B K V) ⟨h, L⟩ =
          (outcome (dropPairs bomb L.length [es.getLast hne]).2.1, ⟨h, L ++ destructors (dropPairs bomb L.length [es.getLast hne]).1⟩) := by
        rw [dropLeafCell, DM.bind_ok (inMem_ok (b := es.getLast hne) (h' := h) L rfl)]
        exact destroyPair_eq _ _ _
      have := outcome_chain (y := fun _ => popAll e (dropLeafCell bomb) n v') (h2 := h) (ys := es.dropLast.reverse) hc fun _ => by
        have := ih (h := h) (L ++ destructors [es.getLast hne]) (v := v') (es := es.dropLast) (by rw [← List.map_dropLast] at ho'; exact ho') (by simp; omega)
        rw [List.length_append, destructors_length] at this
        exact this
      rw [ite_self] at this
      exact this

theorem popAll_inner {e : Env} {cap : Nat} (hs : 0 < e.size) (n : Nat) : ∀ {v : FCVec} {cs : List (RNode B)} {h : Heap (Cell B K V)} (L : List (K ⊕ V)),
    Owns e cap h v (cs.map fun x => (Cell.node x : Cell B K V)) → cs.length < n → popAll e dropInnerCell n v ⟨h, L⟩ = (.ok (), ⟨h, L⟩) := by
  induction n with
  | zero => intro v es h L _ h0; omega
  | succ n ih =>
    intro v es h L ho hn
    have hp := FCVec.pop_ok ho hs
    rw [Vec.pop] at hp
    by_cases hne : es = []
    · subst hne
      simp only [List.map_nil, List.getLast?_nil] at hp
      rw [popAll, DM.bind_ok (inMem_ok L hp.1)]
      rfl
    · rw [List.getLast?_map, List.getLast?_eq_some_getLast hne] at hp
      obtain ⟨v', hp, ho', _⟩ := hp
      have hpos : 0 < es.length := List.length_pos_iff.2 hne
      rw [popAll, DM.bind_ok (inMem_ok L hp)]
      show (dropInnerCell (Cell.node (es.getLast hne)) >>= fun _ => popAll e dropInnerCell n v') ⟨h, L⟩ = _
      rw [DM.bind_ok (show dropInnerCell (Cell.node (es.getLast hne) : Cell B K V) ⟨h, L⟩ = (.ok (), ⟨h, L⟩) from rfl)]
      exact ih L (by rw [← List.map_dropLast] at ho'; exact ho') (by simp; omega)

/-- A block that is not freed and that nobody can reach. -/
def leakC (b : Nat) : Chunk (Cell B K V) where
  fp := [b]
  holds h := ∃ x, h[b]? = some (some x)
  loc ho hb := by
    obtain ⟨x, hx⟩ := ho
    exact ⟨x, (hb _ (by simp)).trans hx⟩
  alive ho b hb := by
    obtain rfl : b = _ := by simpa using hb
    obtain ⟨x, hx⟩ := ho
    exact (List.getElem?_eq_some_iff.1 hx).1

theorem fps_leak (bs : List Nat) : fps (bs.map (leakC (B := B) (K := K) (V := V))) = bs := by
  induction bs with
  | nil => rfl
  | cons b bs ih => exact congrArg (b :: ·) ih

/-- What was owned is not looked after any more. -/
theorem Has.leak {h : Heap (Cell B K V)} {cs : List (Chunk (Cell B K V))} (H : Has h cs) (hv : ∀ b ∈ fps cs, ∃ x, h[b]? = some (some x)) :
    Tr h cs h ((fps cs).map leakC) := by
  refine ⟨by rw [fps_leak]; exact .refl _ _, fun c hc => ?_, by rw [fps_leak]; exact H.nodup⟩
  obtain ⟨b, hb, rfl⟩ := List.mem_map.1 hc
  exact hv b hb

theorem dealloc_owned {e : Env} {cap : Nat} {v : FCVec} {l : List (Cell B K V)} {h : Heap (Cell B K V)} (ho : Owns e cap h v l) :
    dealloc e v.buf cap h = .ok ((), h.set v.buf.block none) := by
  obtain ⟨slots, hb, hmem⟩ := ho.mem
  have := hb.dealloc ho.layout ho.nonzero
  rw [← ho.buf_eq] at this
  exact this

/-- The order in which the entries below a node are dropped. -/
def orderOf : (l : Nat) → G B K V l → List (K × V)
  | 0, g => g.kids.reverse
  | l + 1, g => g.kids.flatMap (orderOf l)

theorem orderOf_node : ∀ (l : Nat) (g : G B K V l), (node l g).dropOrder = orderOf l g
  | 0, g => by simp [Node.dropOrder, node, orderOf]
  | l + 1, g => by
    rw [node, Node.dropOrder, leaves_inner, orderOf]
    induction g.kids with
    | nil => simp
    | cons c cs ih =>
      rw [List.map_cons, leavesList_cons, List.flatMap_append, ih, List.flatMap_cons]
      congr 1
      exact orderOf_node l c

theorem orderOf_perm : ∀ (l : Nat) (g : G B K V l), (orderOf l g).Perm (ents l g)
  | 0, g => by
    show g.kids.reverse.Perm (g.kids.flatMap fun e => [e])
    simpa using List.reverse_perm g.kids
  | l + 1, g => by
    rw [orderOf, ents]
    induction g.kids with
    | nil => exact .refl _
    | cons c cs ih =>
      rw [List.flatMap_cons, List.flatMap_cons]
      exact (orderOf_perm l c).append ih

theorem dropOrder_length (n : Node B K V) : n.dropOrder.length = n.leaves.flatten.length := by
  rw [Node.dropOrder]
  induction n.leaves with
  | nil => rfl
  | cons x xs ih => simp at ih ⊢

theorem closings_leaf (o : Nat) (g : G B K V 0) : (node 0 g).closings o = [o + (orderOf 0 g).length] := by
  simp [node, Node.closings, orderOf]

theorem closingsList_cons (o : Nat) (l : Nat) (c : G B K V l) (cs : List (G B K V l)) :
    closingsList o ((c :: cs).map (node l)) = (node l c).closings o ++ closingsList (o + (orderOf l c).length) (cs.map (node l)) := by
  rw [List.map_cons, closingsList, ← dropOrder_length, orderOf_node]

theorem closings_inner (o : Nat) (l : Nat) (g : G B K V (l + 1)) :
    (node (l + 1) g).closings o = closingsList o (g.kids.map (node l)) ++ [o + (orderOf (l + 1) g).length] := by
  rw [← orderOf_node, dropOrder_length, node, Node.closings, leaves_inner]

theorem closings_range : ∀ (l : Nat) (g : G B K V l) (o : Nat), ∀ x ∈ (node l g).closings o, o ≤ x ∧ x ≤ o + (orderOf l g).length
  | 0, g, o, x, hx => by
    rw [closings_leaf] at hx
    rw [List.mem_singleton.1 hx]
    omega
  | l + 1, g, o, x, hx => by
    have key : ∀ (cs : List (G B K V l)) (o : Nat), ∀ x ∈ closingsList o (cs.map (node l)), o ≤ x ∧ x ≤ o + (cs.flatMap (orderOf l)).length := by
      intro cs
      induction cs with
      | nil => intro o x hx; cases hx
      | cons c cs ih =>
        intro o x hx
        rw [closingsList_cons, List.mem_append] at hx
        rw [List.flatMap_cons, List.length_append]
        rcases hx with hx | hx
        · have := closings_range l c o x hx; omega
        · have := ih _ x hx; omega
    rw [closings_inner, List.mem_append] at hx
    rcases hx with hx | hx
    · exact key g.kids o x hx
    · rw [List.mem_singleton.1 hx]; omega

theorem closingsList_range {l : Nat} : ∀ (cs : List (G B K V l)) (o : Nat), ∀ x ∈ closingsList o (cs.map (node l)), o ≤ x ∧ x ≤ o + (cs.flatMap (orderOf l)).length := by
  intro cs
  induction cs with
  | nil => intro o x hx; cases hx
  | cons c cs ih =>
    intro o x hx
    rw [closingsList_cons, List.mem_append] at hx
    rw [List.flatMap_cons, List.length_append]
    rcases hx with hx | hx
    · have := closings_range l c o x hx; omega
    · have := ih _ x hx; omega

theorem closings_length (cap : Nat) : ∀ (l : Nat) (g : G B K V l) (o : Nat), ((node l g).closings o).length = (fps (chunks E cap l g)).length
  | 0, g, o => by
    have e0 : (chunksL (B := B) E cap 0 g.kids) = [] := by
      show g.kids.flatMap (fun _ => []) = []
      simp
    rw [closings_leaf, chunks, e0]; rfl
  | l + 1, g, o => by
    have key : ∀ (cs : List (G B K V l)) (o : Nat), (closingsList o (cs.map (node l))).length = (fps (chunksL E cap (l + 1) cs)).length := by
      intro cs
      induction cs with
      | nil => intro o; rfl
      | cons c cs ih =>
        intro o
        have e2 : fps (chunksL E cap (l + 1) (c :: cs)) = fps (chunks E cap l c) ++ fps (chunksL E cap (l + 1) cs) := by
          show fps (chunks E cap l c ++ chunksL E cap (l + 1) cs) = _
          rw [fps_append]
        rw [closingsList_cons, e2, List.length_append, List.length_append, ih, closings_length cap l c o]
    rw [closings_inner, List.length_append, key, chunks, fps_cons, List.length_append]
    simp [vecC]; omega

theorem closingsList_length (cap : Nat) {l : Nat} (cs : List (G B K V l)) (o : Nat) : (closingsList o (cs.map (node l))).length = (fps (chunksL E cap (l + 1) cs)).length := by
  induction cs generalizing o with
  | nil => rfl
  | cons c cs ih =>
    have e2 : fps (chunksL E cap (l + 1) (c :: cs)) = fps (chunks E cap l c) ++ fps (chunksL E cap (l + 1) cs) := by
      show fps (chunks E cap l c ++ chunksL E cap (l + 1) cs) = _
      rw [fps_append]
    rw [closingsList_cons, e2, List.length_append, List.length_append, ih, closings_length cap l c o]

theorem chunks_live {cap : Nat} {l : Nat} {g : G B K V l} {h : Heap (Cell B K V)} (H : Has h (chunks E cap l g)) : ∀ b ∈ fps (chunks E cap l g), ∃ x, h[b]? = some (some x) := by
  intro b hb
  obtain ⟨c, hc, hb⟩ := mem_fps.1 hb
  have hh := H.holds c hc
  obtain ⟨e, v, cells, rfl⟩ := chunksI_vec E cap (l + 1) g c hc
  obtain ⟨s, ⟨h1, _⟩, _⟩ := Owns.mem hh
  obtain rfl : b = _ := by simpa [vecC] using hb
  exact ⟨_, h1⟩

theorem chunksL_live {cap : Nat} {l : Nat} {cs : List (G B K V l)} {h : Heap (Cell B K V)} (H : Has h (chunksL E cap (l + 1) cs)) :
    ∀ b ∈ fps (chunksL E cap (l + 1) cs), ∃ x, h[b]? = some (some x) := by
  intro b hb
  obtain ⟨c, hc, hb⟩ := mem_fps.1 hb
  have hh := H.holds c hc
  obtain ⟨g, _, hg⟩ := List.mem_flatMap.1 hc
  obtain ⟨e, v, cells, rfl⟩ := chunksI_vec E cap (l + 1) g c hg
  obtain ⟨s, ⟨h1, _⟩, _⟩ := Owns.mem hh
  obtain rfl : b = _ := by simpa [vecC] using hb
  exact ⟨_, h1⟩

/-- The number of pairs that were dropped without a panic. -/
def quiet (r : List (K × V) × Ending × List (K × V)) : Nat := if r.2.1 = .finished then r.1.length else r.1.length - 1

theorem dropPairs_pos (n : Nat) (xs : List (K × V)) (hf : (dropPairs bomb n xs).2.1 ≠ .finished) : 0 < (dropPairs bomb n xs).1.length := by
  cases xs with
  | nil => exact absurd rfl hf
  | cons e es =>
    rw [dropPairs]
    split
    · simp
    · split <;> simp

theorem dropPairs_length_le (n : Nat) (xs : List (K × V)) : (dropPairs bomb n xs).1.length ≤ xs.length := by
  have := congrArg List.length (dropPairs_split bomb n xs)
  rw [List.length_append] at this
  omega

theorem quiet_finished {n : Nat} {xs : List (K × V)} (hf : (dropPairs bomb n xs).2.1 = .finished) : quiet (dropPairs bomb n xs) = xs.length := by
  rw [quiet, if_pos hf, (dropPairs_finished bomb n xs hf).1]

theorem quiet_lt {n : Nat} {xs : List (K × V)} (hf : (dropPairs bomb n xs).2.1 ≠ .finished) : quiet (dropPairs bomb n xs) < xs.length := by
  rw [quiet, if_neg hf]
  have := dropPairs_pos n xs hf
  have := dropPairs_length_le (bomb := bomb) n xs
  omega

theorem quiet_append_finished {n : Nat} {xs ys : List (K × V)} (hf : (dropPairs bomb n xs).2.1 = .finished) :
    quiet (dropPairs bomb n (xs ++ ys)) = xs.length + quiet (dropPairs bomb (n + 2 * xs.length) ys) := by
  rw [dropPairs_append, if_pos hf, quiet, quiet]
  simp only [List.length_append]
  split
  · rfl
  next h =>
    have := dropPairs_pos _ _ h
    omega

theorem quiet_append {n : Nat} {xs ys : List (K × V)} (hf : (dropPairs bomb n xs).2.1 ≠ .finished) :
    quiet (dropPairs bomb n (xs ++ ys)) = quiet (dropPairs bomb n xs) := by
  rw [dropPairs_append, if_neg hf, quiet, quiet]

theorem filter_none {xs : List Nat} {k : Nat} (h : ∀ x ∈ xs, x ≤ k) : xs.filter (k < ·) = [] := by
  rw [List.filter_eq_nil_iff]
  intro x hx
  have := h x hx
  simp; omega

theorem filter_all {xs : List Nat} {k : Nat} (h : ∀ x ∈ xs, k < x) : xs.filter (k < ·) = xs := by
  rw [List.filter_eq_self]
  intro x hx
  simpa using h x hx

variable {a : Alloc}

/-- Dropping a node. -/
theorem destroyNode_at (S : Sizes E a.maxChildren) : ∀ (l : Nat) (g : G B K V l) {h : Heap (Cell B K V)} (L : List (K ⊕ V)) (o : Nat), Has h (chunks E a.maxChildren l g) →
    ∃ (h' : Heap (Cell B K V)) (bs : List Nat), destroyNode E bomb a l (raw g) ⟨h, L⟩ = (outcome (dropPairs bomb L.length (orderOf l g)).2.1, ⟨h', L ++ destructors (dropPairs bomb L.length (orderOf l g)).1⟩) ∧
      Tr h (chunks E a.maxChildren l g) h' (bs.map leakC) ∧
      bs.length = (((node l g).closings o).filter (o + quiet (dropPairs bomb L.length (orderOf l g)) < ·)).length := by
  intro l
  induction l with
  | zero =>
    intro g h L o H
    have Hl := chunks_live H
    have H0 := H
    have e0 : (chunksL (B := B) E a.maxChildren 0 g.kids) = [] := by
      show g.kids.flatMap (fun _ => []) = []
      simp
    have e1 : chunks E a.maxChildren 0 g = [vecC E.entry a.maxChildren g.vec (g.kids.map (cell (B := B) 0))] := by
      show _ :: chunksL E a.maxChildren 0 g.kids = _
      rw [e0]
      rfl
    rw [e1] at H
    have ho : Owns E.entry a.maxChildren h g.vec (g.kids.map fun x => (Cell.entry x : Cell B K V)) := H.owns
    have hpop := popAll_leaf (bomb := bomb) S.entry (g.vec.len + 1) L ho (by have := ho.len; simp at this; omega)
    have hd := outcome_chain (ys := []) (y := fun _ => inMem (dealloc E.entry g.vec.buf a.maxChildren)) (h2 := h.set g.vec.buf.block none) hpop fun _ => by
      rw [inMem_ok _ (dealloc_owned ho)]
      simp [dropPairs, outcome, destructors]
    rw [List.append_nil] at hd
    rw [closings_leaf]
    by_cases hf : (dropPairs bomb L.length (orderOf 0 g)).2.1 = .finished
    · rw [if_pos (show (dropPairs bomb L.length g.kids.reverse).2.1 = .finished from hf)] at hd
      refine ⟨_, [], hd, ?_, ?_⟩
      · rw [e1]
        exact ⟨by simpa [vecC] using freed_step, .nil⟩
      · rw [filter_none fun x hx => ?_]
        rw [List.mem_singleton.1 hx, quiet_finished hf]
    · rw [if_neg (show (dropPairs bomb L.length g.kids.reverse).2.1 ≠ .finished from hf)] at hd
      refine ⟨_, fps (chunks E a.maxChildren 0 g), hd, H0.leak Hl, ?_⟩
      rw [filter_all fun x hx => ?_]
      · rw [e1]; rfl
      · rw [List.mem_singleton.1 hx]
        have := quiet_lt hf
        omega
  | succ l ih =>
    intro g h L o H
    have H' : Has h ([vecC E.node a.maxChildren g.vec (g.kids.map (cell (l + 1)))] ++ chunksL E a.maxChildren (l + 1) g.kids) := H
    have hloop : ∀ (kids : List (Item B K V (l + 1))) {h : Heap (Cell B K V)} (L : List (K ⊕ V)) (o : Nat), Has h (chunksL E a.maxChildren (l + 1) kids) →
        ∃ (h' : Heap (Cell B K V)) (bs : List Nat), forEach (destroyNode E bomb a l) (kids.map raw) ⟨h, L⟩ = (outcome (dropPairs bomb L.length (kids.flatMap (orderOf l))).2.1,
            ⟨h', L ++ destructors (dropPairs bomb L.length (kids.flatMap (orderOf l))).1⟩) ∧
          Tr h (chunksL E a.maxChildren (l + 1) kids) h' (bs.map leakC) ∧
          bs.length = ((closingsList o (kids.map (node l))).filter (o + quiet (dropPairs bomb L.length (kids.flatMap (orderOf l))) < ·)).length := by
      intro kids
      induction kids with
      | nil =>
        intro h L o H
        refine ⟨h, [], ?_, .refl H, rfl⟩
        rw [List.flatMap_nil, dropPairs_nil]
        simp [destructors, outcome, forEach]
        rfl
      | cons c kids ihk =>
        intro h L o H
        have H : Has h (chunks E a.maxChildren l c ++ chunksL E a.maxChildren (l + 1) kids) := H
        obtain ⟨h1, bs1, e1, t1, n1⟩ := ih c L o H.left
        have t := t1.frame H
        have e2 : chunksL E a.maxChildren (l + 1) (c :: kids) = chunks E a.maxChildren l c ++ chunksL E a.maxChildren (l + 1) kids := rfl
        rw [e2, List.flatMap_cons, closingsList_cons, List.map_cons, forEach, List.filter_append, List.length_append]
        by_cases hf : (dropPairs bomb L.length (orderOf l c)).2.1 = .finished
        · rw [quiet_finished hf, filter_none fun x hx => (closings_range l c o x hx).2] at n1
          obtain rfl : bs1 = [] := List.length_eq_zero_iff.1 n1
          obtain ⟨h2, bs2, e3, t2, n2⟩ := ihk (L ++ destructors (orderOf l c)) (o + (orderOf l c).length) t.has
          rw [List.length_append, destructors_length] at e3 n2
          refine ⟨h2, bs2, ?_, t.trans t2, ?_⟩
          · have := outcome_chain (y := fun _ => forEach (destroyNode E bomb a l) (kids.map raw)) (h2 := h2) (ys := kids.flatMap (orderOf l)) e1 fun _ => e3
            rw [if_pos hf] at this
            exact this
          · rw [quiet_append_finished hf, filter_none fun x hx => ?_, n2, ← Nat.add_assoc]
            · simp
            · have := (closings_range l c o x hx).2; omega
        · have Hl := chunksL_live t.has.right
          have t' := (Tr.refl t.has).app List.perm_append_comm (t.has.right.leak Hl)
          refine ⟨h1, fps (chunksL E a.maxChildren (l + 1) kids) ++ bs1, ?_, ?_, ?_⟩
          · have := outcome_chain (y := fun _ => forEach (destroyNode E bomb a l) (kids.map raw)) (h2 := h1) (ys := kids.flatMap (orderOf l)) e1 fun h => absurd h hf
            rw [if_neg hf] at this
            exact this
          · rw [List.map_append]
            exact t.trans t'
          · rw [quiet_append hf, ← n1, List.length_append, filter_all fun x hx => ?_, closingsList_length (E := E) a.maxChildren kids]
            · omega
            · have := (closingsList_range kids _ x hx).1
              have := quiet_lt hf
              omega
    obtain ⟨h1, bs, e1, t1, n1⟩ := hloop g.kids L o H'.right
    have hp0 : ([vecC E.node a.maxChildren g.vec (g.kids.map (cell (l + 1)))] ++ chunksL E a.maxChildren (l + 1) g.kids).Perm
      (chunksL E a.maxChildren (l + 1) g.kids ++ [vecC E.node a.maxChildren g.vec (g.kids.map (cell (l + 1)))]) := List.perm_append_comm
    have hv : (raw g).vec = g.vec := rfl
    have t := (Tr.refl H').app hp0 t1
    have H2 : Has h1 [vecC E.node a.maxChildren g.vec (g.kids.map (cell (l + 1)))] := t.has.right
    have ho : Owns E.node a.maxChildren h1 g.vec ((g.kids.map raw).map fun x => (Cell.node x : Cell B K V)) := by
      rw [List.map_map]; exact H2.owns
    rw [closings_inner, List.filter_append, List.length_append]
    rw [destroyNode, hv, DM.bind_ok (inMem_ok L (nodes_ok S H'.left)), orderOf]
    by_cases hf : (dropPairs bomb L.length (g.kids.flatMap (orderOf l))).2.1 = .finished
    · have e3 : dropVec E.node a.maxChildren dropInnerCell g.vec ⟨h1, L ++ destructors (g.kids.flatMap (orderOf l))⟩ =
          (outcome (dropPairs bomb (L.length + 2 * (g.kids.flatMap (orderOf l)).length) ([] : List (K × V))).2.1, ⟨h1.set g.vec.buf.block none, L ++ destructors (g.kids.flatMap (orderOf l)) ++
            destructors (dropPairs bomb (L.length + 2 * (g.kids.flatMap (orderOf l)).length) []).1⟩) := by
        rw [dropVec, DM.bind_ok (popAll_inner S.node _ _ ho (by have := ho.len; simp at this; simp; omega)), inMem_ok _ (dealloc_owned ho)]
        simp [dropPairs, outcome, destructors]
      have := outcome_chain (y := fun _ => dropVec E.node a.maxChildren dropInnerCell g.vec) (ys := []) e1 fun _ => e3
      rw [List.append_nil, if_pos hf] at this
      rw [quiet_finished hf, filter_none fun x hx => (closingsList_range g.kids o x hx).2] at n1 ⊢
      obtain rfl : bs = [] := List.length_eq_zero_iff.1 n1
      refine ⟨_, [], this, ?_, by simp⟩
      refine t.trans ⟨?_, .nil⟩
      simpa [vecC] using freed_step
    · have := outcome_chain (y := fun _ => dropVec E.node a.maxChildren dropInnerCell g.vec) (ys := []) (h2 := h1) e1 fun h => absurd h hf
      rw [List.append_nil, if_neg hf] at this
      refine ⟨_, g.vec.buf.block :: bs, this, ?_, ?_⟩
      · have t' := (Tr.refl t.has).app List.perm_append_comm (H2.leak (by
          intro b hb
          obtain rfl : b = g.vec.buf.block := by simpa [vecC] using hb
          obtain ⟨s, ⟨h1, _⟩, _⟩ := ho.mem
          exact ⟨_, h1⟩))
        exact t.trans t'
      · rw [← n1, filter_all fun x hx => ?_]
        · simp
        · rw [List.mem_singleton.1 hx]
          have := quiet_lt hf
          omega

end Raw

end RTree
