import Verif.Model.RawLeftTree
import Verif.Proofs.RawJoin
import Verif.Proofs.RawSorted
/-!
# Left joins of trees in raw memory are left joins of the trees
-/

namespace RTree.Raw

variable {B K V Q : Type} {E : TEnv} {h : Heap (Cell B K V)} {cap : Nat}

/-! ### Stacks -/

section

variable {L L' I I' : Type} {RL : L → L' → Prop} {RI : Nat → I → I' → Prop}

/-- An entry of a stack that stands for an entry of another one. -/
def EntryRel (RL : L → L' → Prop) (RI : Nat → I → I' → Prop) : Nat → StackEntry L I → StackEntry L' I' → Prop
  | 0, .leaf a, .leaf b => RL a b
  | n + 1, .inner a, .inner b => RI n a b
  | _, _, _ => False

/-- A stack that stands for another one. -/
structure StackRel (RL : L → L' → Prop) (RI : Nat → I → I' → Prop) (rs : IterStack L I) (vs : IterStack L' I') : Prop where
  len : rs.length = vs.length
  rel : ∀ i r v, rs[i]? = some r → vs[i]? = some v → EntryRel RL RI i r v

variable {rs : IterStack L I} {vs : IterStack L' I'}

theorem index_eq_ok {α : Type} {l : List α} {i : Nat} {a : α} : index l i = .ok a ↔ l[i]? = some a := by
  rw [index]
  cases l[i]? with
  | none => exact ⟨(fun h => by cases h), (fun h => by cases h)⟩
  | some b => exact ⟨(fun h => by cases h; rfl), (fun h => by cases h; rfl)⟩

theorem StackRel.get (R : StackRel RL RI rs vs) {i : Nat} {v : StackEntry L' I'} (hv : vs[i]? = some v) : ∃ r, rs[i]? = some r ∧ EntryRel RL RI i r v := by
  have hi := (List.getElem?_eq_some_iff.1 hv).1
  rw [← R.len] at hi
  exact ⟨rs[i], List.getElem?_eq_getElem hi, R.rel i _ _ (List.getElem?_eq_getElem hi) hv⟩

theorem StackRel.set (R : StackRel RL RI rs vs) {i : Nat} {r : StackEntry L I} {v : StackEntry L' I'} (hr : EntryRel RL RI i r v) : StackRel RL RI (rs.set i r) (vs.set i v) := by
  refine ⟨by simp [R.len], fun j a b ha hb => ?_⟩
  rw [List.getElem?_set] at ha hb
  by_cases hij : i = j
  · subst hij
    rw [if_pos rfl] at ha hb
    split at ha
    · split at hb
      · cases ha; cases hb; exact hr
      · cases hb
    · cases ha
  · rw [if_neg hij] at ha hb
    exact R.rel j a b ha hb

theorem StackRel.getLeaf (R : StackRel RL RI rs vs) {b : L'} (hb : vs.getLeaf = .ok b) : ∃ a, rs.getLeaf = .ok a ∧ RL a b := by
  obtain ⟨v, h1, h2⟩ := bind_eq_ok.1 hb
  obtain ⟨r, h3, h4⟩ := R.get (index_eq_ok.1 h1)
  rw [IterStack.getLeaf, index_eq_ok.2 h3, ok_bind]
  cases v with
  | inner _ => cases h2
  | leaf b' =>
    cases h2
    cases r with
    | inner _ => exact h4.elim
    | leaf a => exact ⟨a, rfl, h4⟩

theorem StackRel.setLeaf (R : StackRel RL RI rs vs) {a : L} {b : L'} {vs' : IterStack L' I'} (hb : vs.setLeaf b = .ok vs') (hr : RL a b) :
    ∃ rs', rs.setLeaf a = .ok rs' ∧ StackRel RL RI rs' vs' := by
  obtain ⟨v, h1, h2⟩ := bind_eq_ok.1 hb
  obtain ⟨r, h3, h4⟩ := R.get (index_eq_ok.1 h1)
  rw [IterStack.setLeaf, index_eq_ok.2 h3, ok_bind]
  cases h2
  exact ⟨_, rfl, R.set hr⟩

theorem StackRel.getInner (R : StackRel RL RI rs vs) {i : Nat} {b : I'} (hb : vs.getInner i = .ok b) : ∃ a, rs.getInner i = .ok a ∧ RI i a b := by
  obtain ⟨v, h1, h2⟩ := bind_eq_ok.1 hb
  obtain ⟨r, h3, h4⟩ := R.get (index_eq_ok.1 h1)
  rw [IterStack.getInner, index_eq_ok.2 h3, ok_bind]
  cases v with
  | leaf _ => cases h2
  | inner b' =>
    cases h2
    cases r with
    | leaf _ => exact h4.elim
    | inner a => exact ⟨a, rfl, h4⟩

theorem StackRel.setInner (R : StackRel RL RI rs vs) {i : Nat} {a : I} {b : I'} {vs' : IterStack L' I'} (hb : vs.setInner i b = .ok vs') (hr : RI i a b) :
    ∃ rs', rs.setInner i a = .ok rs' ∧ StackRel RL RI rs' vs' := by
  obtain ⟨v, h1, h2⟩ := bind_eq_ok.1 hb
  obtain ⟨r, h3, h4⟩ := R.get (index_eq_ok.1 h1)
  rw [IterStack.setInner, index_eq_ok.2 h3, ok_bind]
  cases h2
  exact ⟨_, rfl, R.set hr⟩

theorem StackRel.newBox {a : L} {b : L'} {as : List I} {bs : List I'} (h0 : RL a b) (hl : as.length = bs.length) (hi : ∀ i a b, as[i]? = some a → bs[i]? = some b → RI i a b) :
    StackRel RL RI (IterStack.newBox a as) (IterStack.newBox b bs) := by
  refine ⟨by simp [IterStack.newBox, hl], fun i r v hr hv => ?_⟩
  cases i with
  | zero => cases hr; cases hv; exact h0
  | succ i =>
    simp only [IterStack.newBox, List.getElem?_cons_succ, List.getElem?_map, Option.map_eq_some_iff] at hr hv
    obtain ⟨a', ha, rfl⟩ := hr
    obtain ⟨b', hb, rfl⟩ := hv
    exact hi i a' b' ha hb

end

/-! ### Slices of memory -/

/-- A slice of nodes of level `l`. -/
structure Nodes (E : TEnv) (cap : Nat) (h : Heap (Cell B K V)) (l : Nat) (s : NodeSlice B) (ns : List (Node B K V)) : Prop where
  len : s.len = ns.length
  fits : ns.length ≤ cap + 1
  get : ∀ i (hi : i < ns.length), ∃ c, s.at E i h = .ok (c, h) ∧ InMem E cap h l c ns[i]

/-- A slice of entries. -/
structure Ents (E : TEnv) (cap : Nat) (h : Heap (Cell B K V)) (s : EntrySlice) (es : List (K × V)) : Prop where
  len : s.len = es.length
  fits : es.length ≤ cap
  get : ∀ i (hi : i < es.length), s.at (B := B) E i h = .ok (es[i], h)

theorem Nodes.none (l : Nat) : Nodes E cap h l .none [] := ⟨rfl, Nat.zero_le _, fun _ hi => absurd hi (Nat.not_lt_zero _)⟩

theorem Ents.none : Ents E cap h .none [] := ⟨rfl, Nat.zero_le _, fun _ hi => absurd hi (Nat.not_lt_zero _)⟩

theorem Nodes.one {l : Nat} {rn : RNode B} {n : Node B K V} (H : InMem E cap h l rn n) : Nodes E cap h l (.one rn) [n] :=
  ⟨rfl, by simp, fun i hi => by
    have : i = 0 := by simpa using hi
    subst this
    exact ⟨rn, rfl, H⟩⟩

theorem InMem.nodes (S : Sizes E cap) {l : Nat} {rn : RNode B} {n : Node B K V} (H : InMem E cap h (l + 1) rn n) {cs : List (Node B K V)} (hc : n.innerChildren = .ok cs) :
    Nodes E cap h l (.all rn.vec) cs := by
  obtain ⟨g, rfl, rfl, H⟩ := H
  have ho := (H.holds _ List.mem_cons_self : Owns _ _ _ _ _)
  cases hc
  have hlen := ho.len
  have hfit := ho.fits
  simp only [List.length_map] at hlen hfit
  refine ⟨by simpa [NodeSlice.len, raw] using hlen, by simp only [List.length_map]; omega, fun i hi => ?_⟩
  have hi' : i < g.kids.length := by simpa using hi
  have H' : Has h ([vecC E.node cap g.vec (g.kids.map (cell (l + 1)))] ++ chunksL E cap (l + 1) g.kids) := H
  obtain ⟨_, _, e0, rfl, rfl, _⟩ := (nodeAt_sim S H'.left i).of_ok (a := g.kids[i]) (by simp [index, hi'])
  exact ⟨_, e0, g.kids[i], rfl, by simp, kid_has H _ (List.getElem_mem hi')⟩

theorem InMem.ents (S : Sizes E cap) {rn : RNode B} {n : Node B K V} (H : InMem E cap h 0 rn n) {es : List (K × V)} (hc : n.leafChildren = .ok es) :
    Ents E cap h (.all rn.vec) es := by
  obtain ⟨b, es', rfl, hl, H⟩ := H.leaf
  cases hc
  have hfit := H.owns.fits
  simp only [List.length_map] at hfit
  refine ⟨hl, hfit, fun i hi => ?_⟩
  have := FCVec.get_ok H.owns S.entry i
  simp only [index, List.getElem?_map, List.getElem?_eq_getElem hi, Option.map_some] at this
  rw [EntrySlice.at, bind_ok this]
  rfl

theorem InMem.weight {l : Nat} {rn : RNode B} {n : Node B K V} (H : InMem E cap h l rn n) : n.weight ≤ (cap + 1) ^ (l + 1) := by
  obtain ⟨g, rfl, rfl, H⟩ := H
  exact weight_le l g H

/-- An element that has been found, or none. -/
def Found (E : TEnv) (cap : Nat) (h : Heap (Cell B K V)) (l : Nat) : Option (RNode B) → Option (Node B K V) → Prop
  | some rn, some n => InMem E cap h l rn n
  | none, none => True
  | _, _ => False

/-- An iterator over nodes of level `l` of the left stack. -/
def SliceIt (E : TEnv) (cap : Nat) (h : Heap (Cell B K V)) (l : Nat) (c : Cursor (NodeSlice B)) (rest : List (Node B K V)) : Prop :=
  ∃ ns, Nodes E cap h l c.slice ns ∧ c.i ≤ ns.length ∧ rest = ns.drop c.i

/-- An iterator over entries of the left stack. -/
def EntsIt (E : TEnv) (cap : Nat) (h : Heap (Cell B K V)) (c : Cursor EntrySlice) (rest : List (K × V)) : Prop :=
  ∃ es, Ents E cap h c.slice es ∧ c.i ≤ es.length ∧ rest = es.drop c.i

/-- An iterator over nodes of level `l` of the right stack. -/
def RewindIt (E : TEnv) (cap : Nat) (h : Heap (Cell B K V)) (l : Nat) (c : Cursor (NodeSlice B)) (it : RewindIter (Node B K V)) : Prop :=
  Nodes E cap h l c.slice it.slice ∧ c.i = it.i

/-- An iterator over entries of the right stack. -/
def RewindEnts (E : TEnv) (cap : Nat) (h : Heap (Cell B K V)) (c : Cursor EntrySlice) (it : RewindIter (K × V)) : Prop :=
  Ents E cap h c.slice it.slice ∧ c.i = it.i

/-- The left stack, and the stacks of right-hand iterators. -/
abbrev LeftRel (E : TEnv) (cap : Nat) (h : Heap (Cell B K V)) : SliceStack B → TreeIter B K V → Prop := StackRel (EntsIt E cap h) (SliceIt E cap h)

/-- The right stack. -/
abbrev RightRel (E : TEnv) (cap : Nat) (h : Heap (Cell B K V)) : SliceStack B → RewindTreeIter B K V → Prop := StackRel (RewindEnts E cap h) (RewindIt E cap h)

theorem nextNode_some {l : Nat} {c : Cursor (NodeSlice B)} {ns : List (Node B K V)} (N : Nodes E cap h l c.slice ns) (hi : c.i < ns.length) :
    ∃ rn, nextNode E c h = .ok ((some rn, ⟨c.slice, c.i + 1⟩), h) ∧ InMem E cap h l rn ns[c.i] := by
  obtain ⟨rn, h1, h2⟩ := N.get c.i hi
  refine ⟨rn, ?_, h2⟩
  rw [nextNode, if_pos (by rw [N.len]; exact hi), bind_ok h1]; rfl

theorem nextNode_none {l : Nat} {c : Cursor (NodeSlice B)} {ns : List (Node B K V)} (N : Nodes E cap h l c.slice ns) (hi : ns.length ≤ c.i) :
    nextNode E c h = .ok ((none, c), h) := by
  rw [nextNode, if_neg (by rw [N.len]; omega)]; rfl

theorem nextEntry_some {c : Cursor EntrySlice} {es : List (K × V)} (N : Ents E cap h c.slice es) (hi : c.i < es.length) :
    nextEntry (B := B) E c h = .ok ((some es[c.i], ⟨c.slice, c.i + 1⟩), h) := by
  rw [nextEntry, if_pos (by rw [N.len]; exact hi), bind_ok (N.get c.i hi)]; rfl

theorem nextEntry_none {c : Cursor EntrySlice} {es : List (K × V)} (N : Ents E cap h c.slice es) (hi : es.length ≤ c.i) :
    nextEntry (B := B) (K := K) (V := V) E c h = .ok ((none, c), h) := by
  rw [nextEntry, if_neg (by rw [N.len]; omega)]; rfl

/-- `slice::Iter::next`. -/
theorem slice_step {l : Nat} {c : Cursor (NodeSlice B)} {rest rest' : List (Node B K V)} {o : Option (Node B K V)} (R : SliceIt E cap h l c rest)
    (hv : LeftJoinIter.sliceNext rest = .ok (o, rest')) : ∃ o' c', nextNode E c h = .ok ((o', c'), h) ∧ SliceIt E cap h l c' rest' ∧ Found E cap h l o' o := by
  obtain ⟨ns, N, hle, rfl⟩ := R
  by_cases hi : c.i < ns.length
  · rw [List.drop_eq_getElem_cons hi] at hv
    cases hv
    obtain ⟨rn, h1, h2⟩ := nextNode_some N hi
    exact ⟨_, _, h1, ⟨ns, N, hi, rfl⟩, h2⟩
  · rw [List.drop_eq_nil_of_le (by omega)] at hv
    cases hv
    exact ⟨_, _, nextNode_none N (by omega), ⟨ns, N, hle, by rw [List.drop_eq_nil_of_le (by omega)]⟩, trivial⟩

/-- `Iterator::find` of the rewindable iterators. -/
theorem rewind_find {l : Nat} {p : RNode B → Bool} {q : Node B K V → Bool} (hpq : ∀ rn n, InMem E cap h l rn n → p rn = q n) : ∀ (n m : Nat) {c : Cursor (NodeSlice B)}
    {it it' : RewindIter (Node B K V)} {o : Option (Node B K V)}, RewindIt E cap h l c it → it.findLoop q n = .ok (o, it') → n ≤ m →
    ∃ o' c', findNode E p m c h = .ok ((o', c'), h) ∧ RewindIt E cap h l c' it' ∧ Found E cap h l o' o
  | 0, _, _, _, _, _, _, hv, _ => by cases hv
  | n + 1, 0, _, _, _, _, _, _, hm => by omega
  | n + 1, m + 1, c, it, it', o, ⟨N, he⟩, hv, hm => by
    rw [RewindIter.findLoop, RewindIter.next] at hv
    rw [findNode]
    by_cases hi : it.i < it.slice.length
    · rw [dif_pos hi] at hv
      simp only at hv
      obtain ⟨rn, h1, h2⟩ := nextNode_some (c := c) N (by rw [he]; exact hi)
      simp only [he] at h2
      rw [bind_ok h1]
      simp only
      rw [hpq rn _ h2]
      split at hv
      next hq =>
        cases hv
        rw [if_pos hq]
        exact ⟨_, _, rfl, ⟨N, by rw [he]⟩, h2⟩
      next hq =>
        rw [if_neg hq]
        exact rewind_find hpq n m (c := ⟨c.slice, c.i + 1⟩) (it := ⟨it.slice, it.i + 1⟩) ⟨N, by simp only [he]⟩ hv (by omega)
    · rw [dif_neg hi] at hv
      cases hv
      rw [bind_ok (nextNode_none (c := c) N (by rw [he]; omega))]
      exact ⟨_, _, rfl, ⟨N, he⟩, trivial⟩

/-- `Iterator::find` of slice iterators. -/
theorem slice_find {l : Nat} {p : RNode B → Bool} {q : Node B K V → Bool} (hpq : ∀ rn n, InMem E cap h l rn n → p rn = q n) : ∀ (m : Nat) {c : Cursor (NodeSlice B)}
    {ns : List (Node B K V)}, Nodes E cap h l c.slice ns → c.i ≤ ns.length → ns.length < m + c.i →
    ∃ o' c', findNode E p m c h = .ok ((o', c'), h) ∧ SliceIt E cap h l c' (findNext q (ns.drop c.i)).2 ∧ Found E cap h l o' (findNext q (ns.drop c.i)).1
  | 0, _, _, _, _, _ => by omega
  | m + 1, c, ns, N, hle, hm => by
    rw [findNode]
    by_cases hi : c.i < ns.length
    · obtain ⟨rn, h1, h2⟩ := nextNode_some N hi
      rw [bind_ok h1, List.drop_eq_getElem_cons hi, findNext]
      simp only
      rw [hpq rn _ h2]
      split
      · exact ⟨_, _, rfl, ⟨ns, N, hi, rfl⟩, h2⟩
      · exact slice_find hpq m (c := ⟨c.slice, c.i + 1⟩) N hi (show ns.length < m + (c.i + 1) by omega)
    · rw [bind_ok (nextNode_none N (by omega)), List.drop_eq_nil_of_le (by omega), findNext]
      exact ⟨_, _, rfl, ⟨ns, N, hle, by rw [List.drop_eq_nil_of_le (by omega)]⟩, trivial⟩

theorem ents_find {p : K × V → Bool} : ∀ (m : Nat) {c : Cursor EntrySlice} {es : List (K × V)}, Ents E cap h c.slice es → c.i ≤ es.length → es.length < m + c.i →
    ∃ c', findEntry (B := B) E p m c h = .ok (((findNext p (es.drop c.i)).1, c'), h) ∧ EntsIt E cap h c' (findNext p (es.drop c.i)).2
  | 0, _, _, _, _, _ => by omega
  | m + 1, c, es, N, hle, hm => by
    rw [findEntry]
    by_cases hi : c.i < es.length
    · rw [bind_ok (nextEntry_some N hi), List.drop_eq_getElem_cons hi, findNext]
      simp only
      split
      · exact ⟨_, rfl, ⟨es, N, hi, rfl⟩⟩
      · exact ents_find m (c := ⟨c.slice, c.i + 1⟩) N hi (show es.length < m + (c.i + 1) by omega)
    · rw [bind_ok (nextEntry_none N (by omega)), List.drop_eq_nil_of_le (by omega), findNext]
      exact ⟨_, rfl, ⟨es, N, hle, by rw [List.drop_eq_nil_of_le (by omega)]⟩⟩

/-! ### Bounds for loops -/

theorem weightList_le {l : Nat} : ∀ (ns : List (Node B K V)), (∀ n ∈ ns, n.weight ≤ l) → weightList ns ≤ ns.length * l
  | [], _ => by simp [weightList]
  | n :: ns, hn => by
    rw [weightList, List.length_cons, Nat.succ_mul]
    have := weightList_le ns fun m hm => hn m (List.mem_cons_of_mem _ hm)
    have := hn n List.mem_cons_self
    omega

theorem Nodes.weight {l : Nat} {s : NodeSlice B} {ns : List (Node B K V)} (N : Nodes E cap h l s ns) (i : Nat) : weightList (ns.drop i) ≤ (cap + 1) ^ (l + 2) := by
  have h1 := weightList_le (l := (cap + 1) ^ (l + 1)) (ns.drop i) (by
    intro n hn
    obtain ⟨j, hj, rfl⟩ := List.getElem_of_mem (List.drop_subset _ _ hn)
    obtain ⟨c, _, hc⟩ := N.get j hj
    exact hc.weight)
  have h2 : (ns.drop i).length ≤ cap + 1 := by rw [List.length_drop]; have := N.fits; omega
  calc _ ≤ _ := h1
    _ ≤ (cap + 1) * (cap + 1) ^ (l + 1) := Nat.mul_le_mul_right _ h2
    _ = _ := by rw [← Nat.pow_succ']

theorem sum_le {l : List Nat} {b : Nat} (hb : ∀ x ∈ l, x ≤ b) : l.sum ≤ l.length * b := by
  induction l with
  | nil => simp
  | cons x xs ih =>
    rw [List.sum_cons, List.length_cons, Nat.succ_mul]
    have := ih fun y hy => hb y (List.mem_cons_of_mem _ hy)
    have := hb x List.mem_cons_self
    omega

theorem fuel_le {L L' I I' : Type} {RL : L → L' → Prop} {RI : Nat → I → I' → Prop} {rs : IterStack L I} {vs : IterStack L' I'} {level : Nat} (R : StackRel RL RI rs vs)
    (hl : vs.length = level + 2) (w : StackEntry L' I' → Nat) (h0 : ∀ a b, RL a b → w (.leaf b) ≤ cap) (hi : ∀ i a b, RI i a b → w (.inner b) ≤ (cap + 1) ^ (i + 2)) :
    ((vs.map w).sum + 1) * (vs.length + 1) ≤ stackFuel cap level := by
  have hs : (vs.map w).sum ≤ (level + 2) * (cap + 1) ^ (level + 3) := by
    have := sum_le (l := vs.map w) (b := (cap + 1) ^ (level + 3)) (by
      intro x hx
      obtain ⟨v, hv, rfl⟩ := List.mem_map.1 hx
      obtain ⟨i, hi', rfl⟩ := List.getElem_of_mem hv
      obtain ⟨r, _, hr⟩ := R.get (List.getElem?_eq_getElem hi')
      have hpow : ∀ j, j ≤ level + 3 → (cap + 1) ^ j ≤ (cap + 1) ^ (level + 3) := fun j hj => Nat.pow_le_pow_right (by omega) hj
      revert hr
      generalize vs[i] = v
      intro hr
      match i, r, v, hr, hi' with
      | 0, .leaf a, .leaf b, hr, _ =>
        have := h0 a b hr
        have h1 := hpow 1 (by omega)
        rw [Nat.pow_one] at h1
        omega
      | n + 1, .inner a, .inner b, hr, hn =>
        exact Nat.le_trans (hi n a b hr) (hpow _ (by omega)))
    rw [List.length_map, hl] at this
    exact this
  rw [stackFuel, hl]
  exact Nat.mul_le_mul_right _ (by omega)

theorem LeftRel.fuel {rs : SliceStack B} {vs : TreeIter B K V} (R : LeftRel E cap h rs vs) {level : Nat} (hl : vs.length = level + 2) :
    (vs.weight + 1) * (vs.length + 1) ≤ stackFuel cap level := by
  refine fuel_le R hl _ ?_ ?_
  · rintro a _ ⟨es, N, _, rfl⟩
    have := N.fits
    simp only [List.length_drop]
    omega
  · rintro i a _ ⟨ns, N, _, rfl⟩
    exact N.weight _

theorem RightRel.fuel {rs : SliceStack B} {vs : RewindTreeIter B K V} (R : RightRel E cap h rs vs) {level : Nat} (hl : vs.length = level + 2) :
    (vs.weight + 1) * (vs.length + 1) ≤ stackFuel cap level := by
  refine fuel_le R hl _ ?_ ?_
  · intro _ _ _; exact Nat.zero_le _
  · rintro i a it ⟨N, _⟩
    exact N.weight _

end RTree.Raw
