import Verif.Proofs.RawSplit
import Verif.Proofs.Split
import Verif.Proofs.Lookup
/-!
# Trees in memory and the trees of the value-level model

A ghost node has the bounds, the vector and the list of children of a node in memory.  Its type depends on its level, as the
interpretation of the untagged memory does.  From it one reads off the node in memory (`raw`), the node of the value-level
model (`node`), the blocks it owns and what they hold (`chunks`), and its entries (`ents`).
-/

namespace RTree.Raw

variable {B K V Q : Type}

/-- A node whose children have type `I`. -/
structure GN (B I : Type) where
  bounds : B
  vec : FCVec
  kids : List I

/-- What the vector of a node of level `l` holds. -/
@[reducible] def Item (B K V : Type) : Nat → Type
  | 0 => K × V
  | l + 1 => GN B (Item B K V l)

/-- A node of level `l`. -/
abbrev G (B K V : Type) (l : Nat) := GN B (Item B K V l)

/-- The node in memory. -/
def raw {I : Type} (g : GN B I) : RNode B := ⟨g.bounds, g.vec⟩

/-- The slot in memory. -/
def cell : (l : Nat) → Item B K V l → Cell B K V
  | 0, e => .entry e
  | _ + 1, g => .node (raw g)

/-- The value-level node. -/
def node : (l : Nat) → G B K V l → Node B K V
  | 0, g => .leaf g.bounds g.kids
  | l + 1, g => .inner g.bounds (g.kids.map (node l))

/-- The blocks below an item. -/
def chunksI (E : TEnv) (cap : Nat) : (l : Nat) → Item B K V l → List (Chunk (Cell B K V))
  | 0, _ => []
  | l + 1, g => vecC (RTree.slotEnv E l) cap g.vec (g.kids.map (cell l)) :: g.kids.flatMap (chunksI E cap l)

/-- The blocks of a list of items. -/
abbrev chunksL (E : TEnv) (cap l : Nat) (kids : List (Item B K V l)) : List (Chunk (Cell B K V)) := kids.flatMap (chunksI E cap l)

/-- The blocks of a node. -/
abbrev chunks (E : TEnv) (cap l : Nat) (g : G B K V l) : List (Chunk (Cell B K V)) :=
  vecC (RTree.slotEnv E l) cap g.vec (g.kids.map (cell l)) :: chunksL E cap l g.kids

theorem chunksI_succ (E : TEnv) (cap l : Nat) (g : G B K V l) : chunksI E cap (l + 1) g = chunks E cap l g := rfl

/-- The entries below an item. -/
def entsI : (l : Nat) → Item B K V l → List (K × V)
  | 0, e => [e]
  | l + 1, g => g.kids.flatMap (entsI l)

/-- The entries below a node. -/
abbrev ents (l : Nat) (g : G B K V l) : List (K × V) := g.kids.flatMap (entsI l)

theorem ents_node : ∀ (l : Nat) (g : G B K V l), (node l g).entries = ents l g
  | 0, g => by
    show g.kids = g.kids.flatMap (fun e => [e])
    simp
  | l + 1, g => by
    rw [node, Node.entries, ents]
    induction g.kids with
    | nil => rfl
    | cons c cs ih =>
      rw [List.map_cons, entriesList, ih, List.flatMap_cons]
      congr 1
      exact ents_node l c

/-- What is assumed about sizes: element types are not zero-sized, a full vector is not larger than `isize::MAX` bytes, and
    vectors have room for at least one element. -/
structure Sizes (E : TEnv) (cap : Nat) : Prop where
  node : 0 < E.node.size
  entry : 0 < E.entry.size
  nodeMax : cap * E.node.size ≤ E.node.maxBytes
  entryMax : cap * E.entry.size ≤ E.entry.maxBytes
  cap : 0 < cap

section

variable {E : TEnv} {cap : Nat}

theorem Sizes.size (S : Sizes E cap) : ∀ l, 0 < (RTree.slotEnv E l).size
  | 0 => S.entry
  | _ + 1 => S.node

theorem Sizes.max (S : Sizes E cap) : ∀ l, cap * (RTree.slotEnv E l).size ≤ (RTree.slotEnv E l).maxBytes
  | 0 => S.entryMax
  | _ + 1 => S.nodeMax

theorem Sizes.pos (S : Sizes E cap) (l : Nat) : 0 < cap * (RTree.slotEnv E l).size ∨ (RTree.slotEnv E l).zeroOk = true :=
  .inl (Nat.mul_pos S.cap (S.size l))

end

/-! ### Lists -/

theorem flatMap_set {α β : Type} (f : α → List β) {l : List α} {i : Nat} (hi : i < l.length) (a : α) :
    ((l.set i a).flatMap f).Perm (f a ++ (l.eraseIdx i).flatMap f) := by
  induction l generalizing i with
  | nil => simp at hi
  | cons x l ih =>
    cases i with
    | zero => simp
    | succ i =>
      simp only [List.set_cons_succ, List.flatMap_cons, List.eraseIdx_cons_succ]
      refine ((ih (by simpa using hi)).append_left _).trans ?_
      rw [← List.append_assoc, ← List.append_assoc]
      exact List.perm_append_comm.append_right _

theorem flatMap_get {α β : Type} (f : α → List β) {l : List α} {i : Nat} (hi : i < l.length) :
    (l.flatMap f).Perm (f l[i] ++ (l.eraseIdx i).flatMap f) := by
  have := flatMap_set f hi l[i]
  rwa [List.set_getElem_self] at this

theorem swapRemove_perm {α : Type} {l l' : List α} {i : Nat} {a : α} (h : Vec.swapRemove l i = .ok (a, l')) : l.Perm (a :: l') := by
  rw [Vec.swapRemove] at h
  split at h
  next x z hx hz =>
    cases h
    have hne : l ≠ [] := by rintro rfl; simp at hz
    obtain ⟨hi, rfl⟩ := List.getElem?_eq_some_iff.1 hx
    have hz' : l.getLast hne = z := by rw [List.getLast?_eq_some_getLast hne] at hz; exact Option.some.inj hz
    have h1 : (l.set i z).Perm (z :: (l.set i z).dropLast) ∨ i = l.length - 1 := by
      by_cases hl : i = l.length - 1
      · exact .inr hl
      · left
        have hne' : l.set i z ≠ [] := by simpa using hne
        have : (l.set i z).getLast hne' = z := by
          rw [List.getLast_eq_getElem, List.getElem_set_ne (by simpa using hl)]
          simpa [List.getLast_eq_getElem] using hz'
        conv => lhs; rw [← List.dropLast_concat_getLast hne', this]
        exact List.perm_append_singleton _ _
    rcases h1 with h1 | h1
    · classical
      rw [List.perm_iff_count] at h1 ⊢
      intro b
      have := h1 b
      rw [List.count_set hi, List.count_cons] at this
      rw [List.count_cons]
      have h2 : (if l[i] = b then 1 else 0) ≤ l.count b := by
        split
        next h => subst h; exact List.one_le_count_iff.2 (List.getElem_mem hi)
        next => omega
      simp only [beq_iff_eq] at *
      omega
    · have : l.set i z = l := by
        subst h1
        rw [← hz', List.getLast_eq_getElem, List.set_getElem_self]
      rw [this]
      conv => lhs; rw [← List.dropLast_concat_getLast hne]
      refine (List.perm_append_singleton _ _).trans ?_
      have : l[i] = l.getLast hne := by subst h1; rw [List.getLast_eq_getElem]
      rw [this]
  next => cases h

/-- Permutations of concatenations, from given ones. -/
syntax "perms" (" [" term,* "]")? : tactic
macro_rules
  | `(tactic| perms) => `(tactic| perms [])
  | `(tactic| perms [$hs,*]) => do
    let hs := hs.getElems
    let mut tac ← `(tactic| skip)
    for h in hs do
      tac ← `(tactic| ($tac; have hperm := List.perm_iff_count.1 $h b; revert hperm))
    `(tactic| (
      classical
      refine List.perm_iff_count.2 fun b => ?_
      $tac
      simp only [chunks, chunksL, ents, List.append_eq, List.flatMap_append, List.flatMap_cons, List.flatMap_nil, List.count_append, List.count_cons, List.count_nil, List.nil_append,
        List.cons_append, List.append_nil]
      omega))

end RTree.Raw
