import Verif.Model.Mut
import Verif.Proofs.Iter
import Verif.Proofs.Tree
/-! Addresses and writes. -/

namespace RTree

variable {B K V Q : Type}

theorem eraseList_eq (cs : List (Node B K V)) : eraseList cs = cs.map Node.erase := by
  induction cs with
  | nil => simp [eraseList]
  | cons c cs ih => simp [eraseList, ih]

mutual
theorem Node.entries_erase (n : Node B K V) : n.erase.entries = n.entries.map fun e => (e.1, ()) := by
  cases n with
  | leaf b es => simp [Node.erase]
  | inner b cs => simp only [Node.erase, entries_inner]; exact entriesList_erase cs
theorem entriesList_erase (cs : List (Node B K V)) :
    entriesList (eraseList cs) = (entriesList cs).map fun e => (e.1, ()) := by
  cases cs with
  | nil => simp [eraseList]
  | cons c cs => simp [eraseList, Node.entries_erase c, entriesList_erase cs]
end

@[simp] theorem Node.bounds_erase (n : Node B K V) : n.erase.bounds = n.bounds := by
  cases n <;> simp [Node.erase, Node.bounds]

@[simp] theorem Node.fanout_erase (n : Node B K V) : n.erase.fanout = n.fanout := by
  cases n <;> simp [Node.erase, Node.fanout, eraseList_eq]

section
variable [Bounds B] [Volume B] [VolumeLaws B] [Bounded K B] {rel : B → List B → Prop} {a : Alloc} {g : Prop}

theorem ok_erase {l : Nat} {n : Node B K V} : Ok rel a g l n.erase ↔ Ok rel a g l n := by
  induction l generalizing n with
  | zero =>
    cases n with
    | leaf b es =>
      simp only [Node.erase, Ok, List.map_map, List.length_map, List.mem_map, forall_exists_index, and_imp,
        forall_apply_eq_imp_iff₂]
      rfl
    | inner b cs => simp [Node.erase, Ok]
  | succ l ih =>
    cases n with
    | leaf b es => simp [Node.erase, Ok]
    | inner b cs =>
      simp only [Node.erase, Ok, entriesList_erase, List.map_map]
      have : (entryBounds ∘ fun e : K × V => (e.1, ())) = (entryBounds : K × V → B) := rfl
      simp only [this, eraseList_eq, List.length_map, List.mem_map, forall_exists_index, and_imp,
        forall_apply_eq_imp_iff₂, ih, Node.fanout_erase, Node.bounds_erase]

theorem treeOk_erase {t : Tree B K V} : TreeOk rel g t.erase ↔ TreeOk rel g t := by
  constructor
  · rintro ⟨h1, h2, h3⟩
    exact ⟨ok_erase.1 h1, h2, by simpa [Tree.erase] using h3⟩
  · rintro ⟨h1, h2, h3⟩
    exact ⟨ok_erase.2 h1, h2, by simpa [Tree.erase] using h3⟩

theorem treeOk_of_erase {W : Type} {t : Tree B K V} {t' : Tree B K W} (h : t'.erase = t.erase)
    (ht : TreeOk rel g t) : TreeOk rel g t' := by
  rw [← treeOk_erase, h, treeOk_erase]; exact ht

end

mutual
theorem Node.size_eq (n : Node B K V) : n.size = n.entries.length := by
  cases n with
  | leaf b es => simp [Node.size]
  | inner b cs => simp only [Node.size, entries_inner]; exact sizeList_eq cs
theorem sizeList_eq (cs : List (Node B K V)) : sizeList cs = (entriesList cs).length := by
  cases cs with
  | nil => simp [sizeList]
  | cons c cs => simp [sizeList, Node.size_eq c, sizeList_eq cs]
end

mutual
theorem Node.erase_addressed (a : Nat) (n : Node B K V) : (n.addressed a).erase = n.erase := by
  cases n with
  | leaf b es =>
    simp only [Node.addressed, Node.erase, List.map_map]
    congr 1
    have : ((fun e : K × Nat => (e.1, ())) ∘ fun e : (K × V) × Nat => (e.1.1, e.2)) =
        (fun e : K × V => (e.1, ())) ∘ Prod.fst := rfl
    rw [this, ← List.map_map, List.zipIdx_map_fst]
  | inner b cs => simp only [Node.addressed, Node.erase, eraseList_addressed a cs]
theorem eraseList_addressed (a : Nat) (cs : List (Node B K V)) :
    eraseList (addressedList a cs) = eraseList cs := by
  cases cs with
  | nil => simp [addressedList, eraseList]
  | cons c cs =>
    simp only [addressedList, eraseList, Node.erase_addressed a c, eraseList_addressed _ cs]
end

mutual
theorem Node.entries_addressed (a : Nat) (n : Node B K V) :
    (n.addressed a).entries = (n.entries.zipIdx a).map fun e => (e.1.1, e.2) := by
  cases n with
  | leaf b es => simp [Node.addressed]
  | inner b cs => simp only [Node.addressed, entries_inner]; exact entriesList_addressed a cs
theorem entriesList_addressed (a : Nat) (cs : List (Node B K V)) :
    entriesList (addressedList a cs) = ((entriesList cs).zipIdx a).map fun e => (e.1.1, e.2) := by
  cases cs with
  | nil => simp [addressedList]
  | cons c cs =>
    simp [addressedList, Node.entries_addressed a c, entriesList_addressed _ cs, List.zipIdx_append,
      Node.size_eq c]
end

mutual
theorem Node.erase_modifyAt (a : Nat) (g : V → V) (n : Node B K V) : (n.modifyAt a g).erase = n.erase := by
  cases n with
  | leaf b es =>
    simp only [Node.modifyAt, Node.erase]
    congr 1
    induction es generalizing a with
    | nil => simp
    | cons e es ih => cases a <;> simp [ih]
  | inner b cs => simp only [Node.modifyAt, Node.erase, eraseList_modifyAt a g cs]
theorem eraseList_modifyAt (a : Nat) (g : V → V) (cs : List (Node B K V)) :
    eraseList (modifyAtList a g cs) = eraseList cs := by
  cases cs with
  | nil => simp [modifyAtList]
  | cons c cs =>
    simp only [modifyAtList]
    split
    · simp only [eraseList, Node.erase_modifyAt a g c]
    · simp only [eraseList, eraseList_modifyAt _ g cs]
end

theorem modify_append_left {α : Type} {f : α → α} {l₁ l₂ : List α} {a : Nat} (h : a < l₁.length) :
    (l₁ ++ l₂).modify a f = l₁.modify a f ++ l₂ := by
  induction l₁ generalizing a with
  | nil => simp at h
  | cons x l ih => cases a <;> simp at h ⊢; exact ih h

theorem modify_append_right {α : Type} {f : α → α} {l₁ l₂ : List α} {a : Nat} (h : l₁.length ≤ a) :
    (l₁ ++ l₂).modify a f = l₁ ++ l₂.modify (a - l₁.length) f := by
  induction l₁ generalizing a with
  | nil => simp
  | cons x l ih => cases a <;> simp at h ⊢; exact ih h

mutual
theorem Node.entries_modifyAt (a : Nat) (g : V → V) (n : Node B K V) :
    (n.modifyAt a g).entries = n.entries.modify a fun e => (e.1, g e.2) := by
  cases n with
  | leaf b es => simp [Node.modifyAt]
  | inner b cs => simp only [Node.modifyAt, entries_inner]; exact entriesList_modifyAt a g cs
theorem entriesList_modifyAt (a : Nat) (g : V → V) (cs : List (Node B K V)) :
    entriesList (modifyAtList a g cs) = (entriesList cs).modify a fun e => (e.1, g e.2) := by
  cases cs with
  | nil => simp [modifyAtList]
  | cons c cs =>
    simp only [modifyAtList]
    split
    · rename_i h
      rw [Node.size_eq] at h
      simp only [entriesList_cons, Node.entries_modifyAt a g c, modify_append_left h]
    · rename_i h
      rw [Node.size_eq] at h
      simp only [entriesList_cons, entriesList_modifyAt _ g cs, modify_append_right (Nat.le_of_not_lt h),
        Node.size_eq]
end

theorem Tree.erase_addressed (t : Tree B K V) : t.addressed.erase = t.erase := by
  simp [Tree.addressed, Tree.erase, Node.erase_addressed]

theorem Tree.erase_modifyAt (a : Nat) (g : V → V) (t : Tree B K V) : (t.modifyAt a g).erase = t.erase := by
  simp [Tree.modifyAt, Tree.erase, Node.erase_modifyAt]

theorem Tree.entries_modifyAt (a : Nat) (g : V → V) (t : Tree B K V) :
    (t.modifyAt a g).entries = t.entries.modify a fun e => (e.1, g e.2) :=
  Node.entries_modifyAt a g t.root

theorem Tree.entries_addressed (t : Tree B K V) :
    t.addressed.entries = t.entries.zipIdx.map fun e => (e.1.1, e.2) := Node.entries_addressed 0 t.root

theorem Tree.addressed_nodup (t : Tree B K V) : (t.addressed.entries.map Prod.snd).Nodup := by
  rw [Tree.entries_addressed]
  have : (t.entries.zipIdx.map fun e => (e.1.1, e.2)).map Prod.snd = List.range t.entries.length := by
    rw [List.map_map]
    have : (Prod.snd ∘ fun e : (K × V) × Nat => (e.1.1, e.2)) = Prod.snd := rfl
    rw [this, List.zipIdx_map_snd, List.range_eq_range']
  rw [this]
  exact List.nodup_range

/-- Writing through a set of distinct references changes exactly the values they refer to. -/
theorem Tree.entries_writeAll (u : K → V → V) (refs : List (K × Nat)) (t : Tree B K V)
    (hn : (refs.map (·.2)).Nodup) :
    (t.writeAll u refs).entries = t.entries.zipIdx.map fun e =>
      match refs.find? fun r => r.2 == e.2 with
      | some r => (e.1.1, u r.1 e.1.2)
      | none => e.1 := by
  induction refs generalizing t with
  | nil => simp [Tree.writeAll]
  | cons r refs ih =>
    simp only [List.map_cons, List.nodup_cons] at hn
    have : t.writeAll u (r :: refs) = (t.modifyAt r.2 (u r.1)).writeAll u refs := rfl
    rw [this, ih _ hn.2, Tree.entries_modifyAt]
    apply List.ext_getElem?
    intro i
    simp only [List.getElem?_map, List.getElem?_zipIdx, List.getElem?_modify, Nat.zero_add]
    cases he : t.entries[i]? with
    | none => simp
    | some e =>
      simp only [Option.map_some, List.find?_cons]
      by_cases hr : r.2 = i
      · have hnone : refs.find? (fun x => x.2 == i) = none := by
          rw [List.find?_eq_none]
          intro x hx hxi
          exact hn.1 (List.mem_map.2 ⟨x, hx, by rw [hr]; simpa using hxi⟩)
        simp [hr, hnone]
      · have : (r.2 == i) = false := by simpa using hr
        simp [hr, this]

theorem Tree.erase_writeAll (u : K → V → V) (refs : List (K × Nat)) (t : Tree B K V) :
    (t.writeAll u refs).erase = t.erase := by
  induction refs generalizing t with
  | nil => rfl
  | cons r refs ih => exact (ih _).trans (Tree.erase_modifyAt _ _ _)

section

variable [Bounds B] [Bounded Q B] [BEq Q]

omit [Bounds B] [Bounded Q B] [BEq Q] in
theorem findEntryMut_erase {p : K → Bool} : ∀ {es : List (K × V)} {v : V} {back : V → List (K × V)}, findEntryMut p es = some (v, back) →
    ∀ v', (back v').map (fun e => (e.1, ())) = es.map fun e => (e.1, ())
  | [], _, _, h, _ => by simp [findEntryMut] at h
  | e :: es, v, back, h, v' => by
    rw [findEntryMut] at h
    split at h
    · cases h; rfl
    · cases hx : findEntryMut p es with
      | none => simp [hx] at h
      | some r =>
        simp only [hx, Option.map_some, Option.some.injEq, Prod.mk.injEq] at h
        obtain ⟨rfl, rfl⟩ := h
        simp [findEntryMut_erase hx v']

theorem getMutChildren_erase {q : Q} {rec : Node B K V → Res (Option (V × (V → Node B K V)))}
    (hr : ∀ n v back, rec n = .ok (some (v, back)) → ∀ v', (back v').erase = n.erase) :
    ∀ {cs : List (Node B K V)} {v : V} {back : V → List (Node B K V)}, getMutChildren q rec cs = .ok (some (v, back)) →
    ∀ v', eraseList (back v') = eraseList cs
  | [], _, _, h, _ => by simp [getMutChildren] at h
  | c :: cs, v, back, h, v' => by
    rw [getMutChildren] at h
    obtain ⟨found, hf, h⟩ := bind_eq_ok.1 h
    cases found with
    | some x =>
      obtain ⟨v₀, b₀⟩ := x
      simp only [pure_eq_ok, Except.ok.injEq, Option.some.injEq, Prod.mk.injEq] at h
      obtain ⟨rfl, rfl⟩ := h
      split at hf
      · simp [eraseList, hr _ _ _ hf v']
      · simp at hf
    | none =>
      obtain ⟨found, hf, h⟩ := bind_eq_ok.1 h
      cases found with
      | some x =>
        obtain ⟨v₀, b₀⟩ := x
        simp only [pure_eq_ok, Except.ok.injEq, Option.some.injEq, Prod.mk.injEq] at h
        obtain ⟨rfl, rfl⟩ := h
        simp [eraseList, getMutChildren_erase hr hf v']
      | none => simp at h

theorem getMutNode_erase {borrow : K → Q} {q : Q} : ∀ (l : Nat) (n : Node B K V) (v : V) (back : V → Node B K V),
    getMutNode borrow q l n = .ok (some (v, back)) → ∀ v', (back v').erase = n.erase
  | 0, n, v, back, h, v' => by
    rw [getMutNode] at h
    obtain ⟨es, he, h⟩ := bind_eq_ok.1 h
    cases n with
    | inner b cs => simp [Node.leafChildren] at he
    | leaf b es' =>
      simp only [Node.leafChildren, Except.ok.injEq] at he
      subst he
      cases hx : findEntryMut (fun k => borrow k == q) es' with
      | none => simp [hx] at h
      | some r =>
        simp only [hx, pure_eq_ok, Except.ok.injEq, Option.some.injEq, Prod.mk.injEq] at h
        obtain ⟨rfl, rfl⟩ := h
        simp [Node.erase, Node.bounds, findEntryMut_erase hx v']
  | l + 1, n, v, back, h, v' => by
    rw [getMutNode] at h
    obtain ⟨cs, he, h⟩ := bind_eq_ok.1 h
    cases n with
    | leaf b es => simp [Node.innerChildren] at he
    | inner b cs' =>
      simp only [Node.innerChildren, Except.ok.injEq] at he
      subst he
      obtain ⟨r, hx, h⟩ := bind_eq_ok.1 h
      cases r with
      | none => simp at h
      | some r =>
        simp only [pure_eq_ok, Except.ok.injEq, Option.some.injEq, Prod.mk.injEq] at h
        obtain ⟨rfl, rfl⟩ := h
        simp [Node.erase, Node.bounds, getMutChildren_erase (getMutNode_erase l) hx v']

/-- Writing through the reference of `get_mut` changes nothing but values. -/
theorem Tree.getMut_erase {borrow : K → Q} {q : Q} {t : Tree B K V} {v : V} {back : V → Tree B K V} (h : t.getMut borrow q = .ok (some (v, back))) (v' : V) :
    (back v').erase = t.erase := by
  unfold Tree.getMut at h
  obtain ⟨r, hx, h⟩ := bind_eq_ok.1 h
  cases r with
  | none => simp at h
  | some r =>
    simp only [pure_eq_ok, Except.ok.injEq, Option.some.injEq, Prod.mk.injEq] at h
    obtain ⟨rfl, rfl⟩ := h
    simp [Tree.erase, getMutNode_erase _ _ _ _ hx v']

end

end RTree
