import Verif.Proofs.Tree
import Verif.Proofs.Iter
/-! Which entry `remove` takes. -/

namespace RTree

variable {B K V Q : Type}

@[simp] theorem leaves_leaf (b : B) (es : List (K × V)) : (Node.leaf b es).leaves = [es] := by simp [Node.leaves]
@[simp] theorem leaves_inner (b : B) (cs : List (Node B K V)) : (Node.inner b cs).leaves = leavesList cs := by
  simp [Node.leaves]
@[simp] theorem leavesList_nil : leavesList ([] : List (Node B K V)) = [] := by simp [leavesList]
@[simp] theorem leavesList_cons (c : Node B K V) (cs) : leavesList (c :: cs) = c.leaves ++ leavesList cs := by
  simp [leavesList]
@[simp] theorem leavesList_append (cs ds : List (Node B K V)) :
    leavesList (cs ++ ds) = leavesList cs ++ leavesList ds := by
  induction cs <;> simp_all

theorem leaves_flatten : ∀ (l : Nat) (n : Node B K V), Shape l n → n.leaves.flatten = n.entries
  | 0, .leaf b es, _ => by simp
  | 0, .inner _ _, h => by simp [Shape] at h
  | l + 1, .leaf _ _, h => by simp [Shape] at h
  | l + 1, .inner b cs, h => by
    simp only [Shape] at h
    simp only [leaves_inner, entries_inner]
    induction cs with
    | nil => simp
    | cons c cs ih =>
      have h1 := leaves_flatten l c (h c (by simp))
      have h2 := ih fun d hd => h d (by simp [hd])
      simp [h1, h2]

theorem Sat.weaken {α : Type} {x : Res α} {E : Panic → Prop} {P : α → Prop} (h : Sat x E P) :
    Sat x (fun _ => True) P := by
  cases x with
  | ok a => exact h
  | error e => exact trivial

section

variable [Bounds B] [Volume B] [VolumeLaws B] [Bounded K B] [Bounded Q B] [BEq Q]
variable {rel : B → List B → Prop} {a : Alloc} {g : Prop}

/-- The value of the first match in the last leaf with a match. -/
def lastLeafMatch (borrow : K → Q) (q : Q) (leaves : List (List (K × V))) : Option V :=
  leaves.reverse.findSome? fun es => (es.find? fun e => borrow e.1 == q).map (·.2)

omit [Bounds B] [Volume B] [VolumeLaws B] [Bounded K B] [Bounded Q B] in
theorem lastLeafMatch_append (borrow : K → Q) (q : Q) (l r : List (List (K × V))) :
    lastLeafMatch borrow q (l ++ r) = (lastLeafMatch borrow q r).or (lastLeafMatch borrow q l) := by
  simp [lastLeafMatch, List.findSome?_append]

omit [Bounds B] [Volume B] [VolumeLaws B] [Bounded K B] [Bounded Q B] in
theorem lastLeafMatch_none {borrow : K → Q} {q : Q} {l : Nat} {n : Node B K V} (hsh : Shape l n)
    (h : ∀ e ∈ n.entries, (borrow e.1 == q) = false) : lastLeafMatch borrow q n.leaves = none := by
  rw [← leaves_flatten l n hsh] at h
  simp only [lastLeafMatch, List.findSome?_eq_none_iff, List.mem_reverse, Option.map_eq_none_iff,
    List.find?_eq_none]
  intro es hes e he
  simpa using h e (List.mem_flatten.2 ⟨es, hes, he⟩)

/-- `remove` takes the first match in the last leaf with a match. -/
theorem removeNode_value (L : AggLaws rel) (hg : g → a.Good) {borrow : K → Q} {q : Q}
    (hprune : ∀ b bs, rel b bs → (Bounded.bounds q : B) ∈ bs → Bounds.intersects b (Bounded.bounds q) = true)
    (hbq : ∀ k : K, (borrow k == q) = true → (Bounded.bounds k : B) = Bounded.bounds q)
    (level : Nat) (node : Node B K V) (r : Reinsert B K V) (hn : Ok rel a g level node)
    (hr : ∀ j, j < level → r[j]? = some none) :
    Sat (removeNode a borrow q level node r) (fun _ => True)
      (fun x => x.2.1 = lastLeafMatch borrow q node.leaves) := by
  induction level generalizing node r with
  | zero =>
    obtain ⟨b, es, rfl, -⟩ := hn.leaf
    simp only [removeNode, Node.leafChildren, ok_bind]
    cases hfind : es.findIdx? (fun e => borrow e.1 == q) with
    | none =>
      rw [List.findIdx?_eq_none_iff] at hfind
      exact (lastLeafMatch_none (l := 0) (by simp [Shape]) (by simpa using hfind)).symm
    | some i =>
      have hf := hfind
      rw [List.findIdx?_eq_some_iff_getElem] at hfind
      obtain ⟨hi, hmatch, hbefore⟩ := hfind
      obtain ⟨es', hsr, -⟩ := Vec.swapRemove_spec es i hi
      simp only [hsr, ok_bind]
      have : es.find? (fun e => borrow e.1 == q) = some es[i] := by
        rw [List.find?_eq_some_iff_getElem]
        exact ⟨hmatch, i, hi, rfl, fun j hj => by simpa using hbefore j hj⟩
      simp [lastLeafMatch, this]
  | succ l ih =>
    obtain ⟨b, cs, rfl, hrel, hlen, hcs⟩ := hn.inner
    simp only [removeNode, Node.innerChildren, ok_bind]
    have loop : ∀ i, i ≤ cs.length → Sat (removeLoop a l q (removeNode a borrow q l) i cs r) (fun _ => True)
        fun x => x.2.1 = lastLeafMatch borrow q (leavesList (cs.take i)) := by
      intro i
      induction i with
      | zero => intro _; simp [removeLoop, lastLeafMatch]
      | succ i ihi =>
        intro hi
        have hi' : i < cs.length := by omega
        have htake : cs.take (i + 1) = cs.take i ++ [cs[i]] := by simp
        have hci := hcs _ (List.getElem_mem hi')
        unfold removeLoop
        refine Sat.bind (Sat.index (P := fun c => c = cs[i]) hi' rfl) ?_
        rintro _ rfl
        rw [htake, leavesList_append, lastLeafMatch_append]
        simp only [leavesList_cons, leavesList_nil, List.append_nil]
        have hcont : lastLeafMatch borrow q cs[i].leaves = none →
            Sat (removeLoop a l q (removeNode a borrow q l) i cs r) (fun _ => True) fun x =>
              x.2.1 = (lastLeafMatch borrow q cs[i].leaves).or (lastLeafMatch borrow q (leavesList (cs.take i))) := by
          intro hnone
          rw [hnone]
          simpa using ihi (by omega)
        split
        · have hr' : ∀ j, j < l → r[j]? = some none := fun j hj => hr j (by omega)
          have h1 := ih cs[i] r hci.1 hr'
          have h2 := (sat_removeNode L hg (complete := False) (borrow := borrow) (q := q) (fun h => h.elim)
            (fun h => h.elim) l cs[i] r hci.1 hr').weaken
          refine Sat.bind (Sat.and h1 h2) ?_
          rintro ⟨c', v, r'⟩ ⟨hv, hp⟩
          simp only at hv
          cases v with
          | none =>
            obtain ⟨rfl, rfl, -⟩ := hp
            simp only [List.set_getElem_self]
            exact hcont hv.symm
          | some v =>
            simp only [← hv, Option.some_or]
            refine Sat.bind (P := fun _ => True) (by cases shallowLen l c' <;> simp) fun n _ => ?_
            split
            · refine Sat.bind (P := fun _ => True) (by cases Vec.swapRemove (cs.set i c') i <;> simp) fun x _ => ?_
              refine Sat.bind (P := fun _ => True) (by cases nodeChildren l x.1 <;> simp) fun y _ => ?_
              refine Sat.bind (P := fun _ => True) (by cases onUnderfull l y r' <;> simp) fun z _ => ?_
              simp
            · simp
        · rename_i hint
          refine hcont (lastLeafMatch_none hci.1.shape fun e he => ?_)
          refine Bool.eq_false_iff.2 fun heq => hint (hprune _ _ hci.1.agg ?_)
          rw [← hbq e.1 heq]
          exact List.mem_map.2 ⟨e, he, rfl⟩
    refine Sat.bind (loop cs.length (Nat.le_refl _)) ?_
    rintro ⟨cs', v, r'⟩ hv
    rw [List.take_length] at hv
    simp only at hv
    cases v <;> simpa using hv

end

end RTree
