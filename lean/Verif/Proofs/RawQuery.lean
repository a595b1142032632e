import Verif.Model.RawQuery
import Verif.Proofs.RawOps
import Verif.Proofs.Iter
/-!
# Iteration over a tree in raw memory is iteration over the tree
-/

namespace RTree.Raw

variable {B K V Q : Type} {E : TEnv} {h : Heap (Cell B K V)} {cap : Nat}

theorem queryLeaf_ok (S : Sizes E cap) (borrow : K → Q) (f : SpatialFilter B Q) {v : FCVec} {es : List (K × V)}
    (H : Has h [vecC E.entry cap v (es.map (cell (B := B) 0))]) : ∀ (n i : Nat), i + n = es.length →
    queryLeaf E borrow f v n i h = .ok ((es.drop i).filter fun e => f.testKey (borrow e.1), h)
  | 0, i, hi => by
    rw [List.drop_eq_nil_of_le (by omega)]; rfl
  | n + 1, i, hi => by
    have hlt : i < es.length := by omega
    have := FCVec.get_ok H.owns S.entry i
    simp only [index, List.getElem?_map, List.getElem?_eq_getElem hlt, Option.map_some] at this
    rw [queryLeaf, bind_ok this]
    have e1 : (lift (cell (B := B) (V := V) 0 es[i]).asEntry : TM B K V (K × V)) h = .ok (es[i], h) := rfl
    rw [bind_ok e1, bind_ok (queryLeaf_ok S borrow f H n (i + 1) (by omega)), List.drop_eq_getElem_cons hlt, List.filter_cons]
    rfl

theorem queryInner_ok (S : Sizes E cap) (f : SpatialFilter B Q) {rec : RNode B → TM B K V (List (K × V))} {l : Nat} {v : FCVec} {kids : List (Item B K V (l + 1))}
    (H : Has h [vecC E.node cap v (kids.map (cell (l + 1)))]) {m : Item B K V (l + 1) → List (K × V)} (hr : ∀ g ∈ kids, rec (raw g) h = .ok (m g, h)) :
    ∀ (n i : Nat), i + n = kids.length →
    queryInner E f rec v n i h = .ok ((kids.drop i).flatMap fun g => if f.testBounds (raw g).bounds then m g else [], h)
  | 0, i, hi => by
    rw [List.drop_eq_nil_of_le (by omega)]; rfl
  | n + 1, i, hi => by
    have hlt : i < kids.length := by omega
    obtain ⟨_, _, e0, rfl, rfl, _⟩ := (nodeAt_sim S H i).of_ok (a := kids[i]) (by simp [index, hlt])
    rw [queryInner, bind_ok e0]
    have e1 : (if f.testBounds (raw kids[i]).bounds then rec (raw kids[i]) else pure [] : TM B K V (List (K × V))) h =
        .ok (if f.testBounds (raw kids[i]).bounds then m kids[i] else [], h) := by
      split
      · exact hr _ (List.getElem_mem hlt)
      · rfl
    rw [bind_ok e1, bind_ok (queryInner_ok S f H hr n (i + 1) (by omega)), List.drop_eq_getElem_cons hlt, List.flatMap_cons]
    rfl

theorem queryNode_ok (S : Sizes E cap) (borrow : K → Q) (f : SpatialFilter B Q) : ∀ (l : Nat) (g : G B K V l), Has h (chunks E cap l g) →
    queryNode E borrow f l (raw g) h = .ok ((node l g).matching f.testBounds fun e => f.testKey (borrow e.1), h)
  | 0, g, H => by
    have hlen : (raw g).vec.len = g.kids.length := by
      have := (H.holds _ List.mem_cons_self : Owns _ _ _ _ _).len
      simpa [raw] using this
    have H' : Has h ([vecC E.entry cap g.vec (g.kids.map (cell 0))] ++ chunksL E cap 0 g.kids) := H
    rw [queryNode, hlen]
    refine (queryLeaf_ok S borrow f H'.left _ 0 (by omega)).trans ?_
    rw [List.drop_zero, node, Node.matching]
  | l + 1, g, H => by
    have hlen : (raw g).vec.len = g.kids.length := by
      have := (H.holds _ List.mem_cons_self : Owns _ _ _ _ _).len
      simpa [raw] using this
    have H' : Has h ([vecC E.node cap g.vec (g.kids.map (cell (l + 1)))] ++ chunksL E cap (l + 1) g.kids) := H
    rw [queryNode, hlen]
    refine (queryInner_ok S f H'.left (m := fun c => (node l c).matching f.testBounds fun e => f.testKey (borrow e.1)) ?_ _ 0 (by omega)).trans ?_
    · intro c hc
      refine queryNode_ok S borrow f l c ?_
      obtain ⟨as, bs, e⟩ := List.append_of_mem hc
      have hk := H'.right
      rw [e, chunksL, List.flatMap_append, List.flatMap_cons] at hk
      exact hk.right.left
    · rw [List.drop_zero, node, Node.matching]
      congr 2
      induction g.kids with
      | nil => rfl
      | cons c cs ih =>
        rw [List.flatMap_cons, List.map_cons, matchingList, ih]
        congr 1
        have : (node l c).bounds = (raw c).bounds := by cases l <;> rfl
        rw [this]

theorem filterIter_ok (t : GTree B K V) (S : Sizes E t.alloc.maxChildren) (borrow : K → Q) (f : SpatialFilter B Q) (H : Has h (t.own E))
    (hs : Shape t.abs.level t.abs.root) : ∃ es, t.abs.filterIter borrow f = .ok es ∧ RTree.filterIter E borrow f t.rawT h = .ok (es, h) := by
  refine ⟨_, Tree.filterIter_of_shape borrow f hs, ?_⟩
  have hb : t.abs.root.bounds = t.rawT.root.bounds := by
    obtain ⟨a, l, g⟩ := t
    cases l <;> rfl
  rw [RTree.filterIter, hb]
  split
  · exact queryNode_ok S borrow f t.level t.root H
  · rfl

theorem iter_ok (t : GTree B K V) (S : Sizes E t.alloc.maxChildren) (H : Has h (t.own E)) (hs : Shape t.abs.level t.abs.root) :
    ∃ es, t.abs.iter = .ok es ∧ RTree.iter E t.rawT h = .ok (es, h) :=
  ⟨_, Tree.iter_of_shape hs, queryNode_ok S id (noFilter B K) t.level t.root H⟩

end RTree.Raw
