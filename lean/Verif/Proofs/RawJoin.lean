import Verif.Model.RawJoin
import Verif.Proofs.RawQuery
import Verif.Proofs.Join
/-!
# Joins of trees in raw memory are joins of the trees
-/

namespace RTree.Raw

variable {B K V Q : Type} {E : TEnv} {h : Heap (Cell B K V)} {cap cap0 cap1 : Nat}

theorem productRound_ok {α : Type} {visit : Nat → Nat → TM B K V (EntryPairs K V)} {j : Nat} {as : List α} {F : α → EntryPairs K V}
    (hv : ∀ i (hi : i < as.length), visit i j h = .ok (F as[i], h)) : ∀ (n i : Nat), i + n = as.length →
    productRound visit j n i h = .ok ((as.drop i).flatMap F, h)
  | 0, i, hi => by
    rw [List.drop_eq_nil_of_le (by omega)]; rfl
  | n + 1, i, hi => by
    have hlt : i < as.length := by omega
    rw [productRound, bind_ok (hv i hlt), bind_ok (productRound_ok hv n (i + 1) (by omega)), List.drop_eq_getElem_cons hlt, List.flatMap_cons]
    rfl

theorem productLoop_ok {α β : Type} {visit : Nat → Nat → TM B K V (EntryPairs K V)} {as : List α} {bs : List β} {F : α × β → EntryPairs K V}
    (hv : ∀ i (hi : i < as.length) j (hj : j < bs.length), visit i j h = .ok (F (as[i], bs[j]), h)) : ∀ (m j : Nat), j + m = bs.length →
    productLoop visit as.length m j h = .ok ((pairs as (bs.drop j)).flatMap F, h)
  | 0, j, hj => by
    rw [List.drop_eq_nil_of_le (by omega)]; rfl
  | m + 1, j, hj => by
    have hlt : j < bs.length := by omega
    have h1 := productRound_ok (h := h) (visit := visit) (j := j) (as := as) (F := fun a => F (a, bs[j])) (fun i hi => hv i hi j hlt) as.length 0 (by omega)
    rw [productLoop, bind_ok h1, bind_ok (productLoop_ok hv m (j + 1) (by omega)), List.drop_eq_getElem_cons hlt]
    have : pairs as (bs[j] :: bs.drop (j + 1)) = as.map (fun a => (a, bs[j])) ++ pairs as (bs.drop (j + 1)) := rfl
    rw [this, List.flatMap_append, List.flatMap_map, List.drop_zero]
    rfl

theorem entryAt_ok (S : Sizes E cap) {v : FCVec} {es : List (K × V)} (H : Has h [vecC E.entry cap v (es.map (cell (B := B) 0))]) {i : Nat} (hi : i < es.length)
    {β : Type} {f : K × V → TM B K V β} : (do
      let cell : Cell B K V ← v.get E.entry i
      let e ← lift cell.asEntry
      f e) h = f es[i] h := by
  have := FCVec.get_ok H.owns S.entry i
  simp only [index, List.getElem?_map, List.getElem?_eq_getElem hi, Option.map_some] at this
  rw [bind_ok this]
  have e1 : (lift (cell (B := B) (V := V) 0 es[i]).asEntry : TM B K V (K × V)) h = .ok (es[i], h) := rfl
  rw [bind_ok e1]

theorem kid_header_bounds (l : Nat) (g : G B K V l) : (node l g).bounds = (raw g).bounds := by cases l <;> rfl

theorem kid_has {l : Nat} {g : G B K V (l + 1)} (H : Has h (chunks E cap (l + 1) g)) : ∀ c ∈ g.kids, Has h (chunks E cap l c) := by
  intro c hc
  obtain ⟨as, bs, e⟩ := List.append_of_mem hc
  have H' : Has h ([vecC E.node cap g.vec (g.kids.map (cell (l + 1)))] ++ chunksL E cap (l + 1) g.kids) := H
  have hk := H'.right
  rw [e, chunksL, List.flatMap_append, List.flatMap_cons] at hk
  exact hk.right.left

/-- A header in memory is that of a node of level `l`. -/
def InMem (E : TEnv) (cap : Nat) (h : Heap (Cell B K V)) (l : Nat) (rn : RNode B) (n : Node B K V) : Prop :=
  ∃ g : G B K V l, rn = raw g ∧ n = node l g ∧ Has h (chunks E cap l g)

theorem InMem.bounds {l : Nat} {rn : RNode B} {n : Node B K V} (H : InMem E cap h l rn n) : n.bounds = rn.bounds := by
  obtain ⟨g, rfl, rfl, _⟩ := H
  exact kid_header_bounds l g

theorem InMem.leaf {rn : RNode B} {n : Node B K V} (H : InMem E cap h 0 rn n) : ∃ b es, n = .leaf b es ∧ rn.vec.len = es.length ∧
    Has h [vecC E.entry cap rn.vec (es.map (cell (B := B) 0))] := by
  obtain ⟨g, rfl, rfl, H⟩ := H
  have hlen : (raw g).vec.len = g.kids.length := by
    have := (H.holds _ List.mem_cons_self : Owns _ _ _ _ _).len
    simpa [raw] using this
  have H' : Has h ([vecC E.entry cap g.vec (g.kids.map (cell 0))] ++ chunksL E cap 0 g.kids) := H
  exact ⟨_, _, rfl, hlen, H'.left⟩

theorem InMem.slice (S : Sizes E cap) {l p : Nat} {rn : RNode B} {n : Node B K V} (H : InMem E cap h (l + 1 - p) rn n) :
    sliceLen (l + 1 - p) rn = n.kids.length ∧
    ∀ i (hi : i < n.kids.length), ∃ c, sliceAt (V := V) (K := K) E (l + 1 - p) rn i h = .ok (c, h) ∧ InMem E cap h (l - p) c n.kids[i] := by
  by_cases hp : p ≤ l
  · obtain ⟨m, hm⟩ : ∃ m, l - p = m := ⟨_, rfl⟩
    have hL : l + 1 - p = m + 1 := by omega
    rw [hL] at H
    rw [hm, hL]
    obtain ⟨g, rfl, rfl, H⟩ := H
    have hlen : (raw g).vec.len = g.kids.length := by
      have := (H.holds _ List.mem_cons_self : Owns _ _ _ _ _).len
      simpa [raw] using this
    have H' : Has h ([vecC E.node cap g.vec (g.kids.map (cell (m + 1)))] ++ chunksL E cap (m + 1) g.kids) := H
    have hk : (node (m + 1) g).kids = g.kids.map (node m) := rfl
    refine ⟨by rw [hk, List.length_map]; exact hlen, fun i hi => ?_⟩
    have hi' : i < g.kids.length := by rw [hk, List.length_map] at hi; exact hi
    obtain ⟨_, _, e0, rfl, rfl, _⟩ := (nodeAt_sim S H'.left i).of_ok (a := g.kids[i]) (by simp [index, hi'])
    exact ⟨_, e0, g.kids[i], rfl, by simp [hk], kid_has H _ (List.getElem_mem hi')⟩
  · have hL : l + 1 - p = 0 := by omega
    have hm : l - p = 0 := by omega
    rw [hL] at H
    rw [hm, hL]
    obtain ⟨b, es, rfl, _⟩ := id H.leaf
    refine ⟨rfl, fun i hi => ⟨rn, rfl, ?_⟩⟩
    have : i = 0 := by simp [Node.kids] at hi; exact hi
    subst this
    exact H

theorem joinNode_ok (S0 : Sizes E cap0) (S1 : Sizes E cap1) (borrow : K → Q) (f : JoinFilter B B Q Q) (p0 p1 : Nat) : ∀ (l : Nat) (r0 r1 : RNode B) (n0 n1 : Node B K V),
    InMem E cap0 h (l - p0) r0 n0 → InMem E cap1 h (l - p1) r1 n1 →
    joinNode E borrow f p0 p1 l r0 r1 h = .ok (joinMatching (fun x => f.testBounds x.1.bounds x.2.bounds) (fun x => f.testKey (borrow x.1.1) (borrow x.2.1)) l (n0, n1), h)
  | 0, r0, r1, n0, n1, H0, H1 => by
    rw [Nat.zero_sub] at H0 H1
    obtain ⟨b0, es0, rfl, hl0, M0⟩ := H0.leaf
    obtain ⟨b1, es1, rfl, hl1, M1⟩ := H1.leaf
    rw [joinNode, hl0, hl1]
    refine (productLoop_ok (as := es0) (bs := es1) (F := fun x => if f.testKey (borrow x.1.1) (borrow x.2.1) then [x] else []) ?_ _ 0 (by omega)).trans ?_
    · intro i hi j hj
      exact (entryAt_ok S0 M0 hi (f := fun e0 => do
        let cell1 : Cell B K V ← r1.vec.get E.entry j
        let e1 ← lift cell1.asEntry
        pure (if f.testKey (borrow e0.1) (borrow e1.1) then [(e0, e1)] else []))).trans
        (entryAt_ok S1 M1 hj (f := fun e1 => pure (if f.testKey (borrow es0[i].1) (borrow e1.1) then [(es0[i], e1)] else [])))
    · rw [List.drop_zero, joinMatching]
      congr 2
      induction pairs es0 es1 with
      | nil => rfl
      | cons x xs ih =>
        rw [List.flatMap_cons, List.filter_cons, ih]
        split <;> rfl
  | l + 1, r0, r1, n0, n1, H0, H1 => by
    obtain ⟨hl0, k0⟩ := H0.slice S0
    obtain ⟨hl1, k1⟩ := H1.slice S1
    rw [joinNode, hl0, hl1, joinMatching]
    refine (productLoop_ok (as := n0.kids) (bs := n1.kids) (F := fun y => if f.testBounds y.1.bounds y.2.bounds then
      joinMatching (fun x => f.testBounds x.1.bounds x.2.bounds) (fun x => f.testKey (borrow x.1.1) (borrow x.2.1)) l y else []) ?_ _ 0 (by omega)).trans ?_
    · intro i hi j hj
      obtain ⟨c0, e0, I0⟩ := k0 i hi
      obtain ⟨c1, e1, I1⟩ := k1 j hj
      rw [visitNodes, bind_ok e0, bind_ok e1]
      simp only [I0.bounds, I1.bounds]
      split
      · exact joinNode_ok S0 S1 borrow f p0 p1 l c0 c1 _ _ I0 I1
      · rfl
    · rw [List.drop_zero]

theorem join_ok (t0 t1 : GTree B K V) (S0 : Sizes E t0.alloc.maxChildren) (S1 : Sizes E t1.alloc.maxChildren) (borrow : K → Q) (f : JoinFilter B B Q Q)
    (H0 : Has h (t0.own E)) (H1 : Has h (t1.own E)) (hs0 : Shape t0.abs.level t0.abs.root) (hs1 : Shape t1.abs.level t1.abs.root) :
    ∃ es, t0.abs.join borrow borrow f t1.abs = .ok es ∧ RTree.join E borrow f t0.rawT t1.rawT h = .ok (es, h) := by
  refine ⟨_, Tree.join_of_shape borrow borrow f hs0 hs1, ?_⟩
  have I0 : InMem E t0.alloc.maxChildren h t0.level t0.rawT.root t0.abs.root := ⟨t0.root, rfl, rfl, H0⟩
  have I1 : InMem E t1.alloc.maxChildren h t1.level t1.rawT.root t1.abs.root := ⟨t1.root, rfl, rfl, H1⟩
  rw [RTree.join, ← I0.bounds, ← I1.bounds]
  split
  · have e0 : max t0.rawT.level t1.rawT.level - (max t0.rawT.level t1.rawT.level - t0.rawT.level) = t0.level := by
      show max t0.level t1.level - (max t0.level t1.level - t0.level) = t0.level
      omega
    have e1 : max t0.rawT.level t1.rawT.level - (max t0.rawT.level t1.rawT.level - t1.rawT.level) = t1.level := by
      show max t0.level t1.level - (max t0.level t1.level - t1.level) = t1.level
      omega
    exact joinNode_ok S0 S1 borrow f _ _ _ _ _ _ _ (by rw [e0]; exact I0) (by rw [e1]; exact I1)
  · rfl

end RTree.Raw
