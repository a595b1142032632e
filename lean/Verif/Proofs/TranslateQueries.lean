import Verif.Proofs.TranslateTree
import Verif.Proofs.BinaryHeap
import Verif.Model.LeftJoin
import Verif.Model.Join
/-!
Sorted iteration and joins commute with translations.
-/

namespace RTree

section Sorted

variable {B B' K K' V V' M M' : Type} {E : Prop} {fB : B → B'} {fK : K → K'} {fV : V → V'} {fM : M → M'}

theorem Ranking.Alike.img {r : Ranking B K M} {r' : Ranking B' K' M'} (h : r.Alike E fB fK fM r') :
    (∀ b, Img E fM (r.boundsMin b) (r'.boundsMin (fB b))) ∧ ∀ k, Img E fM (r.rankKey k) (r'.rankKey (fK k)) :=
  ⟨fun b => ⟨h.boundsMin b, fun hE => h.boundsMin_panic hE b⟩, fun k => ⟨h.rankKey k, fun hE => h.rankKey_panic hE k⟩⟩

theorem Img.itemNode (i : SortedItem B K V) :
    Img E (Node.translate fB fK fV) i.getNode (i.translate fB fK fV).getNode := by
  cases i with
  | node n => exact .ok rfl
  | entry e => exact .error

theorem Img.itemEntry (i : SortedItem B K V) : Img E (Prod.map fK fV) i.getEntry (i.translate fB fK fV).getEntry := by
  cases i with
  | node n => exact .error
  | entry e => exact .ok rfl

section Plain

variable [LE M] [LE M'] {hp : IterHeap B K V M} {hp' : IterHeap B' K' V' M'} (H : HeapsAlike fB fK fV fM hp hp')
  {r : Ranking B K M} {r' : Ranking B' K' M'} (hr : r.Alike E fB fK fM r')
include hr

theorem HeapsAlike.new (l : Nat) (n : Node B K V) :
    Img E H.map (SortedIter.new hp r l n) (SortedIter.new hp' r' l (n.translate fB fK fV)) := by
  unfold SortedIter.new
  rw [Node.bounds_translate]
  refine (hr.img.1 n.bounds).bind fun m => .ok ?_
  rw [H.map_push, H.map_empty]
  rfl

theorem HeapsAlike.pushEntries (es : List (K × V)) (h : hp.H) :
    Img E H.map (SortedIter.pushEntries hp r es h) (SortedIter.pushEntries hp' r' (es.map (Prod.map fK fV)) (H.map h)) := by
  unfold SortedIter.pushEntries
  refine Img.foldlM (fun h e => ?_) es h
  refine (hr.img.2 e.1).bind fun m => .ok ?_
  rw [H.map_push]
  rfl

theorem HeapsAlike.pushNodes (l : Nat) (cs : List (Node B K V)) (h : hp.H) :
    Img E H.map (SortedIter.pushNodes hp r l cs h)
      (SortedIter.pushNodes hp' r' l (cs.map (Node.translate fB fK fV)) (H.map h)) := by
  unfold SortedIter.pushNodes
  refine Img.foldlM (fun h c => ?_) cs h
  rw [Node.bounds_translate]
  refine (hr.img.1 c.bounds).bind fun m => .ok ?_
  rw [H.map_push]
  rfl

theorem HeapsAlike.nextLoop (fuel : Nat) (h : hp.H) :
    Img E (Prod.map (Option.map (Prod.map fK fV)) H.map) (SortedIter.nextLoop hp r fuel h)
      (SortedIter.nextLoop hp' r' fuel (H.map h)) := by
  induction fuel generalizing h with
  | zero => exact .error
  | succ fuel ih =>
    unfold SortedIter.nextLoop
    rw [H.map_pop]
    cases hp.pop h with
    | none => exact .ok rfl
    | some x =>
      obtain ⟨⟨⟨m, l⟩, i⟩, h⟩ := x
      simp only [Option.map_some, Score.translate]
      split
      · exact (Img.itemEntry i).bind fun e => .ok rfl
      · exact (Img.itemNode i).bind fun n => (Img.leafChildren n).bind fun es => (H.pushEntries hr es h).bind ih
      · exact (Img.itemNode i).bind fun n => (Img.innerChildren n).bind fun es => (H.pushNodes hr _ es h).bind ih

theorem HeapsAlike.collectLoop (fuel n : Nat) (h : hp.H) :
    Img E (List.map (Prod.map fK fV)) (SortedIter.collectLoop hp r fuel n h)
      (SortedIter.collectLoop hp' r' fuel n (H.map h)) := by
  induction n generalizing h with
  | zero => exact .error
  | succ n ih =>
    unfold SortedIter.collectLoop
    refine (H.nextLoop hr fuel h).bind fun x => ?_
    obtain ⟨o, h⟩ := x
    cases o with
    | none => exact .ok rfl
    | some e => exact (ih h).bind fun es => .ok rfl

theorem HeapsAlike.takeLoop (fuel n : Nat) (h : hp.H) :
    Img E (List.map (Prod.map fK fV)) (SortedIter.takeLoop hp r fuel n h)
      (SortedIter.takeLoop hp' r' fuel n (H.map h)) := by
  induction n generalizing h with
  | zero => exact .ok rfl
  | succ n ih =>
    unfold SortedIter.takeLoop
    refine (H.nextLoop hr fuel h).bind fun x => ?_
    obtain ⟨o, h⟩ := x
    cases o with
    | none => exact .ok rfl
    | some e => exact (ih h).bind fun es => .ok rfl

omit hr in
theorem sortedFuel_translate (t : Tree B K V) : (t.translate fB fK fV).sortedFuel = t.sortedFuel := by
  unfold Tree.sortedFuel
  rw [Tree.translate, Node.weight_translate]

include H in
theorem Img.iterAscBy (t : Tree B K V) :
    Img E (List.map (Prod.map fK fV)) (t.iterAscBy hp r) ((t.translate fB fK fV).iterAscBy hp' r') := by
  unfold Tree.iterAscBy
  rw [sortedFuel_translate]
  exact (H.new hr t.level t.root).bind fun h => H.collectLoop hr _ _ h

include H in
theorem Img.firstAscBy (k : Nat) (t : Tree B K V) :
    Img E (List.map (Prod.map fK fV)) (t.firstAscBy hp r k) ((t.translate fB fK fV).firstAscBy hp' r' k) := by
  unfold Tree.firstAscBy
  rw [sortedFuel_translate]
  exact (H.new hr t.level t.root).bind fun h => H.takeLoop hr _ _ h

include H in
theorem Img.minByTree (t : Tree B K V) :
    Img E (Option.map (Prod.map fK fV)) (t.minBy hp r) ((t.translate fB fK fV).minBy hp' r') := by
  unfold Tree.minBy
  rw [sortedFuel_translate]
  exact (H.new hr t.level t.root).bind fun h => (H.nextLoop hr _ h).bind fun x => .ok rfl

end Plain

section Filter

variable [LE M] [LE M'] {hp : IterHeap B K V M} {hp' : IterHeap B' K' V' M'} (H : HeapsAlike fB fK fV fM hp hp')
  {r : Ranking B K (Option M)} {r' : Ranking B' K' (Option M')} (hr : r.Alike E fB fK (Option.map fM) r')
include hr

theorem HeapsAlike.newF (l : Nat) (n : Node B K V) :
    Img E H.map (FilterSortedIter.new hp r l n) (FilterSortedIter.new hp' r' l (n.translate fB fK fV)) := by
  unfold FilterSortedIter.new
  rw [Node.bounds_translate]
  refine (hr.img.1 n.bounds).bind fun m => ?_
  cases m with
  | none => exact .ok H.map_empty.symm
  | some m =>
    refine .ok ?_
    rw [H.map_push, H.map_empty]
    rfl

theorem HeapsAlike.pushEntriesF (es : List (K × V)) (h : hp.H) :
    Img E H.map (FilterSortedIter.pushEntries hp r es h)
      (FilterSortedIter.pushEntries hp' r' (es.map (Prod.map fK fV)) (H.map h)) := by
  unfold FilterSortedIter.pushEntries
  refine Img.foldlM (fun h e => ?_) es h
  refine (hr.img.2 e.1).bind fun m => ?_
  cases m with
  | none => exact .ok rfl
  | some m =>
    refine .ok ?_
    rw [H.map_push]
    rfl

theorem HeapsAlike.pushNodesF (l : Nat) (cs : List (Node B K V)) (h : hp.H) :
    Img E H.map (FilterSortedIter.pushNodes hp r l cs h)
      (FilterSortedIter.pushNodes hp' r' l (cs.map (Node.translate fB fK fV)) (H.map h)) := by
  unfold FilterSortedIter.pushNodes
  refine Img.foldlM (fun h c => ?_) cs h
  rw [Node.bounds_translate]
  refine (hr.img.1 c.bounds).bind fun m => ?_
  cases m with
  | none => exact .ok rfl
  | some m =>
    refine .ok ?_
    rw [H.map_push]
    rfl

theorem HeapsAlike.nextLoopF (fuel : Nat) (h : hp.H) :
    Img E (Prod.map (Option.map (Prod.map fK fV)) H.map) (FilterSortedIter.nextLoop hp r fuel h)
      (FilterSortedIter.nextLoop hp' r' fuel (H.map h)) := by
  induction fuel generalizing h with
  | zero => exact .error
  | succ fuel ih =>
    unfold FilterSortedIter.nextLoop
    rw [H.map_pop]
    cases hp.pop h with
    | none => exact .ok rfl
    | some x =>
      obtain ⟨⟨⟨m, l⟩, i⟩, h⟩ := x
      simp only [Option.map_some, Score.translate]
      split
      · exact (Img.itemEntry i).bind fun e => .ok rfl
      · exact (Img.itemNode i).bind fun n => (Img.leafChildren n).bind fun es => (H.pushEntriesF hr es h).bind ih
      · exact (Img.itemNode i).bind fun n => (Img.innerChildren n).bind fun es => (H.pushNodesF hr _ es h).bind ih

theorem HeapsAlike.collectLoopF (fuel n : Nat) (h : hp.H) :
    Img E (List.map (Prod.map fK fV)) (FilterSortedIter.collectLoop hp r fuel n h)
      (FilterSortedIter.collectLoop hp' r' fuel n (H.map h)) := by
  induction n generalizing h with
  | zero => exact .error
  | succ n ih =>
    unfold FilterSortedIter.collectLoop
    refine (H.nextLoopF hr fuel h).bind fun x => ?_
    obtain ⟨o, h⟩ := x
    cases o with
    | none => exact .ok rfl
    | some e => exact (ih h).bind fun es => .ok rfl

include H in
theorem Img.filterIterAscBy (t : Tree B K V) :
    Img E (List.map (Prod.map fK fV)) (t.filterIterAscBy hp r) ((t.translate fB fK fV).filterIterAscBy hp' r') := by
  unfold Tree.filterIterAscBy
  rw [sortedFuel_translate]
  exact (H.newF hr t.level t.root).bind fun h => H.collectLoopF hr _ _ h

include H in
theorem Img.filterMinBy (t : Tree B K V) :
    Img E (Option.map (Prod.map fK fV)) (t.filterMinBy hp r) ((t.translate fB fK fV).filterMinBy hp' r') := by
  unfold Tree.filterMinBy
  rw [sortedFuel_translate]
  exact (H.newF hr t.level t.root).bind fun h => (H.nextLoopF hr _ h).bind fun x => .ok rfl

end Filter

/-- The heap of the standard library only compares scores. -/
def stdHeap_alike [LE M] [Std.IsLinearPreorder M] [DecidableLE M] [LE M'] [Std.IsLinearPreorder M'] [DecidableLE M']
    (hle : ∀ a b, fM a ≤ fM b ↔ a ≤ b) :
    HeapsAlike fB fK fV fM ((BinaryHeap.stdHeap M).heap _) ((BinaryHeap.stdHeap M').heap _) :=
  have key : ∀ x y : Score M × SortedItem B K V,
      BinaryHeap.leRanked (M := M') (x.1.translate fM, x.2.translate fB fK fV) (y.1.translate fM, y.2.translate fB fK fV) =
        BinaryHeap.leRanked x y := fun x y => by
    unfold BinaryHeap.leRanked
    simp only [Score.translate, hle]
    split
    · split <;> rfl
    · rfl
  { map := fun h => ⟨h.1.map fun x => (x.1.translate fM, x.2.translate fB fK fV), fun i x y hi hx hy => by
      rw [List.getElem?_map] at hx hy
      obtain ⟨a, ha, rfl⟩ := Option.map_eq_some_iff.1 hx
      obtain ⟨b, hb, rfl⟩ := Option.map_eq_some_iff.1 hy
      rw [key]
      exact h.2 i a b hi ha hb⟩
    map_empty := rfl
    map_push := fun x h => Subtype.ext (BinaryHeap.push_map (le := BinaryHeap.leRanked) (le' := BinaryHeap.leRanked)
      (f := fun x : Score M × SortedItem B K V => (x.1.translate fM, x.2.translate fB fK fV)) key x h.1).symm
    map_pop := fun h => by
      have := BinaryHeap.pop_map (le := BinaryHeap.leRanked) (le' := BinaryHeap.leRanked)
        (f := fun x : Score M × SortedItem B K V => (x.1.translate fM, x.2.translate fB fK fV)) key h.1
      unfold BinaryHeap.stdHeap
      dsimp only
      split
      · next hp =>
        rw [this] at hp
        split
        · rfl
        · next hq => rw [hq] at hp; cases hp
      · next x d hp =>
        rw [this] at hp
        split
        · next hq => rw [hq] at hp; cases hp
        · next y d' hq =>
          rw [hq] at hp
          cases hp
          rfl }

end Sorted

section Join

variable {B0 B1 K0 K1 V0 V1 Q0 Q1 B0' B1' K0' K1' V0' V1' Q0' Q1' : Type} {E : Prop} {g0 : B0 → B0'} {g1 : B1 → B1'} {k0 : K0 → K0'}
  {k1 : K1 → K1'} {v0 : V0 → V0'} {v1 : V1 → V1'} {q0 : Q0 → Q0'} {q1 : Q1 → Q1'}

/-- A product iterator over translated slices. -/
def trProduct {α β α' β' : Type} (f : α → α') (g : β → β') (it : ProductIter α β) : ProductIter α' β' :=
  ⟨⟨it.fst.slice.map f, it.fst.i⟩, it.snd.map g⟩

section Product

variable {α β α' β' : Type} {f : α → α'} {g : β → β'}

theorem next_trProduct (it : ProductIter α β) :
    (trProduct f g it).next = Prod.map (Option.map (Prod.map f g)) (trProduct f g) it.next := by
  obtain ⟨⟨sl, i⟩, snd⟩ := it
  unfold ProductIter.next
  by_cases hi : i < sl.length
  · have h1 : (⟨sl, i⟩ : CyclicIter α).get = some sl[i] := dif_pos hi
    have h2 : (trProduct f g ⟨⟨sl, i⟩, snd⟩).fst.get = some (f sl[i]) := by
      show (⟨sl.map f, i⟩ : CyclicIter α').get = _
      unfold CyclicIter.get
      rw [dif_pos (by rw [List.length_map]; exact hi)]
      simp
    rw [h1, h2]
    cases snd with
    | nil => rfl
    | cons b rest =>
      simp only [trProduct, List.map_cons, CyclicIter.advance, List.length_map]
      by_cases h : i + 1 ≥ sl.length
      · rw [if_pos h, if_pos h]; rfl
      · rw [if_neg h, if_neg h]; rfl
  · have h1 : (⟨sl, i⟩ : CyclicIter α).get = none := dif_neg hi
    have h2 : (trProduct f g ⟨⟨sl, i⟩, snd⟩).fst.get = none := by
      show (⟨sl.map f, i⟩ : CyclicIter α').get = _
      unfold CyclicIter.get
      rw [dif_neg (by rw [List.length_map]; exact hi)]
    rw [h1, h2]
    rfl

theorem Img.find {p : α × β → Bool} {p' : α' × β' → Bool} (hp : ∀ x, p' (Prod.map f g x) = p x) (it : ProductIter α β) :
    Img E (Prod.map (Option.map (Prod.map f g)) (trProduct f g)) (it.find p) ((trProduct f g it).find p') := by
  unfold ProductIter.find
  have h : (trProduct f g it).fst.slice.length * (trProduct f g it).snd.length = it.fst.slice.length * it.snd.length := by
    simp [trProduct]
  rw [h]
  generalize it.fst.slice.length * it.snd.length + 1 = n
  induction n generalizing it with
  | zero => exact .error
  | succ n ih =>
    unfold ProductIter.findLoop
    rw [next_trProduct]
    obtain ⟨o, it⟩ := it.next
    cases o with
    | none => exact .ok rfl
    | some x =>
      show Img E _ (if p x = true then _ else _) (if p' (Prod.map f g x) = true then _ else _)
      rw [hp]
      split
      · exact .ok rfl
      · exact ih it (by simp [trProduct])

end Product

/-- An entry of a translated stack. -/
def trJoinEntry (g0 : B0 → B0') (g1 : B1 → B1') (k0 : K0 → K0') (k1 : K1 → K1') (v0 : V0 → V0') (v1 : V1 → V1') :
    StackEntry (ProductIter (K0 × V0) (K1 × V1)) (ProductIter (Node B0 K0 V0) (Node B1 K1 V1)) →
    StackEntry (ProductIter (K0' × V0') (K1' × V1')) (ProductIter (Node B0' K0' V0') (Node B1' K1' V1'))
  | .leaf it => .leaf (trProduct (Prod.map k0 v0) (Prod.map k1 v1) it)
  | .inner it => .inner (trProduct (Node.translate g0 k0 v0) (Node.translate g1 k1 v1) it)

/-- A translated stack. -/
abbrev trJoin (g0 : B0 → B0') (g1 : B1 → B1') (k0 : K0 → K0') (k1 : K1 → K1') (v0 : V0 → V0') (v1 : V1 → V1') :
    JoinIterStack B0 B1 K0 K1 V0 V1 → JoinIterStack B0' B1' K0' K1' V0' V1' := List.map (trJoinEntry g0 g1 k0 k1 v0 v1)

theorem Img.getLeafJ (s : JoinIterStack B0 B1 K0 K1 V0 V1) :
    Img E (trProduct (Prod.map k0 v0) (Prod.map k1 v1)) (IterStack.getLeaf s)
      (IterStack.getLeaf (trJoin g0 g1 k0 k1 v0 v1 s)) := by
  unfold IterStack.getLeaf
  refine (index (f := trJoinEntry g0 g1 k0 k1 v0 v1)).bind fun e => ?_
  cases e with
  | leaf it => exact .ok rfl
  | inner it => exact .error

theorem Img.setLeafJ (s : JoinIterStack B0 B1 K0 K1 V0 V1) (it) :
    Img E (trJoin g0 g1 k0 k1 v0 v1) (IterStack.setLeaf s it)
      (IterStack.setLeaf (trJoin g0 g1 k0 k1 v0 v1 s) (trProduct (Prod.map k0 v0) (Prod.map k1 v1) it)) := by
  unfold IterStack.setLeaf
  exact (index (f := trJoinEntry g0 g1 k0 k1 v0 v1)).bind fun e => .ok (by simp [trJoinEntry])

theorem Img.getInnerJ (s : JoinIterStack B0 B1 K0 K1 V0 V1) (i : Nat) :
    Img E (trProduct (Node.translate g0 k0 v0) (Node.translate g1 k1 v1)) (IterStack.getInner s i)
      (IterStack.getInner (trJoin g0 g1 k0 k1 v0 v1 s) i) := by
  unfold IterStack.getInner
  refine (index (f := trJoinEntry g0 g1 k0 k1 v0 v1)).bind fun e => ?_
  cases e with
  | leaf it => exact .error
  | inner it => exact .ok rfl

theorem Img.setInnerJ (s : JoinIterStack B0 B1 K0 K1 V0 V1) (i : Nat) (it) :
    Img E (trJoin g0 g1 k0 k1 v0 v1) (IterStack.setInner s i it)
      (IterStack.setInner (trJoin g0 g1 k0 k1 v0 v1 s) i
        (trProduct (Node.translate g0 k0 v0) (Node.translate g1 k1 v1) it)) := by
  unfold IterStack.setInner
  exact (index (f := trJoinEntry g0 g1 k0 k1 v0 v1)).bind fun e => .ok (by simp [trJoinEntry])

theorem Img.slice (n : Node B0 K0 V0) (l : Nat) :
    Img E (List.map (Node.translate g0 k0 v0)) (JoinIter.slice n l) (JoinIter.slice (n.translate g0 k0 v0) l) := by
  cases l with
  | zero => exact (leafChildren n).bind fun _ => .ok rfl
  | succ l => exact innerChildren n

theorem Img.startJoin (s : JoinIterStack B0 B1 K0 K1 V0 V1) (n0 : Node B0 K0 V0) (l0 : Nat) (n1 : Node B1 K1 V1) (l1 : Nat) :
    Img E (trJoin g0 g1 k0 k1 v0 v1) (JoinIter.startJoin s n0 l0 n1 l1)
      (JoinIter.startJoin (trJoin g0 g1 k0 k1 v0 v1 s) (n0.translate g0 k0 v0) l0 (n1.translate g1 k1 v1) l1) := by
  unfold JoinIter.startJoin
  split
  · exact (leafChildren n0).bind fun e0 => (leafChildren n1).bind fun e1 => setLeafJ s (.new e0 e1)
  · exact (slice n0 l0).bind fun c0 => (slice n1 l1).bind fun c1 => setInnerJ s _ (.new c0 c1)

/-- A translated join iterator. -/
def trJoinIter (g0 : B0 → B0') (g1 : B1 → B1') (k0 : K0 → K0') (k1 : K1 → K1') (v0 : V0 → V0') (v1 : V1 → V1')
    (it : JoinIter B0 B1 K0 K1 V0 V1) : JoinIter B0' B1' K0' K1' V0' V1' :=
  ⟨trJoin g0 g1 k0 k1 v0 v1 it.stack, it.padding0, it.padding1⟩

variable {f : JoinFilter B0 B1 Q0 Q1} {f' : JoinFilter B0' B1' Q0' Q1'} {borrow0 : K0 → Q0} {borrow1 : K1 → Q1}
  {borrow0' : K0' → Q0'} {borrow1' : K1' → Q1'}

theorem Img.newJoin (hf : f.Alike g0 g1 q0 q1 f') (n0 : Node B0 K0 V0) (l0 : Nat) (n1 : Node B1 K1 V1) (l1 : Nat) :
    Img E (trJoinIter g0 g1 k0 k1 v0 v1) (JoinIter.new f n0 l0 n1 l1)
      (JoinIter.new f' (n0.translate g0 k0 v0) l0 (n1.translate g1 k1 v1) l1) := by
  unfold JoinIter.new
  rw [Node.bounds_translate, Node.bounds_translate, hf.1]
  split
  · exact .ok rfl
  · have h : (IterStack.newBox (.new [] []) (List.replicate (max l0 l1) (.new [] [])) : JoinIterStack B0' B1' K0' K1' V0' V1') =
        trJoin g0 g1 k0 k1 v0 v1 (IterStack.newBox (.new [] []) (List.replicate (max l0 l1) (.new [] []))) := by
      simp [IterStack.newBox, trJoinEntry, trProduct, ProductIter.new, CyclicIter.new]
    dsimp only
    rw [h]
    exact (startJoin _ n0 l0 n1 l1).bind fun s => .ok rfl

theorem Img.nextJoin (hf : f.Alike g0 g1 q0 q1 f') (h0 : ∀ k, borrow0' (k0 k) = q0 (borrow0 k))
    (h1 : ∀ k, borrow1' (k1 k) = q1 (borrow1 k)) (p0 p1 fuel level : Nat) (s : JoinIterStack B0 B1 K0 K1 V0 V1) :
    Img E (Prod.map (Option.map (Prod.map (Prod.map k0 v0) (Prod.map k1 v1))) (trJoin g0 g1 k0 k1 v0 v1))
      (JoinIter.nextLoop borrow0 borrow1 f p0 p1 fuel level s)
      (JoinIter.nextLoop borrow0' borrow1' f' p0 p1 fuel level (trJoin g0 g1 k0 k1 v0 v1 s)) := by
  induction fuel generalizing level s with
  | zero =>
    unfold JoinIter.nextLoop
    rw [List.length_map]
    split
    · exact .error
    · exact .ok rfl
  | succ fuel ih =>
    unfold JoinIter.nextLoop
    rw [List.length_map]
    split
    · cases level with
      | succ l =>
        refine (getInnerJ s l).bind fun it => ?_
        refine (find (fun x => ?_) it).bind fun r => ?_
        · show f'.testBounds (x.1.translate g0 k0 v0).bounds (x.2.translate g1 k1 v1).bounds = f.testBounds x.1.bounds x.2.bounds
          rw [Node.bounds_translate, Node.bounds_translate, hf.1]
        · obtain ⟨o, it⟩ := r
          refine (setInnerJ s l it).bind fun s => ?_
          cases o with
          | none => exact ih _ s
          | some x => exact (startJoin s x.1 _ x.2 _).bind fun s => ih _ s
      | zero =>
        refine (getLeafJ s).bind fun it => ?_
        refine (find (fun x => ?_) it).bind fun r => ?_
        · show f'.testKey (borrow0' (k0 x.1.1)) (borrow1' (k1 x.2.1)) = _
          rw [h0, h1, hf.2]
        · obtain ⟨o, it⟩ := r
          refine (setLeafJ s it).bind fun s => ?_
          cases o with
          | none => exact ih _ s
          | some x => exact .ok rfl
    · exact .ok rfl

theorem Img.collectJoin (hf : f.Alike g0 g1 q0 q1 f') (h0 : ∀ k, borrow0' (k0 k) = q0 (borrow0 k))
    (h1 : ∀ k, borrow1' (k1 k) = q1 (borrow1 k)) (p0 p1 fuel n : Nat) (s : JoinIterStack B0 B1 K0 K1 V0 V1) :
    Img E (List.map (Prod.map (Prod.map k0 v0) (Prod.map k1 v1))) (JoinIter.collectLoop borrow0 borrow1 f p0 p1 fuel n s)
      (JoinIter.collectLoop borrow0' borrow1' f' p0 p1 fuel n (trJoin g0 g1 k0 k1 v0 v1 s)) := by
  induction n generalizing s with
  | zero => exact .error
  | succ n ih =>
    unfold JoinIter.collectLoop
    refine (nextJoin hf h0 h1 p0 p1 fuel 0 s).bind fun r => ?_
    obtain ⟨o, s⟩ := r
    cases o with
    | none => exact .ok rfl
    | some e => exact (ih s).bind fun es => .ok rfl

theorem kids_translate (n : Node B0 K0 V0) : (n.translate g0 k0 v0).kids = n.kids.map (Node.translate g0 k0 v0) := by
  cases n with
  | leaf b es => simp [Node.kids]
  | inner b cs => simp [Node.kids]

theorem pairs_map {α β α' β' : Type} (f : α → α') (g : β → β') (as : List α) (bs : List β) :
    pairs (as.map f) (bs.map g) = (pairs as bs).map (Prod.map f g) := by
  unfold pairs
  rw [List.flatMap_map, List.map_flatMap]
  congr 1
  funext b
  rw [List.map_map, List.map_map]
  rfl

theorem joinWeight_translate (l : Nat) (n0 : Node B0 K0 V0) (n1 : Node B1 K1 V1) :
    joinWeight l (n0.translate g0 k0 v0) (n1.translate g1 k1 v1) = joinWeight l n0 n1 := by
  induction l generalizing n0 n1 with
  | zero => cases n0 <;> cases n1 <;> simp [joinWeight, Node.translate]
  | succ l ih =>
    unfold joinWeight
    rw [kids_translate, kids_translate, pairs_map, List.map_map]
    congr 2
    refine List.map_congr_left fun x _ => ?_
    exact ih x.1 x.2

theorem Img.join (hf : f.Alike g0 g1 q0 q1 f') (h0 : ∀ k, borrow0' (k0 k) = q0 (borrow0 k))
    (h1 : ∀ k, borrow1' (k1 k) = q1 (borrow1 k)) (t0 : Tree B0 K0 V0) (t1 : Tree B1 K1 V1) :
    Img E (List.map (Prod.map (Prod.map k0 v0) (Prod.map k1 v1))) (t0.join borrow0 borrow1 f t1)
      ((t0.translate g0 k0 v0).join borrow0' borrow1' f' (t1.translate g1 k1 v1)) := by
  unfold Tree.join
  refine (newJoin hf t0.root t0.level t1.root t1.level).bind fun it => ?_
  have h : joinWeight (max t0.level t1.level) (t0.root.translate g0 k0 v0) (t1.root.translate g1 k1 v1) =
      joinWeight (max t0.level t1.level) t0.root t1.root := joinWeight_translate _ _ _
  show Img E _ _ (JoinIter.collectLoop borrow0' borrow1' f' it.padding0 it.padding1
    ((joinWeight (max t0.level t1.level) (t0.root.translate g0 k0 v0) (t1.root.translate g1 k1 v1) + 1) *
      (max t0.level t1.level + 2))
    (joinWeight (max t0.level t1.level) (t0.root.translate g0 k0 v0) (t1.root.translate g1 k1 v1) + 1) _)
  rw [h]
  exact collectJoin hf h0 h1 _ _ _ _ _

end Join

section LeftJoin

variable {E : Prop} {B B' K K' V V' : Type} {fB : B → B'} {fK : K → K'} {fV : V → V'}

/-- A translated rewindable iterator. -/
def trRewind {α β : Type} (f : α → β) (it : RewindIter α) : RewindIter β := ⟨it.slice.map f, it.i⟩

theorem next_trRewind {α β : Type} (f : α → β) (it : RewindIter α) :
    (trRewind f it).next = Prod.map (Option.map f) (trRewind f) it.next := by
  obtain ⟨sl, i⟩ := it
  unfold RewindIter.next trRewind
  by_cases h : i < sl.length
  · rw [dif_pos h, dif_pos (by rw [List.length_map]; exact h)]
    simp [trRewind]
  · rw [dif_neg h, dif_neg (by rw [List.length_map]; exact h)]
    rfl

theorem Img.findRewind {α β : Type} {f : α → β} {p : α → Bool} {p' : β → Bool} (hp : ∀ x, p' (f x) = p x) (it : RewindIter α) :
    Img E (Prod.map (Option.map f) (trRewind f)) (it.find p) ((trRewind f it).find p') := by
  unfold RewindIter.find
  rw [show (trRewind f it).slice.length = it.slice.length from List.length_map _]
  generalize it.slice.length + 1 = n
  induction n generalizing it with
  | zero => exact .error
  | succ n ih =>
    unfold RewindIter.findLoop
    rw [next_trRewind]
    obtain ⟨o, it⟩ := it.next
    cases o with
    | none => exact .ok rfl
    | some x =>
      show Img E _ (if p x = true then _ else _) (if p' (f x) = true then _ else _)
      rw [hp]
      split
      · exact .ok rfl
      · exact ih it

theorem Img.remainder {α β : Type} {f : α → β} (it : RewindIter α) :
    Img E (List.map f) it.remainder (trRewind f it).remainder := by
  unfold RewindIter.remainder trRewind
  rw [List.length_map]
  split
  · exact .ok List.map_drop.symm
  · exact .error

section Stack

variable {L L' I I' : Type} {gL : L → L'} {gI : I → I'}

/-- An entry of a stack with translated iterators. -/
def trAny (gL : L → L') (gI : I → I') : StackEntry L I → StackEntry L' I'
  | .leaf it => .leaf (gL it)
  | .inner it => .inner (gI it)

theorem Img.getLeafA (s : IterStack L I) : Img E gL (IterStack.getLeaf s) (IterStack.getLeaf (s.map (trAny gL gI) : IterStack L' I')) := by
  unfold IterStack.getLeaf
  refine (index (f := trAny gL gI)).bind fun e => ?_
  cases e with
  | leaf it => exact .ok rfl
  | inner it => exact .error

theorem Img.setLeafA (s : IterStack L I) (it : L) :
    Img E (List.map (trAny gL gI)) (IterStack.setLeaf s it) (IterStack.setLeaf (s.map (trAny gL gI) : IterStack L' I') (gL it)) := by
  unfold IterStack.setLeaf
  exact (index (f := trAny gL gI)).bind fun e => .ok (by simp [trAny])

theorem Img.getInnerA (s : IterStack L I) (i : Nat) :
    Img E gI (IterStack.getInner s i) (IterStack.getInner (s.map (trAny gL gI) : IterStack L' I') i) := by
  unfold IterStack.getInner
  refine (index (f := trAny gL gI)).bind fun e => ?_
  cases e with
  | leaf it => exact .error
  | inner it => exact .ok rfl

theorem Img.setInnerA (s : IterStack L I) (i : Nat) (it : I) :
    Img E (List.map (trAny gL gI)) (IterStack.setInner s i it)
      (IterStack.setInner (s.map (trAny gL gI) : IterStack L' I') i (gI it)) := by
  unfold IterStack.setInner
  exact (index (f := trAny gL gI)).bind fun e => .ok (by simp [trAny])

theorem Img.checkRange (s : IterStack L I) (a b : Nat) :
    Img E id (InnerIterStack.checkRange s a b) (InnerIterStack.checkRange (s.map (trAny gL gI) : IterStack L' I') a b) := by
  unfold InnerIterStack.checkRange
  rw [List.length_map]
  split
  · exact .ok rfl
  · exact .error

theorem Img.findInner {step : I → Res (Option (Node B K V) × I)} {step' : I' → Res (Option (Node B' K' V') × I')}
    (hs : ∀ it, Img E (Prod.map (Option.map (Node.translate fB fK fV)) gI) (step it) (step' (gI it)))
    {mk : List (Node B K V) → I} {mk' : List (Node B' K' V') → I'}
    (hm : ∀ cs, mk' (cs.map (Node.translate fB fK fV)) = gI (mk cs)) (start stop fuel i : Nat) (s : IterStack L I) :
    Img E (Prod.map (Option.map (Node.translate fB fK fV)) (List.map (trAny gL gI)))
      (InnerIterStack.findLoop step mk start stop fuel i s)
      (InnerIterStack.findLoop step' mk' start stop fuel i (s.map (trAny gL gI) : IterStack L' I')) := by
  induction fuel generalizing i s with
  | zero =>
    unfold InnerIterStack.findLoop
    split
    · exact .error
    · exact .ok rfl
  | succ fuel ih =>
    unfold InnerIterStack.findLoop
    split
    · refine (getInnerA s _).bind fun it => (hs it).bind fun r => ?_
      obtain ⟨o, it⟩ := r
      refine (setInnerA s _ it).bind fun s => ?_
      cases o with
      | none => exact ih _ s
      | some c => cases i with
        | zero => exact .ok rfl
        | succ i =>
          refine (innerChildren c).bind fun cs => ?_
          rw [hm]
          exact (setInnerA s _ (mk cs)).bind fun s => ih _ s
    · exact .ok rfl

end Stack

theorem trEntry_eq : trEntry fB fK fV = trAny (List.map (Prod.map fK fV)) (List.map (Node.translate fB fK fV)) := by
  funext e
  cases e <;> rfl

/-- A translated stack of rewindable iterators. -/
abbrev trRewindStack (fB : B → B') (fK : K → K') (fV : V → V') : RewindTreeIter B K V → RewindTreeIter B' K' V' :=
  List.map (trAny (trRewind (Prod.map fK fV)) (trRewind (Node.translate fB fK fV)))

/-- A translated stack of iterators. -/
abbrev trLeft (fB : B → B') (fK : K → K') (fV : V → V') : TreeIter B K V → TreeIter B' K' V' :=
  List.map (trAny (List.map (Prod.map fK fV)) (List.map (Node.translate fB fK fV)))

theorem weight_trRewind (s : RewindTreeIter B K V) : RewindTreeIter.weight (trRewindStack fB fK fV s) = RewindTreeIter.weight s := by
  unfold RewindTreeIter.weight
  rw [List.map_map]
  congr 1
  refine List.map_congr_left fun e _ => ?_
  cases e with
  | leaf es => rfl
  | inner it =>
    show weightList ((it.slice.map (Node.translate fB fK fV)).drop it.i) = _
    rw [← List.map_drop, ← translateList_eq, weightList_translate]

variable {BL BR KL KR VL VR QL QR BL' BR' KL' KR' VL' VR' QL' QR' : Type} {gL : BL → BL'} {gR : BR → BR'} {kL : KL → KL'} {kR : KR → KR'}
  {vL : VL → VL'} {vR : VR → VR'} {qL : QL → QL'} {qR : QR → QR'}

/-- A translated left-join iterator. -/
def trLeftIter (gL : BL → BL') (gR : BR → BR') (kL : KL → KL') (kR : KR → KR') (vL : VL → VL') (vR : VR → VR')
    (it : LeftJoinIter BL BR KL KR VL VR) : LeftJoinIter BL' BR' KL' KR' VL' VR' :=
  ⟨trLeft gL kL vL it.left, trRewindStack gR kR vR it.right⟩

theorem Img.newLeft (nL : Node BL KL VL) (lL : Nat) (nR : Node BR KR VR) (lR : Nat) :
    Img E (trLeftIter gL gR kL kR vL vR) (LeftJoinIter.new nL lL nR lR)
      (LeftJoinIter.new (nL.translate gL kL vL) lL (nR.translate gR kR vR) lR) := by
  unfold LeftJoinIter.new
  have h1 : (IterStack.newBox [] (List.replicate (lL + 1) []) : TreeIter BL' KL' VL') =
      trLeft gL kL vL (IterStack.newBox [] (List.replicate (lL + 1) [])) := by
    simp [IterStack.newBox, trAny]
  have h2 : (IterStack.newBox (RewindIter.new []) (List.replicate (lR + 1) (RewindIter.new [])) : RewindTreeIter BR' KR' VR') =
      trRewindStack gR kR vR (IterStack.newBox (RewindIter.new []) (List.replicate (lR + 1) (RewindIter.new []))) := by
    simp [IterStack.newBox, trAny, trRewind, RewindIter.new]
  dsimp only
  rw [h1, h2]
  exact (setInnerA _ _ [nL]).bind fun l => (setInnerA _ _ (RewindIter.new [nR])).bind fun r => .ok rfl

theorem Img.iterateLeft (s : TreeIter BL KL VL) (n : Node BL KL VL) (l : Nat) :
    Img E (trLeft gL kL vL) (LeftJoinIter.iterateLeftChildren s n l)
      (LeftJoinIter.iterateLeftChildren (trLeft gL kL vL s) (n.translate gL kL vL) l) := by
  cases l with
  | zero => exact (leafChildren n).bind fun cs => setLeafA s cs
  | succ l => exact (innerChildren n).bind fun cs => setInnerA s l cs

theorem Img.iterateRight (s : RewindTreeIter BR KR VR) (n : Option (Node BR KR VR)) (l : Nat) :
    Img E (trRewindStack gR kR vR) (LeftJoinIter.iterateRightChildren s n l)
      (LeftJoinIter.iterateRightChildren (trRewindStack gR kR vR s) (n.map (Node.translate gR kR vR)) l) := by
  cases l with
  | zero => cases n with
    | none => exact setLeafA s (RewindIter.new [])
    | some n => exact (leafChildren n).bind fun cs => setLeafA s (RewindIter.new cs)
  | succ l => cases n with
    | none => exact setInnerA s l (RewindIter.new [])
    | some n => exact (innerChildren n).bind fun cs => setInnerA s l (RewindIter.new cs)

theorem Img.rewind (stop n i : Nat) (s : RewindTreeIter BR KR VR) :
    Img E (trRewindStack gR kR vR) (LeftJoinIter.rewindLoop stop n i s)
      (LeftJoinIter.rewindLoop stop n i (trRewindStack gR kR vR s)) := by
  induction n generalizing i s with
  | zero => exact .ok rfl
  | succ n ih =>
    unfold LeftJoinIter.rewindLoop
    split
    · exact (getInnerA s i).bind fun it => (setInnerA s i it.rewind).bind fun s => ih _ s
    · exact (setInnerA s i (RewindIter.new [])).bind fun s => ih _ s

theorem Img.remainderLoop (s : RewindTreeIter BR KR VR) (n i : Nat) :
    Img E (List.map (List.map (Node.translate gR kR vR))) (LeftJoinIter.remainderLoop s n i)
      (LeftJoinIter.remainderLoop (trRewindStack gR kR vR s) n i) := by
  induction n generalizing i with
  | zero => exact .ok rfl
  | succ n ih =>
    unfold LeftJoinIter.remainderLoop
    exact (getInnerA s i).bind fun it => (remainder it).bind fun cs => (ih _).bind fun r => .ok rfl

theorem Img.remainders (s : RewindTreeIter BR KR VR) :
    Img E (trLeft gR kR vR) (LeftJoinIter.remainders s) (LeftJoinIter.remainders (trRewindStack gR kR vR s)) := by
  unfold LeftJoinIter.remainders
  rw [List.length_map]
  refine (getLeafA s).bind fun it => (remainder it).bind fun leaf => (remainderLoop s _ 0).bind fun inner => .ok ?_
  simp only [IterStack.newBox, List.map_cons, List.map_map]
  rfl

theorem Img.sliceNext {α β : Type} {f : α → β} (l : List α) :
    Img E (Prod.map (Option.map f) (List.map f)) (LeftJoinIter.sliceNext l) (LeftJoinIter.sliceNext (l.map f)) := by
  cases l <;> exact .ok rfl

variable {f : JoinFilter BL BR QL QR} {f' : JoinFilter BL' BR' QL' QR'}

theorem weight_trLeft (s : TreeIter BL KL VL) : TreeIter.weight (trLeft gL kL vL s) = TreeIter.weight s := by
  have := weight_trStack (fB := gL) (fK := kL) (fV := vL) s
  rwa [trStack, trEntry_eq] at this

theorem Img.nextLeft (hf : f.Alike gL gR qL qR f') (mh fuel level : Nat) (it : LeftJoinIter BL BR KL KR VL VR) :
    Img E (Prod.map (Option.map (Prod.map (Prod.map kL vL) (trLeft gR kR vR))) (trLeftIter gL gR kL kR vL vR))
      (LeftJoinIter.nextLoop f mh fuel level it)
      (LeftJoinIter.nextLoop f' mh fuel level (trLeftIter gL gR kL kR vL vR it)) := by
  induction fuel generalizing level it with
  | zero => exact .error
  | succ fuel ih =>
    have hr : ∀ it : LeftJoinIter BL BR KL KR VL VR, ∀ l, (trLeftIter gL gR kL kR vL vR it).rightStop l = it.rightStop l := by
      intro it l
      simp [LeftJoinIter.rightStop, trLeftIter]
    have hl : ∀ it : LeftJoinIter BL BR KL KR VL VR, ∀ l, (trLeftIter gL gR kL kR vL vR it).leftStop l = it.leftStop l := by
      intro it l
      simp [LeftJoinIter.leftStop, trLeftIter]
    have asc : ∀ (level : Nat) (it : LeftJoinIter BL BR KL KR VL VR),
        Img E (Prod.map (Option.map (Prod.map (Prod.map kL vL) (trLeft gR kR vR))) (trLeftIter gL gR kL kR vL vR))
          (if level + 1 = mh then .ok (none, it)
            else do
              let stop := it.rightStop level
              InnerIterStack.checkRange it.right (level + 1) stop
              let right ← LeftJoinIter.rewindLoop (stop - 1) (stop - (level + 1)) level it.right
              LeftJoinIter.nextLoop f mh fuel (level + 1) ⟨it.left, right⟩)
          (if level + 1 = mh then .ok (none, trLeftIter gL gR kL kR vL vR it)
            else do
              let stop := (trLeftIter gL gR kL kR vL vR it).rightStop level
              InnerIterStack.checkRange (trLeftIter gL gR kL kR vL vR it).right (level + 1) stop
              let right ← LeftJoinIter.rewindLoop (stop - 1) (stop - (level + 1)) level (trLeftIter gL gR kL kR vL vR it).right
              LeftJoinIter.nextLoop f' mh fuel (level + 1) ⟨(trLeftIter gL gR kL kR vL vR it).left, right⟩) := by
      intro level it
      split
      · exact .ok rfl
      · rw [hr]
        exact (checkRange it.right _ _).bind fun _ => (rewind _ _ _ it.right).bind fun r => ih _ ⟨it.left, r⟩
    unfold LeftJoinIter.nextLoop
    cases level with
    | zero =>
      refine (getLeafA it.left).bind fun es => ?_
      cases es with
      | nil => exact asc 0 it
      | cons e rest =>
        exact (setLeafA it.left rest).bind fun l => (remainders it.right).bind fun st => .ok rfl
    | succ l =>
      dsimp only
      rw [hl, show (trLeftIter gL gR kL kR vL vR it).left.weight = it.left.weight from weight_trLeft _,
        show (trLeftIter gL gR kL kR vL vR it).left.length = it.left.length from List.length_map _]
      refine (checkRange it.left _ _).bind fun _ => ?_
      refine (findInner (gI := List.map (Node.translate gL kL vL)) (fun s => sliceNext s) (fun _ => rfl) _ _ _ _ it.left).bind fun r => ?_
      obtain ⟨o, left⟩ := r
      cases o with
      | none => exact asc (l + 1) ⟨left, it.right⟩
      | some nL =>
        dsimp only [Prod.map, Option.map_some]
        have h3 := hr ⟨left, it.right⟩ l
        dsimp only [trLeftIter] at h3 ⊢
        rw [h3, weight_trRewind, List.length_map]
        refine (checkRange it.right _ _).bind fun _ => ?_
        refine (findInner (gI := trRewind (Node.translate gR kR vR)) (fun s => findRewind (fun n => ?_) s) (fun _ => rfl) _ _ _ _ it.right).bind fun r => ?_
        · rw [Node.bounds_translate, Node.bounds_translate, hf.1]
        · exact (iterateLeft left nL l).bind fun left => (iterateRight r.2 r.1 l).bind fun right => ih _ ⟨left, right⟩

variable {borrowL : KL → QL} {borrowR : KR → QR} {borrowL' : KL' → QL'} {borrowR' : KR' → QR'} [Bounded QL BL] [Bounded QL' BL']

theorem Img.collectLeft (hf : f.Alike gL gR qL qR f') (hb : ∀ q : QL, Bounded.bounds (qL q) = gL (Bounded.bounds q))
    (h0 : ∀ k, borrowL' (kL k) = qL (borrowL k)) (h1 : ∀ k, borrowR' (kR k) = qR (borrowR k)) (n : Nat)
    (it : LeftJoinIter BL BR KL KR VL VR) :
    Img E (List.map (Prod.map (Prod.map kL vL) (List.map (Prod.map kR vR)))) (LeftJoinIter.collectLoop borrowL borrowR f n it)
      (LeftJoinIter.collectLoop borrowL' borrowR' f' n (trLeftIter gL gR kL kR vL vR it)) := by
  induction n generalizing it with
  | zero => exact .error
  | succ n ih =>
    unfold LeftJoinIter.collectLoop
    have hn : Img E (Prod.map (Option.map (Prod.map (Prod.map kL vL) (trLeft gR kR vR))) (trLeftIter gL gR kL kR vL vR))
        (LeftJoinIter.next f it) (LeftJoinIter.next f' (trLeftIter gL gR kL kR vL vR it)) := by
      unfold LeftJoinIter.next
      rw [show (trLeftIter gL gR kL kR vL vR it).left.weight = it.left.weight from weight_trLeft _,
        show (trLeftIter gL gR kL kR vL vR it).left.length = it.left.length from List.length_map _,
        show (trLeftIter gL gR kL kR vL vR it).right.length = it.right.length from List.length_map _]
      dsimp only
      split
      · exact .ok rfl
      · exact nextLeft hf _ _ _ it
    refine hn.bind fun r => ?_
    obtain ⟨o, it⟩ := r
    cases o with
    | none => exact .ok rfl
    | some x =>
      obtain ⟨e, stack⟩ := x
      have hj : (joiningFilter (borrowL e.1) f).Alike gR qR (joiningFilter (borrowL' (kL e.1)) f') := by
        refine ⟨fun b => ?_, fun k => ?_⟩
        · show f'.testBounds (Bounded.bounds (borrowL' (kL e.1))) (gR b) = f.testBounds (Bounded.bounds (borrowL e.1)) b
          rw [h0, hb, hf.1]
        · show f'.testKey (borrowL' (kL e.1)) (qR k) = f.testKey (borrowL e.1) k
          rw [h0, hf.2]
      have hc := Img.collect (E := E) (fK := kR) (fV := vR) (borrow := borrowR) (borrow' := borrowR') hj h1 stack
      rw [trStack, trEntry_eq] at hc
      exact hc.bind fun m => (ih it).bind fun rest => .ok rfl

theorem Img.leftJoin (hf : f.Alike gL gR qL qR f') (hb : ∀ q : QL, Bounded.bounds (qL q) = gL (Bounded.bounds q))
    (h0 : ∀ k, borrowL' (kL k) = qL (borrowL k)) (h1 : ∀ k, borrowR' (kR k) = qR (borrowR k)) (tl : Tree BL KL VL)
    (tr : Tree BR KR VR) :
    Img E (List.map (Prod.map (Prod.map kL vL) (List.map (Prod.map kR vR)))) (tl.leftJoin borrowL borrowR f tr)
      ((tl.translate gL kL vL).leftJoin borrowL' borrowR' f' (tr.translate gR kR vR)) := by
  unfold Tree.leftJoin
  refine (newLeft tl.root tl.level tr.root tr.level).bind fun it => ?_
  rw [show (trLeftIter gL gR kL kR vL vR it).left.weight = it.left.weight from weight_trLeft _]
  exact collectLeft hf hb h0 h1 _ it

end LeftJoin

end RTree
