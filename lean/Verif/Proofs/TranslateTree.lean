import Verif.Proofs.Translate
/-!
The calls of the API commute with translations of keys, bounds and values.
-/

namespace RTree

variable {B B' K K' V V' : Type} {E : Prop} {fB : B → B'} {fK : K → K'} {fV : V → V'}

section Reading

theorem Img.lenNode (l : Nat) (n : Node B K V) : Img E id (lenNode l n) (RTree.lenNode l (n.translate fB fK fV)) := by
  induction l generalizing n with
  | zero => exact (leafChildren n).bind fun es => .ok (by simp)
  | succ l ih =>
    unfold RTree.lenNode
    refine (innerChildren n).bind fun cs => ?_
    exact foldlM (f := id) (g := Node.translate fB fK fV) (fun s c => by
      refine Img.bind (ih c) fun m => ?_
      exact .ok rfl) cs 0

theorem Img.isEmptyNode (l : Nat) (n : Node B K V) :
    Img E id (isEmptyNode l n) (RTree.isEmptyNode l (n.translate fB fK fV)) := by
  cases l with
  | zero => exact (leafChildren n).bind fun es => .ok (by simp)
  | succ l => exact (innerChildren n).bind fun es => .ok (by simp)

theorem Img.cloneNode (a : Alloc) (l : Nat) (n : Node B K V) :
    Img E (Node.translate fB fK fV) (cloneNode a l n) (RTree.cloneNode a l (n.translate fB fK fV)) := by
  induction l generalizing n with
  | zero =>
    unfold RTree.cloneNode
    exact (leafChildren n).bind fun es => (Img.clone (f := Prod.map fK fV)).bind fun es => .ok (by simp)
  | succ l ih =>
    unfold RTree.cloneNode
    refine (innerChildren n).bind fun cs => ?_
    refine (foldlM (f := List.map (Node.translate fB fK fV)) (g := Node.translate fB fK fV)
      (fun s c => (ih c).bind fun m => push) cs []).bind fun cs => .ok (by simp)

theorem Img.len (t : Tree B K V) : Img E id t.len (t.translate fB fK fV).len := lenNode _ _

theorem Img.isEmpty (t : Tree B K V) : Img E id t.isEmpty (t.translate fB fK fV).isEmpty := isEmptyNode _ _

theorem Img.cloneTree (t : Tree B K V) : Img E (Tree.translate fB fK fV) t.clone (t.translate fB fK fV).clone := by
  unfold Tree.clone
  exact (cloneNode t.alloc t.level t.root).bind fun n => .ok rfl

end Reading

section Iteration

/-- Translated leaf and inner iterators. -/
def trEntry (fB : B → B') (fK : K → K') (fV : V → V') : StackEntry (List (K × V)) (List (Node B K V)) →
    StackEntry (List (K' × V')) (List (Node B' K' V'))
  | .leaf es => .leaf (es.map (Prod.map fK fV))
  | .inner cs => .inner (cs.map (Node.translate fB fK fV))

/-- A translated stack. -/
abbrev trStack (fB : B → B') (fK : K → K') (fV : V → V') : TreeIter B K V → TreeIter B' K' V' := List.map (trEntry fB fK fV)

mutual
theorem Node.weight_translate (n : Node B K V) : (n.translate fB fK fV).weight = n.weight := by
  cases n with
  | leaf b es => simp [Node.translate, Node.weight]
  | inner b cs => simp only [Node.translate, Node.weight, weightList_translate cs]
theorem weightList_translate (cs : List (Node B K V)) : weightList (translateList fB fK fV cs) = weightList cs := by
  cases cs with
  | nil => simp [translateList, weightList]
  | cons c cs => simp [translateList, weightList, Node.weight_translate c, weightList_translate cs]
end

theorem weight_trStack (s : TreeIter B K V) : TreeIter.weight (trStack fB fK fV s) = TreeIter.weight s := by
  unfold TreeIter.weight
  rw [List.map_map]
  congr 1
  refine List.map_congr_left fun e _ => ?_
  cases e with
  | leaf es => simp [trEntry]
  | inner cs =>
    show weightList (cs.map (Node.translate fB fK fV)) = weightList cs
    rw [← translateList_eq, weightList_translate]

theorem Img.getLeaf (s : TreeIter B K V) :
    Img E (List.map (Prod.map fK fV)) (IterStack.getLeaf s) (IterStack.getLeaf (trStack fB fK fV s)) := by
  unfold IterStack.getLeaf
  refine (index (f := trEntry fB fK fV)).bind fun e => ?_
  cases e with
  | leaf it => exact .ok rfl
  | inner it => exact .error

theorem Img.setLeaf (s : TreeIter B K V) (it : List (K × V)) :
    Img E (trStack fB fK fV) (IterStack.setLeaf s it) (IterStack.setLeaf (trStack fB fK fV s) (it.map (Prod.map fK fV))) := by
  unfold IterStack.setLeaf
  exact (index (f := trEntry fB fK fV)).bind fun e => .ok (by simp [trEntry])

theorem Img.getInner (s : TreeIter B K V) (i : Nat) :
    Img E (List.map (Node.translate fB fK fV)) (IterStack.getInner s i) (IterStack.getInner (trStack fB fK fV s) i) := by
  unfold IterStack.getInner
  refine (index (f := trEntry fB fK fV)).bind fun e => ?_
  cases e with
  | leaf it => exact .error
  | inner it => exact .ok rfl

theorem Img.setInner (s : TreeIter B K V) (i : Nat) (it : List (Node B K V)) :
    Img E (trStack fB fK fV) (IterStack.setInner s i it)
      (IterStack.setInner (trStack fB fK fV s) i (it.map (Node.translate fB fK fV))) := by
  unfold IterStack.setInner
  exact (index (f := trEntry fB fK fV)).bind fun e => .ok (by simp [trEntry])

theorem findNext_map {α β : Type} {f : α → β} {p : α → Bool} {p' : β → Bool} (h : ∀ a, p' (f a) = p a) (l : List α) :
    findNext p' (l.map f) = Prod.map (Option.map f) (List.map f) (findNext p l) := by
  induction l with
  | nil => rfl
  | cons a l ih =>
    rw [List.map_cons]
    unfold findNext
    rw [h]
    split
    · rfl
    · exact ih

variable {Q Q' : Type} {fQ : Q → Q'} {borrow : K → Q} {borrow' : K' → Q'} {f : SpatialFilter B Q} {f' : SpatialFilter B' Q'}

theorem Img.nextLoop (hf : f.Alike fB fQ f') (hq : ∀ k, borrow' (fK k) = fQ (borrow k)) (fuel level : Nat) (s : TreeIter B K V) :
    Img E (Prod.map (Option.map (Prod.map fK fV)) (trStack fB fK fV)) (TreeIter.nextLoop borrow f fuel level s)
      (TreeIter.nextLoop borrow' f' fuel level (trStack fB fK fV s)) := by
  induction fuel generalizing level s with
  | zero =>
    unfold TreeIter.nextLoop
    rw [List.length_map]
    split
    · exact .error
    · exact .ok rfl
  | succ fuel ih =>
    unfold TreeIter.nextLoop
    rw [List.length_map]
    split
    · cases level with
      | zero =>
        refine (getLeaf s).bind fun it => ?_
        simp only
        rw [findNext_map (p := fun e => f.testKey (borrow e.1)) (f := Prod.map fK fV) (fun e => by simp [hq, hf.2]) it]
        generalize findNext (fun e : K × V => f.testKey (borrow e.1)) it = x
        obtain ⟨found, it⟩ := x
        simp only [Prod.map_apply]
        refine (setLeaf s it).bind fun s => ?_
        cases found with
        | some e => exact .ok rfl
        | none => exact ih 1 s
      | succ l =>
        refine (getInner s l).bind fun it => ?_
        simp only
        rw [findNext_map (p := fun n : Node B K V => f.testBounds n.bounds) (f := Node.translate fB fK fV)
          (fun n => by simp [hf.1]) it]
        generalize findNext (fun n : Node B K V => f.testBounds n.bounds) it = x
        obtain ⟨found, it⟩ := x
        simp only [Prod.map_apply]
        refine (setInner s l it).bind fun s => ?_
        cases found with
        | none => exact ih _ s
        | some n =>
          cases l with
          | zero => exact (leafChildren n).bind fun es => (setLeaf s es).bind fun s => ih _ s
          | succ l => exact (innerChildren n).bind fun cs => (setInner s l cs).bind fun s => ih _ s
    · exact .ok rfl

theorem Img.next (hf : f.Alike fB fQ f') (hq : ∀ k, borrow' (fK k) = fQ (borrow k)) (s : TreeIter B K V) :
    Img E (Prod.map (Option.map (Prod.map fK fV)) (trStack fB fK fV)) (TreeIter.next borrow f s)
      (TreeIter.next borrow' f' (trStack fB fK fV s)) := by
  unfold TreeIter.next
  rw [weight_trStack, List.length_map]
  exact nextLoop hf hq _ _ s

theorem Img.collect (hf : f.Alike fB fQ f') (hq : ∀ k, borrow' (fK k) = fQ (borrow k)) (s : TreeIter B K V) :
    Img E (List.map (Prod.map fK fV)) (TreeIter.collect borrow f s) (TreeIter.collect borrow' f' (trStack fB fK fV s)) := by
  unfold TreeIter.collect
  rw [weight_trStack]
  generalize TreeIter.weight s + 1 = n
  induction n generalizing s with
  | zero => exact .error
  | succ n ih =>
    unfold TreeIter.collectLoop
    refine (next hf hq s).bind fun x => ?_
    obtain ⟨o, s⟩ := x
    cases o with
    | none => exact .ok rfl
    | some e => exact (ih s).bind fun es => .ok rfl

theorem Img.newIter (l : Nat) (n : Node B K V) :
    Img E (trStack fB fK fV) (TreeIter.new l n) (TreeIter.new l (n.translate fB fK fV)) := by
  have h : (IterStack.newBox [] (List.replicate l []) : TreeIter B' K' V') =
      trStack fB fK fV (IterStack.newBox [] (List.replicate l [])) := by
    simp [IterStack.newBox, trEntry]
  unfold TreeIter.new
  simp only [h]
  cases l with
  | zero => exact (leafChildren n).bind fun es => setLeaf _ es
  | succ l => exact (innerChildren n).bind fun cs => setInner _ l cs

theorem Img.filterIter (hf : f.Alike fB fQ f') (hq : ∀ k, borrow' (fK k) = fQ (borrow k)) (t : Tree B K V) :
    Img E (List.map (Prod.map fK fV)) (t.filterIter borrow f) ((t.translate fB fK fV).filterIter borrow' f') := by
  unfold Tree.filterIter TreeIter.newFilter
  have h : (t.translate fB fK fV).root.bounds = fB t.root.bounds := Node.bounds_translate t.root
  rw [h, hf.1]
  split
  · exact (newIter t.level t.root).bind fun s => collect hf hq s
  · exact (Img.ok (f := trStack fB fK fV) (a := TreeIter.newEmpty) (b := TreeIter.newEmpty) rfl).bind fun s => collect hf hq s

theorem noFilter_alike : (noFilter B K).Alike fB fK (noFilter B' K') := ⟨fun _ => rfl, fun _ => rfl⟩

theorem Img.iter (t : Tree B K V) : Img E (List.map (Prod.map fK fV)) t.iter (t.translate fB fK fV).iter := by
  unfold Tree.iter
  exact (newIter t.level t.root).bind fun s => collect (borrow := id) (borrow' := id) (fQ := fK) noFilter_alike (fun _ => rfl) s

mutual
theorem Node.size_translate (n : Node B K V) : (n.translate fB fK fV).size = n.size := by
  cases n with
  | leaf b es => simp [Node.translate, Node.size]
  | inner b cs => simp only [Node.translate, Node.size, sizeList_translate cs]
theorem sizeList_translate (cs : List (Node B K V)) : sizeList (translateList fB fK fV cs) = sizeList cs := by
  cases cs with
  | nil => simp [translateList, sizeList]
  | cons c cs => simp [translateList, sizeList, Node.size_translate c, sizeList_translate cs]
end

mutual
theorem Node.addressed_translate (a : Nat) (n : Node B K V) :
    (n.translate fB fK fV).addressed a = (n.addressed a).translate fB fK id := by
  cases n with
  | leaf b es =>
    simp only [Node.translate, Node.addressed, List.zipIdx_map, List.map_map]
    rfl
  | inner b cs => simp only [Node.translate, Node.addressed, addressedList_translate a cs]
theorem addressedList_translate (a : Nat) (cs : List (Node B K V)) :
    addressedList a (translateList fB fK fV cs) = translateList fB fK id (addressedList a cs) := by
  cases cs with
  | nil => simp [translateList, addressedList]
  | cons c cs => simp [translateList, addressedList, Node.addressed_translate a c, Node.size_translate c,
      addressedList_translate _ cs]
end

theorem Tree.addressed_translate (t : Tree B K V) : (t.translate fB fK fV).addressed = t.addressed.translate fB fK id := by
  simp [Tree.addressed, Tree.translate, Node.addressed_translate]

theorem Img.filterIterMut (hf : f.Alike fB fQ f') (hq : ∀ k, borrow' (fK k) = fQ (borrow k)) (t : Tree B K V) :
    Img E (List.map (Prod.map fK id)) (t.filterIterMut borrow f) ((t.translate fB fK fV).filterIterMut borrow' f') := by
  unfold Tree.filterIterMut
  rw [Tree.addressed_translate]
  exact filterIter hf hq _

mutual
theorem Node.modifyAt_translate {g : V → V} {g' : V' → V'} (h : ∀ v, g' (fV v) = fV (g v)) (a : Nat) (n : Node B K V) :
    (n.translate fB fK fV).modifyAt a g' = (n.modifyAt a g).translate fB fK fV := by
  cases n with
  | leaf b es =>
    simp only [Node.translate, Node.modifyAt]
    congr 1
    refine List.ext_getElem? fun i => ?_
    simp only [List.getElem?_modify, List.getElem?_map]
    cases es[i]? with
    | none => simp
    | some e => by_cases hi : a = i <;> simp [hi, h]
  | inner b cs => simp only [Node.translate, Node.modifyAt, modifyAtList_translate h a cs]
theorem modifyAtList_translate {g : V → V} {g' : V' → V'} (h : ∀ v, g' (fV v) = fV (g v)) (a : Nat) (cs : List (Node B K V)) :
    modifyAtList a g' (translateList fB fK fV cs) = translateList fB fK fV (modifyAtList a g cs) := by
  cases cs with
  | nil => simp [translateList, modifyAtList]
  | cons c cs =>
    simp only [translateList, modifyAtList, Node.size_translate c]
    split
    · simp only [translateList, Node.modifyAt_translate h a c]
    · simp only [translateList, modifyAtList_translate h _ cs]
end

theorem Tree.writeAll_translate {u : K → V → V} {u' : K' → V' → V'} (h : ∀ k v, u' (fK k) (fV v) = fV (u k v))
    (refs : List (K × Nat)) (t : Tree B K V) :
    (t.translate fB fK fV).writeAll u' (refs.map (Prod.map fK id)) = (t.writeAll u refs).translate fB fK fV := by
  unfold Tree.writeAll
  induction refs generalizing t with
  | nil => rfl
  | cons r refs ih =>
    rw [List.map_cons, List.foldl_cons, List.foldl_cons, ← ih]
    congr 1
    simp only [Tree.modifyAt, Tree.translate, Prod.map_fst, Prod.map_snd, id]
    rw [Node.modifyAt_translate (h r.1)]

end Iteration

section Calls

variable [Bounds B] [Volume B] [Bounds B'] [Volume B'] {fVol : Volume.Vol B → Volume.Vol B'} [Bounded K B] [Bounded K' B']

omit [Volume B] [Volume B'] [Bounded K B] [Bounded K' B'] in
theorem Tree.new_translate (h : Bounds.empty = fB (Bounds.empty : B)) (c : Config) :
    (Tree.new c : Tree B' K' V') = (Tree.new c : Tree B K V).translate fB fK fV := by
  simp [Tree.new, Tree.translate, h]

omit [Bounds B] [Volume B] [Bounds B'] [Volume B'] [Bounded K B] [Bounded K' B'] in
theorem Img.tryUnbranch (t : Tree B K V) : Img E (Tree.translate fB fK fV) t.tryUnbranch (t.translate fB fK fV).tryUnbranch := by
  rcases t with ⟨a, l, n⟩
  unfold Tree.tryUnbranch
  cases l with
  | zero => exact (leafChildren n).bind fun _ => .ok rfl
  | succ l =>
    refine (innerChildren n).bind fun cs => ?_
    rw [List.length_map]
    split
    · exact (swapRemove (f := Node.translate fB fK fV)).bind fun x => .ok rfl
    · exact .ok rfl

namespace TranslatesBounds

variable (T : TranslatesBounds E fB fVol)

include T

omit [Bounded K B] [Bounded K' B'] in
theorem branch (t : Tree B K V) (s : Nat × Node B K V) :
    Img E (Tree.translate fB fK fV) (t.branch s) ((t.translate fB fK fV).branch (Prod.map id (Node.translate fB fK fV) s)) := by
  unfold Tree.branch
  show Img E _ (if s.1 ≠ t.level then _ else _) (if s.1 ≠ t.level then _ else _)
  split
  · exact .error
  · refine (Img.push (f := Node.translate fB fK fV) (l := []) (a := t.root)).bind fun next => ?_
    refine (Img.push (f := Node.translate fB fK fV) (l := next) (a := s.2)).bind fun next => .ok ?_
    simp [Tree.translate, T.union]

variable (hb : ∀ k : K, Bounded.bounds (fK k) = fB (Bounded.bounds k))

include hb

theorem insertEntry (t : Tree B K V) (e : NodeEntry B K V) :
    Img E (Tree.translate fB fK fV) (t.insertEntry e) ((t.translate fB fK fV).insertEntry (e.translate fB fK fV)) := by
  unfold Tree.insertEntry
  refine (T.insertNode hb t.alloc t.level t.root e).bind fun r => ?_
  obtain ⟨root, sibling⟩ := r
  cases sibling with
  | none => exact .ok rfl
  | some s => exact T.branch { t with root := root } s

theorem insert (t : Tree B K V) (k : K) (v : V) :
    Img E (Tree.translate fB fK fV) (t.insert k v) ((t.translate fB fK fV).insert (fK k) (fV v)) :=
  T.insertEntry hb t (.leaf k v)

omit hb in
theorem insertUnique [BEq K] [BEq K'] (hK : TranslatesKeys fB fK) (t : Tree B K V) (k : K) (v : V) :
    Img E (Prod.map (Tree.translate fB fK fV) (Option.map fV)) (t.insertUnique k v)
      ((t.translate fB fK fV).insertUnique (fK k) (fV v)) := by
  unfold Tree.insertUnique
  refine (T.insertUniqueNode hK t.alloc k v t.level t.root).bind fun r => ?_
  obtain ⟨root, old, sibling⟩ := r
  cases sibling with
  | none => exact .ok rfl
  | some s => exact (T.branch { t with root := root } s).bind fun t => .ok rfl

omit T hb [Bounds B] [Volume B] [Bounds B'] [Volume B'] [Bounded K B] [Bounded K' B'] in
theorem _root_.RTree.Img.slotEntries (l : Nat) (c : NodeChildren B K V) :
    Img E (List.map (NodeEntry.translate fB fK fV)) (Tree.slotEntries l c) (Tree.slotEntries l (c.translate fB fK fV)) := by
  cases l <;> cases c <;> first
    | exact .error
    | exact .ok (by simp [NodeEntry.translate])

theorem reinsert (slots : List (Option (NodeChildren B K V) × Nat)) (t : Tree B K V) :
    Img E (Tree.translate fB fK fV) (t.reinsert slots)
      ((t.translate fB fK fV).reinsert (slots.map (Prod.map (Option.map (NodeChildren.translate fB fK fV)) id))) := by
  induction slots generalizing t with
  | nil => exact .ok rfl
  | cons s slots ih =>
    obtain ⟨o, l⟩ := s
    cases o with
    | none => exact ih t
    | some c =>
      rw [List.map_cons]
      unfold Tree.reinsert
      refine (Img.slotEntries (fB := fB) (fK := fK) (fV := fV) l c).bind fun es => ?_
      exact (Img.foldlM (fun t e => T.insertEntry hb t e) es t).bind ih

variable {Q Q' : Type} [Bounded Q B] [BEq Q] [Bounded Q' B'] [BEq Q'] {fQ : Q → Q'} {borrow : K → Q} {borrow' : K' → Q'}

theorem remove (hQ : TranslatesKeys fB fQ) (hq : ∀ k, borrow' (fK k) = fQ (borrow k)) (t : Tree B K V) (q : Q) :
    Img E (Prod.map (Tree.translate fB fK fV) (Option.map fV)) (t.remove borrow q)
      ((t.translate fB fK fV).remove borrow' (fQ q)) := by
  unfold Tree.remove
  have h := T.removeNode (fV := fV) hb hQ hq t.alloc q t.level t.root (List.replicate t.level none)
  rw [trSlots, List.map_replicate] at h
  refine h.bind fun r => ?_
  obtain ⟨root, value, slots⟩ := r
  cases value with
  | none => exact .ok rfl
  | some v =>
    refine (Img.tryUnbranch { t with root := root }).bind fun t => ?_
    have h := T.reinsert hb (fV := fV) slots.zipIdx t
    rw [← List.zipIdx_map] at h
    exact h.bind fun t => .ok rfl

omit hb [Bounded K B] [Bounded K' B'] in
theorem get (hQ : TranslatesKeys fB fQ) (hq : ∀ k, borrow' (fK k) = fQ (borrow k)) (t : Tree B K V) (q : Q) :
    Img E (Option.map fV) (t.get borrow q) ((t.translate fB fK fV).get borrow' (fQ q)) :=
  Img.getNode T.contains hQ hq q t.level t.root

omit hb [Bounded K B] [Bounded K' B'] in
theorem getMut (hQ : TranslatesKeys fB fQ) (hq : ∀ k, borrow' (fK k) = fQ (borrow k)) (t : Tree B K V) (q : Q) :
    ImgR E (RefAlike (Tree.translate fB fK fV) fV) (t.getMut borrow q) ((t.translate fB fK fV).getMut borrow' (fQ q)) := by
  unfold Tree.getMut
  refine (ImgR.getMutNode T.contains hQ hq q t.level t.root).bind fun o o' h => ?_
  cases o with
  | none => cases o' with
    | none => exact .ok trivial
    | some _ => exact h.elim
  | some x => cases o' with
    | none => exact h.elim
    | some x' => exact .ok ⟨h.1, fun w => by simp [Tree.translate, h.2 w]⟩

omit hb in
theorem step [BEq K] [BEq K'] (hK : TranslatesKeys fB fK) (t : Tree B K V) {op : Op B K V} {op' : Op B' K' V'}
    (h : Op.Alike fB fK fV op op') : Img E (Tree.translate fB fK fV) (op.step t) (op'.step (t.translate fB fK fV)) := by
  cases h with
  | insert k v => exact T.insert hK.bounds t k v
  | insertUnique k v => exact (T.insertUnique hK t k v).bind fun r => .ok rfl
  | remove k => exact (T.remove hK.bounds hK (borrow := id) (borrow' := id) (fun _ => rfl) t k).bind fun r => .ok rfl
  | get k => exact (T.get hK (borrow := id) (borrow' := id) (fun _ => rfl) t k).bind fun r => .ok rfl
  | set k v =>
    refine (T.getMut hK (borrow := id) (borrow' := id) (fun _ => rfl) t k).bindI fun o o' h => ?_
    cases o with
    | none => cases o' with
      | none => exact .ok rfl
      | some _ => exact h.elim
    | some x => cases o' with
      | none => exact h.elim
      | some x' => exact .ok (h.2 v)
  | len => exact (Img.len t).bind fun r => .ok rfl
  | isEmpty => exact (Img.isEmpty t).bind fun r => .ok rfl
  | clone => exact Img.cloneTree t
  | iter => exact (Img.iter t).bind fun r => .ok rfl
  | filterIter hf => exact (Img.filterIter (borrow := id) (borrow' := id) hf (fun _ => rfl) t).bind fun r => .ok rfl
  | filterIterMut hf hu =>
    refine (Img.filterIterMut (borrow := id) (borrow' := id) hf (fun _ => rfl) t).bind fun r => .ok ?_
    exact Tree.writeAll_translate hu r t

omit hb in
theorem run [BEq K] [BEq K'] (hK : TranslatesKeys fB fK) (t : Tree B K V) {ops : List (Op B K V)} {ops' : List (Op B' K' V')}
    (h : OpsAlike fB fK fV ops ops') : Img E (Tree.translate fB fK fV) (run t ops) (RTree.run (t.translate fB fK fV) ops') := by
  induction h generalizing t with
  | nil => exact .ok rfl
  | cons ho _ ih =>
    unfold RTree.run
    rw [List.foldlM_cons, List.foldlM_cons]
    exact (T.step hK t ho).bind ih

end TranslatesBounds

end Calls

end RTree
