import Verif.Translate
/-!
Every function of the tree commutes with translations of keys, bounds and values.
-/

namespace RTree

/-- What `y` does is the image of what `x` does; if `x` panics and `E` holds, `y` panics in the same way. -/
def Img {α β : Type} (E : Prop) (f : α → β) (x : Res α) (y : Res β) : Prop :=
  (∀ a, x = .ok a → y = .ok (f a)) ∧ (E → ∀ e, x = .error e → y = .error e)

namespace Img

variable {E : Prop} {α β γ δ : Type}

theorem ok {f : α → β} {a : α} {b : β} (h : b = f a) : Img E f (.ok a) (.ok b) :=
  ⟨fun a' h' => (by cases h'; rw [h]), fun _ e h' => (by cases h')⟩

theorem pure {f : α → β} {a : α} {b : β} (h : b = f a) : Img E f (Pure.pure a : Res α) (Pure.pure b) := ok h

theorem error {f : α → β} {e : Panic} : Img E f (.error e) (.error e) :=
  ⟨fun a h => (by cases h), fun _ e h => (by cases h; rfl)⟩

theorem throw {f : α → β} {e : Panic} : Img E f (MonadExcept.throw e : Res α) (MonadExcept.throw e : Res β) := error

theorem bind {f : α → β} {g : γ → δ} {x : Res α} {y : Res β} {k : α → Res γ} {k' : β → Res δ} (h : Img E f x y)
    (hk : ∀ a, Img E g (k a) (k' (f a))) : Img E g (x >>= k) (y >>= k') := by
  cases x with
  | ok a =>
    rw [h.1 a rfl]
    exact hk a
  | error e => exact ⟨fun a h' => (by cases h'), fun hE e' h' => (by cases h'; rw [h.2 hE e rfl]; rfl)⟩

theorem arith {f : α → β} {o : Option α} {o' : Option β} (h : ∀ a, o = some a → o' = some (f a))
    (h' : E → o = none → o' = none) : Img E f (arith o) (RTree.arith o') := by
  cases o with
  | some a => rw [h a rfl]; exact ok rfl
  | none => exact ⟨fun a h' => (by cases h'), fun hE e he => (by cases he; rw [h' hE rfl]; rfl)⟩

theorem unwrap {f : α → β} {o : Option α} : Img E f (unwrap o) (RTree.unwrap (o.map f)) := by
  cases o with
  | some a => exact ok rfl
  | none => exact error

theorem index {f : α → β} {l : List α} {i : Nat} : Img E f (index l i) (RTree.index (l.map f) i) := by
  unfold RTree.index
  rw [List.getElem?_map]
  cases l[i]? with
  | some a => exact ok rfl
  | none => exact error

theorem foldlM {f : α → β} {g : γ → δ} {step : α → γ → Res α} {step' : β → δ → Res β}
    (h : ∀ a c, Img E f (step a c) (step' (f a) (g c))) (l : List γ) (a : α) :
    Img E f (l.foldlM step a) ((l.map g).foldlM step' (f a)) := by
  induction l generalizing a with
  | nil => exact ok rfl
  | cons c l ih =>
    rw [List.map_cons, List.foldlM_cons, List.foldlM_cons]
    exact (h a c).bind ih

theorem mapM {f : α → β} {g : γ → δ} {k : α → Res γ} {k' : β → Res δ} (h : ∀ a, Img E g (k a) (k' (f a))) (l : List α) :
    Img E (List.map g) (l.mapM k) ((l.map f).mapM k') := by
  induction l with
  | nil => exact ok rfl
  | cons a l ih =>
    rw [List.map_cons, List.mapM_cons, List.mapM_cons]
    exact (h a).bind fun b => ih.bind fun bs => ok rfl

theorem push {f : α → β} {cap : Nat} {l : List α} {a : α} :
    Img E (List.map f) (Vec.push cap l a) (Vec.push cap (l.map f) (f a)) := by
  unfold Vec.push
  rw [List.length_map]
  split
  · exact error
  · exact ok (by simp)

theorem swap {f : α → β} {l : List α} {i j : Nat} : Img E (List.map f) (Vec.swap l i j) (Vec.swap (l.map f) i j) := by
  unfold Vec.swap
  rw [List.getElem?_map, List.getElem?_map]
  cases l[i]? with
  | none => exact error
  | some a =>
    cases l[j]? with
    | none => exact error
    | some b => exact ok (by simp)

theorem swapRemove {f : α → β} {l : List α} {i : Nat} :
    Img E (Prod.map f (List.map f)) (Vec.swapRemove l i) (Vec.swapRemove (l.map f) i) := by
  unfold Vec.swapRemove
  rw [List.getElem?_map, List.getLast?_map]
  cases l[i]? with
  | none => exact error
  | some a =>
    cases l.getLast? with
    | none => exact error
    | some b => exact ok (by simp)

end Img

theorem Vec.tryPush_map {α β : Type} (f : α → β) (cap : Nat) (l : List α) (a : α) :
    Vec.tryPush cap (l.map f) (f a) = ((Vec.tryPush cap l a).1.map f, (Vec.tryPush cap l a).2.map f) := by
  unfold Vec.tryPush
  rw [List.length_map]
  split <;> simp

theorem Img.clone {E : Prop} {α β : Type} {f : α → β} {cap : Nat} {l : List α} :
    Img E (List.map f) (Vec.clone cap l) (Vec.clone cap (l.map f)) := by
  unfold Vec.clone
  rw [List.length_map]
  split
  · exact error
  · exact foldlM (f := List.map f) (g := f) (fun a c => push) l []

theorem Img.minBy {E : Prop} {α β : Type} {f : α → β} {cmp : α → α → Res Ordering} {cmp' : β → β → Res Ordering}
    (h : ∀ a b, Img E id (cmp a b) (cmp' (f a) (f b))) (l : List α) :
    Img E (Option.map f) (minBy cmp l) (RTree.minBy cmp' (l.map f)) := by
  cases l with
  | nil => exact ok rfl
  | cons x xs =>
    unfold RTree.minBy
    refine (foldlM (fun a c => ?_) xs x).bind fun r => ok rfl
    refine (h a c).bind fun o => ?_
    cases o <;> exact ok rfl

section Bounds

variable {B B' : Type} [Bounds B] [Volume B] [Bounds B'] [Volume B'] {E : Prop} {fB : B → B'}
  {fVol : Volume.Vol B → Volume.Vol B'}

namespace TranslatesBounds

variable (T : TranslatesBounds E fB fVol)

include T

theorem vol (b : B) : Img E fVol (arith (Volume.volume b)) (arith (Volume.volume (fB b))) :=
  .arith (fun v h => T.volume b v h) fun hE h => T.volume_none hE b h

theorem subI (u v : Volume.Vol B) : Img E fVol (arith (Volume.sub u v)) (arith (Volume.sub (fVol u) (fVol v))) :=
  .arith (fun w h => T.sub u v w h) fun hE h => T.sub_none hE u v h

theorem volumeIncrease (a b : B) : Img E fVol (volumeIncrease a b) (RTree.volumeIncrease (fB a) (fB b)) := by
  unfold RTree.volumeIncrease
  rw [T.union]
  exact (T.vol _).bind fun u => (T.vol _).bind fun v => T.subI u v

theorem selectCmp (bounds a b : B) : Img E id (selectCmp bounds a b) (RTree.selectCmp (fB bounds) (fB a) (fB b)) := by
  unfold RTree.selectCmp
  refine (T.volumeIncrease _ _).bind fun u => (T.volumeIncrease _ _).bind fun v => ?_
  simp only [T.cmp]
  split
  · exact (T.vol _).bind fun x => (T.vol _).bind fun y => .ok (T.cmp x y)
  · exact .ok rfl

theorem select (l : List B) (bounds : B) : Img E id (select l bounds) (RTree.select (l.map fB) (fB bounds)) := by
  unfold RTree.select
  rw [List.zipIdx_map]
  refine (Img.minBy (fun a b => T.selectCmp bounds a.1 b.1) _).bind fun r => .ok ?_
  cases r <;> rfl

variable {α β : Type} {bf : α → B} {bf' : β → B'} {f : α → β} (hf : ∀ a, bf' (f a) = fB (bf a))

include hf

theorem worstCombination (values : List α) (o : α) :
    Img E id (worstCombination bf values o) (RTree.worstCombination bf' (values.map f) (f o)) := by
  unfold RTree.worstCombination
  rw [List.isEmpty_map]
  split
  · exact .error
  dsimp only
  rw [T.negInf, List.length_map, List.zipIdx_map]
  have h1 := Img.foldlM (E := E) (f := Prod.map fVol (id : Nat × Nat → Nat × Nat)) (g := Prod.map f (id : Nat → Nat))
    (step := worstWithOverflow bf o) (step' := worstWithOverflow bf' (f o)) (fun acc iv => by
      unfold worstWithOverflow
      rw [show (Prod.map f id iv).1 = f iv.1 from rfl, hf, hf, T.union]
      refine (T.vol _).bind fun v => ?_
      rw [show (Prod.map fVol id acc).1 = fVol acc.1 from rfl, T.lt]
      split <;> exact .ok rfl) values.zipIdx (Volume.negInf (B := B), 0, values.length)
  refine h1.bind fun acc => ?_
  have h2 := Img.foldlM (E := E) (f := Prod.map fVol (id : Nat × Nat → Nat × Nat)) (g := (id : Nat × Nat → Nat × Nat))
    (step := worstPair bf values o) (step' := worstPair bf' (values.map f) (f o)) (fun acc ij => by
      unfold worstPair
      refine Img.index.bind fun vi => Img.index.bind fun vj => ?_
      rw [hf, hf, hf, T.union, T.union]
      refine (T.vol _).bind fun v => ?_
      rw [show (Prod.map fVol id acc).1 = fVol acc.1 from rfl, T.lt]
      split <;> exact .ok rfl) (pairIndices values.length) acc
  rw [List.map_id] at h2
  exact h2.bind fun acc => .ok rfl

theorem seedSplitGroups (values : List α) (o : α) :
    Img E (Prod.map (List.map f) f) (seedSplitGroups bf values o) (RTree.seedSplitGroups bf' (values.map f) (f o)) := by
  unfold RTree.seedSplitGroups
  refine (T.worstCombination hf values o).bind fun i => Img.swap.bind fun values => ?_
  rw [List.length_map]
  split
  · exact Img.index.bind fun v => .ok (by simp)
  · exact .ok rfl

theorem bestCandidate (children : List α) (bounds : B) :
    Img E (Option.map (Prod.map id fVol)) (bestCandidate bf children bounds)
      (RTree.bestCandidate bf' (children.map f) (fB bounds)) := by
  unfold RTree.bestCandidate
  refine (T.vol _).bind fun bv => ?_
  refine (Img.mapM (g := fVol) (fun a => ?_) children).bind fun vols => ?_
  · rw [hf, T.union]
    exact (T.vol _).bind fun u => T.subI u bv
  · rw [List.zipIdx_map]
    refine (Img.minBy (f := Prod.map fVol id) (fun a b => Img.pure (f := id) (T.cmp a.1 b.1)) _).bind fun r => .ok ?_
    cases r <;> rfl

omit T hf [Bounds B] [Volume B] [Bounds B'] [Volume B'] in
/-- The state of a split, translated. -/
def _root_.RTree.SplitState.translate (fB : B → B') (f : α → β) (s : SplitState B α) : SplitState B' β :=
  { values := s.values.map f, group1Len := s.group1Len, bounds1 := fB s.bounds1, bounds2 := fB s.bounds2,
    group2 := s.group2.map f }

omit T hf [Bounds B] [Volume B] [Bounds B'] [Volume B'] in
/-- The result of a split, translated. -/
def _root_.RTree.SplitResult.translate (fB : B → B') (f : α → β) (s : SplitResult B α) : SplitResult B' β :=
  { bounds1 := fB s.bounds1, group1 := s.group1.map f, bounds2 := fB s.bounds2, group2 := s.group2.map f }

theorem splitStep (mn cap : Nat) (s : SplitState B α) :
    Img E (SplitState.translate fB f) (splitStep bf mn cap s) (RTree.splitStep bf' mn cap (s.translate fB f)) := by
  unfold RTree.splitStep
  have hr : (s.translate fB f).values.drop (s.translate fB f).group1Len = (s.values.drop s.group1Len).map f := by
    simp [SplitState.translate, List.map_drop]
  simp only [hr]
  refine (T.bestCandidate hf _ s.bounds1).bind fun c1 => Img.unwrap.bind fun c1 => ?_
  refine (T.bestCandidate hf _ s.bounds2).bind fun c2 => Img.unwrap.bind fun c2 => ?_
  simp only [SplitState.translate, List.length_map, Prod.map_fst, Prod.map_snd, id, T.lt]
  generalize (if Volume.lt (B := B) c1.2 c2.2 = true then _ else _ : Bool) = b
  cases b
  · refine (Img.index (f := f)).bind fun v => (Img.swapRemove (f := f)).bind fun x => (Img.push (f := f)).bind fun g => .ok ?_
    simp [SplitState.translate, hf, T.union]
  · refine (Img.index (f := f)).bind fun v => (Img.swap (f := f)).bind fun values => .ok ?_
    simp [SplitState.translate, hf, T.union]

theorem splitLoop (mn cap fuel : Nat) (s : SplitState B α) :
    Img E (SplitState.translate fB f) (splitLoop bf mn cap fuel s) (RTree.splitLoop bf' mn cap fuel (s.translate fB f)) := by
  induction fuel generalizing s with
  | zero =>
    unfold RTree.splitLoop
    simp only [SplitState.translate, List.length_map]
    split
    · exact .error
    · exact .ok rfl
  | succ fuel ih =>
    unfold RTree.splitLoop
    simp only [SplitState.translate, List.length_map]
    split
    · exact (T.splitStep hf mn cap s).bind ih
    · exact .ok rfl

theorem split (mn cap : Nat) (values : List α) (o : α) :
    Img E (SplitResult.translate fB f) (split bf mn cap values o) (RTree.split bf' mn cap (values.map f) (f o)) := by
  unfold RTree.split
  rw [List.length_map]
  split
  · exact .error
  dsimp only
  refine (T.seedSplitGroups hf values o).bind fun x => ?_
  refine (Img.push (f := f) (l := [])).bind fun g => ?_
  refine Img.index.bind fun v0 => ?_
  have h := T.splitLoop hf mn cap x.1.length
    { values := x.1, group1Len := 1, bounds1 := bf v0, bounds2 := bf x.2, group2 := g }
  simp only [SplitState.translate] at h
  simp only [Prod.map_fst, Prod.map_snd, List.length_map, hf]
  exact h.bind fun s => .ok rfl

end TranslatesBounds

end Bounds

/-! ## Nodes -/

section Nodes

variable {B B' K K' V V' : Type}

theorem translateList_eq (fB : B → B') (fK : K → K') (fV : V → V') (cs : List (Node B K V)) :
    translateList fB fK fV cs = cs.map (Node.translate fB fK fV) := by
  induction cs with
  | nil => simp [translateList]
  | cons c cs ih => simp [translateList, ih]

variable {E : Prop} {fB : B → B'} {fK : K → K'} {fV : V → V'}

/-- A translated entry. -/
def NodeEntry.translate (fB : B → B') (fK : K → K') (fV : V → V') : NodeEntry B K V → NodeEntry B' K' V'
  | .inner l n => .inner l (n.translate fB fK fV)
  | .leaf k v => .leaf (fK k) (fV v)

/-- Translated children. -/
def NodeChildren.translate (fB : B → B') (fK : K → K') (fV : V → V') : NodeChildren B K V → NodeChildren B' K' V'
  | .inner cs => .inner (cs.map (Node.translate fB fK fV))
  | .leaf es => .leaf (es.map (Prod.map fK fV))

@[simp] theorem Node.translate_leaf (b : B) (es : List (K × V)) :
    (Node.leaf b es).translate fB fK fV = .leaf (fB b) (es.map (Prod.map fK fV)) := by simp [Node.translate]

@[simp] theorem Node.translate_inner (b : B) (cs : List (Node B K V)) :
    (Node.inner b cs).translate fB fK fV = .inner (fB b) (cs.map (Node.translate fB fK fV)) := by
  simp [Node.translate, translateList_eq]

@[simp] theorem Node.bounds_translate (n : Node B K V) : (n.translate fB fK fV).bounds = fB n.bounds := by
  cases n <;> simp [Node.bounds]

theorem map_bounds_translate (cs : List (Node B K V)) :
    (cs.map (Node.translate fB fK fV)).map Node.bounds = (cs.map Node.bounds).map fB := by
  simp [Function.comp_def]

theorem Img.innerChildren (n : Node B K V) :
    Img E (List.map (Node.translate fB fK fV)) n.innerChildren (n.translate fB fK fV).innerChildren := by
  cases n with
  | leaf b es => simp only [Node.translate_leaf, Node.innerChildren]; exact error
  | inner b cs => simp only [Node.translate_inner, Node.innerChildren]; exact ok rfl

theorem Img.leafChildren (n : Node B K V) :
    Img E (List.map (Prod.map fK fV)) n.leafChildren (n.translate fB fK fV).leafChildren := by
  cases n with
  | leaf b es => simp only [Node.translate_leaf, Node.leafChildren]; exact ok rfl
  | inner b cs => simp only [Node.translate_inner, Node.leafChildren]; exact error

@[simp] theorem NodeEntry.targetLevel_translate (e : NodeEntry B K V) :
    (e.translate fB fK fV).targetLevel = e.targetLevel := by cases e <;> rfl

/-- An optional sibling, translated. -/
abbrev trSibling (fB : B → B') (fK : K → K') (fV : V → V') : Option (Nat × Node B K V) → Option (Nat × Node B' K' V') :=
  Option.map (Prod.map id (Node.translate fB fK fV))

variable [Bounds B] [Volume B] [Bounds B'] [Volume B'] {fVol : Volume.Vol B → Volume.Vol B'} [Bounded K B] [Bounded K' B']

omit [Bounds B] [Volume B] [Bounds B'] [Volume B'] in
theorem NodeEntry.bounds_translate (hb : ∀ k : K, Bounded.bounds (fK k) = fB (Bounded.bounds k)) (e : NodeEntry B K V) :
    (e.translate fB fK fV).bounds = fB e.bounds := by
  cases e with
  | inner l n => exact Node.bounds_translate n
  | leaf k v => exact hb k

namespace TranslatesBounds

variable (T : TranslatesBounds E fB fVol) (hb : ∀ k : K, Bounded.bounds (fK k) = fB (Bounded.bounds k))

include T hb

theorem selfInsert (a : Alloc) (level : Nat) (n : Node B K V) (e : NodeEntry B K V) :
    Img E (Prod.map (Node.translate fB fK fV) (trSibling fB fK fV)) (selfInsert a level n e)
      (RTree.selfInsert a level (n.translate fB fK fV) (e.translate fB fK fV)) := by
  have heb := NodeEntry.bounds_translate (fV := fV) hb e
  unfold RTree.selfInsert
  cases level with
  | succ l =>
    refine (Img.innerChildren n).bind fun children => ?_
    cases e with
    | leaf k v => exact .error
    | inner el en =>
      simp only [NodeEntry.translate]
      split
      · exact .error
      rw [Vec.tryPush_map]
      rcases hp : Vec.tryPush a.maxChildren children en with ⟨cs, o⟩
      cases o with
      | some o =>
        refine (T.split (f := Node.translate fB fK fV) (fun c => Node.bounds_translate c) _ _ cs o).bind fun r => .ok ?_
        simp [SplitResult.translate]
      | none =>
        refine .ok ?_
        have heb : (NodeEntry.inner el (en.translate fB fK fV) : NodeEntry B' K' V').bounds = _ := heb
        simp only [heb, Node.bounds_translate, T.union, Prod.map_apply, Node.translate_inner, Option.map_none]
  | zero =>
    refine (Img.leafChildren n).bind fun children => ?_
    cases e with
    | inner _ _ => exact .error
    | leaf k v =>
      simp only [NodeEntry.translate]
      rw [show (fK k, fV v) = Prod.map fK fV (k, v) from rfl, Vec.tryPush_map]
      rcases hp : Vec.tryPush a.maxChildren children (k, v) with ⟨cs, o⟩
      cases o with
      | some o =>
        refine (T.split (f := Prod.map fK fV) (bf := entryBounds) (bf' := entryBounds) (fun c => hb c.1) _ _ cs o).bind fun r => .ok ?_
        simp [SplitResult.translate]
      | none =>
        refine .ok ?_
        have heb : (NodeEntry.leaf (fK k) (fV v) : NodeEntry B' K' V').bounds = _ := heb
        simp only [heb, Node.bounds_translate, T.union, Prod.map_apply, Node.translate_leaf, Option.map_none]

theorem insertNode (a : Alloc) (level : Nat) (n : Node B K V) (e : NodeEntry B K V) :
    Img E (Prod.map (Node.translate fB fK fV) (trSibling fB fK fV)) (insertNode a level n e)
      (RTree.insertNode a level (n.translate fB fK fV) (e.translate fB fK fV)) := by
  induction level generalizing n with
  | zero =>
    unfold RTree.insertNode
    rw [NodeEntry.targetLevel_translate]
    split
    · exact (Img.leafChildren n).bind fun _ => .error
    · exact T.selfInsert hb _ _ _ _
  | succ l ih =>
    unfold RTree.insertNode
    rw [NodeEntry.targetLevel_translate]
    split
    · refine (Img.innerChildren n).bind fun cs => ?_
      rw [map_bounds_translate, NodeEntry.bounds_translate hb]
      refine (T.select _ _).bind fun i => ?_
      rw [show (id i : Option Nat) = i.map id by simp]
      refine Img.unwrap.bind fun i => ?_
      refine (Img.index (f := Node.translate fB fK fV)).bind fun child => ?_
      refine (ih child).bind fun r => ?_
      obtain ⟨child, sibling⟩ := r
      simp only [Prod.map_apply, id, ← List.map_set]
      cases sibling with
      | none =>
        refine .ok ?_
        simp only [Node.bounds_translate, T.union, Node.translate_inner, Prod.map_apply, Option.map_none]
      | some s =>
        have h := T.selfInsert hb a (l + 1) (.inner (Bounds.unionAll ((cs.set i child).map Node.bounds)) (cs.set i child))
          (.inner s.1 s.2) (fV := fV)
        simp only [Node.translate_inner, NodeEntry.translate, ← T.unionAll, ← map_bounds_translate (fB := fB) (fK := fK) (fV := fV)] at h
        exact h
    · exact T.selfInsert hb _ _ _ _

end TranslatesBounds

/-! ## Lookup -/

section Lookup

omit [Volume B] [Volume B'] [Bounded K B] [Bounded K' B']

variable {Q Q' : Type} [Bounded Q B] [BEq Q] [Bounded Q' B'] [BEq Q'] {fQ : Q → Q'} {borrow : K → Q} {borrow' : K' → Q'}

omit [BEq Q] [BEq Q'] in
theorem Img.getChildren (hc : ∀ a b, Bounds.contains (fB a) (fB b) = Bounds.contains a b)
    (hb : ∀ q : Q, Bounded.bounds (fQ q) = fB (Bounded.bounds q)) (q : Q) {rec : Node B K V → Res (Option V)}
    {rec' : Node B' K' V' → Res (Option V')} (h : ∀ n, Img E (Option.map fV) (rec n) (rec' (n.translate fB fK fV)))
    (cs : List (Node B K V)) :
    Img E (Option.map fV) (getChildren q rec cs) (RTree.getChildren (fQ q) rec' (cs.map (Node.translate fB fK fV))) := by
  induction cs with
  | nil => exact .ok rfl
  | cons c cs ih =>
    rw [List.map_cons]
    unfold RTree.getChildren
    rw [Node.bounds_translate, hb, hc]
    split
    · refine (h c).bind fun o => ?_
      cases o with
      | some v => exact .ok rfl
      | none => exact ih
    · exact ih

theorem find?_translate (hq : ∀ k, borrow' (fK k) = fQ (borrow k)) (he : ∀ a b, (fQ a == fQ b) = (a == b)) (q : Q)
    (es : List (K × V)) : ((es.map (Prod.map fK fV)).find? fun e => borrow' e.1 == fQ q) =
      (es.find? fun e => borrow e.1 == q).map (Prod.map fK fV) := by
  rw [List.find?_map]
  congr 1
  congr 1
  funext e
  simp [hq, he]

theorem Img.getNode (hc : ∀ a b, Bounds.contains (fB a) (fB b) = Bounds.contains a b)
    (hQ : TranslatesKeys fB fQ) (hq : ∀ k, borrow' (fK k) = fQ (borrow k)) (q : Q) (l : Nat) (n : Node B K V) :
    Img E (Option.map fV) (getNode borrow q l n) (RTree.getNode borrow' (fQ q) l (n.translate fB fK fV)) := by
  induction l generalizing n with
  | zero =>
    unfold RTree.getNode
    refine (leafChildren n).bind fun es => .ok ?_
    rw [find?_translate hq hQ.beq]
    cases es.find? _ <;> rfl
  | succ l ih =>
    unfold RTree.getNode
    exact (innerChildren n).bind fun cs => getChildren hc hQ.bounds q ih cs

/-- A mutable reference to a value: translated, it has the translated value, and writing a translated value through it has the
    translated effect. -/
def RefAlike {X X' : Type} (fX : X → X') (fV : V → V') (o : Option (V × (V → X))) (o' : Option (V' × (V' → X'))) : Prop :=
  match o, o' with
  | none, none => True
  | some (v, back), some (v', back') => v' = fV v ∧ ∀ w, back' (fV w) = fX (back w)
  | _, _ => False

/-- Like `Img` for a relation. -/
def ImgR {α β : Type} (E : Prop) (R : α → β → Prop) (x : Res α) (y : Res β) : Prop :=
  (∀ a, x = .ok a → ∃ b, y = .ok b ∧ R a b) ∧ (E → ∀ e, x = .error e → y = .error e)

theorem ImgR.ok {α β : Type} {R : α → β → Prop} {a : α} {b : β} (h : R a b) : ImgR E R (.ok a) (.ok b) :=
  ⟨fun a' h' => (by cases h'; exact ⟨b, rfl, h⟩), fun _ e h' => (by cases h')⟩

theorem ImgR.bind {α β γ δ : Type} {R : α → β → Prop} {S : γ → δ → Prop} {x : Res α} {y : Res β} {k : α → Res γ}
    {k' : β → Res δ} (h : ImgR E R x y) (hk : ∀ a b, R a b → ImgR E S (k a) (k' b)) : ImgR E S (x >>= k) (y >>= k') := by
  cases x with
  | ok a =>
    obtain ⟨b, rfl, hR⟩ := h.1 a rfl
    exact hk a b hR
  | error e => exact ⟨fun a h' => (by cases h'), fun hE e' h' => (by cases h'; rw [h.2 hE e rfl]; rfl)⟩

theorem ImgR.bindI {α β γ δ : Type} {R : α → β → Prop} {g : γ → δ} {x : Res α} {y : Res β} {k : α → Res γ}
    {k' : β → Res δ} (h : ImgR E R x y) (hk : ∀ a b, R a b → Img E g (k a) (k' b)) : Img E g (x >>= k) (y >>= k') := by
  cases x with
  | ok a =>
    obtain ⟨b, rfl, hR⟩ := h.1 a rfl
    exact hk a b hR
  | error e => exact ⟨fun a h' => (by cases h'), fun hE e' h' => (by cases h'; rw [h.2 hE e rfl]; rfl)⟩

theorem Img.bindR {α β γ δ : Type} {f : α → β} {S : γ → δ → Prop} {x : Res α} {y : Res β} {k : α → Res γ}
    {k' : β → Res δ} (h : Img E f x y) (hk : ∀ a, ImgR E S (k a) (k' (f a))) : ImgR E S (x >>= k) (y >>= k') := by
  cases x with
  | ok a =>
    rw [h.1 a rfl]
    exact hk a
  | error e => exact ⟨fun a h' => (by cases h'), fun hE e' h' => (by cases h'; rw [h.2 hE e rfl]; rfl)⟩

theorem findEntryMut_translate {p : K → Bool} {p' : K' → Bool} (h : ∀ k, p' (fK k) = p k) (es : List (K × V)) :
    RefAlike (List.map (Prod.map fK fV)) fV (findEntryMut p es) (findEntryMut p' (es.map (Prod.map fK fV))) := by
  induction es with
  | nil => exact trivial
  | cons e es ih =>
    rw [List.map_cons]
    unfold findEntryMut
    rw [show (Prod.map fK fV e).1 = fK e.1 from rfl, h]
    split
    · exact ⟨rfl, fun w => rfl⟩
    · generalize findEntryMut p es = o at ih
      generalize findEntryMut p' (es.map (Prod.map fK fV)) = o' at ih
      cases o with
      | none => cases o' with
        | none => exact trivial
        | some _ => exact ih.elim
      | some x => cases o' with
        | none => exact ih.elim
        | some x' => exact ⟨ih.1, fun w => by simp [ih.2 w]⟩

omit [BEq Q] [BEq Q'] in
theorem ImgR.getMutChildren (hc : ∀ a b, Bounds.contains (fB a) (fB b) = Bounds.contains a b)
    (hb : ∀ q : Q, Bounded.bounds (fQ q) = fB (Bounded.bounds q)) (q : Q)
    {rec : Node B K V → Res (Option (V × (V → Node B K V)))} {rec' : Node B' K' V' → Res (Option (V' × (V' → Node B' K' V')))}
    (h : ∀ n, ImgR E (RefAlike (Node.translate fB fK fV) fV) (rec n) (rec' (n.translate fB fK fV))) (cs : List (Node B K V)) :
    ImgR E (RefAlike (List.map (Node.translate fB fK fV)) fV) (getMutChildren q rec cs)
      (RTree.getMutChildren (fQ q) rec' (cs.map (Node.translate fB fK fV))) := by
  induction cs with
  | nil => exact .ok trivial
  | cons c cs ih =>
    rw [List.map_cons]
    unfold RTree.getMutChildren
    rw [Node.bounds_translate, hb, hc]
    have h1 : ImgR E (RefAlike (Node.translate fB fK fV) fV)
        (if Bounds.contains c.bounds (Bounded.bounds q) = true then rec c else .ok none)
        (if Bounds.contains c.bounds (Bounded.bounds q) = true then rec' (c.translate fB fK fV) else .ok none) := by
      split
      · exact h c
      · exact .ok trivial
    refine h1.bind fun o o' ho => ?_
    cases o with
    | some x => cases o' with
      | none => exact ho.elim
      | some x' => exact .ok ⟨ho.1, fun w => by simp [ho.2 w]⟩
    | none => cases o' with
      | some _ => exact ho.elim
      | none =>
        refine ih.bind fun o o' ho => ?_
        cases o with
        | none => cases o' with
          | none => exact .ok trivial
          | some _ => exact ho.elim
        | some x => cases o' with
          | none => exact ho.elim
          | some x' => exact .ok ⟨ho.1, fun w => by simp [ho.2 w]⟩

theorem ImgR.getMutNode (hc : ∀ a b, Bounds.contains (fB a) (fB b) = Bounds.contains a b)
    (hQ : TranslatesKeys fB fQ) (hq : ∀ k, borrow' (fK k) = fQ (borrow k)) (q : Q) (l : Nat) (n : Node B K V) :
    ImgR E (RefAlike (Node.translate fB fK fV) fV) (getMutNode borrow q l n)
      (RTree.getMutNode borrow' (fQ q) l (n.translate fB fK fV)) := by
  induction l generalizing n with
  | zero =>
    unfold RTree.getMutNode
    refine (Img.leafChildren n).bindR fun es => ?_
    have h := findEntryMut_translate (p := fun k => borrow k == q) (p' := fun k => borrow' k == fQ q) (fV := fV) (fK := fK)
      (fun k => by simp only [hq, hQ.beq]) es
    generalize findEntryMut (fun k => borrow k == q) es = o at h
    generalize findEntryMut (fun k => borrow' k == fQ q) (es.map (Prod.map fK fV)) = o' at h
    cases o with
    | none => cases o' with
      | none => exact .ok trivial
      | some _ => exact h.elim
    | some x => cases o' with
      | none => exact h.elim
      | some x' => exact .ok ⟨h.1, fun w => by simp [h.2 w]⟩
  | succ l ih =>
    unfold RTree.getMutNode
    refine (Img.innerChildren n).bindR fun cs => (ImgR.getMutChildren hc hQ.bounds q ih cs).bind fun o o' h => ?_
    cases o with
    | none => cases o' with
      | none => exact .ok trivial
      | some _ => exact h.elim
    | some x => cases o' with
      | none => exact h.elim
      | some x' => exact .ok ⟨h.1, fun w => by simp [h.2 w]⟩

end Lookup

/-! ## `insert_unique`, `remove` -/

omit [Bounded K B] [Bounded K' B'] in
theorem containing_translate (T : TranslatesBounds E fB fVol) (cs : List (Node B K V)) (b : B) :
    containing (cs.map (Node.translate fB fK fV)) (fB b) = containing cs b := by
  unfold containing
  rw [List.zipIdx_map, List.filter_map, List.map_map]
  simp [Function.comp_def, T.contains]

theorem TranslatesBounds.insertUniqueNode [BEq K] [BEq K'] (T : TranslatesBounds E fB fVol) (hK : TranslatesKeys fB fK)
    (a : Alloc) (k : K) (v : V) (l : Nat) (n : Node B K V) :
    Img E (Prod.map (Node.translate fB fK fV) (Prod.map (Option.map fV) (trSibling fB fK fV))) (insertUniqueNode a k v l n)
      (RTree.insertUniqueNode a (fK k) (fV v) l (n.translate fB fK fV)) := by
  have hins : ∀ l, Img E (Prod.map (Node.translate fB fK fV) (Prod.map (Option.map fV) (trSibling fB fK fV)))
      (do let (node, sibling) ← RTree.insertNode a l n (.leaf k v); pure (node, none, sibling))
      (do let (node, sibling) ← RTree.insertNode a l (n.translate fB fK fV) (.leaf (fK k) (fV v)); pure (node, none, sibling)) :=
    fun l => (T.insertNode hK.bounds a l n (.leaf k v)).bind fun r => .ok rfl
  induction l generalizing n with
  | zero =>
    unfold RTree.insertUniqueNode
    refine (Img.leafChildren n).bind fun es => ?_
    have h := findEntryMut_translate (p := fun x => x == k) (p' := fun x => x == fK k) (fV := fV) (fK := fK)
      (fun x => hK.beq x k) es
    generalize findEntryMut (fun x => x == k) es = o at h
    generalize findEntryMut (fun x => x == fK k) (es.map (Prod.map fK fV)) = o' at h
    cases o with
    | none => cases o' with
      | none => exact hins 0
      | some _ => exact h.elim
    | some x => cases o' with
      | none => exact h.elim
      | some x' => exact .ok (by simp [h.1, h.2 v])
  | succ l ih =>
    unfold RTree.insertUniqueNode
    refine (Img.innerChildren n).bind fun cs => ?_
    rw [hK.bounds, containing_translate T]
    cases getOnly (containing cs (Bounded.bounds k)) with
    | none => exact hins (l + 1)
    | only i =>
      refine (Img.index (f := Node.translate fB fK fV)).bind fun child => ?_
      refine (ih child fun l => (T.insertNode hK.bounds a l child (.leaf k v)).bind fun r => .ok rfl).bind fun r => ?_
      obtain ⟨child, old, sibling⟩ := r
      simp only [Prod.map_apply, ← List.map_set]
      cases sibling with
      | none =>
        refine .ok ?_
        simp only [Node.bounds_translate, T.union, Node.translate_inner, Prod.map_apply, Option.map_none]
      | some s =>
        have h := T.selfInsert hK.bounds a (l + 1) (.inner (Bounds.unionAll ((cs.set i child).map Node.bounds)) (cs.set i child))
          (.inner s.1 s.2) (fV := fV)
        simp only [Node.translate_inner, NodeEntry.translate, ← T.unionAll, ← map_bounds_translate (fB := fB) (fK := fK) (fV := fV)] at h
        exact h.bind fun r => .ok rfl
    | multiple =>
      have h := ImgR.getMutNode (E := E) (fV := fV) (borrow := id) (borrow' := id) T.contains hK (fun _ => rfl) k (l + 1) n
      refine h.bindI fun o o' h => ?_
      cases o with
      | none => cases o' with
        | none => exact hins (l + 1)
        | some _ => exact h.elim
      | some x => cases o' with
        | none => exact h.elim
        | some x' => exact .ok (by simp [h.1, h.2 v])

section Remove

variable {Q Q' : Type} [Bounded Q B] [BEq Q] [Bounded Q' B'] [BEq Q'] {fQ : Q → Q'} {borrow : K → Q} {borrow' : K' → Q'}

/-- Translated reinsertion slots. -/
abbrev trSlots (fB : B → B') (fK : K → K') (fV : V → V') : Reinsert B K V → Reinsert B' K' V' :=
  List.map (Option.map (NodeChildren.translate fB fK fV))

omit [Bounds B] [Volume B] [Bounds B'] [Volume B'] [Bounded K B] [Bounded K' B'] in
theorem Img.shallowLen (l : Nat) (n : Node B K V) : Img E id (shallowLen l n) (RTree.shallowLen l (n.translate fB fK fV)) := by
  cases l with
  | zero => exact (leafChildren n).bind fun es => .ok (by simp)
  | succ l => exact (innerChildren n).bind fun es => .ok (by simp)

omit [Bounds B] [Volume B] [Bounds B'] [Volume B'] [Bounded K B] [Bounded K' B'] in
theorem Img.nodeChildren (l : Nat) (n : Node B K V) :
    Img E (NodeChildren.translate fB fK fV) (nodeChildren l n) (RTree.nodeChildren l (n.translate fB fK fV)) := by
  cases l with
  | zero => exact (leafChildren n).bind fun es => .ok (by simp [NodeChildren.translate])
  | succ l => exact (innerChildren n).bind fun es => .ok (by simp [NodeChildren.translate])

omit [Bounds B] [Volume B] [Bounds B'] [Volume B'] [Bounded K B] [Bounded K' B'] in
theorem Img.onUnderfull (l : Nat) (c : NodeChildren B K V) (r : Reinsert B K V) :
    Img E (trSlots fB fK fV) (onUnderfull l c r) (RTree.onUnderfull l (c.translate fB fK fV) (trSlots fB fK fV r)) := by
  unfold RTree.onUnderfull
  rw [List.length_map]
  split
  · exact .ok (by simp)
  · exact .error

omit [Volume B] [Volume B'] [Bounded K B] [Bounded K' B'] [BEq Q] [BEq Q'] in
theorem Img.removeLoop (hi : ∀ a b, Bounds.intersects (fB a) (fB b) = Bounds.intersects a b)
    (hb : ∀ q : Q, Bounded.bounds (fQ q) = fB (Bounded.bounds q)) (a : Alloc) (l : Nat) (q : Q)
    {rec : Node B K V → Reinsert B K V → Res (Node B K V × Option V × Reinsert B K V)}
    {rec' : Node B' K' V' → Reinsert B' K' V' → Res (Node B' K' V' × Option V' × Reinsert B' K' V')}
    (h : ∀ n r, Img E (Prod.map (Node.translate fB fK fV) (Prod.map (Option.map fV) (trSlots fB fK fV))) (rec n r)
      (rec' (n.translate fB fK fV) (trSlots fB fK fV r))) (i : Nat) (cs : List (Node B K V)) (r : Reinsert B K V) :
    Img E (Prod.map (List.map (Node.translate fB fK fV)) (Prod.map (Option.map fV) (trSlots fB fK fV)))
      (removeLoop a l q rec i cs r)
      (RTree.removeLoop a l (fQ q) rec' i (cs.map (Node.translate fB fK fV)) (trSlots fB fK fV r)) := by
  induction i generalizing cs r with
  | zero => exact .ok rfl
  | succ i ih =>
    unfold RTree.removeLoop
    refine (index (f := Node.translate fB fK fV)).bind fun child => ?_
    rw [Node.bounds_translate, hb, hi]
    split
    · refine (h child r).bind fun x => ?_
      obtain ⟨child, value, r⟩ := x
      simp only [Prod.map_apply, ← List.map_set]
      cases value with
      | none => exact ih _ _
      | some v =>
        refine (shallowLen l child).bind fun len => ?_
        simp only [id]
        split
        · refine (swapRemove (f := Node.translate fB fK fV)).bind fun x => ?_
          refine (nodeChildren l x.1).bind fun c => ?_
          exact (onUnderfull l c r).bind fun r => .ok rfl
        · exact .ok rfl
    · exact ih _ _

theorem TranslatesBounds.removeNode (T : TranslatesBounds E fB fVol)
    (hb : ∀ k : K, Bounded.bounds (fK k) = fB (Bounded.bounds k)) (hQ : TranslatesKeys fB fQ)
    (hq : ∀ k, borrow' (fK k) = fQ (borrow k)) (a : Alloc) (q : Q) (l : Nat) (n : Node B K V) (r : Reinsert B K V) :
    Img E (Prod.map (Node.translate fB fK fV) (Prod.map (Option.map fV) (trSlots fB fK fV))) (removeNode a borrow q l n r)
      (RTree.removeNode a borrow' (fQ q) l (n.translate fB fK fV) (trSlots fB fK fV r)) := by
  induction l generalizing n r with
  | zero =>
    unfold RTree.removeNode
    refine (Img.leafChildren n).bind fun es => ?_
    have : (es.map (Prod.map fK fV)).findIdx? (fun e => borrow' e.1 == fQ q) = es.findIdx? (fun e => borrow e.1 == q) := by
      rw [List.findIdx?_map]
      congr 1
      funext e
      simp [hq, hQ.beq]
    rw [this]
    cases es.findIdx? (fun e => borrow e.1 == q) with
    | none => exact .ok rfl
    | some i =>
      refine (Img.swapRemove (f := Prod.map fK fV)).bind fun x => .ok ?_
      have hx : (x.2.map (Prod.map fK fV)).map entryBounds = (x.2.map (entryBounds (B := B))).map fB := by
        simp [Function.comp_def, entryBounds, hb]
      simp only [Prod.map_snd, hx, T.unionAll, Prod.map_apply, Node.translate_leaf, Option.map_some]
  | succ l ih =>
    unfold RTree.removeNode
    refine (Img.innerChildren n).bind fun cs => ?_
    rw [List.length_map]
    refine (Img.removeLoop T.intersects hQ.bounds a l q ih cs.length cs r).bind fun x => ?_
    obtain ⟨cs, value, r⟩ := x
    cases value with
    | none => exact .ok (by simp)
    | some v =>
      refine .ok ?_
      simp only [map_bounds_translate, T.unionAll, Prod.map_apply, Option.map_some, Node.translate_inner]

end Remove

end Nodes

end RTree
