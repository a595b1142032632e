import Verif.Proofs.TranslateQueries
import Verif.Props.IntShapes
/-!
# Translations of programs (C94, C95)

What the crate does with keys, bounds and volumes depends on nothing but the answers of the trait functions, and what it does
with values depends on nothing at all.
-/

namespace RTree

/-! ## C94: the answers of user code determine everything -/

section Generic

variable {B B' K K' V V' : Type} [Bounds B] [Volume B] [Bounds B'] [Volume B'] [Bounded K B] [Bounded K' B'] [BEq K] [BEq K']
  {fB : B → B'} {fVol : Volume.Vol B → Volume.Vol B'} {fK : K → K'} {fV : V → V'}

theorem Img.map_eq {α β : Type} {f : α → β} {x : Res α} {y : Res β} (h : Img True f x y) : y = x.map f := by
  cases x with
  | ok a => exact h.1 a rfl
  | error e => exact h.2 trivial e rfl

/-- C94: a history and its translation end with the same tree, translated, or with the same panic: the same nodes, with the
    same children at the same places. -/
theorem C94_history (T : TranslatesBounds True fB fVol) (hK : TranslatesKeys fB fK) (c : Config)
    {ops : List (Op B K V)} {ops' : List (Op B' K' V')} (h : OpsAlike fB fK fV ops ops') :
    run (Tree.new c) ops' = (run (Tree.new c) ops).map (Tree.translate fB fK fV) := by
  rw [Tree.new_translate (V := V) (fK := fK) (fV := fV) T.empty]
  exact (T.run hK _ h).map_eq

/-- C94: the same for each call that changes the tree, with what it returns. -/
theorem C94_updates (T : TranslatesBounds True fB fVol) (hK : TranslatesKeys fB fK) {Q Q' : Type} [Bounded Q B] [BEq Q]
    [Bounded Q' B'] [BEq Q'] {fQ : Q → Q'} (hQ : TranslatesKeys fB fQ) {borrow : K → Q} {borrow' : K' → Q'}
    (hq : ∀ k, borrow' (fK k) = fQ (borrow k)) (t : Tree B K V) (k : K) (v : V) (q : Q) :
    (t.translate fB fK fV).insert (fK k) (fV v) = (t.insert k v).map (Tree.translate fB fK fV) ∧
    (t.translate fB fK fV).insertUnique (fK k) (fV v) =
      (t.insertUnique k v).map (Prod.map (Tree.translate fB fK fV) (Option.map fV)) ∧
    (t.translate fB fK fV).remove borrow' (fQ q) =
      (t.remove borrow q).map (Prod.map (Tree.translate fB fK fV) (Option.map fV)) ∧
    (t.translate fB fK fV).clone = t.clone.map (Tree.translate fB fK fV) :=
  ⟨(T.insert hK.bounds t k v).map_eq, (T.insertUnique hK t k v).map_eq, (T.remove hK.bounds hQ hq t q).map_eq,
    (Img.cloneTree t).map_eq⟩

/-- C94: the same for each call that reads the tree: the entries are found in the same order. -/
theorem C94_queries (T : TranslatesBounds True fB fVol) {Q Q' : Type} [Bounded Q B] [BEq Q] [Bounded Q' B'] [BEq Q']
    {fQ : Q → Q'} (hQ : TranslatesKeys fB fQ) {borrow : K → Q} {borrow' : K' → Q'}
    (hq : ∀ k, borrow' (fK k) = fQ (borrow k)) {f : SpatialFilter B Q} {f' : SpatialFilter B' Q'} (hf : f.Alike fB fQ f')
    (t : Tree B K V) (q : Q) :
    (t.translate fB fK fV).get borrow' (fQ q) = (t.get borrow q).map (Option.map fV) ∧
    (t.translate fB fK fV).iter = t.iter.map (List.map (Prod.map fK fV)) ∧
    (t.translate fB fK fV).filterIter borrow' f' = (t.filterIter borrow f).map (List.map (Prod.map fK fV)) ∧
    (t.translate fB fK fV).len = t.len ∧ (t.translate fB fK fV).isEmpty = t.isEmpty := by
  refine ⟨(T.get hQ hq t q).map_eq, (Img.iter t).map_eq, (Img.filterIter hf hq t).map_eq, ?_, ?_⟩
  · rw [(Img.len (E := True) (fB := fB) (fK := fK) (fV := fV) t).map_eq]
    cases t.len <;> rfl
  · rw [(Img.isEmpty (E := True) (fB := fB) (fK := fK) (fV := fV) t).map_eq]
    cases t.isEmpty <;> rfl

omit [Bounds B] [Volume B] [Bounds B'] [Volume B'] [Bounded K B] [Bounded K' B'] [BEq K] [BEq K'] in
/-- C94: the same for sorted iteration, with every ranking and every heap that only looks at ranks and levels. -/
theorem C94_sorted {M M' : Type} [LE M] [LE M'] {fM : M → M'} {hp : IterHeap B K V M} {hp' : IterHeap B' K' V' M'}
    (H : HeapsAlike fB fK fV fM hp hp') {r : Ranking B K M} {r' : Ranking B' K' M'} (hr : r.Alike True fB fK fM r')
    {s : Ranking B K (Option M)} {s' : Ranking B' K' (Option M')} (hs : s.Alike True fB fK (Option.map fM) s')
    (t : Tree B K V) (k : Nat) :
    (t.translate fB fK fV).iterAscBy hp' r' = (t.iterAscBy hp r).map (List.map (Prod.map fK fV)) ∧
    (t.translate fB fK fV).firstAscBy hp' r' k = (t.firstAscBy hp r k).map (List.map (Prod.map fK fV)) ∧
    (t.translate fB fK fV).minBy hp' r' = (t.minBy hp r).map (Option.map (Prod.map fK fV)) ∧
    (t.translate fB fK fV).filterIterAscBy hp' s' = (t.filterIterAscBy hp s).map (List.map (Prod.map fK fV)) ∧
    (t.translate fB fK fV).filterMinBy hp' s' = (t.filterMinBy hp s).map (Option.map (Prod.map fK fV)) :=
  ⟨(Img.iterAscBy H hr t).map_eq, (Img.firstAscBy H hr k t).map_eq, (Img.minByTree H hr t).map_eq,
    (Img.filterIterAscBy H hs t).map_eq, (Img.filterMinBy H hs t).map_eq⟩

/-- C94: the heap of the standard library is one, if ranks are translated in their order. -/
theorem C94_std_heap {M M' : Type} [LE M] [Std.IsLinearPreorder M] [DecidableLE M] [LE M'] [Std.IsLinearPreorder M']
    [DecidableLE M'] {fM : M → M'} (hle : ∀ a b, fM a ≤ fM b ↔ a ≤ b) :
    Nonempty (HeapsAlike fB fK fV fM ((BinaryHeap.stdHeap M).heap _) ((BinaryHeap.stdHeap M').heap _)) :=
  ⟨stdHeap_alike hle⟩

omit [Bounds B] [Volume B] [Bounds B'] [Volume B'] [Bounded K B] [Bounded K' B'] [BEq K] [BEq K'] in
/-- C94: the same for joins of two trees, each with its own translation: the same pairs in the same order. -/
theorem C94_joins {C C' L L' W W' Q Q' R R' : Type} {fC : C → C'} {fL : L → L'} {fW : W → W'} {fQ : Q → Q'} {fR : R → R'}
    {borrow : K → Q} {borrow' : K' → Q'} {borrowR : L → R} {borrowR' : L' → R'} [Bounded Q B] [Bounded Q' B']
    (hQ : ∀ q : Q, Bounded.bounds (fQ q) = fB (Bounded.bounds q)) (hq : ∀ k, borrow' (fK k) = fQ (borrow k))
    (hl : ∀ l, borrowR' (fL l) = fR (borrowR l)) {f : JoinFilter B C Q R} {f' : JoinFilter B' C' Q' R'}
    (hf : f.Alike fB fC fQ fR f') (t : Tree B K V) (u : Tree C L W) :
    (t.translate fB fK fV).join borrow' borrowR' f' (u.translate fC fL fW) =
      (t.join borrow borrowR f u).map (List.map (Prod.map (Prod.map fK fV) (Prod.map fL fW))) ∧
    (t.translate fB fK fV).leftJoin borrow' borrowR' f' (u.translate fC fL fW) =
      (t.leftJoin borrow borrowR f u).map (List.map (Prod.map (Prod.map fK fV) (List.map (Prod.map fL fW)))) :=
  ⟨(Img.join hf hq hl t u).map_eq, (Img.leftJoin hf hQ hq hl t u).map_eq⟩

theorem TranslatesBounds.refl (B : Type) [Bounds B] [Volume B] : TranslatesBounds True (id : B → B) id where
  empty := rfl
  union _ _ := rfl
  unionAll l := by rw [List.map_id]; rfl
  contains _ _ := rfl
  intersects _ _ := rfl
  volume _ _ h := h
  sub _ _ _ h := h
  volume_none _ _ h := h
  sub_none _ _ _ h := h
  lt _ _ := rfl
  cmp _ _ := rfl
  negInf := rfl

theorem TranslatesKeys.refl (B K : Type) [Bounded K B] [BEq K] : TranslatesKeys (id : B → B) (id : K → K) :=
  ⟨fun _ => rfl, fun _ _ => rfl⟩

/-- C94: values are never looked at: with other values, of any other type, every history gives the same tree with the other
    values, or the same panic. -/
theorem C94_values (fV : V → V') (c : Config) {ops : List (Op B K V)} {ops' : List (Op B K V')}
    (h : OpsAlike id id fV ops ops') : run (Tree.new c) ops' = (run (Tree.new c) ops).map (Tree.translate id id fV) :=
  C94_history (TranslatesBounds.refl B) (TranslatesKeys.refl B K) c h

end Generic

/-! ### The axes of the plane -/

/-- The point with its coordinates swapped. -/
def SVec.swapAxes {N : Type} (a : SVec N 2) : SVec N 2 := ⟨fun i => a.get i.rev⟩

/-- The box reflected in the diagonal. -/
def AABB.swapAxes {N : Type} (b : AABB N 2) : AABB N 2 := ⟨b.min.swapAxes, b.max.swapAxes⟩

section Swap

variable {N : Type} [Scalar N]

theorem F64.mul_comm (R : Rounding) (a b : F64) : F64.mul R a b = F64.mul R b a := by
  rcases a with _ | _ | _ | a <;> rcases b with _ | _ | _ | b <;> first | rfl | skip
  simp only [F64.mul, _root_.mul_comm]

theorem allFin2 (p : Fin 2 → Bool) : (List.finRange 2).all (fun i => p i.rev) = (List.finRange 2).all p := by
  simp only [show List.finRange 2 = [0, 1] from rfl, List.all_cons, List.all_nil, Bool.and_true,
    show Fin.rev (0 : Fin 2) = 1 from rfl, show Fin.rev (1 : Fin 2) = 0 from rfl]
  exact Bool.and_comm _ _

theorem SVec.allLe_swap (a b : SVec N 2) : a.swapAxes.allLe b.swapAxes = a.allLe b :=
  allFin2 fun i => decide (a.get i ≤ b.get i)

theorem SVec.allGe_swap (a b : SVec N 2) : a.swapAxes.allGe b.swapAxes = a.allGe b :=
  allFin2 fun i => decide (a.get i ≥ b.get i)

theorem AABB.volume_swap (b : AABB N 2) : b.swapAxes.volume = b.volume := by
  have h : ∀ c : AABB N 2, c.volume = (do
      let x ← (Scalar.sub (c.max.get 0) (c.min.get 0)).map Scalar.toX
      let y ← (Scalar.sub (c.max.get 1) (c.min.get 1)).map Scalar.toX
      N64.mul .binary64 x y) := fun c => by
    unfold AABB.volume AABB.lengths
    simp only [show List.finRange 2 = [0, 1] from rfl, List.mapM_cons, List.mapM_nil]
    cases (Scalar.sub (c.max.get 0) (c.min.get 0)).map Scalar.toX with
    | none => rfl
    | some x => cases (Scalar.sub (c.max.get 1) (c.min.get 1)).map Scalar.toX with
      | none => rfl
      | some y => simp [List.foldlM]
  rw [h, h]
  simp only [AABB.swapAxes, SVec.swapAxes, show Fin.rev (0 : Fin 2) = 1 from rfl, show Fin.rev (1 : Fin 2) = 0 from rfl]
  cases (Scalar.sub (b.max.get 0) (b.min.get 0)).map Scalar.toX with
  | none => cases (Scalar.sub (b.max.get 1) (b.min.get 1)).map Scalar.toX <;> rfl
  | some x => cases (Scalar.sub (b.max.get 1) (b.min.get 1)).map Scalar.toX with
    | none => rfl
    | some y => exact F64.mul_comm _ _ _

theorem translates_swap : TranslatesBounds (B := AABB N 2) (B' := AABB N 2) True AABB.swapAxes id where
  empty := rfl
  union _ _ := rfl
  unionAll l := by
    show (l.map AABB.swapAxes).foldl AABB.union AABB.empty = (l.foldl AABB.union AABB.empty).swapAxes
    have h : ∀ b : AABB N 2, (l.map AABB.swapAxes).foldl AABB.union b.swapAxes = (l.foldl AABB.union b).swapAxes := by
      induction l with
      | nil => exact fun _ => rfl
      | cons a l ih => exact fun b => ih (b.union a)
    exact h AABB.empty
  contains a b := by
    show (a.swapAxes.min.allLe b.swapAxes.max && _) = _
    exact congrArg₂ _ (SVec.allLe_swap _ _) (SVec.allGe_swap _ _)
  intersects a b := by
    show (a.swapAxes.min.allLe b.swapAxes.max && _) = _
    exact congrArg₂ _ (SVec.allLe_swap _ _) (SVec.allGe_swap _ _)
  volume b v h := (AABB.volume_swap b).trans h
  sub _ _ _ h := h
  volume_none _ b h := (AABB.volume_swap b).trans h
  sub_none _ _ _ h := h
  lt _ _ := rfl
  cmp _ _ := rfl
  negInf := rfl

omit [Scalar N] in
theorem SVec.swapAxes_inj {a b : SVec N 2} (h : a.swapAxes = b.swapAxes) : a = b :=
  SVec.ext (funext fun i => by
    have := congrFun (congrArg SVec.get h) i.rev
    simpa [SVec.swapAxes] using this)

theorem translates_swap_points : TranslatesKeys (B := AABB N 2) (B' := AABB N 2) AABB.swapAxes (SVec.swapAxes (N := N)) :=
  ⟨fun _ => rfl, fun k q => by
    rw [Bool.eq_iff_iff, beq_iff_eq, beq_iff_eq]
    exact ⟨SVec.swapAxes_inj, congrArg _⟩⟩

theorem translates_swap_boxes : TranslatesKeys (B := AABB N 2) (B' := AABB N 2) AABB.swapAxes (AABB.swapAxes (N := N)) :=
  ⟨fun _ => rfl, fun k q => by
    rw [Bool.eq_iff_iff, beq_iff_eq, beq_iff_eq]
    exact ⟨fun h => AABB.ext (SVec.swapAxes_inj (congrArg AABB.min h)) (SVec.swapAxes_inj (congrArg AABB.max h)), congrArg _⟩⟩

/-- C94: in the plane the axes are treated alike: with the coordinates of all points swapped, every history gives the tree with
    the coordinates swapped, or the same panic; for integers and floating-point numbers. -/
theorem C94_axes_points {V : Type} (c : Config) {ops ops' : List (Op (AABB N 2) (SVec N 2) V)}
    (h : OpsAlike AABB.swapAxes SVec.swapAxes id ops ops') :
    run (Tree.new c) ops' = (run (Tree.new c) ops).map (Tree.translate AABB.swapAxes SVec.swapAxes id) :=
  C94_history translates_swap translates_swap_points c h

/-- C94: the same for boxes. -/
theorem C94_axes_boxes {V : Type} (c : Config) {ops ops' : List (Op (AABB N 2) (AABB N 2) V)}
    (h : OpsAlike AABB.swapAxes AABB.swapAxes id ops ops') :
    run (Tree.new c) ops' = (run (Tree.new c) ops).map (Tree.translate AABB.swapAxes AABB.swapAxes id) :=
  C94_history translates_swap translates_swap_boxes c h

end Swap

/-! ## C95: debug and release builds -/

namespace SameArith

variable {N N' : Type} [Scalar N] [Scalar N'] {D : ℕ} {f : N → N'} (hf : SameArith f)
include hf

theorem inj {a b : N} (h : f a = f b) : a = b :=
  le_antisymm ((hf.le a b).1 h.le) ((hf.le b a).1 h.ge)

theorem svec_inj {a b : SVec N D} (h : a.cast f = b.cast f) : a = b :=
  SVec.ext (funext fun i => hf.inj (congrFun (congrArg SVec.get h) i))

theorem points : TranslatesKeys (B := AABB N D) (B' := AABB N' D) (AABB.cast f) (SVec.cast f : SVec N D → SVec N' D) :=
  ⟨fun _ => rfl, fun k q => by
    rw [Bool.eq_iff_iff, beq_iff_eq, beq_iff_eq]
    exact ⟨hf.svec_inj, congrArg _⟩⟩

theorem boxes : TranslatesKeys (B := AABB N D) (B' := AABB N' D) (AABB.cast f) (AABB.cast f : AABB N D → AABB N' D) :=
  ⟨fun _ => rfl, fun k q => by
    rw [Bool.eq_iff_iff, beq_iff_eq, beq_iff_eq]
    exact ⟨fun h => AABB.ext (hf.svec_inj (congrArg AABB.min h)) (hf.svec_inj (congrArg AABB.max h)), congrArg _⟩⟩

theorem union (a b : AABB N D) : (a.cast f).union (b.cast f) = (a.union b).cast f :=
  AABB.ext (SVec.ext (funext fun _ => (hf.mono.map_min).symm)) (SVec.ext (funext fun _ => (hf.mono.map_max).symm))

/-- Boxes over two such arithmetics with the same extreme numbers. -/
theorem bounds (hmin : (Scalar.minVal : N') = f Scalar.minVal) (hmax : (Scalar.maxVal : N') = f Scalar.maxVal) :
    TranslatesBounds (B := AABB N D) (B' := AABB N' D) False (AABB.cast f) id where
  empty := AABB.ext (SVec.ext (funext fun _ => hmax)) (SVec.ext (funext fun _ => hmin))
  union := hf.union
  unionAll l := by
    have he : (AABB.empty : AABB N' D) = AABB.empty.cast f :=
      AABB.ext (SVec.ext (funext fun _ => hmax)) (SVec.ext (funext fun _ => hmin))
    show (l.map (AABB.cast f)).foldl AABB.union AABB.empty = (l.foldl AABB.union AABB.empty).cast f
    rw [he]
    generalize (AABB.empty : AABB N D) = b
    induction l generalizing b with
    | nil => rfl
    | cons a l ih =>
      rw [List.map_cons, List.foldl_cons, hf.union]
      exact ih _
  contains a b := hf.intersects a b
  intersects a b := hf.intersects a b
  volume b v h := hf.volume h
  sub _ _ _ h := h
  volume_none h := h.elim
  sub_none h := h.elim
  lt _ _ := rfl
  cmp _ _ := rfl
  negInf := rfl

end SameArith

section Integers

variable {T : IntTy} {D : ℕ} {V : Type} {c : Config}

local notation "rel" => MInt.as (T := T) (pr := Profile.debug) Profile.release

/-- C95: a history of points that does not panic in a debug build gives the same tree in a release build. -/
theorem C95_history_points {ops : List (Op (AABB (MInt T .debug) D) (SVec (MInt T .debug) D) V)}
    {ops' : List (Op (AABB (MInt T .release) D) (SVec (MInt T .release) D) V)}
    (h : OpsAlike (AABB.cast rel) (SVec.cast rel) id ops ops')
    {t : Tree (AABB (MInt T .debug) D) (SVec (MInt T .debug) D) V} (hr : run (Tree.new c) ops = .ok t) :
    run (Tree.new c) ops' = .ok (t.translate (AABB.cast rel) (SVec.cast rel) id) := by
  have hb := (MInt.sameArith T .release).bounds (D := D) rfl rfl
  rw [Tree.new_translate (V := V) (fK := SVec.cast rel) (fV := id) hb.empty]
  exact (hb.run (MInt.sameArith T .release).points _ h).1 t hr

/-- C95: the same for boxes. -/
theorem C95_history_boxes {ops : List (Op (AABB (MInt T .debug) D) (AABB (MInt T .debug) D) V)}
    {ops' : List (Op (AABB (MInt T .release) D) (AABB (MInt T .release) D) V)}
    (h : OpsAlike (AABB.cast rel) (AABB.cast rel) id ops ops')
    {t : Tree (AABB (MInt T .debug) D) (AABB (MInt T .debug) D) V} (hr : run (Tree.new c) ops = .ok t) :
    run (Tree.new c) ops' = .ok (t.translate (AABB.cast rel) (AABB.cast rel) id) := by
  have hb := (MInt.sameArith T .release).bounds (D := D) rfl rfl
  rw [Tree.new_translate (V := V) (fK := AABB.cast rel) (fV := id) hb.empty]
  exact (hb.run (MInt.sameArith T .release).boxes _ h).1 t hr

/-- C95: each call that returns in a debug build returns the same in a release build, and leaves the same tree; on any tree of
    points. -/
theorem C95_calls_points {f : SpatialFilter (AABB (MInt T .debug) D) (SVec (MInt T .debug) D)}
    {f' : SpatialFilter (AABB (MInt T .release) D) (SVec (MInt T .release) D)}
    (hf : f.Alike (AABB.cast rel) (SVec.cast rel) f') (t : Tree (AABB (MInt T .debug) D) (SVec (MInt T .debug) D) V)
    (k : SVec (MInt T .debug) D) (v : V) :
    let same := Tree.translate (AABB.cast rel) (SVec.cast rel) (id : V → V)
    (∀ t', t.insert k v = .ok t' → (same t).insert (k.cast rel) v = .ok (same t')) ∧
    (∀ t' o, t.insertUnique k v = .ok (t', o) → (same t).insertUnique (k.cast rel) v = .ok (same t', o)) ∧
    (∀ t' o, t.remove id k = .ok (t', o) → (same t).remove id (k.cast rel) = .ok (same t', o)) ∧
    (∀ o, t.get id k = .ok o → (same t).get id (k.cast rel) = .ok o) ∧
    (∀ es, t.iter = .ok es → (same t).iter = .ok (es.map (Prod.map (SVec.cast rel) id))) ∧
    (∀ es, t.filterIter id f = .ok es → (same t).filterIter id f' = .ok (es.map (Prod.map (SVec.cast rel) id))) := by
  have hb := (MInt.sameArith T .release).bounds (D := D) rfl rfl
  have hk := (MInt.sameArith T .release).points (D := D)
  refine ⟨(hb.insert hk.bounds t k v).1, fun t' o h => ?_, fun t' o h => ?_, fun o h => ?_, (Img.iter (E := False) t).1,
    (Img.filterIter (E := False) (fK := SVec.cast rel) (borrow := id) (borrow' := id) hf (fun _ => rfl) t).1⟩
  · have := (hb.insertUnique (fV := id) hk t k v).1 _ h
    rwa [Prod.map, Option.map_id] at this
  · have := (hb.remove (fV := id) hk.bounds hk (borrow := id) (borrow' := id) (fun _ => rfl) t k).1 _ h
    rwa [Prod.map, Option.map_id] at this
  · have := (hb.get (fV := id) hk (borrow := id) (borrow' := id) (fun _ => rfl) t k).1 _ h
    rwa [Option.map_id] at this

/-- C95: the same on any tree of boxes. -/
theorem C95_calls_boxes {f : SpatialFilter (AABB (MInt T .debug) D) (AABB (MInt T .debug) D)}
    {f' : SpatialFilter (AABB (MInt T .release) D) (AABB (MInt T .release) D)}
    (hf : f.Alike (AABB.cast rel) (AABB.cast rel) f') (t : Tree (AABB (MInt T .debug) D) (AABB (MInt T .debug) D) V)
    (k : AABB (MInt T .debug) D) (v : V) :
    let same := Tree.translate (AABB.cast rel) (AABB.cast rel) (id : V → V)
    (∀ t', t.insert k v = .ok t' → (same t).insert (k.cast rel) v = .ok (same t')) ∧
    (∀ t' o, t.insertUnique k v = .ok (t', o) → (same t).insertUnique (k.cast rel) v = .ok (same t', o)) ∧
    (∀ t' o, t.remove id k = .ok (t', o) → (same t).remove id (k.cast rel) = .ok (same t', o)) ∧
    (∀ o, t.get id k = .ok o → (same t).get id (k.cast rel) = .ok o) ∧
    (∀ es, t.iter = .ok es → (same t).iter = .ok (es.map (Prod.map (AABB.cast rel) id))) ∧
    (∀ es, t.filterIter id f = .ok es → (same t).filterIter id f' = .ok (es.map (Prod.map (AABB.cast rel) id))) := by
  have hb := (MInt.sameArith T .release).bounds (D := D) rfl rfl
  have hk := (MInt.sameArith T .release).boxes (D := D)
  refine ⟨(hb.insert hk.bounds t k v).1, fun t' o h => ?_, fun t' o h => ?_, fun o h => ?_, (Img.iter (E := False) t).1,
    (Img.filterIter (E := False) (fK := AABB.cast rel) (borrow := id) (borrow' := id) hf (fun _ => rfl) t).1⟩
  · have := (hb.insertUnique (fV := id) hk t k v).1 _ h
    rwa [Prod.map, Option.map_id] at this
  · have := (hb.remove (fV := id) hk.bounds hk (borrow := id) (borrow' := id) (fun _ => rfl) t k).1 _ h
    rwa [Prod.map, Option.map_id] at this
  · have := (hb.get (fV := id) hk (borrow := id) (borrow' := id) (fun _ => rfl) t k).1 _ h
    rwa [Option.map_id] at this

/-- C95: nearest-neighbour queries that return in a debug build return the same in a release build, ties included; on any tree
    of points. -/
theorem C95_nearest_points (t : Tree (AABB (MInt T .debug) D) (SVec (MInt T .debug) D) V) (p : SVec (MInt T .debug) D) :
    let same := Tree.translate (AABB.cast rel) (SVec.cast rel) (id : V → V)
    (∀ es, t.iterAscBy ((BinaryHeap.stdHeap _).heap _) (euclidPoints p) = .ok es →
      (same t).iterAscBy ((BinaryHeap.stdHeap _).heap _) (euclidPoints (p.cast rel)) =
        .ok (es.map (Prod.map (SVec.cast rel) id))) ∧
    ∀ o, t.minBy ((BinaryHeap.stdHeap _).heap _) (euclidPoints p) = .ok o →
      (same t).minBy ((BinaryHeap.stdHeap _).heap _) (euclidPoints (p.cast rel)) =
        .ok (o.map (Prod.map (SVec.cast rel) id)) := by
  have hf := MInt.sameArith T .release
  have hr : (euclidPoints p).Alike False (AABB.cast rel) (SVec.cast rel) rel (euclidPoints (p.cast rel)) := by
    refine ⟨fun b m h => ?_, fun k m h => ?_, fun h => h.elim, fun h => h.elim⟩
    · exact arith_eq_ok.2 (hf.boxDistSq (arith_eq_ok.1 h))
    · exact arith_eq_ok.2 (hf.distSq (arith_eq_ok.1 h))
  exact ⟨(Img.iterAscBy (stdHeap_alike hf.le) hr t).1, (Img.minByTree (stdHeap_alike hf.le) hr t).1⟩

/-- C95: the same on any tree of boxes. -/
theorem C95_nearest_boxes (t : Tree (AABB (MInt T .debug) D) (AABB (MInt T .debug) D) V) (p : SVec (MInt T .debug) D) :
    let same := Tree.translate (AABB.cast rel) (AABB.cast rel) (id : V → V)
    (∀ es, t.iterAscBy ((BinaryHeap.stdHeap _).heap _) (euclidBoxes p) = .ok es →
      (same t).iterAscBy ((BinaryHeap.stdHeap _).heap _) (euclidBoxes (p.cast rel)) =
        .ok (es.map (Prod.map (AABB.cast rel) id))) ∧
    ∀ o, t.minBy ((BinaryHeap.stdHeap _).heap _) (euclidBoxes p) = .ok o →
      (same t).minBy ((BinaryHeap.stdHeap _).heap _) (euclidBoxes (p.cast rel)) =
        .ok (o.map (Prod.map (AABB.cast rel) id)) := by
  have hf := MInt.sameArith T .release
  have hr : (euclidBoxes p).Alike False (AABB.cast rel) (AABB.cast rel) rel (euclidBoxes (p.cast rel)) := by
    refine ⟨fun b m h => ?_, fun k m h => ?_, fun h => h.elim, fun h => h.elim⟩
    · exact arith_eq_ok.2 (hf.boxDistSq (arith_eq_ok.1 h))
    · exact arith_eq_ok.2 (hf.boxDistSq (arith_eq_ok.1 h))
  exact ⟨(Img.iterAscBy (stdHeap_alike hf.le) hr t).1, (Img.minByTree (stdHeap_alike hf.le) hr t).1⟩

end Integers

/-! ## Cases -/

section Cases

theorem OpsAlike.map {B B' K K' V V' α : Type} {fB : B → B'} {fK : K → K'} {fV : V → V'} {g : α → Op B K V}
    {g' : α → Op B' K' V'} {l : List α} (h : ∀ a ∈ l, Op.Alike fB fK fV (g a) (g' a)) :
    OpsAlike fB fK fV (l.map g) (l.map g') := by
  induction l with
  | nil => exact .nil
  | cons a l ih => exact .cons (h a List.mem_cons_self) (ih fun b hb => h b (List.mem_cons_of_mem _ hb))

/-- The calls of the sample history, with the letters of a word as values. -/
def letterOps : List (Op (AABB I32 2) (AABB I32 2) Char) :=
  [.insert (box 0 0 1 1) 'b', .insert (box 2 0 3 1) 'c', .insert (box 0 2 1 3) 'd', .insert (box 2 2 3 3) 'e',
   .insert (box 0 2 0 2) 'f', .insert (box 1 3 1 3) 'g', .insert (box 8 8 9 9) 'h', .insert (box 9 9 12 12) 'i',
   .insert (box 8 8 9 9) 'j', .remove (box 2 0 3 1), .insertUnique (box 1 3 1 3) 'z', .insertUnique (box 5 5 6 6) 'k']

/-- A letter for every number. -/
def letter (n : Nat) : Char := if n = 60 then 'z' else Char.ofNat (97 + n)

theorem letterOps_alike : OpsAlike id id letter sampleOps letterOps := by
  have hl : ∀ {k : AABB I32 2} {n : Nat} {x : Char}, letter n = x → Op.Alike (B := AABB I32 2) (B' := AABB I32 2) id id letter (.insert k n) (.insert k x) := by
    rintro k n _ rfl; exact .insert k n
  have hu : ∀ {k : AABB I32 2} {n : Nat} {x : Char}, letter n = x →
      Op.Alike (B := AABB I32 2) (B' := AABB I32 2) id id letter (.insertUnique k n) (.insertUnique k x) := by
    rintro k n _ rfl; exact .insertUnique k n
  exact .cons (hl (by decide)) <| .cons (hl (by decide)) <| .cons (hl (by decide)) <| .cons (hl (by decide)) <|
    .cons (hl (by decide)) <| .cons (hl (by decide)) <| .cons (hl (by decide)) <| .cons (hl (by decide)) <|
    .cons (hl (by decide)) <| .cons (.remove _) <| .cons (hu (by decide)) <| .cons (hu (by decide)) .nil

-- The sample history with letters as values.
example : run (Tree.new cfg42) letterOps = .ok (sampleTree.translate id id letter) := by
  rw [C94_values letter cfg42 letterOps_alike, sample_run]
  rfl

-- The sample history with the axes swapped.
example : ∃ ops, OpsAlike AABB.swapAxes AABB.swapAxes id sampleOps ops ∧
    run (Tree.new cfg42) ops = .ok (sampleTree.translate AABB.swapAxes AABB.swapAxes id) := by
  have h : OpsAlike AABB.swapAxes AABB.swapAxes id sampleOps _ :=
    .cons (.insert _ _) <| .cons (.insert _ _) <| .cons (.insert _ _) <| .cons (.insert _ _) <| .cons (.insert _ _) <|
    .cons (.insert _ _) <| .cons (.insert _ _) <| .cons (.insert _ _) <| .cons (.insert _ _) <| .cons (.remove _) <|
    .cons (.insertUnique _ _) <| .cons (.insertUnique _ _) .nil
  exact ⟨_, h, (C94_axes_boxes cfg42 h).trans (congrArg (Except.map _) sample_run)⟩

-- Bounds of the model of `i32` swapped: what the theorems about one call say of the sample tree.
example := C94_queries (translates_swap (N := I32)) translates_swap_boxes (borrow := id) (borrow' := id) (fun _ => rfl)
  (f := noFilter _ _) (f' := noFilter _ _) (fV := (id : Nat → Nat)) noFilter_alike sampleTree (box 5 5 6 6)
example := C94_updates (translates_swap (N := I32)) translates_swap_boxes translates_swap_boxes (borrow := id) (borrow' := id)
  (fun _ => rfl) (fV := (id : Nat → Nat)) sampleTree (box 4 4 6 6) 11 (box 5 5 6 6)

-- The nearest of six points with `i16` coordinates in a debug build; so it is in a release build.
example : ((intTree .i16 .debug sixPoints).minBy ((BinaryHeap.stdHeap _).heap _) (euclidPoints (intPt .i16 .debug 6 6))).map
    (Option.map Prod.snd) = .ok (some 1) := by decide +kernel

-- Two trees of letters joined, with the axes swapped in both.
example := C94_joins (fB := AABB.swapAxes) (fC := AABB.swapAxes) (fK := AABB.swapAxes) (fL := AABB.swapAxes) (fQ := AABB.swapAxes)
  (fR := AABB.swapAxes) (borrow := id) (borrow' := id) (borrowR := id) (borrowR' := id) (fV := letter) (fW := letter)
  (fun _ => rfl) (fun _ => rfl) (fun _ => rfl)
  (f := ⟨AABB.intersectsBox, AABB.intersectsBox⟩) (f' := ⟨AABB.intersectsBox, AABB.intersectsBox⟩)
  ⟨(translates_swap (N := I32)).intersects, (translates_swap (N := I32)).intersects⟩ sampleTree sampleTree

-- A ranking that ranks all keys 3 and all boxes 0.
example := C94_sorted (fB := id) (fK := id) (fV := letter) (fM := id) (stdHeap_alike (M := Nat) (M' := Nat) fun _ _ => Iff.rfl)
  (r := (⟨fun _ => .ok 0, fun _ => .ok 3⟩ : Ranking (AABB I32 2) (AABB I32 2) Nat))
  (r' := ⟨fun _ => .ok 0, fun _ => .ok 3⟩) ⟨fun _ _ h => h, fun _ _ h => h, fun _ _ _ h => h, fun _ _ _ h => h⟩
  (s := ⟨fun _ => .ok (some 0), fun _ => .ok none⟩) (s' := ⟨fun _ => .ok (some 0), fun _ => .ok none⟩)
  ⟨fun _ _ h => (by cases h; rfl), fun _ _ h => (by cases h; rfl), fun _ _ _ h => h, fun _ _ _ h => h⟩ sampleTree 2

-- Six points with `u8` coordinates.
example : run (Tree.new cfg42) (intOps .u8 .release sixPoints) =
    .ok ((intTree .u8 .debug sixPoints).translate (AABB.cast (MInt.as .release)) (SVec.cast (MInt.as .release)) id) :=
  C95_history_points (OpsAlike.map fun a _ => by
    have h : intPt .u8 .release a.1.1 a.1.2 = (intPt .u8 .debug a.1.1 a.1.2).cast (MInt.as .release) :=
      SVec.ext (funext fun i => by match i with | 0 => rfl | 1 => rfl)
    rw [h]
    exact .insert _ _) (Res.ok_getD _ (by decide +kernel))

-- Six boxes with `i8` coordinates.
example : run (Tree.new cfg42) (intBoxOps .i8 .release sixBoxes) =
    .ok ((intBoxTree .i8 .debug sixBoxes).translate (AABB.cast (MInt.as .release)) (AABB.cast (MInt.as .release)) id) :=
  C95_history_boxes (OpsAlike.map fun a _ => by
    have h : ∀ x y, intPt .i8 .release x y = (intPt .i8 .debug x y).cast (MInt.as .release) := fun x y =>
      SVec.ext (funext fun i => by match i with | 0 => rfl | 1 => rfl)
    simp only [intBox, h]
    exact .insert _ _) (Res.ok_getD _ (by decide +kernel))

end Cases

end RTree
