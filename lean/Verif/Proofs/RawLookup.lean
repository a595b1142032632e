import Verif.Proofs.RawInsert
/-!
# Lookup and replacement of values in memory
-/

namespace RTree.Raw

variable {B K V Q : Type} {E : TEnv} {cap : Nat} {h : Heap (Cell B K V)}

theorem findEntryMut_eq (p : K → Bool) (es : List (K × V)) :
    findEntryMut p es = (es.findIdx? fun e => p e.1).bind fun i => es[i]?.map fun e => (e.2, fun v => es.set i (e.1, v)) := by
  induction es with
  | nil => rfl
  | cons e es ih =>
    rw [findEntryMut, List.findIdx?_cons]
    by_cases hp : p e.1 = true
    · simp [hp]
    · simp only [hp, Bool.false_eq_true, if_false, ih]
      cases hf : es.findIdx? (fun e => p e.1) with
      | none => simp
      | some i =>
        cases hg : es[i]? with
        | none => simp [hg]
        | some e' => simp [hg]

/-- A place in memory and a mutable reference of the value-level model. -/
def PlaceRel (E : TEnv) (cap : Nat) {α : Type} (cs : List (Chunk (Cell B K V))) (es : List (K × V))
    (mk : α → List (Chunk (Cell B K V)) → List (K × V) → Prop) (r : Option (V × (V → α))) (s : Option (FCVec × Nat)) : Prop :=
  match r, s with
  | none, none => True
  | some (v, back), some p => ∃ (xs : List (K × V)) (fr : List (Chunk (Cell B K V))) (k : K) (rest : List (K × V)),
      xs[p.2]? = some (k, v) ∧ cs.Perm (vecC E.entry cap p.1 (xs.map .entry) :: fr) ∧ es.Perm ((k, v) :: rest) ∧
      ∀ v', ∃ cs' es', mk (back v') cs' es' ∧ cs'.Perm (vecC E.entry cap p.1 ((xs.set p.2 (k, v')).map .entry) :: fr) ∧
        es'.Perm ((k, v') :: rest)
  | _, _ => False

/-- The node after a write through a reference: nothing else has changed. -/
def SameNode (E : TEnv) (cap l : Nat) (g : G B K V l) (n : Node B K V) (cs : List (Chunk (Cell B K V))) (es : List (K × V)) : Prop :=
  ∃ g' : G B K V l, n = node l g' ∧ raw g' = raw g ∧ cs = chunks E cap l g' ∧ es = ents l g'

/-- The children after a write through a reference. -/
def SameKids (E : TEnv) (cap l : Nat) (kids : List (Item B K V (l + 1))) (ns : List (Node B K V)) (cs : List (Chunk (Cell B K V)))
    (es : List (K × V)) : Prop :=
  ∃ kids' : List (Item B K V (l + 1)), ns = kids'.map (node l) ∧ kids'.map raw = kids.map raw ∧
    cs = chunksL E cap (l + 1) kids' ∧ es = kids'.flatMap (entsI (l + 1))

section

variable [Bounds B] [Bounded Q B] [BEq Q]

omit [BEq Q] in
theorem findChildren_sim {l : Nat} {q : Q} {rec : Node B K V → Res (Option (V × (V → Node B K V)))}
    {rrec : RNode B → TM B K V (Option (FCVec × Nat))} (kids : List (Item B K V (l + 1)))
    (hrec : ∀ g ∈ kids, Sim (rec (node l g)) (rrec (raw g) h) fun r s h' => h = h' ∧ PlaceRel E cap (chunks E cap l g) (ents l g) (SameNode E cap l g) r s) :
    Sim (getMutChildren q rec (kids.map (node l))) (findChildren q rrec (kids.map raw) h) fun r s h' =>
      h = h' ∧ PlaceRel E cap (chunksL E cap (l + 1) kids) (kids.flatMap (entsI (l + 1))) (SameKids E cap l kids) r s := by
  induction kids with
  | nil =>
    simp only [List.map_nil, getMutChildren, findChildren]
    exact .ok ⟨rfl, trivial⟩
  | cons g kids ih =>
    have ih := ih fun g' hg' => hrec g' (List.mem_cons_of_mem _ hg')
    have tailcase : Sim (do
          match ← getMutChildren q rec (kids.map (node l)) with
          | some (v, back) => pure (some (v, fun v' => node l g :: back v'))
          | none => pure none) (findChildren q rrec (kids.map raw) h) fun r s h' =>
        h = h' ∧ PlaceRel E cap (chunksL E cap (l + 1) (g :: kids)) ((g :: kids).flatMap (entsI (l + 1))) (SameKids E cap l (g :: kids)) r s := by
      cases hx : getMutChildren q rec (kids.map (node l)) with
      | error e =>
        rw [hx] at ih
        cases e <;> exact ih
      | ok o =>
        rw [hx] at ih
        obtain ⟨s, h', h1, rfl, h2⟩ := ih
        rw [h1, ok_bind]
        cases o with
        | none =>
          cases s with
          | none => exact .ok ⟨rfl, trivial⟩
          | some p => exact h2.elim
        | some vb =>
          obtain ⟨v, back⟩ := vb
          cases s with
          | none => exact h2.elim
          | some p =>
            obtain ⟨xs, fr, k, rest, hxs, hp, hpe, hback⟩ := h2
            refine .ok ⟨rfl, xs, chunks E cap l g ++ fr, k, ents l g ++ rest, hxs, ?_, ?_, ?_⟩
            · have : chunksL E cap (l + 1) (g :: kids) = chunks E cap l g ++ chunksL E cap (l + 1) kids := rfl
              rw [this]; perms [hp]
            · have : (g :: kids).flatMap (entsI (l + 1)) = ents l g ++ kids.flatMap (entsI (l + 1)) := rfl
              rw [this]; perms [hpe]
            · intro v'
              obtain ⟨_, _, ⟨kids', hb, hr, rfl, rfl⟩, hc, he⟩ := hback v'
              refine ⟨_, _, ⟨g :: kids', by simp only [hb, List.map_cons], by rw [List.map_cons, hr]; rfl, rfl, rfl⟩, ?_, ?_⟩
              · have : chunksL E cap (l + 1) (g :: kids') = chunks E cap l g ++ chunksL E cap (l + 1) kids' := rfl
                rw [this]; perms [hc]
              · have : (g :: kids').flatMap (entsI (l + 1)) = ents l g ++ kids'.flatMap (entsI (l + 1)) := rfl
                rw [this]; perms [he]
    simp only [List.map_cons, getMutChildren, findChildren, node_bounds']
    have hb : (raw g).bounds = g.bounds := rfl
    rw [hb]
    by_cases hc : Bounds.contains g.bounds (Bounded.bounds q) = true
    · simp only [hc, if_true]
      refine .bind (hrec g List.mem_cons_self) ?_
      rintro o s _ ⟨rfl, h2⟩
      cases o with
      | none =>
        cases s with
        | none => exact tailcase
        | some p => exact h2.elim
      | some vb =>
        obtain ⟨v, back⟩ := vb
        cases s with
        | none => exact h2.elim
        | some p =>
          obtain ⟨xs, fr, k, rest, hxs, hp, hpe, hback⟩ := h2
          refine .ok ⟨rfl, xs, fr ++ chunksL E cap (l + 1) kids, k, rest ++ kids.flatMap (entsI (l + 1)), hxs, ?_, ?_, ?_⟩
          · have : chunksL E cap (l + 1) (g :: kids) = chunks E cap l g ++ chunksL E cap (l + 1) kids := rfl
            rw [this]; perms [hp]
          · have : (g :: kids).flatMap (entsI (l + 1)) = ents l g ++ kids.flatMap (entsI (l + 1)) := rfl
            rw [this]; perms [hpe]
          · intro v'
            obtain ⟨_, _, ⟨g', hb, hr, rfl, rfl⟩, hc, he⟩ := hback v'
            refine ⟨_, _, ⟨g' :: kids, by simp only [hb, List.map_cons], by rw [List.map_cons, hr]; rfl, rfl, rfl⟩, ?_, ?_⟩
            · have : chunksL E cap (l + 1) (g' :: kids) = chunks E cap l g' ++ chunksL E cap (l + 1) kids := rfl
              rw [this]; perms [hc]
            · have : (g' :: kids).flatMap (entsI (l + 1)) = ents l g' ++ kids.flatMap (entsI (l + 1)) := rfl
              rw [this]; perms [he]
    · simp only [hc, Bool.false_eq_true, if_false, ok_bind]
      exact tailcase

omit [Bounds B] [Bounded Q B] in
theorem leaf_place {borrow : K → Q} {q : Q} (g : G B K V 0) :
    PlaceRel E cap (chunks E cap 0 g) (ents 0 g) (SameNode E cap 0 g)
      ((findEntryMut (fun k => borrow k == q) g.kids).map fun x => (x.1, fun v' => .leaf g.bounds (x.2 v')))
      ((g.kids.findIdx? fun e => borrow e.1 == q).map fun i => (g.vec, i)) := by
  have ents0 : ∀ g : G B K V 0, ents 0 g = g.kids := fun g => by
    show g.kids.flatMap (fun e => [e]) = g.kids
    simp
  rw [findEntryMut_eq]
  cases hf : g.kids.findIdx? (fun e => borrow e.1 == q) with
  | none => trivial
  | some i =>
    obtain ⟨hi, _⟩ := List.findIdx?_eq_some_iff_findIdx_eq.1 hf
    simp only [Option.bind_some, List.getElem?_eq_getElem hi, Option.map_some]
    refine ⟨g.kids, chunksL E cap 0 g.kids, g.kids[i].1, g.kids.eraseIdx i, by simp [hi], .refl _, ?_, ?_⟩
    · rw [ents0]
      have := flatMap_get (fun x => [x]) hi
      simpa using this
    · intro v'
      refine ⟨_, _, ⟨⟨g.bounds, g.vec, g.kids.set i (g.kids[i].1, v')⟩, rfl, rfl, rfl, rfl⟩, ?_, ?_⟩
      · have e0 : ∀ k : List (K × V), (chunksL (B := B) E cap 0 k) = [] := by
          intro k
          show k.flatMap (fun _ => []) = []
          simp
        simp only [chunks, e0]
        exact .refl _
      · rw [ents0]
        have := flatMap_set (fun x => [x]) hi (g.kids[i].1, v')
        simpa using this

theorem find_sim (S : Sizes E cap) (borrow : K → Q) (q : Q) : ∀ (l : Nat) (g : G B K V l), Has h (chunks E cap l g) →
    Sim (getMutNode borrow q l (node l g)) (find E borrow q l (raw g) h) fun r s h' =>
      h = h' ∧ PlaceRel E cap (chunks E cap l g) (ents l g) (SameNode E cap l g) r s := by
  intro l
  induction l with
  | zero =>
    intro g H
    have H : Has h (chunks E cap 0 g ++ []) := by simpa using H
    have hv := H.vec
    have key := leaf_place (E := E) (cap := cap) (borrow := borrow) (q := q) g
    simp only [getMutNode, node, Node.leafChildren, ok_bind, Node.bounds, find]
    refine .step (entries_ok S hv) ?_
    cases hx : findEntryMut (fun k => borrow k == q) g.kids with
    | none => rw [hx] at key; exact .ok ⟨rfl, key⟩
    | some vb => rw [hx] at key; exact .ok ⟨rfl, key⟩
  | succ l ih =>
    intro g H
    have H' : Has h (chunks E cap (l + 1) g ++ []) := by simpa using H
    simp only [getMutNode, node, Node.innerChildren, ok_bind, Node.bounds, find]
    refine .step (nodes_ok S H'.vec) ?_
    have hk := findChildren_sim (E := E) (cap := cap) (q := q) (h := h) g.kids (rec := getMutNode borrow q l)
      (rrec := find E borrow q l) (fun g' hg' => ih g' (by
        obtain ⟨i, hi, rfl⟩ := List.getElem_of_mem hg'
        exact ((H'.perm (kid_perm E cap l g hi [])).left).left))
    cases hx : getMutChildren q (getMutNode borrow q l) (g.kids.map (node l)) with
    | error e => rw [hx] at hk; cases e <;> exact hk
    | ok o =>
      rw [hx] at hk
      obtain ⟨s, h', h1, rfl, h2⟩ := hk
      rw [h1, ok_bind]
      cases o with
      | none =>
        cases s with
        | none => exact .ok ⟨rfl, trivial⟩
        | some p => exact h2.elim
      | some vb =>
        obtain ⟨v, back⟩ := vb
        cases s with
        | none => exact h2.elim
        | some p =>
          obtain ⟨xs, fr, k, rest, hxs, hp, hpe, hback⟩ := h2
          refine .ok ⟨rfl, xs, vecC E.node cap g.vec (g.kids.map (cell (l + 1))) :: fr, k, rest, hxs, ?_, hpe, ?_⟩
          · exact (hp.cons _).trans (.swap _ _ _)
          · intro v'
            obtain ⟨_, _, ⟨kids', hb, hr, rfl, rfl⟩, hc, he⟩ := hback v'
            refine ⟨_, _, ⟨⟨g.bounds, g.vec, kids'⟩, by simp only [hb, node], rfl, rfl, rfl⟩, ?_, he⟩
            have hcell : kids'.map (cell (l + 1)) = (g.kids.map (cell (l + 1)) : List (Cell B K V)) := by
              have := congrArg (List.map (fun r => (Cell.node r : Cell B K V))) hr
              rw [List.map_map, List.map_map] at this
              exact this
            simp only [chunks, hcell]
            exact (hc.cons _).trans (.swap _ _ _)

end

/-- Reading and writing at the place found. -/
theorem place_read {α : Type} (S : Sizes E cap) {cs : List (Chunk (Cell B K V))} {es : List (K × V)}
    {mk : α → List (Chunk (Cell B K V)) → List (K × V) → Prop}
    (H : Has h cs) {v : V} {back : V → α} {p : FCVec × Nat} (hp : PlaceRel E cap cs es mk (some (v, back)) (some p)) :
    ∃ k, readEntry E p h = .ok ((k, v), h) := by
  obtain ⟨xs, fr, k, rest, hxs, hc, hpe, hback⟩ := hp
  have H1 : Has h [vecC E.entry cap p.1 (xs.map .entry)] := Has.left (ds := fr) (H.perm hc)
  have := FCVec.get_ok H1.owns S.entry p.2
  refine ⟨k, ?_⟩
  rw [readEntry, bind_ok (b := .entry (k, v)) (h' := h)]
  · rfl
  · rw [this]; simp [index, hxs]

theorem place_write {α : Type} (S : Sizes E cap) {cs : List (Chunk (Cell B K V))} {es : List (K × V)}
    {mk : α → List (Chunk (Cell B K V)) → List (K × V) → Prop}
    (H : Has h cs) {v : V} {back : V → α} {p : FCVec × Nat} (hp : PlaceRel E cap cs es mk (some (v, back)) (some p)) (v' : V) :
    ∃ h' cs' es', replaceValue E p v' h = .ok (v, h') ∧ mk (back v') cs' es' ∧ Tr h cs h' cs' ∧
      (es'.map (·.1)).Perm (es.map (·.1)) ∧ (v :: es'.map (·.2)).Perm (v' :: es.map (·.2)) := by
  have hread := place_read S H hp
  obtain ⟨k', hread⟩ := hread
  obtain ⟨xs, fr, k, rest, hxs, hc, hpe, hback⟩ := hp
  have t0 : Tr h cs h ([vecC E.entry cap p.1 (xs.map .entry)] ++ fr) := (Tr.refl H).perm_right hc
  have H1 := t0.has.left
  obtain ⟨hi, hx⟩ := List.getElem?_eq_some_iff.1 hxs
  obtain rfl : k' = k := by
    have := FCVec.get_ok H1.owns S.entry p.2
    rw [readEntry, bind_ok (b := .entry (k, v)) (h' := h)] at hread
    · have : ((k, v), h) = ((k', v), h) := by simpa [Cell.asEntry] using hread
      simp only [Prod.mk.injEq, and_true] at this
      exact this.symm
    · rw [this]; simp [index, hxs]
  obtain ⟨h', h1, t⟩ := FCVec.set_tr H1 S.entry (i := p.2) (by simpa using hi) (.entry (k', v'))
  obtain ⟨cs', es', hmk, hc', he'⟩ := hback v'
  refine ⟨h', cs', es', ?_, hmk, ?_, ?_, ?_⟩
  · rw [replaceValue, bind_ok hread]
    simp only
    rw [bind_ok h1]; rfl
  · refine (t0.app (.refl _) t).perm_right ?_
    rw [List.map_set] at hc'
    exact hc'.symm
  · have h1 := he'.map (·.1)
    have h2 := hpe.map (·.1)
    exact h1.trans h2.symm
  · refine ((he'.map (·.2)).cons v).trans (List.Perm.trans ?_ ((hpe.map (·.2)).cons v').symm)
    exact .swap _ _ _

/-! ### Unique insertion -/

/-- Where the key and the value passed to `insert_unique` have gone: the key into the tree unless a value is returned (then it is dropped), the value
    into the tree. -/
def UAcc (key : K) (value : V) (old : Option V) (es es' : List (K × V)) : Prop :=
  (es'.map (·.1) ++ if old.isSome then [key] else []).Perm (key :: es.map (·.1)) ∧ (es'.map (·.2) ++ old.toList).Perm (value :: es.map (·.2))

theorem UAcc.lift {key : K} {value : V} {old : Option V} {es es' rest f f' s : List (K × V)} (h : UAcc key value old es (es' ++ s))
    (e1 : f'.Perm (es' ++ rest)) (e2 : f.Perm (es ++ rest)) : UAcc key value old f (f' ++ s) := by
  obtain ⟨hk, hv⟩ := h
  have e1k := e1.map (·.1)
  have e2k := e2.map (·.1)
  have e1v := e1.map (·.2)
  have e2v := e2.map (·.2)
  simp only [List.map_append] at hk hv e1k e2k e1v e2v
  refine ⟨?_, ?_⟩
  · rw [List.map_append]
    generalize (if old.isSome = true then [key] else []) = dk at hk ⊢
    perms [hk, e1k, e2k]
  · rw [List.map_append]
    perms [hv, e1v, e2v]

section

variable [Bounds B] [Volume B] [Bounded K B] [BEq K] {a : Alloc}

/-- What unique insertion into a node leaves behind. -/
def UniqRel (E : TEnv) (cap : Nat) (h₀ : Heap (Cell B K V)) (key : K) (value : V) (l : Nat) (g₀ : G B K V l)
    (r : Node B K V × Option V × Option (Nat × Node B K V)) (s : UniqueResult B V) (h' : Heap (Cell B K V)) : Prop :=
  ∃ (g : G B K V l) (old : Option V) (o : Option (G B K V l)), r = (node l g, old, o.map fun g => (l, node l g)) ∧
    s = (raw g, old, o.map fun g => (l, raw g)) ∧
    Tr h₀ (chunks E cap l g₀) h' (chunks E cap l g ++ o.elim [] (chunks E cap l)) ∧ UAcc key value old (ents l g₀) (ents l g ++ o.elim [] (ents l))

omit [BEq K] in
theorem insertLeaf_sim (S : Sizes E a.maxChildren) (key : K) (value : V) (l : Nat) (g : G B K V l) (H : Has h (chunks E a.maxChildren l g)) :
    Sim (do let (node, sibling) ← RTree.insertNode a l (node l g) (.leaf key value); pure (node, none, sibling))
      ((do let r ← Raw.insertNode E a (.leaf key value) l (raw g); pure (r.1, none, r.2) : TM B K V (UniqueResult B V)) h)
      (UniqRel E a.maxChildren h key value l g) := by
  have hx : chunksI (B := B) E a.maxChildren 0 (key, value) = [] := rfl
  have := insertNode_sim (a := a) S (m := 0) ((key, value) : Item B K V 0) l g (h := h) (by simpa [hx] using H)
  refine .bind this ?_
  rintro ⟨n, s⟩ ⟨r, rs⟩ h' ⟨g', o, hr, hs, t, hpe⟩
  obtain ⟨rfl, rfl⟩ := Prod.mk.inj hr
  obtain ⟨rfl, rfl⟩ := Prod.mk.inj hs
  refine .ok ⟨g', none, o, rfl, rfl, by simpa [hx] using t, ?_⟩
  have h1 : (ents l g' ++ o.elim [] (ents l)).Perm ((key, value) :: ents l g) := hpe.trans List.perm_append_comm
  have h2 := h1.map (·.1)
  have h3 := h1.map (·.2)
  exact ⟨by simpa using h2, by simpa using h3⟩

omit [Bounds B] [Volume B] [Bounded K B] [BEq K] in
theorem replace_uniq (S : Sizes E cap) {key : K} {value : V} {l : Nat} {g : G B K V l} (H : Has h (chunks E cap l g)) {v : V}
    {back : V → Node B K V} {p : FCVec × Nat} (hp : PlaceRel E cap (chunks E cap l g) (ents l g) (SameNode E cap l g) (some (v, back)) (some p)) :
    Sim (.ok (back value, some v, none))
      ((do let old ← replaceValue E p value; pure (raw g, some old, none) : TM B K V (UniqueResult B V)) h)
      (UniqRel E cap h key value l g) := by
  obtain ⟨h', _, _, h1, ⟨g', hb, hr, rfl, rfl⟩, t, hk, hv⟩ := place_write S H hp value
  rw [bind_ok h1, hb, ← hr]
  refine .ok ⟨g', some v, none, rfl, rfl, by simpa using t, ?_, ?_⟩
  · simp only [Option.isSome_some, if_true, Option.elim_none, List.append_nil]
    exact (List.perm_append_singleton _ _).trans (hk.cons _)
  · simp only [Option.toList_some, Option.elim_none, List.append_nil]
    exact (List.perm_append_singleton _ _).trans hv

theorem insertUniqueNode_sim (S : Sizes E a.maxChildren) (key : K) (value : V) : ∀ (l : Nat) (g : G B K V l) {h : Heap (Cell B K V)},
    Has h (chunks E a.maxChildren l g) →
    Sim (RTree.insertUniqueNode a key value l (node l g)) (Raw.insertUniqueNode E a key value l (raw g) h)
      (UniqRel E a.maxChildren h key value l g) := by
  intro l
  induction l with
  | zero =>
    intro g h H
    have H' : Has h (chunks E a.maxChildren 0 g ++ []) := by simpa using H
    have key' := leaf_place (E := E) (cap := a.maxChildren) (borrow := id) (q := key) g
    have hins := insertLeaf_sim S key value 0 g H
    simp only [RTree.insertUniqueNode, node, Node.leafChildren, ok_bind, Node.bounds, Raw.insertUniqueNode, raw]
    refine .step (entries_ok S H'.vec) ?_
    simp only [id] at key'
    cases hx : findEntryMut (fun k => k == key) g.kids with
    | none =>
      cases hy : g.kids.findIdx? (fun e => e.1 == key) with
      | none => exact hins
      | some i => rw [hx, hy] at key'; exact key'.elim
    | some vb =>
      cases hy : g.kids.findIdx? (fun e => e.1 == key) with
      | none => rw [hx, hy] at key'; exact key'.elim
      | some i =>
        rw [hx, hy] at key'
        exact replace_uniq S H key'
  | succ l ih =>
    intro g h H
    have H' : Has h (chunks E a.maxChildren (l + 1) g ++ []) := by simpa using H
    have hins := insertLeaf_sim S key value (l + 1) g H
    have hfind := find_sim (h := h) S (id : K → K) key (l + 1) g H
    rw [RTree.insertUniqueNode, Raw.insertUniqueNode]
    have hcont : containing (g.kids.map (node l)) (Bounded.bounds key) =
        ((g.kids.map raw).zipIdx.filter fun c => Bounds.contains c.1.bounds (Bounded.bounds key)).map (·.2) := by
      rw [containing, zipIdx_map', zipIdx_map', List.filter_map, List.filter_map, List.map_map, List.map_map]
      congr 1
      refine List.filter_congr ?_
      intro c _
      simp [node_bounds', raw]
    have hin : (node (l + 1) g).innerChildren = .ok (g.kids.map (node l)) := rfl
    simp only [hin, ok_bind, hcont]
    refine .step (nodes_ok S H'.vec) ?_
    generalize getOnly (((g.kids.map raw).zipIdx.filter fun c => Bounds.contains c.1.bounds (Bounded.bounds key)).map (·.2)) = only
    cases only with
    | none => exact hins
    | multiple =>
      simp only
      refine .bind hfind ?_
      rintro o s _ ⟨rfl, hp⟩
      cases o with
      | none =>
        cases s with
        | none => exact hins
        | some p => exact hp.elim
      | some vb =>
        cases s with
        | none => exact hp.elim
        | some p => exact replace_uniq S H hp
    | only i =>
      simp only
      rw [index_map, map_eq_pure_bind, bind_assoc]
      refine .bind (nodeAt_sim S H'.vec i) ?_
      rintro _ _ _ ⟨rfl, rfl, hi, rfl⟩
      rw [pure_eq_ok, ok_bind]
      have hp := kid_perm E a.maxChildren l g hi []
      have t0 := Tr.refl H'
      refine .bind (ih g.kids[i] (by simpa using t0.sub hp)) ?_
      rintro ⟨n', old', sib⟩ ⟨r', rold, rsib⟩ h₁ ⟨g', old, o, hr, hs, t, hacc⟩
      simp only [Prod.mk.injEq] at hr hs
      obtain ⟨rfl, rfl, rfl⟩ := hr
      obtain ⟨rfl, rfl, rfl⟩ := hs
      obtain ⟨h₂, hput, t2⟩ := put_kid S hi g' (t0.app hp (by simpa using t))
      refine .step hput ?_
      have hacc' : ∀ b : B, UAcc key value rold (ents (l + 1) g)
          (ents (l + 1) ⟨b, g.vec, g.kids.set i g'⟩ ++ o.elim [] (ents l)) := by
        intro b
        have e1 : (ents (l + 1) (⟨b, g.vec, g.kids.set i g'⟩ : G B K V (l + 1))).Perm
          (ents l g' ++ (g.kids.eraseIdx i).flatMap (entsI (l + 1))) := flatMap_set (entsI (l + 1)) hi g'
        have e2 : (ents (l + 1) g).Perm (ents l g.kids[i] ++ (g.kids.eraseIdx i).flatMap (entsI (l + 1))) := flatMap_get (entsI (l + 1)) hi
        exact hacc.lift e1 e2
      simp only [set_node]
      cases o with
      | none =>
        refine .ok ⟨⟨Bounds.union g.bounds (Bounded.bounds key), g.vec, g.kids.set i g'⟩, rold, none, rfl, rfl, ?_, hacc' _⟩
        simpa using t2 (Bounds.union g.bounds (Bounded.bounds key))
      | some sg =>
        simp only [Option.map_some]
        have t2 := t2 (Bounds.unionAll (((g.kids.set i g').map raw).map RNode.bounds))
        refine .step (nodes_ok S t2.has.vec) ?_
        have := selfInsert_sim S (l + 1) ⟨Bounds.unionAll (((g.kids.set i g').map raw).map RNode.bounds), g.vec, g.kids.set i g'⟩ sg t2.has
        simp only [map_node_bounds]
        refine .bind this ?_
        rintro _ _ h₃ ⟨g₃, o₃, rfl, rfl, t3, hpe3⟩
        refine .ok ⟨g₃, rold, o₃, rfl, rfl, by simpa using t2.trans t3, ?_⟩
        have ha := hacc' (Bounds.unionAll (((g.kids.set i g').map raw).map RNode.bounds))
        have e : entsI (l + 1) sg = ents l sg := rfl
        rw [e] at hpe3
        simp only [Option.elim_some] at ha
        exact ⟨((hpe3.map _).append_right _).trans ha.1, ((hpe3.map _).append_right _).trans ha.2⟩

end

end RTree.Raw
