import Verif.Proofs.Invariant
/-! Lookup, in-place modification and unique insertion. -/

namespace RTree

variable {B K V Q : Type}

theorem findEntryMut_spec (p : K → Bool) (es : List (K × V)) :
    match findEntryMut p es with
    | none => ∀ e ∈ es, p e.1 = false
    | some (v, back) => ∃ x k y, es = x ++ (k, v) :: y ∧ p k = true ∧ (∀ e ∈ x, p e.1 = false) ∧
        ∀ v', back v' = x ++ (k, v') :: y := by
  induction es with
  | nil => simp [findEntryMut]
  | cons e es ih =>
    unfold findEntryMut
    by_cases h : p e.1 = true
    · simp only [h, if_true]
      exact ⟨[], e.1, es, by simp, h, by simp, by simp⟩
    · simp only [h, Bool.false_eq_true, if_false]
      cases hf : findEntryMut p es with
      | none =>
        rw [hf] at ih
        intro e' he'
        rcases List.mem_cons.1 he' with rfl | h'
        · simpa using h
        · exact ih e' h'
      | some vb =>
        obtain ⟨v, back⟩ := vb
        rw [hf] at ih
        obtain ⟨x, k, y, hx, hk, hno, hb⟩ := ih
        refine ⟨e :: x, k, y, by simp [hx], hk, ?_, by simp [hb]⟩
        intro e' he'
        rcases List.mem_cons.1 he' with rfl | h'
        · simpa using h
        · exact hno e' h'

section

variable [Bounds B] [Bounded Q B] [BEq Q]

/-- `get` reads what `get_mut` gives access to. -/
theorem getNode_eq_getMutNode (borrow : K → Q) (q : Q) (level : Nat) (node : Node B K V) :
    getNode borrow q level node = (getMutNode borrow q level node).map (Option.map (·.1)) := by
  induction level generalizing node with
  | zero =>
    cases node with
    | inner => rfl
    | leaf b es =>
      simp only [getNode, getMutNode, Node.leafChildren, ok_bind]
      have := findEntryMut_spec (V := V) (fun k => borrow k == q) es
      cases hf : findEntryMut (fun k => borrow k == q) es with
      | none =>
        rw [hf] at this
        have hn : es.find? (fun e => borrow e.1 == q) = none := by
          rw [List.find?_eq_none]; intro e he; simpa using this e he
        simp [hn, Except.map]
      | some vb =>
        obtain ⟨v, back⟩ := vb
        rw [hf] at this
        obtain ⟨x, k, y, rfl, hk, hno, _⟩ := this
        have hx : x.find? (fun e => borrow e.1 == q) = none := by
          rw [List.find?_eq_none]; intro e he; simpa using hno e he
        have hk : (borrow k == q) = true := hk
        simp [Except.map, List.find?_append, hx, hk]
  | succ l ih =>
    cases node with
    | leaf => rfl
    | inner b cs =>
      simp only [getNode, getMutNode, Node.innerChildren, ok_bind]
      have key : getChildren q (getNode borrow q l) cs =
          (getMutChildren q (getMutNode borrow q l) cs).map (Option.map (·.1)) := by
        induction cs with
        | nil => rfl
        | cons c cs ihc =>
          simp only [getChildren, getMutChildren]
          split
          · rw [ih c]
            cases getMutNode borrow q l c with
            | error e => rfl
            | ok o =>
              cases o with
              | some vb => rfl
              | none =>
                simp only [Except.map, Option.map, ok_bind]
                rw [ihc]
                cases getMutChildren q (getMutNode borrow q l) cs with
                | error e => rfl
                | ok o => cases o <;> rfl
          · simp only [pure_eq_ok, ok_bind]
            rw [ihc]
            cases getMutChildren q (getMutNode borrow q l) cs with
            | error e => rfl
            | ok o => cases o <;> rfl
      rw [key]
      cases getMutChildren q (getMutNode borrow q l) cs with
      | error e => rfl
      | ok o => cases o <;> rfl

end

section

variable [Bounds B] [Volume B] [VolumeLaws B] [Bounded K B] [Bounded Q B] [BEq Q]
open VolumeLaws (volOk)
variable {rel : B → List B → Prop} {a : Alloc} {g : Prop}

/-- Post-condition of `get_mut` on a node. -/
def GetMutPost (rel : B → List B → Prop) (a : Alloc) (g complete : Prop) (borrow : K → Q) (q : Q)
    (level : Nat) (node : Node B K V) : Option (V × (V → Node B K V)) → Prop
  | none => complete → ∀ e ∈ node.entries, (borrow e.1 == q) = false
  | some (v, back) => ∃ x k y, node.entries = x ++ (k, v) :: y ∧ (borrow k == q) = true ∧
      (complete → ∀ e ∈ x, (borrow e.1 == q) = false) ∧
      ∀ v', Ok rel a g level (back v') ∧ (back v').entries = x ++ (k, v') :: y ∧
        (back v').bounds = node.bounds ∧ (back v').fanout = node.fanout

theorem sat_getMutNode {complete : Prop} {borrow : K → Q} {q : Q}
    (hprune : complete → ∀ b bs, rel b bs → (Bounded.bounds q : B) ∈ bs →
      Bounds.contains b (Bounded.bounds q) = true)
    (hbq : complete → ∀ k : K, (borrow k == q) = true → (Bounded.bounds k : B) = Bounded.bounds q)
    (level : Nat) (node : Node B K V) (hn : Ok rel a g level node) :
    Sat (getMutNode borrow q level node) (fun _ => False)
      (GetMutPost rel a g complete borrow q level node) := by
  induction level generalizing node with
  | zero =>
    obtain ⟨b, es, rfl, hrel, hlen, hvol⟩ := hn.leaf
    simp only [getMutNode, Node.leafChildren, ok_bind]
    have := findEntryMut_spec (V := V) (fun k => borrow k == q) es
    cases hf : findEntryMut (fun k => borrow k == q) es with
    | none =>
      rw [hf] at this
      exact fun _ e he => this e (by simpa using he)
    | some vb =>
      obtain ⟨v, back⟩ := vb
      rw [hf] at this
      obtain ⟨x, k, y, rfl, hk, hno, hback⟩ := this
      refine ⟨x, k, y, by simp, hk, fun _ e he => hno e he, fun v' => ?_⟩
      simp only [hback]
      refine ⟨ok_leaf.2 ⟨?_, by simpa using hlen, ?_⟩, by simp, rfl, by simp [Node.fanout]⟩
      · simpa [entryBounds, Node.bounds] using hrel
      · intro h e he
        have := hvol h
        simp only [List.mem_append, List.mem_cons] at he this
        rcases he with h' | rfl | h'
        · exact this e (.inl h')
        · exact this (k, v) (.inr (.inl rfl))
        · exact this e (.inr (.inr h'))
  | succ l ih =>
    obtain ⟨b, cs, rfl, hrel, hlen, hcs⟩ := hn.inner
    simp only [getMutNode, Node.innerChildren, ok_bind]
    have key : Sat (getMutChildren q (getMutNode borrow q l) cs) (fun _ => False) fun r =>
        match r with
        | none => complete → ∀ e ∈ entriesList cs, (borrow e.1 == q) = false
        | some (v, back) => ∃ x k y, entriesList cs = x ++ (k, v) :: y ∧ (borrow k == q) = true ∧
            (complete → ∀ e ∈ x, (borrow e.1 == q) = false) ∧
            ∀ v', (∀ c ∈ back v', ChildOk rel a g l c) ∧ entriesList (back v') = x ++ (k, v') :: y ∧
              (back v').length = cs.length := by
      clear hrel hlen hn
      induction cs with
      | nil => simp [getMutChildren]
      | cons c cs ihc =>
        have ihc := ihc fun c' hc' => hcs c' (by simp [hc'])
        have hc := hcs c (by simp)
        unfold getMutChildren
        have hfirst : Sat (if Bounds.contains c.bounds (Bounded.bounds q) = true then getMutNode borrow q l c
            else .ok none) (fun _ => False) (GetMutPost rel a g complete borrow q l c) := by
          split
          · exact ih c hc.1
          · rename_i hcont
            intro hcomp e he
            refine Bool.eq_false_iff.2 fun heq => hcont (hprune hcomp _ _ hc.1.agg ?_)
            rw [← hbq hcomp e.1 heq]
            exact List.mem_map.2 ⟨e, he, rfl⟩
        refine Sat.bind hfirst fun r hr => ?_
        cases r with
        | some vb =>
          obtain ⟨v, back⟩ := vb
          obtain ⟨x, k, y, hx, hk, hno, hb⟩ := hr
          refine ⟨x, k, y ++ entriesList cs, by simp [hx], hk, hno, fun v' => ?_⟩
          obtain ⟨h1, h2, h3, h4⟩ := hb v'
          refine ⟨?_, by simp [h2], by simp⟩
          intro c' hc'
          rcases List.mem_cons.1 hc' with rfl | h
          · exact ⟨h1, by rw [h3, h4]; exact hc.2⟩
          · exact hcs c' (by simp [h])
        | none =>
          refine Sat.bind ihc fun r2 hr2 => ?_
          cases r2 with
          | some vb =>
            obtain ⟨v, back⟩ := vb
            obtain ⟨x, k, y, hx, hk, hno, hb⟩ := hr2
            refine ⟨c.entries ++ x, k, y, by simp [hx], hk, ?_, fun v' => ?_⟩
            · intro hcomp e he
              rcases List.mem_append.1 he with h | h
              · exact hr hcomp e h
              · exact hno hcomp e h
            · obtain ⟨h1, h2, h3⟩ := hb v'
              refine ⟨?_, by simp [h2], by simp [h3]⟩
              intro c' hc'
              rcases List.mem_cons.1 hc' with rfl | h
              · exact hc
              · exact h1 c' h
          | none =>
            intro hcomp e he
            rw [entriesList_cons] at he
            rcases List.mem_append.1 he with h | h
            · exact hr hcomp e h
            · exact hr2 hcomp e h
    refine Sat.bind key fun r hr => ?_
    cases r with
    | none => simpa [GetMutPost] using hr
    | some vb =>
      obtain ⟨v, back⟩ := vb
      obtain ⟨x, k, y, hx, hk, hno, hb⟩ := hr
      refine ⟨x, k, y, by simpa using hx, hk, hno, fun v' => ?_⟩
      obtain ⟨h1, h2, h3⟩ := hb v'
      refine ⟨ok_inner.2 ⟨?_, by omega, h1⟩, by simpa using h2, rfl, by simpa [Node.fanout] using h3⟩
      rw [h2]; rw [hx] at hrel
      simpa [entryBounds, Node.bounds] using hrel

end

/-! ### insert_unique -/

theorem getOnly_none {α : Type} {l : List α} (h : getOnly l = .none) : l = [] := by
  match l with
  | [] => rfl
  | [_] => simp [getOnly] at h
  | _ :: _ :: _ => simp [getOnly] at h

theorem getOnly_only {α : Type} {l : List α} {x : α} (h : getOnly l = .only x) : l = [x] := by
  match l with
  | [] => simp [getOnly] at h
  | [_] => simpa [getOnly] using h
  | _ :: _ :: _ => simp [getOnly] at h

theorem mem_containing [Bounds B] (cs : List (Node B K V)) (b : B) (j : Nat) :
    j ∈ containing cs b ↔ ∃ h : j < cs.length, Bounds.contains cs[j].bounds b = true := by
  simp only [containing, List.mem_map, List.mem_filter]
  constructor
  · rintro ⟨⟨c, i⟩, ⟨hm, hc⟩, rfl⟩
    have := List.mem_zipIdx hm
    simp at this
    exact ⟨this.1, this.2 ▸ hc⟩
  · rintro ⟨h, hc⟩
    refine ⟨(cs[j], j), ⟨?_, hc⟩, rfl⟩
    rw [List.mem_zipIdx_iff_getElem?]; simp [h]

section

variable [Bounds B] [Volume B] [VolumeLaws B] [Bounded K B] [BEq K]
open VolumeLaws (volOk)
variable {rel : B → List B → Prop} {a : Alloc} {g : Prop}

/-- Post-condition of `insert_unique` on a node. -/
def UniquePost (rel : B → List B → Prop) (a : Alloc) (g complete : Prop) (key : K) (value : V)
    (level : Nat) (node : Node B K V) : Node B K V × Option V × Option (Nat × Node B K V) → Prop
  | (n, none, sib) => InsertPost rel a g level node (.leaf key value) (n, sib) ∧
      (complete → ∀ e ∈ node.entries, (e.1 == key) = false)
  | (n, some old, sib) => sib = none ∧ Ok rel a g level n ∧ n.fanout = node.fanout ∧
      (g → volOk node.bounds → volOk n.bounds) ∧
      ∃ x k y, node.entries = x ++ (k, old) :: y ∧ (k == key) = true ∧
        (complete → ∀ e ∈ x, (e.1 == key) = false) ∧ n.entries = x ++ (k, value) :: y

theorem sat_insertUniqueNode (L : AggLaws rel)
    (hg : g → a.Good)
    {complete : Prop} {key : K} {value : V}
    (hprune : complete → ∀ b bs, rel b bs → (Bounded.bounds key : B) ∈ bs →
      Bounds.contains b (Bounded.bounds key) = true)
    (hbq : complete → ∀ k : K, (k == key) = true → (Bounded.bounds k : B) = Bounded.bounds key)
    (habs : ∀ k : K, (k == key) = true → ∀ b bs, rel b bs → (Bounded.bounds k : B) ∈ bs →
      rel (Bounds.union b (Bounded.bounds key)) bs)
    (hkey : g → volOk (Bounded.bounds key : B))
    (level : Nat) (node : Node B K V) (hn : Ok rel a g level node)
    (hf : g → 0 < level → 1 ≤ node.fanout) :
    Sat (insertUniqueNode a key value level node) (Allowed g)
      (UniquePost rel a g complete key value level node) := by
  have hins : ∀ (level : Nat) (node : Node B K V), Ok rel a g level node →
      (g → 0 < level → 1 ≤ node.fanout) →
      (complete → ∀ e ∈ node.entries, (e.1 == key) = false) →
      Sat (do let (node, sibling) ← insertNode a level node (.leaf key value)
              pure (node, none, sibling)) (Allowed g)
        (UniquePost rel a g complete key value level node) := by
    intro level node hn hf hno
    refine Sat.bind (sat_insertNode L hg hn (entry := .leaf key value) hkey (Nat.zero_le _) hf) ?_
    rintro ⟨n, sib⟩ h
    exact ⟨h, hno⟩
  induction level generalizing node with
  | zero =>
    have hn' := hn
    obtain ⟨b, es, rfl, hrel, hlen, hvol⟩ := hn.leaf
    simp only [insertUniqueNode, Node.leafChildren, ok_bind]
    have := findEntryMut_spec (V := V) (fun k => k == key) es
    cases hf' : findEntryMut (fun k => k == key) es with
    | none =>
      rw [hf'] at this
      exact hins 0 _ hn' hf fun _ e he => this e (by simpa using he)
    | some vb =>
      obtain ⟨v, back⟩ := vb
      rw [hf'] at this
      obtain ⟨x, k, y, rfl, hk, hno, hback⟩ := this
      simp only [hback]
      refine ⟨rfl, ok_leaf.2 ⟨?_, by simpa using hlen, ?_⟩, by simp [Node.fanout], fun _ h => h,
        x, k, y, by simp, hk, fun _ => hno, by simp⟩
      · simpa [entryBounds, Node.bounds] using hrel
      · intro h e he
        have := hvol h
        simp only [List.mem_append, List.mem_cons] at he this
        rcases he with h' | rfl | h'
        · exact this e (.inl h')
        · exact this (k, v) (.inr (.inl rfl))
        · exact this e (.inr (.inr h'))
  | succ l ih =>
    have hn' := hn
    obtain ⟨b, cs, rfl, hrel, hlen, hcs⟩ := hn.inner
    have hskip : complete → ∀ (j : Nat) (h : j < cs.length), j ∉ containing cs (Bounded.bounds key) →
        ∀ e ∈ cs[j].entries, (e.1 == key) = false := by
      intro hcomp j h hj e he
      refine Bool.eq_false_iff.2 fun heq => hj ((mem_containing _ _ _).2 ⟨h, ?_⟩)
      refine hprune hcomp _ _ (hcs _ (List.getElem_mem h)).1.agg ?_
      rw [← hbq hcomp e.1 heq]
      exact List.mem_map.2 ⟨e, he, rfl⟩
    simp only [insertUniqueNode, Node.innerChildren, ok_bind]
    cases hgo : getOnly (containing cs (Bounded.bounds key)) with
    | none =>
      have hnil := getOnly_none hgo
      refine hins _ _ hn' hf fun hcomp e he => ?_
      rw [entries_inner, entriesList_eq, List.mem_flatMap] at he
      obtain ⟨c, hc, he⟩ := he
      obtain ⟨j, hj, rfl⟩ := List.getElem_of_mem hc
      exact hskip hcomp j hj (by simp [hnil]) e he
    | multiple =>
      simp only
      refine Sat.bind (Sat.mono (P := GetMutPost rel a g complete id key (l + 1) (.inner b cs))
        (Q := GetMutPost rel a g complete id key (l + 1) (.inner b cs)) (E := Allowed g) ?_ fun _ h => h) ?_
      · have := sat_getMutNode (rel := rel) (a := a) (g := g) (borrow := id) (q := key) hprune
          hbq (l + 1) _ hn'
        cases hx : getMutNode id key (l + 1) (.inner b cs) with
        | error e => rw [hx] at this; exact this.elim
        | ok o => rw [hx] at this; exact this
      · intro r hr
        cases r with
        | none => exact hins _ _ hn' hf hr
        | some vb =>
          obtain ⟨v, back⟩ := vb
          obtain ⟨x, k, y, hx, hk, hno, hb⟩ := hr
          obtain ⟨h1, h2, h3, h4⟩ := hb value
          exact ⟨rfl, h1, h4, fun _ h => by rw [h3]; exact h, x, k, y, hx, hk, hno, h2⟩
    | only i =>
      have hcont := getOnly_only hgo
      obtain ⟨hi, hic⟩ := (mem_containing cs (Bounded.bounds key) i).1 (by simp [hcont])
      simp only
      refine Sat.bind (Sat.index (P := fun c => c = cs[i]) hi rfl) ?_
      rintro _ rfl
      have hci := hcs _ (List.getElem_mem hi)
      refine Sat.bind (ih _ hci.1 fun h _ => by have := hci.2.1 h; have := (hg h).facts; omega) ?_
      rintro ⟨c', old, sib⟩ hpost
      obtain ⟨x, y, hxy, hxlen, hset⟩ := exists_split cs i hi
      have hxno : complete → ∀ e ∈ entriesList x, (e.1 == key) = false := by
        intro hcomp e he
        rw [entriesList_eq, List.mem_flatMap] at he
        obtain ⟨c, hc, he⟩ := he
        obtain ⟨j, hj, rfl⟩ := List.getElem_of_mem hc
        have hjl : j < cs.length := by omega
        have hcj : cs[j] = x[j] := by
          have : cs[j]? = x[j]? := by
            rw [hxy, List.getElem?_append_left hj]
          simpa [List.getElem?_eq_getElem hjl, List.getElem?_eq_getElem hj] using this
        refine hskip hcomp j hjl ?_ e (by rw [hcj]; exact he)
        rw [hcont]; simp; omega
      have hyno : complete → ∀ e ∈ entriesList y, (e.1 == key) = false := by
        intro hcomp e he
        rw [entriesList_eq, List.mem_flatMap] at he
        obtain ⟨c, hc, he⟩ := he
        obtain ⟨j, hj, rfl⟩ := List.getElem_of_mem hc
        have hlen' := congrArg List.length hxy
        simp at hlen'
        have hjl : i + 1 + j < cs.length := by omega
        have hcj : cs[i + 1 + j] = y[j] := by
          have : cs[i + 1 + j]? = y[j]? := by
            rw [hxy, List.getElem?_append_right (by omega)]
            have : i + 1 + j - x.length = j + 1 := by omega
            rw [this, List.getElem?_cons_succ]
          simpa [List.getElem?_eq_getElem hjl, List.getElem?_eq_getElem hj] using this
        refine hskip hcomp _ hjl ?_ e (by rw [hcj]; exact he)
        rw [hcont]; simp; omega
      have hmemset : ∀ c'', ChildOk rel a g l c'' → ∀ c ∈ cs.set i c'', ChildOk rel a g l c := by
        intro c'' h'' c hc
        rcases List.mem_or_eq_of_mem_set hc with h | rfl
        · exact hcs c h
        · exact h''
      cases old with
      | some old =>
        obtain ⟨rfl, hok, hfan, hvol, u, k, w, hu, hk, huno, hc'e⟩ := hpost
        have hc' : ChildOk rel a g l c' := ⟨hok, fun h => ⟨by rw [hfan]; exact (hci.2.1 h).1, hvol h (hci.2.1 h).2⟩,
          fun h => by rw [hfan]; exact hci.2.2 h⟩
        have hents : entriesList cs = (entriesList x ++ u) ++ (k, old) :: (w ++ entriesList y) := by
          conv => lhs; rw [hxy]
          simp [hu]
        have hents' : entriesList (cs.set i c') = (entriesList x ++ u) ++ (k, value) :: (w ++ entriesList y) := by
          rw [hset]; simp [hc'e]
        refine ⟨rfl, ok_inner.2 ⟨?_, by simpa using hlen, hmemset c' hc'⟩, by simp [Node.fanout],
          fun h hb => VolumeLaws.union hb (hkey h), entriesList x ++ u, k, w ++ entriesList y, by simpa using hents,
          hk, ?_, by simpa using hents'⟩
        · have : ((entriesList (cs.set i c')).map entryBounds : List B) =
              (entriesList cs).map entryBounds := by
            rw [hents, hents']; simp [entryBounds]
          rw [this]
          refine habs k hk _ _ hrel ?_
          rw [hents]
          simp [entryBounds]
        · intro hcomp e he
          rcases List.mem_append.1 he with h | h
          · exact hxno hcomp e h
          · exact huno hcomp e h
      | none =>
        obtain ⟨hpost, hno⟩ := hpost
        have hnoall : complete → ∀ e ∈ (Node.inner b cs).entries, (e.1 == key) = false := by
          intro hcomp e he
          rw [entries_inner] at he
          rw [hxy] at he
          simp only [entriesList_append, entriesList_cons, List.mem_append] at he
          rcases he with h | h | h
          · exact hxno hcomp e h
          · exact hno hcomp e h
          · exact hyno hcomp e h
        cases sib with
        | none =>
          obtain ⟨hok, hp, hb, hfan, hfan1⟩ := hpost
          have hc' : ChildOk rel a g l c' := ⟨hok, fun h => ⟨by have := hci.2.1 h; omega, hb h (hci.2.1 h).2⟩, fun _ => hfan1⟩
          have hperm : (entriesList (cs.set i c')).Perm ([(key, value)] ++ entriesList cs) := by
            rw [hset]; conv => rhs; rw [hxy]
            simp only [entriesList_append, entriesList_cons]
            exact perm_mid hp
          refine ⟨⟨ok_inner.2 ⟨?_, by simpa using hlen, hmemset c' hc'⟩, by simpa [NodeEntry.entries] using hperm,
            fun h hb => VolumeLaws.union hb (hkey h), by simp [Node.fanout], by simp [Node.fanout]; omega⟩, hnoall⟩
          refine L.perm (L.union hrel (L.single _)) ?_
          have := (List.perm_append_comm.trans hperm.symm).map (entryBounds (B := B))
          simpa [entryBounds] using this
        | some ls =>
          obtain ⟨l', s⟩ := ls
          obtain ⟨rfl, hc', hs, hp, hf1, hf2⟩ := hpost
          have hperm : (s.entries ++ entriesList (cs.set i c')).Perm ([(key, value)] ++ entriesList cs) := by
            rw [hset]; conv => rhs; rw [hxy]
            simp only [entriesList_append, entriesList_cons]
            exact perm_mid' hp
          simp only
          refine Sat.bind (sat_selfInsert (entry := .inner l' s) L hg (level := l' + 1)
            (node := .inner (Bounds.unionAll ((cs.set i c').map Node.bounds)) (cs.set i c'))
            (ok_inner.2 ⟨rel_unionAll_children L (hmemset c' hc'), by simpa using hlen, hmemset c' hc'⟩) hs rfl) ?_
          rintro ⟨n'', sib''⟩ h
          refine ⟨?_, hnoall⟩
          cases sib'' with
          | some t =>
            obtain ⟨lt, t⟩ := t
            obtain ⟨rfl, h1, h2, h3, h4, h5⟩ := h
            exact ⟨rfl, h1, h2, h3.trans hperm, h4, h5⟩
          | none =>
            obtain ⟨h1, h2, h3, h4, h5⟩ := h
            refine ⟨h1, h2.trans hperm, fun h _ => h3 h (VolumeLaws.unionAll (by
              intro h'; simp at h'; subst h'; simp at hi) (by
              simp only [List.mem_map]; rintro _ ⟨c, hc, rfl⟩; exact ((hmemset c' hc' c hc).2.1 h).2)),
              by simpa [Node.fanout] using h4, h5⟩

end

end RTree
