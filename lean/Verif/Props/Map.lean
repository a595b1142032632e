import Verif.Props.Core
/-!
# Histories of `insert_unique`, `remove` and `get` are a finite map (C07); removing everything (C31)
-/

namespace RTree

variable {B K V : Type} [Bounds B] [Volume B] [Bounded K B] [BEq K]

/-- A call of the map-like part of the API. -/
inductive MapOp (K V : Type) where
  | insertUnique (k : K) (v : V)
  | remove (k : K)
  | get (k : K)

namespace MapOp

/-- The key a call is about. -/
def key : MapOp K V → K
  | insertUnique k _ => k
  | remove k => k
  | get k => k

/-- The call on a tree: the new tree and the returned value. -/
def step (t : Tree B K V) : MapOp K V → Res (Tree B K V × Option V)
  | insertUnique k v => t.insertUnique k v
  | remove k => t.remove id k
  | get k => do pure (t, ← t.get id k)

/-- The call on a mathematical map: the new map and the returned value. -/
def spec (m : K → Option V) : MapOp K V → (K → Option V) × Option V
  | insertUnique k v => (fun k' => if k' == k then some v else m k', m k)
  | remove k => (fun k' => if k' == k then none else m k', m k)
  | get k => (m, m k)

/-- A sequence of calls on a tree. -/
def runTree (t : Tree B K V) : List (MapOp K V) → Res (Tree B K V × List (Option V))
  | [] => .ok (t, [])
  | op :: ops => do
    let (t, r) ← op.step t
    let (t, rs) ← runTree t ops
    pure (t, r :: rs)

/-- A sequence of calls on a mathematical map. -/
def runSpec (m : K → Option V) : List (MapOp K V) → (K → Option V) × List (Option V)
  | [] => (m, [])
  | op :: ops => let (m, r) := op.spec m; let (m, rs) := runSpec m ops; (m, r :: rs)

end MapOp

/-- A list of entries represents a map: keys are pairwise different and the map holds exactly the entries. -/
def Represents (es : List (K × V)) (m : K → Option V) : Prop :=
  es.Pairwise (fun a b => (a.1 == b.1) = false) ∧
    ∀ q v, m q = some v ↔ ∃ k, (k, v) ∈ es ∧ (k == q) = true

section

variable [EquivBEq K]

theorem find?_of_represents {es : List (K × V)} {m : K → Option V} (h : Represents es m) (q : K) :
    (es.find? fun e => e.1 == q).map Prod.snd = m q := by
  cases hf : es.find? fun e => e.1 == q with
  | some e =>
    have h1 := List.mem_of_find?_eq_some hf
    have h2 := List.find?_some hf
    exact ((h.2 q e.2).2 ⟨e.1, h1, h2⟩).symm
  | none =>
    rw [List.find?_eq_none] at hf
    cases hm : m q with
    | none => rfl
    | some v =>
      obtain ⟨k, hk, hkq⟩ := (h.2 q v).1 hm
      exact absurd hkq (hf _ hk)

theorem Represents.map_congr {es : List (K × V)} {m : K → Option V} (h : Represents es m) {a b : K}
    (hab : (a == b) = true) : m a = m b := by
  cases hm : m b with
  | none =>
    cases hn : m a with
    | none => rfl
    | some v =>
      obtain ⟨k, hk, hka⟩ := (h.2 a v).1 hn
      rw [(h.2 b v).2 ⟨k, hk, BEq.trans hka hab⟩] at hm
      simp at hm
  | some v =>
    obtain ⟨k, hk, hkb⟩ := (h.2 b v).1 hm
    exact (h.2 a v).2 ⟨k, hk, BEq.trans hkb (BEq.symm hab)⟩

theorem Represents.perm {es es' : List (K × V)} {m : K → Option V} (h : Represents es m) (hp : es'.Perm es) :
    Represents es' m := by
  refine ⟨?_, fun q v => ?_⟩
  · refine (hp.pairwise_iff (R := fun a b : K × V => (a.1 == b.1) = false) ?_).2 h.1
    intro a b hab
    rw [BEq.comm]; exact hab
  · rw [h.2 q v]
    constructor
    · rintro ⟨k, h1, h2⟩; exact ⟨k, hp.mem_iff.2 h1, h2⟩
    · rintro ⟨k, h1, h2⟩; exact ⟨k, hp.mem_iff.1 h1, h2⟩

theorem Represents.insert {es : List (K × V)} {m : K → Option V} (h : Represents es m) {k : K} {v : V}
    (hno : ∀ e ∈ es, (e.1 == k) = false) :
    Represents ((k, v) :: es) fun k' => if k' == k then some v else m k' := by
  refine ⟨List.pairwise_cons.2 ⟨fun e he => by rw [BEq.comm]; exact hno e he, h.1⟩, fun q w => ?_⟩
  by_cases hq : (q == k) = true
  · simp only [hq, if_true, Option.some.injEq, List.mem_cons, Prod.mk.injEq]
    constructor
    · rintro rfl; exact ⟨k, .inl ⟨rfl, rfl⟩, BEq.symm hq⟩
    · rintro ⟨k', h1 | h1, h2⟩
      · exact h1.2.symm
      · have := hno _ h1
        rw [show (k' == k) = true from BEq.trans h2 hq] at this; simp at this
  · simp only [hq, if_false, Bool.false_eq_true, h.2 q w, List.mem_cons, Prod.mk.injEq]
    constructor
    · rintro ⟨k', h1, h2⟩; exact ⟨k', .inr h1, h2⟩
    · rintro ⟨k', h1 | h1, h2⟩
      · exact absurd (by rw [← h1.1]; exact BEq.symm h2) hq
      · exact ⟨k', h1, h2⟩

theorem Represents.erase {es : List (K × V)} {m : K → Option V} {k₀ k : K} {v : V}
    (h : Represents ((k₀, v) :: es) m) (hk : (k₀ == k) = true) :
    Represents es fun k' => if k' == k then none else m k' := by
  obtain ⟨h1, h2⟩ := h
  rw [List.pairwise_cons] at h1
  refine ⟨h1.2, fun q w => ?_⟩
  by_cases hq : (q == k) = true
  · simp only [hq, if_true, reduceCtorEq, false_iff, not_exists, not_and]
    intro k' h3 h4
    have := h1.1 _ h3
    rw [show (k₀ == k') = true from BEq.trans hk (BEq.symm (BEq.trans h4 hq))] at this
    simp at this
  · simp only [hq, if_false, Bool.false_eq_true, h2 q w, List.mem_cons, Prod.mk.injEq]
    constructor
    · rintro ⟨k', h3 | h3, h4⟩
      · exact absurd (BEq.trans (BEq.symm h4) (by rw [h3.1]; exact hk)) hq
      · exact ⟨k', h3, h4⟩
    · rintro ⟨k', h3, h4⟩; exact ⟨k', .inr h3, h4⟩

end

variable [LawfulBounds B] [LawfulKey K B] {c : Config} {P : K → Prop} {t t' : Tree B K V}

theorem mapOp_step (h : Reachable c P t) {m : K → Option V} (hm : Represents t.entries m) {op : MapOp K V}
    (hop : P op.key) (hv : LawfulBounds.valid (Bounded.bounds op.key : B)) {r : Option V}
    (hs : op.step t = .ok (t', r)) :
    Reachable c P t' ∧ Represents t'.entries (op.spec m).1 ∧ r = (op.spec m).2 := by
  cases op with
  | insertUnique k v =>
    simp only [MapOp.key] at hop hv
    have h' : Reachable c P t' := .insertUnique h hop hs
    obtain ⟨es, es', h1, h2, h3⟩ := C06_insert_unique h hv hs
    obtain rfl : t.entries = es := by simpa [h.iter_eq] using h1
    obtain rfl : t'.entries = es' := by simpa [h'.iter_eq] using h2
    refine ⟨h', ?_⟩
    cases r with
    | none =>
      refine ⟨(hm.insert h3.1).perm h3.2, ?_⟩
      show none = m k
      rw [← find?_of_represents hm k]
      have : t.entries.find? (fun e => e.1 == k) = none := by
        rw [List.find?_eq_none]; intro e he; simp [h3.1 e he]
      simp [this]
    | some old =>
      obtain ⟨x, k₀, y, he, hk, hno, he'⟩ := h3
      refine ⟨?_, ?_⟩
      · rw [he']
        have h4 : Represents ((k₀, old) :: (x ++ y)) m := hm.perm (by rw [he]; exact List.perm_middle.symm)
        have h5 := (h4.erase hk)
        have hno' : ∀ e ∈ x ++ y, (e.1 == k) = false := by
          intro e hem
          have := (List.pairwise_cons.1 h4.1).1 e hem
          refine Bool.eq_false_iff.2 fun h6 => ?_
          rw [show (k₀ == e.1) = true from BEq.trans hk (BEq.symm h6)] at this; simp at this
        have hno0 : ∀ e ∈ x ++ y, (e.1 == k₀) = false := by
          intro e hem
          have := (List.pairwise_cons.1 h4.1).1 e hem
          rw [BEq.comm]; exact this
        have h6 := h5.insert (v := v) hno0
        refine (Represents.perm (es := (k₀, v) :: (x ++ y)) ?_ List.perm_middle)
        have : (fun k' => if k' == k₀ then some v else (if k' == k then none else m k')) =
            (fun k' => if k' == k then some v else m k') := by
          funext k'
          have : (k' == k₀) = (k' == k) := BEq.congr_right hk
          rw [this]
          split <;> rfl
        rw [this] at h6
        exact h6
      · show some old = m k
        exact ((hm.2 k old).2 ⟨k₀, by rw [he]; simp, hk⟩).symm
  | remove k =>
    simp only [MapOp.key] at hop hv
    have h' : Reachable c P t' := .remove id h hs
    obtain ⟨es, es', h1, h2, h3⟩ := C04_remove_one h (borrow := id) (fun _ => rfl) hv hs
    obtain rfl : t.entries = es := by simpa [h.iter_eq] using h1
    obtain rfl : t'.entries = es' := by simpa [h'.iter_eq] using h2
    refine ⟨h', ?_⟩
    cases r with
    | none =>
      obtain ⟨rfl, hno⟩ := h3
      have hnone : m k = none := by
        cases hmk : m k with
        | none => rfl
        | some v =>
          obtain ⟨k', h4, h5⟩ := (hm.2 k v).1 hmk
          have := hno _ h4
          simp only [id] at this
          rw [h5] at this; simp at this
      refine ⟨?_, hnone.symm⟩
      have : (MapOp.spec m (MapOp.remove k : MapOp K V)).1 = m := by
        funext k'
        simp only [MapOp.spec]
        split
        · rename_i h4; rw [hm.map_congr h4, hnone]
        · rfl
      rw [this]; exact hm
    | some v =>
      obtain ⟨k₀, hk, hp⟩ := h3
      exact ⟨(hm.perm hp.symm).erase hk, ((hm.2 k v).2 ⟨k₀, hp.mem_iff.2 (by simp), hk⟩).symm⟩
  | get k =>
    simp only [MapOp.key] at hop hv
    have hg := C03_get_first h (borrow := id) (fun _ => rfl) hv h.iter_eq
    simp only [MapOp.step, hg, ok_bind, pure_eq_ok, Except.ok.injEq, Prod.mk.injEq] at hs
    obtain ⟨rfl, rfl⟩ := hs
    exact ⟨h, hm, find?_of_represents hm k⟩

theorem mapOp_run (h : Reachable c P t) {m : K → Option V} (hm : Represents t.entries m) {ops : List (MapOp K V)}
    (hop : ∀ op ∈ ops, P op.key ∧ LawfulBounds.valid (Bounded.bounds op.key : B)) {rs : List (Option V)}
    (hs : MapOp.runTree t ops = .ok (t', rs)) :
    Reachable c P t' ∧ Represents t'.entries (MapOp.runSpec m ops).1 ∧ rs = (MapOp.runSpec m ops).2 := by
  induction ops generalizing t m rs with
  | nil =>
    simp only [MapOp.runTree, Except.ok.injEq, Prod.mk.injEq] at hs
    obtain ⟨rfl, rfl⟩ := hs
    exact ⟨h, hm, rfl⟩
  | cons op ops ih =>
    simp only [MapOp.runTree] at hs
    cases h1 : op.step t with
    | error e => simp [h1] at hs
    | ok tr =>
      obtain ⟨t1, r⟩ := tr
      simp only [h1, ok_bind] at hs
      obtain ⟨h2, h3, rfl⟩ := mapOp_step h hm (hop op (by simp)).1 (hop op (by simp)).2 h1
      cases h4 : MapOp.runTree t1 ops with
      | error e => simp [h4] at hs
      | ok tr' =>
        obtain ⟨t2, rs'⟩ := tr'
        simp only [h4, ok_bind, pure_eq_ok, Except.ok.injEq, Prod.mk.injEq] at hs
        obtain ⟨rfl, rfl⟩ := hs
        obtain ⟨h5, h6, rfl⟩ := ih h2 h3 (fun op' h' => hop op' (by simp [h'])) h4
        exact ⟨h5, h6, rfl⟩

/-- C07: any sequence of `insert_unique`, `remove` and `get` calls on a new tree returns what a mathematical map
    would return, and afterwards the keys of the tree are pairwise different and the tree holds exactly the map. -/
theorem C07_unique_histories_are_maps {ops : List (MapOp K V)}
    (hop : ∀ op ∈ ops, LawfulBounds.valid (Bounded.bounds op.key : B)) {rs : List (Option V)}
    (hs : MapOp.runTree (Tree.new c) ops = .ok (t', rs)) :
    rs = (MapOp.runSpec (fun _ => none) ops).2 ∧
      ∃ es, t'.iter = .ok es ∧ Represents es (MapOp.runSpec (fun _ => none) ops).1 := by
  have hm : Represents (Tree.new c : Tree B K V).entries (fun _ => none) := by
    simp [Represents, Tree.entries, Tree.new]
  obtain ⟨h1, h2, h3⟩ := mapOp_run (P := fun _ => True) .new hm (fun op h => ⟨trivial, hop op h⟩) hs
  exact ⟨h3, _, h1.iter_eq, h2⟩

/-- A history for C07. -/
def sampleMapOps : List (MapOp (AABB I32 2) Nat) :=
  [.insertUnique (box 0 0 1 1) 1, .insertUnique (box 2 0 3 1) 2, .insertUnique (box 0 2 1 3) 3,
   .insertUnique (box 2 2 3 3) 4, .insertUnique (box 0 2 1 3) 5, .insertUnique (box 6 6 7 7) 6,
   .remove (box 0 0 1 1), .get (box 0 2 1 3), .get (box 0 0 1 1)]

example : ∃ t rs, MapOp.runTree (Tree.new cfg42) sampleMapOps = .ok (t, rs) ∧
    rs = [none, none, none, none, some 3, none, some 1, some 5, none] := by
  have h : (MapOp.runTree (Tree.new cfg42) sampleMapOps).isOk = true := by decide +kernel
  exact ⟨_, _, Res.ok_getD (Tree.new cfg42, []) h, by decide +kernel⟩

end RTree
