import Verif.CallsSortedSpec
import Verif.Proofs.Callbacks
import Verif.Proofs.BinaryHeap
/-! Sorted iterators with rankings that panic or answer inconsistently. -/

namespace RTree.Calls

variable {S B K V A Mt T α β : Type}

/-- How a computation ends. -/
def Ends (x : M S α) (s : S) (n : Nat) (Q : Except Stop α → S → Nat → Prop) : Prop := Q (x s n).1 (x s n).2.1 (x s n).2.2

theorem Ends.mono {x : M S α} {s : S} {n : Nat} {Q Q' : Except Stop α → S → Nat → Prop} (h : Ends x s n Q) (hQ : ∀ r s' n', Q r s' n' → Q' r s' n') : Ends x s n Q' :=
  hQ _ _ _ h

theorem Ends.bind {x : M S α} {f : α → M S β} {s : S} {n : Nat} {Q : Except Stop β → S → Nat → Prop}
    (h : Ends x s n fun r s' n' => match r with
      | .ok a => Ends (f a) s' n' Q
      | .error e => Q (.error e) s' n') : Ends (x >>= f) s n Q := by
  unfold Ends at h
  rcases hx : x s n with ⟨r, s', n'⟩
  rw [hx] at h
  cases r with
  | ok a => unfold Ends; rw [bind_ok' hx]; exact h
  | error e => unfold Ends; rw [bind_error' hx]; exact h

theorem Ends.bind_ok {x : M S α} {f : α → M S β} {s s' : S} {n n' : Nat} {a : α} {Q : Except Stop β → S → Nat → Prop} (h : x s n = (.ok a, s', n'))
    (hQ : Ends (f a) s' n' Q) : Ends (x >>= f) s n Q := by
  unfold Ends; rw [bind_ok' h]; exact hQ

theorem Ends.own_bind {a : α} {f : α → M S β} {s : S} {n : Nat} {Q} (h : Ends (f a) s n Q) : Ends (own (.ok a) >>= f) s n Q := h
theorem Ends.self_bind {f : S → M S β} {s : S} {n : Nat} {Q} (h : Ends (f s) s n Q) : Ends (self >>= f) s n Q := h
theorem Ends.put_bind {s' : S} {f : Unit → M S β} {s : S} {n : Nat} {Q} (h : Ends (f ()) s' n Q) : Ends (put s' >>= f) s n Q := h
theorem Ends.pure {a : α} {s : S} {n : Nat} {Q : Except Stop α → S → Nat → Prop} (h : Q (.ok a) s n) : Ends (Pure.pure a) s n Q := h

variable {code : Nat → RankCode B K A Mt}

theorem Ends.askFor {question : RankCode B K A Mt → Option β} {s : S} {n : Nat} {Q : Except Stop β → S → Nat → Prop}
    (h1 : ∀ a, question (code n) = some a → Q (.ok a) s (n + 1)) (h2 : question (code n) = none → Q (.error .user) s (n + 1)) :
    Ends (askFor code question) s n Q := by
  unfold Ends Calls.askFor
  cases h : question (code n) with
  | some a => exact h1 a h
  | none => exact h2 h

/-! ## The heap -/

/-- A computation on the heap ends, possibly with a panic of user code. -/
def Panicked (code : Nat → RankCode B K A Mt) (n n' : Nat) : Prop := n < n' ∧ (code (n' - 1)).Panics

theorem le_ends (a b : Score Mt × T) (s : S) (n : Nat) : Ends (BinaryHeap.le code a b) s n fun r s' n' => s' = s ∧ match r with
    | .ok _ => n ≤ n'
    | .error e => e = .user ∧ Panicked code n n' := by
  refine Ends.bind (Ends.askFor (fun o ho => ?_) (fun h => ?_))
  · cases o with
    | none => exact ⟨rfl, by show n ≤ n + 1; omega⟩
    | some o => cases o <;> exact ⟨rfl, by show n ≤ n + 1; omega⟩
  · exact ⟨rfl, rfl, by omega, .inr (.inr ⟨_, _, h⟩)⟩

theorem get_ok {d : List α} {i : Nat} (h : i < d.length) : BinaryHeap.get d i = .ok d[i] := by
  unfold BinaryHeap.get; rw [List.getElem?_eq_getElem h]

theorem siftUp_ends {fuel pos : Nat} {d : List (Score Mt × T)} (hf : pos < fuel) (hp : pos < d.length) (n : Nat) :
    Ends (BinaryHeap.siftUp code fuel pos) d n fun r d' n' => d'.Perm d ∧ match r with
      | .ok _ => n ≤ n'
      | .error e => e = .user ∧ Panicked code n n' := by
  induction fuel generalizing pos d n with
  | zero => omega
  | succ fuel ih =>
    rw [BinaryHeap.siftUp]
    split
    · refine Ends.self_bind ?_
      dsimp only
      rw [get_ok hp, get_ok (show (pos - 1) / 2 < d.length by omega)]
      refine Ends.own_bind (Ends.own_bind (Ends.bind ((le_ends _ _ _ _).mono ?_)))
      rintro r s' n' ⟨rfl, h⟩
      match r, h with
      | .ok true, h => exact ⟨.refl _, h⟩
      | .ok false, h =>
        refine Ends.put_bind ((ih (by omega) (by rw [RTree.BinaryHeap.swap_length]; omega) n').mono ?_)
        rintro r d' m ⟨h1, h2⟩
        refine ⟨h1.trans (RTree.BinaryHeap.swap_perm _ _ _), ?_⟩
        match r, h2 with
        | .ok _, h2 => exact Nat.le_trans h h2
        | .error e, h2 => exact ⟨h2.1, Nat.lt_of_le_of_lt h h2.2.1, h2.2.2⟩
      | .error e, h => exact ⟨.refl _, h⟩
    · exact ⟨.refl _, Nat.le_refl _⟩

theorem siftDown_ends {fuel pos : Nat} {d : List (Score Mt × T)} (hf : d.length < pos + fuel) (hp : pos < d.length) (n : Nat) :
    Ends (BinaryHeap.siftDown code fuel pos) d n fun r d' n' => d'.Perm d ∧ match r with
      | .ok pos => n ≤ n' ∧ pos < d.length
      | .error e => e = .user ∧ Panicked code n n' := by
  induction fuel generalizing pos d n with
  | zero => omega
  | succ fuel ih =>
    rw [BinaryHeap.siftDown]
    refine Ends.self_bind ?_
    dsimp only
    split
    · rw [get_ok (show 2 * pos + 1 < d.length by omega), get_ok (show 2 * pos + 1 + 1 < d.length by omega)]
      refine Ends.own_bind (Ends.own_bind (Ends.bind ((le_ends _ _ _ _).mono ?_)))
      rintro r s' n' ⟨rfl, h⟩
      have step : ∀ child, child < s'.length → pos < child → n ≤ n' →
          Ends (do put (RTree.BinaryHeap.swap s' pos child); BinaryHeap.siftDown code fuel child) s' n' fun r d' m => d'.Perm s' ∧ match r with
          | .ok pos => n ≤ m ∧ pos < s'.length
          | .error e => e = .user ∧ Panicked code n m := by
        intro child hc hpc h
        refine Ends.put_bind ((ih (by rw [RTree.BinaryHeap.swap_length]; omega) (by rw [RTree.BinaryHeap.swap_length]; omega) n').mono ?_)
        rintro r d' m ⟨h1, h2⟩
        refine ⟨h1.trans (RTree.BinaryHeap.swap_perm _ _ _), ?_⟩
        match r, h2 with
        | .ok _, h2 => exact ⟨Nat.le_trans h h2.1, by rw [← RTree.BinaryHeap.swap_length s' pos child]; exact h2.2⟩
        | .error e, h2 => exact ⟨h2.1, Nat.lt_of_le_of_lt h h2.2.1, h2.2.2⟩
      match r, h with
      | .ok true, h => exact step (2 * pos + 1 + 1) (by omega) (by omega) h
      | .ok false, h => exact step (2 * pos + 1) (by omega) (by omega) h
      | .error e, h => exact ⟨.refl _, h⟩
    · split
      · exact ⟨RTree.BinaryHeap.swap_perm _ _ _, Nat.le_refl _, by omega⟩
      · exact ⟨.refl _, Nat.le_refl _, hp⟩

theorem push_ends (x : Score Mt × T) (d : List (Score Mt × T)) (n : Nat) :
    Ends (BinaryHeap.push code x) d n fun r d' n' => d'.Perm (x :: d) ∧ match r with
      | .ok _ => n ≤ n'
      | .error e => e = .user ∧ Panicked code n n' := by
  refine Ends.self_bind (Ends.put_bind ((siftUp_ends (Nat.lt_succ_self _) (by simp) n).mono ?_))
  rintro r d' n' ⟨h1, h2⟩
  exact ⟨h1.trans (List.perm_append_singleton _ _), h2⟩

theorem pop_ends (d : List (Score Mt × T)) (n : Nat) :
    Ends (BinaryHeap.pop code) d n fun r d' n' => match r with
      | .ok none => n' = n ∧ d = [] ∧ d' = []
      | .ok (some x) => n ≤ n' ∧ d.Perm (x :: d')
      | .error e => e = .user ∧ Panicked code n n' ∧ ∃ x, d.Perm (x :: d') := by
  rw [BinaryHeap.pop]
  refine Ends.self_bind ?_
  cases hl : d.getLast? with
  | none =>
    have := List.getLast?_eq_none_iff.1 hl
    exact ⟨rfl, this, this⟩
  | some item =>
    obtain ⟨ini, rfl⟩ := List.getLast?_eq_some_iff.1 hl
    rw [List.dropLast_concat]
    cases ini with
    | nil => exact ⟨Nat.le_refl _, .refl _⟩
    | cons top rest =>
      have hp : ((top :: rest) ++ [item]).Perm (top :: item :: rest) := (List.perm_append_singleton item rest).cons top
      dsimp only
      refine Ends.put_bind (Ends.bind ((siftDown_ends (by simp) (by simp) n).mono ?_))
      rintro r d' n' ⟨h1, h2⟩
      match r, h2 with
      | .error e, h2 => exact ⟨h2.1, h2.2, top, hp.trans (h1.symm.cons top)⟩
      | .ok pos, h2 =>
        refine Ends.bind ((siftUp_ends (Nat.lt_succ_self _) (by rw [h1.length_eq]; exact h2.2) n').mono ?_)
        rintro r d'' n'' ⟨h3, h4⟩
        have hq := hp.trans ((h3.trans h1).symm.cons top)
        match r, h4 with
        | .ok _, h4 => exact ⟨Nat.le_trans h2.1 h4, hq⟩
        | .error e, h4 => exact ⟨h4.1, ⟨Nat.lt_of_le_of_lt h2.1 h4.2.1, h4.2.2⟩, top, hq⟩

/-! ### With comparisons that are those of an order -/

/-- Comparisons do not panic and are those of the order. -/
def CmpOk [LE Mt] (code : Nat → RankCode B K A Mt) : Prop := ∀ n x y, ∃ o, (code n).cmp x y = some (some o) ∧ (o.isLE ↔ x ≤ y) ∧ (o.isGE ↔ y ≤ x)

section Faithful

variable [LE Mt] [DecidableLE Mt] (hc : CmpOk code)
include hc

theorem le_faithful (a b : Score Mt × T) (s : S) (n : Nat) : BinaryHeap.le code a b s n = (.ok (RTree.BinaryHeap.leRanked a b), s, n + 1) := by
  obtain ⟨o, h1, h2, h3⟩ := hc n b.1.metric a.1.metric
  have ha : askFor (S := S) code (fun f => f.cmp b.1.metric a.1.metric) s n = (.ok (some o), s, n + 1) := by
    unfold askFor; dsimp only; rw [h1]
  rw [BinaryHeap.le, bind_ok' ha]
  cases o with
  | lt =>
    have : RTree.BinaryHeap.leRanked a b = true := by
      unfold RTree.BinaryHeap.leRanked
      rw [if_pos (h2.1 rfl), if_neg (fun h => by cases h3.2 h)]
    rw [this]; rfl
  | eq =>
    have : RTree.BinaryHeap.leRanked a b = decide (b.1.level ≤ a.1.level) := by
      unfold RTree.BinaryHeap.leRanked
      rw [if_pos (h2.1 rfl), if_pos (h3.1 rfl)]
    rw [this]; rfl
  | gt =>
    have : RTree.BinaryHeap.leRanked a b = false := by
      unfold RTree.BinaryHeap.leRanked
      rw [if_neg (fun h => by cases h2.2 h)]
    rw [this]; rfl

omit hc in
theorem leAt_get {d : List (Score Mt × T)} {i j : Nat} (hi : i < d.length) (hj : j < d.length) :
    RTree.BinaryHeap.leAt RTree.BinaryHeap.leRanked d i j = RTree.BinaryHeap.leRanked d[i] d[j] := by
  unfold RTree.BinaryHeap.leAt; rw [List.getElem?_eq_getElem hi, List.getElem?_eq_getElem hj]

theorem siftUp_faithful {fuel fuel' pos : Nat} {d : List (Score Mt × T)} (hf : pos < fuel) (hf' : pos ≤ fuel') (hp : pos < d.length) (n : Nat) :
    ∃ n', BinaryHeap.siftUp code fuel pos d n = (.ok (), RTree.BinaryHeap.siftUp RTree.BinaryHeap.leRanked fuel' pos d, n') := by
  induction fuel generalizing fuel' pos d n with
  | zero => omega
  | succ fuel ih =>
    rw [BinaryHeap.siftUp]
    split
    · next h0 =>
      obtain ⟨fuel', rfl⟩ := Nat.exists_eq_succ_of_ne_zero (n := fuel') (by omega)
      have hpar : (pos - 1) / 2 < d.length := by omega
      rw [self_bind]
      rw [get_ok hp, get_ok hpar, own_bind, own_bind, bind_ok' (le_faithful hc _ _ _ _), RTree.BinaryHeap.siftUp, if_pos h0]
      dsimp only
      rw [leAt_get hp hpar]
      cases RTree.BinaryHeap.leRanked d[pos] d[(pos - 1) / 2] with
      | true => exact ⟨n + 1, rfl⟩
      | false => exact ih (by omega) (by omega) (by rw [RTree.BinaryHeap.swap_length]; omega) (n + 1)
    · next h0 =>
      obtain rfl : pos = 0 := by omega
      cases fuel' <;> exact ⟨n, rfl⟩

theorem siftDown_faithful {fuel fuel' pos : Nat} {d : List (Score Mt × T)} (hf : d.length < pos + fuel) (hf' : d.length ≤ pos + fuel') (hp : pos < d.length) (n : Nat) :
    ∃ n', BinaryHeap.siftDown code fuel pos d n = (.ok (RTree.BinaryHeap.siftDown RTree.BinaryHeap.leRanked fuel' pos d).2,
      (RTree.BinaryHeap.siftDown RTree.BinaryHeap.leRanked fuel' pos d).1, n') := by
  induction fuel generalizing fuel' pos d n with
  | zero => omega
  | succ fuel ih =>
    obtain ⟨fuel', rfl⟩ := Nat.exists_eq_succ_of_ne_zero (n := fuel') (by omega)
    rw [BinaryHeap.siftDown, self_bind]
    dsimp only
    rw [RTree.BinaryHeap.siftDown]
    dsimp only
    split
    · next h0 =>
      have h1 : 2 * pos + 1 < d.length := by omega
      have h2 : 2 * pos + 1 + 1 < d.length := by omega
      rw [get_ok h1, get_ok h2, own_bind, own_bind, bind_ok' (le_faithful hc _ _ _ _), leAt_get h1 h2]
      cases RTree.BinaryHeap.leRanked d[2 * pos + 1] d[2 * pos + 1 + 1] with
      | true =>
        exact ih (pos := 2 * pos + 1 + 1) (d := RTree.BinaryHeap.swap d pos (2 * pos + 1 + 1)) (by rw [RTree.BinaryHeap.swap_length]; omega)
          (by rw [RTree.BinaryHeap.swap_length]; omega) (by rw [RTree.BinaryHeap.swap_length]; omega) (n + 1)
      | false =>
        exact ih (pos := 2 * pos + 1) (d := RTree.BinaryHeap.swap d pos (2 * pos + 1)) (by rw [RTree.BinaryHeap.swap_length]; omega)
          (by rw [RTree.BinaryHeap.swap_length]; omega) (by rw [RTree.BinaryHeap.swap_length]; omega) (n + 1)
    · split
      · exact ⟨n, rfl⟩
      · exact ⟨n, rfl⟩

theorem push_faithful (x : Score Mt × T) (d : List (Score Mt × T)) (n : Nat) :
    ∃ n', BinaryHeap.push code x d n = (.ok (), RTree.BinaryHeap.push RTree.BinaryHeap.leRanked x d, n') := by
  rw [BinaryHeap.push, self_bind, put_bind]
  exact siftUp_faithful hc (Nat.lt_succ_self _) (Nat.le_refl _) (by simp) n

theorem pop_faithful (d : List (Score Mt × T)) (n : Nat) :
    ∃ n', BinaryHeap.pop code d n = (.ok ((RTree.BinaryHeap.pop RTree.BinaryHeap.leRanked d).map Prod.fst),
      ((RTree.BinaryHeap.pop RTree.BinaryHeap.leRanked d).map Prod.snd).getD d, n') := by
  rw [BinaryHeap.pop, self_bind]
  unfold RTree.BinaryHeap.pop
  cases hl : d.getLast? with
  | none => exact ⟨n, rfl⟩
  | some item =>
    dsimp only
    cases d.dropLast with
    | nil => exact ⟨n, rfl⟩
    | cons top rest =>
      dsimp only
      rw [put_bind]
      obtain ⟨n₁, h1⟩ := siftDown_faithful hc (fuel := rest.length + 2) (fuel' := rest.length + 1) (pos := 0) (d := item :: rest) (by simp) (by simp) (by simp) n
      rw [bind_ok' h1]
      have hlt : (RTree.BinaryHeap.siftDown RTree.BinaryHeap.leRanked (rest.length + 1) 0 (item :: rest)).2 <
          (RTree.BinaryHeap.siftDown RTree.BinaryHeap.leRanked (rest.length + 1) 0 (item :: rest)).1.length := by
        have := siftDown_ends (code := code) (fuel := rest.length + 2) (pos := 0) (d := item :: rest) (by simp) (by simp) n
        unfold Ends at this
        rw [h1] at this
        rw [this.1.length_eq]
        exact this.2.2
      obtain ⟨n₂, h2⟩ := siftUp_faithful hc (Nat.lt_succ_self _) (Nat.le_refl _) hlt n₁
      rw [bind_ok' h2]
      exact ⟨n₂, rfl⟩

end Faithful

/-! ## Pushing the children of a node -/

section Filter

variable {code : Nat → RankCode B K (Option Mt) Mt} {nodes : List (Node B K V)}

/-- Something that is pushed if the answer to a question is not `None`. -/
structure ToPush (B K V Mt : Type) where
  question : RankCode B K (Option Mt) Mt → Option (Option Mt)
  level : Nat
  item : SortedItem B K V

/-- The loops that push the children of a node. -/
def pushAll (code : Nat → RankCode B K (Option Mt) Mt) : List (ToPush B K V Mt) → M (SortedHeap B K V Mt) Unit
  | [] => pure ()
  | x :: xs => do
    match ← askFor code x.question with
    | some m => do
      BinaryHeap.push code (⟨m, x.level⟩, x.item)
      pushAll code xs
    | none => pushAll code xs

theorem pushEntries_eq (es : List (K × V)) :
    FilterSortedIter.pushEntries code es = pushAll code (es.map fun e => ⟨fun f => f.rankKey e.1, 0, .entry e⟩) := by
  induction es with
  | nil => rfl
  | cons e es ih => rw [FilterSortedIter.pushEntries, ih]; rfl

theorem pushNodes_eq (l : Nat) (cs : List (Node B K V)) :
    FilterSortedIter.pushNodes code l cs = pushAll code (cs.map fun c => ⟨fun f => f.boundsMin c.bounds, l, .node c⟩) := by
  induction cs with
  | nil => rfl
  | cons c cs ih => rw [FilterSortedIter.pushNodes, ih]; rfl

/-- The entries that the items of the heap stand for. -/
def rest (d : SortedHeap B K V Mt) : List (K × V) := d.flatMap fun x => x.2.entries

theorem rest_perm {d d' : SortedHeap B K V Mt} (h : d.Perm d') : (rest d).Perm (rest d') := h.flatMap_right _

/-- What is known about an item of the heap. -/
def Item (code : Nat → RankCode B K (Option Mt) Mt) (nodes : List (Node B K V)) (n : Nat) (x : Score Mt × SortedItem B K V) : Prop :=
  match x.1.level, x.2 with
  | 0, .entry e => ∃ m < n, (filterSortedQuery nodes).accepts (code m) e
  | l + 1, .node nd => Shape l nd ∧ nd ∈ nodes
  | _, _ => False

theorem Item.mono {n n' : Nat} (h : n ≤ n') {x : Score Mt × SortedItem B K V} (hx : Item code nodes n x) : Item code nodes n' x := by
  obtain ⟨⟨m, l⟩, it⟩ := x
  match l, it, hx with
  | 0, .entry e, ⟨k, hk, ha⟩ => exact ⟨k, by omega, ha⟩
  | l + 1, .node nd, hx => exact hx

theorem Dropped.mono {F E : Type} {q : Query F E} {code : Nat → F} {n n' m m' : Nat} (h1 : m ≤ n) (h2 : n' ≤ m') {e : E} (h : Dropped q code n n' e) :
    Dropped q code m m' e := by
  obtain ⟨i, h3, h4, h5⟩ := h
  exact ⟨i, by omega, by omega, h5⟩

/-- What a question is about. -/
structure ToPush.Ok (code : Nat → RankCode B K (Option Mt) Mt) (nodes : List (Node B K V)) (x : ToPush B K V Mt) : Prop where
  panics : ∀ f, x.question f = none → f.Panics
  rejects : ∀ f, x.question f = some none → ∀ e ∈ x.item.entries, (filterSortedQuery nodes).rejects f e
  accepts : ∀ n m, x.question (code n) = some (some m) → Item code nodes (n + 1) (⟨m, x.level⟩, x.item)

theorem pushAll_ends (xs : List (ToPush B K V Mt)) (hxs : ∀ x ∈ xs, x.Ok code nodes) (d : SortedHeap B K V Mt) (n : Nat) (hd : ∀ y ∈ d, Item code nodes n y) :
    Ends (pushAll code xs) d n fun r d' n' => (∀ y ∈ d', Item code nodes n' y) ∧ itemsWeight d' ≤ itemsWeight d + (xs.map fun x => x.item.weight).sum ∧ n ≤ n' ∧
      ∃ skipped lost, (xs.flatMap (fun x => x.item.entries) ++ rest d).Perm (skipped ++ (lost ++ rest d')) ∧
        (∀ e ∈ skipped, Dropped (filterSortedQuery nodes) code n n' e) ∧ lost <:+ xs.flatMap (fun x => x.item.entries) ∧
        match r with
        | .ok _ => lost = []
        | .error e => e = .user ∧ Panicked code n n' := by
  induction xs generalizing d n with
  | nil => exact ⟨hd, Nat.le_refl _, Nat.le_refl _, [], [], .refl _, (fun _ h => by cases h), List.suffix_refl _, rfl⟩
  | cons x xs ih =>
    have hx := hxs x List.mem_cons_self
    have hxs' := fun y hy => hxs y (List.mem_cons_of_mem _ hy)
    rw [pushAll]
    refine Ends.bind (Ends.askFor (fun o ho => ?_) (fun h => ?_))
    · cases o with
      | none =>
        refine (ih hxs' d (n + 1) (fun y hy => (hd y hy).mono (Nat.le_succ _))).mono ?_
        rintro r d' n' ⟨h1, h2, h3, skipped, lost, h4, h5, h6, h7⟩
        refine ⟨h1, by simp only [List.map_cons, List.sum_cons]; omega, by omega, x.item.entries ++ skipped, lost, ?_, ?_, ?_, ?_⟩
        · rw [List.flatMap_cons, List.append_assoc, List.append_assoc]
          exact h4.append_left _
        · intro e he
          rcases List.mem_append.1 he with he | he
          · exact ⟨n, Nat.le_refl _, by omega, hx.rejects _ ho e he⟩
          · exact (h5 e he).mono (by omega) (Nat.le_refl _)
        · rw [List.flatMap_cons]
          exact h6.trans (List.suffix_append _ _)
        · match r, h7 with
          | .ok _, h7 => exact h7
          | .error e, h7 => exact ⟨h7.1, by have := h7.2.1; omega, h7.2.2⟩
      | some m =>
        refine Ends.bind ((push_ends _ _ _).mono ?_)
        rintro r d₁ n₁ ⟨h1, h2⟩
        have hi := hx.accepts n m ho
        have hw := itemsWeight_perm h1
        rw [itemsWeight_cons] at hw
        have hr := rest_perm h1
        rw [rest, rest, List.flatMap_cons] at hr
        match r, h2 with
        | .error e, ⟨h2, h3, h4⟩ =>
          have hd₁ : ∀ y ∈ d₁, Item code nodes n₁ y := by
            intro y hy
            rcases List.mem_cons.1 (h1.mem_iff.1 hy) with rfl | hy
            · exact hi.mono (by omega)
            · exact (hd y hy).mono (by omega)
          refine ⟨hd₁, ?_, by omega, [], xs.flatMap (fun x => x.item.entries), ?_, (fun _ h => by cases h), ?_, h2, by omega, h4⟩
          · simp only [List.map_cons, List.sum_cons]; omega
          · rw [List.flatMap_cons, List.nil_append, List.append_assoc]
            refine List.perm_append_comm_assoc _ _ _ |>.trans ?_
            exact (hr.symm).append_left _
          · rw [List.flatMap_cons]; exact List.suffix_append _ _
        | .ok _, h2 =>
          have hd₁ : ∀ y ∈ d₁, Item code nodes n₁ y := by
            intro y hy
            rcases List.mem_cons.1 (h1.mem_iff.1 hy) with rfl | hy
            · exact hi.mono (by omega)
            · exact (hd y hy).mono (by omega)
          refine (ih hxs' d₁ n₁ hd₁).mono ?_
          rintro r d' n' ⟨g1, g2, g3, skipped, lost, g4, g5, g6, g7⟩
          refine ⟨g1, by simp only [List.map_cons, List.sum_cons]; omega, by omega, skipped, lost, ?_, ?_, ?_, ?_⟩
          · refine .trans ?_ g4
            rw [List.flatMap_cons, List.append_assoc]
            exact (List.perm_append_comm_assoc _ _ _).trans (hr.symm.append_left _)
          · exact fun e he => (g5 e he).mono (by omega) (Nat.le_refl _)
          · rw [List.flatMap_cons]
            exact g6.trans (List.suffix_append _ _)
          · match r, g7 with
            | .ok _, g7 => exact g7
            | .error e, g7 => exact ⟨g7.1, by have := g7.2.1; omega, g7.2.2⟩
    · refine ⟨fun y hy => (hd y hy).mono (Nat.le_succ _), by omega, by omega, [], _, .refl _, (fun _ h => by cases h), List.suffix_refl _, rfl, ?_⟩
      exact ⟨by omega, hx.panics _ h⟩

/-- The children of a leaf node. -/
theorem entries_ok (es : List (K × V)) : ∀ x ∈ es.map (fun e => (⟨fun f => f.rankKey e.1, 0, .entry e⟩ : ToPush B K V Mt)), x.Ok code nodes := by
  intro x hx
  obtain ⟨e, -, rfl⟩ := List.mem_map.1 hx
  refine ⟨fun f h => .inr (.inl ⟨_, h⟩), fun f h e' he' => ?_, fun n m h => ⟨n, Nat.lt_succ_self _, m, h⟩⟩
  obtain rfl := List.mem_singleton.1 he'
  exact .inl h

/-- The children of an inner node. -/
theorem nodes_ok {l : Nat} (cs : List (Node B K V)) (hs : ∀ c ∈ cs, Shape l c) (hn : ∀ c ∈ cs, c ∈ nodes) :
    ∀ x ∈ cs.map (fun c => (⟨fun f => f.boundsMin c.bounds, l + 1, .node c⟩ : ToPush B K V Mt)), x.Ok code nodes := by
  intro x hx
  obtain ⟨c, hc, rfl⟩ := List.mem_map.1 hx
  exact ⟨fun f h => .inl ⟨_, h⟩, fun f h e he => .inr ⟨c, hn c hc, he, h⟩, fun n m h => ⟨hs c hc, hn c hc⟩⟩

/-! ## `next` -/

theorem SortedStep.le {F E : Type} {q : Query F E} {panics : F → Prop} {code : Nat → F} {n n' : Nat} {R R' : List E} {o}
    (h : SortedStep q panics code n R o n' R') : n ≤ n' := by
  match o, h with
  | .ok none, h => exact h.1
  | .ok (some _), h => exact h.1
  | .error .user, h => exact Nat.le_of_lt h.1

/-- Entries turned down before. -/
theorem SortedStep.prepend {F E : Type} {q : Query F E} {panics : F → Prop} {code : Nat → F} {n m n' : Nat} {R R₁ pre R' : List E} {o}
    (hR : R.Perm (pre ++ R₁)) (hpre : ∀ e ∈ pre, Dropped q code n m e) (hnm : n ≤ m)
    (h : SortedStep q panics code m R₁ o n' R') : SortedStep q panics code n R o n' R' := by
  have hle := h.le
  have hpre' : ∀ e ∈ pre, Dropped q code n n' e := fun e he => (hpre e he).mono (Nat.le_refl _) hle
  have hboth : ∀ (sk : List E), (∀ x ∈ sk, Dropped q code m n' x) → ∀ x ∈ pre ++ sk, Dropped q code n n' x := by
    intro sk hsk e he
    rcases List.mem_append.1 he with he | he
    · exact hpre' e he
    · exact (hsk e he).mono hnm (Nat.le_refl _)
  match o, h with
  | .ok none, h => exact ⟨by omega, fun e he => hboth _ h.2.1 e (hR.mem_iff.1 he), h.2.2⟩
  | .ok (some e), ⟨h1, h2, sk, h3, h4⟩ =>
    exact ⟨by omega, h2, pre ++ sk, by rw [List.append_assoc]; exact hR.trans (h3.append_left _), hboth _ h4⟩
  | .error .user, ⟨h1, h2, sk, lost, h3, h4, h5⟩ =>
    exact ⟨by omega, h2, pre ++ sk, lost, by rw [List.append_assoc]; exact hR.trans (h3.append_left _), hboth _ h4, h5⟩

theorem nextLoop_ends (hN : Closed nodes) (fuel : Nat) (d : SortedHeap B K V Mt) (n : Nat) (hd : ∀ y ∈ d, Item code nodes n y) (hf : itemsWeight d < fuel) :
    Ends (FilterSortedIter.nextLoop code fuel) d n fun r d' n' => (∀ y ∈ d', Item code nodes n' y) ∧ itemsWeight d' ≤ itemsWeight d ∧
      SortedStep (filterSortedQuery nodes) RankCode.Panics code n (rest d) r n' (rest d') := by
  induction fuel generalizing d n with
  | zero => omega
  | succ fuel ih =>
    rw [FilterSortedIter.nextLoop]
    refine Ends.bind ((pop_ends d n).mono ?_)
    intro r d₁ n₁ h
    match r, h with
    | .ok none, ⟨h1, h2, h3⟩ =>
      subst h1; subst h2; subst h3
      exact ⟨hd, Nat.le_refl _, Nat.le_refl _, (fun _ h => by cases h), rfl⟩
    | .error e, ⟨h1, h2, x, h3⟩ =>
      subst h1
      have hx := hd x (h3.mem_iff.2 List.mem_cons_self)
      have hw := itemsWeight_perm h3
      rw [itemsWeight_cons] at hw
      refine ⟨fun y hy => (hd y (h3.mem_iff.2 (List.mem_cons_of_mem _ hy))).mono (Nat.le_of_lt h2.1), by omega, h2.1, h2.2, [], x.2.entries,
        rest_perm h3, (fun _ h => by cases h), ?_⟩
      obtain ⟨⟨m, l⟩, it⟩ := x
      match l, it, hx with
      | 0, .entry e, _ => exact .inl ⟨e, rfl⟩
      | l + 1, .node nd, hx => exact .inr ⟨nd, hx.2, List.suffix_refl _⟩
    | .ok (some (score, value)), ⟨h1, h2⟩ =>
      have hx := (hd _ (h2.mem_iff.2 List.mem_cons_self)).mono h1
      have hd₁ : ∀ y ∈ d₁, Item code nodes n₁ y := fun y hy => (hd y (h2.mem_iff.2 (List.mem_cons_of_mem _ hy))).mono h1
      have hw := itemsWeight_perm h2
      rw [itemsWeight_cons] at hw
      have hr : (rest d).Perm (value.entries ++ rest d₁) := rest_perm h2
      -- the children of a node have been pushed
      have step : ∀ (xs : List (ToPush B K V Mt)), (∀ x ∈ xs, x.Ok code nodes) → xs.flatMap (fun x => x.item.entries) = value.entries →
          (xs.map fun x => x.item.weight).sum + 1 ≤ value.weight → (∃ nd ∈ nodes, nd.entries = value.entries) →
          Ends (do pushAll code xs; FilterSortedIter.nextLoop code fuel) d₁ n₁ fun r d' n' => (∀ y ∈ d', Item code nodes n' y) ∧ itemsWeight d' ≤ itemsWeight d ∧
            SortedStep (filterSortedQuery nodes) RankCode.Panics code n (rest d) r n' (rest d') := by
        intro xs hxs he hwx ⟨nd, hnd, hnde⟩
        refine Ends.bind ((pushAll_ends xs hxs d₁ n₁ hd₁).mono ?_)
        rintro r d₂ n₂ ⟨g1, g2, g3, skipped, lost, g4, g5, g6, g7⟩
        rw [he] at g4 g6
        match r, g7 with
        | .error e, ⟨g7, g8⟩ =>
          subst g7
          exact ⟨g1, by omega, Nat.lt_of_le_of_lt h1 g8.1, g8.2, skipped, lost, hr.trans g4, fun e he => (g5 e he).mono h1 (Nat.le_refl _),
            .inr ⟨nd, hnd, by rw [hnde]; exact g6⟩⟩
        | .ok _, g7 =>
          subst g7
          refine (ih d₂ n₂ g1 (by omega)).mono ?_
          rintro r d' n' ⟨k1, k2, k3⟩
          exact ⟨k1, by omega, k3.prepend (hr.trans g4) (fun e he => (g5 e he).mono h1 (Nat.le_refl _)) (Nat.le_trans h1 g3)⟩
      obtain ⟨m, l⟩ := score
      match l, value, hx, hw, hr, step with
      | 0, .entry e, hx, hw, hr, _ =>
        exact ⟨hd₁, (by show itemsWeight d₁ ≤ _; omega), h1, hx, [], hr, (fun _ h => by cases h)⟩
      | 1, .node nd, hx, hw, hr, step =>
        obtain ⟨b, es, rfl⟩ := hx.1.leaf
        refine Ends.own_bind (Ends.own_bind ?_)
        rw [pushEntries_eq]
        refine step _ (entries_ok es) ?_ ?_ ⟨_, hx.2, rfl⟩
        · rw [List.flatMap_map]; simp [SortedItem.entries]
        · show _ ≤ 1 + es.length
          rw [List.map_map]
          have : (es.map ((fun x : ToPush B K V Mt => x.item.weight) ∘ fun e => ⟨fun f => f.rankKey e.1, 0, .entry e⟩)) = List.replicate es.length 1 := by
            rw [List.eq_replicate_iff]
            refine ⟨by simp, fun w hw => ?_⟩
            obtain ⟨e, -, rfl⟩ := List.mem_map.1 hw
            rfl
          rw [this]; simp; omega
      | l + 2, .node nd, hx, hw, hr, step =>
        obtain ⟨b, cs, rfl, hcs⟩ := hx.1.inner
        refine Ends.own_bind (Ends.own_bind ?_)
        rw [pushNodes_eq]
        refine step _ (nodes_ok cs hcs (hN b cs hx.2)) ?_ ?_ ⟨_, hx.2, rfl⟩
        · rw [List.flatMap_map]; simp [SortedItem.entries, entriesList_eq]
        · show _ ≤ 1 + weightList cs
          have : ∀ cs : List (Node B K V), ((cs.map (fun c => (⟨fun f => f.boundsMin c.bounds, l + 1, .node c⟩ : ToPush B K V Mt))).map fun x => x.item.weight).sum = weightList cs := by
            intro cs
            induction cs with
            | nil => rfl
            | cons c cs ih => rw [List.map_cons, List.map_cons, List.sum_cons, ih]; rfl
          rw [this]; omega

theorem nexts_ends (hN : Closed nodes) (fuel k : Nat) (d : SortedHeap B K V Mt) (n : Nat) (hd : ∀ y ∈ d, Item code nodes n y) (hf : itemsWeight d < fuel) :
    Ends (FilterSortedIter.nexts code fuel k) d n fun r _ _ => ∃ outs, r = .ok outs ∧ outs.length = k ∧
      SortedStory (filterSortedQuery nodes) RankCode.Panics code n (rest d) outs := by
  induction k generalizing d n with
  | zero => exact ⟨[], rfl, rfl, trivial⟩
  | succ k ih =>
    rw [FilterSortedIter.nexts]
    obtain ⟨h1, h2, h3⟩ := nextLoop_ends hN fuel d n hd hf
    have h0 := Ends.bind (f := fun outs => pure ((FilterSortedIter.nextLoop code fuel d n).1 :: outs))
      (Q := fun r _ _ => ∃ outs, r = .ok outs ∧ outs.length = k + 1 ∧ SortedStory (filterSortedQuery nodes) RankCode.Panics code n (rest d) outs)
      ((ih _ _ h1 (by omega)).mono ?_)
    · exact h0
    rintro r d' n' ⟨outs, rfl, h4, h5⟩
    exact ⟨_ :: outs, rfl, by rw [List.length_cons, h4], _, _, h3, h5⟩

/-! ## Making an iterator -/

theorem new_eq (level : Nat) (root : Node B K V) (s₀ : SortedHeap B K V Mt) : FilterSortedIter.new code level root s₀ 0 =
    match (code 0).boundsMin root.bounds with
    | none => (.error .user, [], 1)
    | some none => (.ok (), [], 1)
    | some (some m) => (.ok (), [(⟨m, level + 1⟩, .node root)], 1) := by
  rw [FilterSortedIter.new, put_bind]
  cases h : (code 0).boundsMin root.bounds with
  | none =>
    have ha : askFor (S := SortedHeap B K V Mt) code (fun f => f.boundsMin root.bounds) [] 0 = (.error .user, [], 1) := by
      unfold askFor; dsimp only; rw [h]
    rw [bind_error' ha]
  | some o =>
    have ha : askFor (S := SortedHeap B K V Mt) code (fun f => f.boundsMin root.bounds) [] 0 = (.ok o, [], 1) := by
      unfold askFor; dsimp only; rw [h]
    rw [bind_ok' ha]
    cases o <;> rfl

theorem weight_root (t : Tree B K V) (m : Mt) (l : Nat) : itemsWeight [((⟨m, l⟩ : Score Mt), (SortedItem.node t.root : SortedItem B K V))] < t.sortedFuel := by
  show t.root.weight + 0 < t.root.weight + 1
  omega

/-- Any number of calls of `next` on a new iterator. -/
theorem filter_sorted_of_shape {t : Tree B K V} (ht : Shape t.level t.root) (code : Nat → RankCode B K (Option Mt) Mt) (s₀ : SortedHeap B K V Mt) :
    match (code 0).boundsMin t.root.bounds with
    | none => FilterSortedIter.new code t.level t.root s₀ 0 = (.error .user, [], 1)
    | some o => ∃ s, FilterSortedIter.new code t.level t.root s₀ 0 = (.ok (), s, 1) ∧
        ∀ k, ∃ outs s' n', FilterSortedIter.nexts code t.sortedFuel k s 1 = (.ok outs, s', n') ∧ outs.length = k ∧
          SortedStory (filterSortedQuery t.nodes) RankCode.Panics code 1 (if o.isSome then t.entries else []) outs := by
  rw [new_eq]
  have key : ∀ (s : SortedHeap B K V Mt) (es : List (K × V)), (∀ y ∈ s, Item code t.nodes 1 y) → itemsWeight s < t.sortedFuel → rest s = es →
      ∀ k, ∃ outs s' n', FilterSortedIter.nexts code t.sortedFuel k s 1 = (.ok outs, s', n') ∧ outs.length = k ∧
          SortedStory (filterSortedQuery t.nodes) RankCode.Panics code 1 es outs := by
    intro s es h1 h2 h3 k
    obtain ⟨outs, h4, h5, h6⟩ := nexts_ends (closed_nodes t) t.sortedFuel k s 1 h1 h2
    rcases hx : FilterSortedIter.nexts code t.sortedFuel k s 1 with ⟨r, s', n'⟩
    rw [hx] at h4
    exact ⟨outs, s', n', by rw [← h4], h5, by rw [← h3]; exact h6⟩
  cases (code 0).boundsMin t.root.bounds with
  | none => rfl
  | some o =>
    cases o with
    | none => exact ⟨[], rfl, key _ _ (fun _ h => by cases h) (Nat.succ_pos _) rfl⟩
    | some m =>
      refine ⟨_, rfl, key _ _ ?_ (weight_root t m _) ?_⟩
      · intro y hy
        obtain rfl := List.mem_singleton.1 hy
        exact ⟨ht, List.mem_cons_self⟩
      · exact List.append_nil _

/-! ## Ascending ranks, if only the ranking panics -/

section Faithful

variable [LE Mt] [Std.IsLinearPreorder Mt] [DecidableLE Mt] {r : Ranking B K (Option Mt)}

/-- The heap is in order, and the scores are right. -/
def InOrder (r : Ranking B K (Option Mt)) (d : SortedHeap B K V Mt) : Prop :=
  RTree.BinaryHeap.IsHeap RTree.BinaryHeap.leRanked d ∧ ∀ x ∈ d, ItemOk r False x

theorem pushAll_faithful (hf : Faithful r code) (xs : List (ToPush B K V Mt))
    (hxs : ∀ x ∈ xs, ∀ n m, x.question (code n) = some (some m) → ItemOk r False (⟨m, x.level⟩, x.item)) (d : SortedHeap B K V Mt) (n : Nat) (hd : InOrder r d) :
    Ends (pushAll code xs) d n fun _ d' _ => InOrder r d' := by
  have hc : CmpOk code := fun n => (hf n).2.2
  induction xs generalizing d n with
  | nil => exact hd
  | cons x xs ih =>
    have hx := hxs x List.mem_cons_self
    have hxs' := fun y hy => hxs y (List.mem_cons_of_mem _ hy)
    rw [pushAll]
    refine Ends.bind (Ends.askFor (fun o ho => ?_) (fun h => hd))
    cases o with
    | none => exact ih hxs' d (n + 1) hd
    | some m =>
      refine Ends.bind ?_
      obtain ⟨n', h1⟩ := push_faithful hc (⟨m, x.level⟩, x.item) d (n + 1)
      unfold Ends
      rw [h1]
      refine ih hxs' _ n' ⟨RTree.BinaryHeap.push_heap RTree.BinaryHeap.leRanked_total RTree.BinaryHeap.leRanked_trans hd.1 _, ?_⟩
      intro y hy
      rcases List.mem_cons.1 ((RTree.BinaryHeap.push_perm _ _ _).mem_iff.1 hy) with rfl | hy
      · exact hx n m ho
      · exact hd.2 y hy

theorem nextLoop_faithful (hf : Faithful r code) (fuel : Nat) (d : SortedHeap B K V Mt) (n : Nat) (hd : InOrder r d) :
    Ends (FilterSortedIter.nextLoop code fuel) d n fun o d' _ => InOrder r d' ∧ ∀ e, o = .ok (some e) → ∃ m, r.rankKey e.1 = .ok (some m) ∧
      ∀ e' ∈ rest d', ∀ q, r.rankKey e'.1 = .ok (some q) → m ≤ q := by
  have hc : CmpOk code := fun n => (hf n).2.2
  induction fuel generalizing d n with
  | zero => exact ⟨hd, fun e h => by cases h⟩
  | succ fuel ih =>
    rw [FilterSortedIter.nextLoop]
    obtain ⟨n₁, h1⟩ := pop_faithful hc d n
    cases hp : RTree.BinaryHeap.pop RTree.BinaryHeap.leRanked d with
    | none =>
      rw [hp] at h1
      refine Ends.bind_ok h1 ?_
      exact ⟨hd, fun e h => by cases h⟩
    | some x =>
      obtain ⟨x, d₁⟩ := x
      rw [hp] at h1
      refine Ends.bind_ok (a := some x) (s' := d₁) h1 ?_
      obtain ⟨h2, h3⟩ := RTree.BinaryHeap.pop_heap RTree.BinaryHeap.leRanked_total RTree.BinaryHeap.leRanked_trans hd.1 hp
      have h4 := RTree.BinaryHeap.pop_perm hp
      have hx := hd.2 x (h4.mem_iff.2 List.mem_cons_self)
      have hd₁ : InOrder r d₁ := ⟨h2, fun y hy => hd.2 y (h4.mem_iff.2 (List.mem_cons_of_mem _ hy))⟩
      obtain ⟨⟨m, l⟩, it⟩ := x
      have step : ∀ (xs : List (ToPush B K V Mt)), (∀ x ∈ xs, ∀ n m, x.question (code n) = some (some m) → ItemOk r False (⟨m, x.level⟩, x.item)) →
          Ends (do pushAll code xs; FilterSortedIter.nextLoop code fuel) d₁ n₁ fun o d' _ => InOrder r d' ∧ ∀ e, o = .ok (some e) →
            ∃ m, r.rankKey e.1 = .ok (some m) ∧ ∀ e' ∈ rest d', ∀ q, r.rankKey e'.1 = .ok (some q) → m ≤ q := by
        intro xs hxs
        refine Ends.bind ((pushAll_faithful hf xs hxs d₁ n₁ hd₁).mono ?_)
        intro o d₂ n₂ h5
        match o with
        | .ok _ => exact ih d₂ n₂ h5
        | .error _ => exact ⟨h5, fun e h => by cases h⟩
      match l, it, hx with
      | 0, .entry e, hx =>
        refine ⟨hd₁, fun e' he => ?_⟩
        cases he
        refine ⟨m, hx, fun e' he' q hq => ?_⟩
        obtain ⟨y, hy, hy'⟩ := List.mem_flatMap.1 he'
        have := (RTree.BinaryHeap.leRanked_iff _ _).1 (h3 y (h4.mem_iff.2 (List.mem_cons_of_mem _ hy)))
        exact Std.IsPreorder.le_trans _ _ _ this.1 ((hd₁.2 y hy).low hy' hq)
      | 1, .node nd, hx =>
        obtain ⟨hx, -⟩ := hx
        cases nd with
        | inner b cs => simp [RankOk] at hx
        | leaf b es =>
          refine Ends.own_bind (Ends.own_bind ?_)
          rw [pushEntries_eq]
          refine step _ ?_
          intro x hx' n m hm
          obtain ⟨e, -, rfl⟩ := List.mem_map.1 hx'
          exact (hf n).2.1 _ _ hm
      | l + 2, .node nd, hx =>
        obtain ⟨hx, -⟩ := hx
        cases nd with
        | leaf b es => simp [RankOk] at hx
        | inner b cs =>
          refine Ends.own_bind (Ends.own_bind ?_)
          rw [pushNodes_eq]
          refine step _ ?_
          intro x hx' n m hm
          obtain ⟨c, hc, rfl⟩ := List.mem_map.1 hx'
          exact ⟨hx.2.2 c hc, (hf n).1 _ _ hm⟩

theorem SortedStep.mem {F E : Type} {q : Query F E} {panics : F → Prop} {code : Nat → F} {n n' : Nat} {R R' : List E} {o}
    (h : SortedStep q panics code n R o n' R') {e : E} (he : e ∈ R') : e ∈ R := by
  match o, h with
  | .ok none, h => rw [h.2.2] at he; cases he
  | .ok (some _), ⟨_, _, sk, h, _⟩ => exact h.mem_iff.2 (List.mem_append_right _ (List.mem_cons_of_mem _ he))
  | .error .user, ⟨_, _, sk, lost, h, _⟩ => exact h.mem_iff.2 (List.mem_append_right _ (List.mem_append_right _ he))

theorem SortedStory.sub {F E : Type} {q : Query F E} {panics : F → Prop} {code : Nat → F} {n : Nat} {R : List E} {outs}
    (h : SortedStory q panics code n R outs) : ∃ others, R.Perm (yields outs ++ others) := by
  induction outs generalizing n R with
  | nil => exact ⟨R, .refl _⟩
  | cons o outs ih =>
    obtain ⟨n', R', h1, h2⟩ := h
    obtain ⟨others, h3⟩ := ih h2
    match o, h1 with
    | .ok none, h1 =>
      rw [h1.2.2] at h3
      have h4 := h3.symm.eq_nil
      refine ⟨R, ?_⟩
      show R.Perm (yields outs ++ R)
      rw [(List.append_eq_nil_iff.1 h4).1]
      exact .refl _
    | .ok (some e), ⟨_, _, sk, h1, _⟩ =>
      refine ⟨sk ++ others, ?_⟩
      show R.Perm (e :: yields outs ++ (sk ++ others))
      refine h1.trans ?_
      rw [List.cons_append]
      refine List.perm_middle.trans (.cons e ?_)
      exact (h3.append_left sk).trans (List.perm_append_comm_assoc _ _ _)
    | .error .user, ⟨_, _, sk, lost, h1, _⟩ =>
      refine ⟨sk ++ (lost ++ others), ?_⟩
      show R.Perm (yields outs ++ (sk ++ (lost ++ others)))
      refine h1.trans ?_
      refine .trans ?_ (List.perm_append_comm_assoc _ _ _)
      exact (((h3.append_left lost).trans (List.perm_append_comm_assoc _ _ _))).append_left sk

theorem SortedStory.no_own {F E : Type} {q : Query F E} {panics : F → Prop} {code : Nat → F} {n : Nat} {R : List E} {outs}
    (h : SortedStory q panics code n R outs) (p : Panic) : .error (.own p) ∉ outs := by
  induction outs generalizing n R with
  | nil => intro h; cases h
  | cons o outs ih =>
    obtain ⟨n', R', h1, h2⟩ := h
    intro hm
    rcases List.mem_cons.1 hm with rfl | hm
    · exact h1
    · exact ih h2 hm

theorem nexts_faithful (hN : Closed nodes) (hf : Faithful r code) (fuel k : Nat) (d : SortedHeap B K V Mt) (n : Nat) (hi : ∀ y ∈ d, Item code nodes n y)
    (hd : InOrder r d) (hw : itemsWeight d < fuel) :
    Ends (FilterSortedIter.nexts code fuel k) d n fun o _ _ => ∀ outs, o = .ok outs → RTree.FilterSortedIter.Ascending r (yields outs) := by
  induction k generalizing d n with
  | zero => intro outs h; cases h; exact .nil
  | succ k ih =>
    rw [FilterSortedIter.nexts]
    obtain ⟨h1, h2, h3⟩ := nextLoop_ends hN fuel d n hi hw
    obtain ⟨h4, h5⟩ := nextLoop_faithful hf fuel d n hd
    have h0 := Ends.bind (f := fun outs => pure ((FilterSortedIter.nextLoop code fuel d n).1 :: outs))
      (Q := fun o _ _ => ∀ outs, o = .ok outs → RTree.FilterSortedIter.Ascending r (yields outs))
      (x := FilterSortedIter.nexts code fuel k) (s := (FilterSortedIter.nextLoop code fuel d n).2.1) (n := (FilterSortedIter.nextLoop code fuel d n).2.2) ?_
    · exact h0
    have h6 := ih _ _ h1 h4 (by omega)
    obtain ⟨outs, h7, -, h8⟩ := nexts_ends hN fuel k _ _ h1 (by omega)
    unfold Ends at h6 ⊢
    rw [h7] at h6 ⊢
    intro outs' h9
    cases h9
    have h10 := h6 outs rfl
    generalize (FilterSortedIter.nextLoop code fuel d n).1 = o at *
    match o with
    | .ok none => exact h10
    | .error _ => exact h10
    | .ok (some e) =>
      refine List.Pairwise.cons ?_ h10
      intro e' he' m' q hm' hq
      obtain ⟨m, hm, hall⟩ := h5 e rfl
      rw [hm'] at hm
      cases hm
      obtain ⟨others, h11⟩ := h8.sub
      exact hall e' (h11.mem_iff.2 (List.mem_append_left _ he')) q hq

end Faithful

end Filter

/-! ## Iterators that do not filter -/

/-- The same user code, as an answer to the questions of an iterator that filters. -/
def RankCode.some (f : RankCode B K Mt Mt) : RankCode B K (Option Mt) Mt where
  boundsMin b := (f.boundsMin b).map Option.some
  rankKey k := (f.rankKey k).map Option.some
  cmp := f.cmp

section Plain

variable {code : Nat → RankCode B K Mt Mt}

theorem askFor_some {γ : Type} (q : RankCode B K Mt Mt → Option γ) (q' : RankCode B K (Option Mt) Mt → Option γ) (h : ∀ f, q' f.some = q f) :
    askFor (S := S) (fun n => (code n).some) q' = askFor code q := by
  funext s n
  unfold askFor
  rw [h]

theorem askFor_map {γ : Type} (q : RankCode B K Mt Mt → Option Mt) (q' : RankCode B K (Option Mt) Mt → Option (Option Mt)) (h : ∀ f, q' f.some = (q f).map Option.some)
    (k : Option Mt → M S γ) : (askFor (fun n => (code n).some) q' >>= k) = (askFor code q >>= fun m => k (some m)) := by
  funext s n
  cases hq : q (code n) with
  | none =>
    have h1 : askFor (S := S) code q s n = (.error .user, s, n + 1) := by unfold askFor; rw [hq]
    have h2 : askFor (S := S) (fun n => (code n).some) q' s n = (.error .user, s, n + 1) := by unfold askFor; rw [h, hq]; rfl
    rw [bind_error' h1, bind_error' h2]
  | some m =>
    have h1 : askFor (S := S) code q s n = (.ok m, s, n + 1) := by unfold askFor; rw [hq]
    have h2 : askFor (S := S) (fun n => (code n).some) q' s n = (.ok (some m), s, n + 1) := by unfold askFor; rw [h, hq]; rfl
    rw [bind_ok' h1, bind_ok' h2]

theorem le_some (a b : Score Mt × T) : BinaryHeap.le (S := S) (fun n => (code n).some) a b = BinaryHeap.le code a b := by
  unfold BinaryHeap.le
  rw [askFor_some (fun f => f.cmp b.1.metric a.1.metric) (fun f => f.cmp b.1.metric a.1.metric) (fun _ => rfl)]

theorem siftUp_some (fuel pos : Nat) : BinaryHeap.siftUp (T := T) (fun n => (code n).some) fuel pos = BinaryHeap.siftUp code fuel pos := by
  induction fuel generalizing pos with
  | zero => rfl
  | succ fuel ih =>
    rw [BinaryHeap.siftUp, BinaryHeap.siftUp]
    simp only [le_some, ih]

theorem siftDown_some (fuel pos : Nat) : BinaryHeap.siftDown (T := T) (fun n => (code n).some) fuel pos = BinaryHeap.siftDown code fuel pos := by
  induction fuel generalizing pos with
  | zero => rfl
  | succ fuel ih =>
    rw [BinaryHeap.siftDown, BinaryHeap.siftDown]
    simp only [le_some, ih]

theorem push_some (x : Score Mt × T) : BinaryHeap.push (fun n => (code n).some) x = BinaryHeap.push code x := by
  unfold BinaryHeap.push
  simp only [siftUp_some]

theorem pop_some : BinaryHeap.pop (T := T) (fun n => (code n).some) = BinaryHeap.pop code := by
  unfold BinaryHeap.pop
  simp only [siftUp_some, siftDown_some]

theorem pushEntries_some (es : List (K × V)) : FilterSortedIter.pushEntries (fun n => (code n).some) es = SortedIter.pushEntries code es := by
  induction es with
  | nil => rfl
  | cons e es ih =>
    rw [FilterSortedIter.pushEntries, SortedIter.pushEntries, askFor_map (fun f => f.rankKey e.1) _ (fun _ => rfl), ih]
    simp only [push_some]

theorem pushNodes_some (l : Nat) (cs : List (Node B K V)) : FilterSortedIter.pushNodes (fun n => (code n).some) l cs = SortedIter.pushNodes code l cs := by
  induction cs with
  | nil => rfl
  | cons c cs ih =>
    rw [FilterSortedIter.pushNodes, SortedIter.pushNodes, askFor_map (fun f => f.boundsMin c.bounds) _ (fun _ => rfl), ih]
    simp only [push_some]

theorem nextLoop_some (fuel : Nat) : FilterSortedIter.nextLoop (V := V) (fun n => (code n).some) fuel = SortedIter.nextLoop code fuel := by
  induction fuel with
  | zero => rfl
  | succ fuel ih =>
    rw [FilterSortedIter.nextLoop, SortedIter.nextLoop]
    simp only [pushEntries_some, pushNodes_some, ih, pop_some]

theorem nexts_some (fuel k : Nat) : FilterSortedIter.nexts (V := V) (fun n => (code n).some) fuel k = SortedIter.nexts code fuel k := by
  induction k with
  | zero => rfl
  | succ k ih =>
    rw [FilterSortedIter.nexts, SortedIter.nexts, ih, nextLoop_some]

theorem new_some (level : Nat) (root : Node B K V) : FilterSortedIter.new (fun n => (code n).some) level root = SortedIter.new code level root := by
  rw [FilterSortedIter.new, SortedIter.new, askFor_map (fun f => f.boundsMin root.bounds) _ (fun _ => rfl)]
  simp only [push_some]

theorem RankCode.some_panics {f : RankCode B K Mt Mt} (h : f.some.Panics) : f.Panics := by
  rcases h with ⟨b, h⟩ | ⟨k, h⟩ | h
  · exact .inl ⟨b, by simpa [RankCode.some] using h⟩
  · exact .inr (.inl ⟨k, by simpa [RankCode.some] using h⟩)
  · exact .inr (.inr h)

theorem story_some {nodes : List (Node B K V)} {outs : List (Except Stop (Option (K × V)))} {n : Nat} {R : List (K × V)}
    (h : SortedStory (filterSortedQuery nodes) RankCode.Panics (fun n => (code n).some) n R outs) :
    SortedStory (sortedQuery nodes) RankCode.Panics code n R outs := by
  have hd : ∀ n n' e, ¬ Dropped (filterSortedQuery nodes) (fun n => (code n).some) n n' e := by
    rintro n n' e ⟨m, -, -, h⟩
    rcases h with h | ⟨nd, -, -, h⟩
    · cases hx : (code m).rankKey e.1 <;> simp [RankCode.some, hx] at h
    · cases hx : (code m).boundsMin nd.bounds <;> simp [RankCode.some, hx] at h
  induction outs generalizing n R with
  | nil => trivial
  | cons o outs ih =>
    obtain ⟨n', R', h1, h2⟩ := h
    refine ⟨n', R', ?_, ih h2⟩
    match o, h1 with
    | .ok none, h1 => exact ⟨h1.1, fun e he => absurd (h1.2.1 e he) (hd _ _ _), h1.2.2⟩
    | .ok (some e), ⟨h1, ⟨m, hm, m', ha⟩, sk, h3, h4⟩ =>
      refine ⟨h1, ⟨m, hm, m', ?_⟩, sk, h3, fun x hx => absurd (h4 x hx) (hd _ _ _)⟩
      obtain ⟨m'', g1, g2⟩ := Option.map_eq_some_iff.1 ha
      cases g2
      exact g1
    | .error .user, ⟨h1, h2, sk, lost, h3, h4, h5⟩ => exact ⟨h1, RankCode.some_panics h2, sk, lost, h3, fun x hx => absurd (h4 x hx) (hd _ _ _), h5⟩

/-- Without panics, every call yields something as long as anything is left. -/
theorem story_all {nodes : List (Node B K V)} (hp : ∀ n, ¬ (code n).Panics) {outs : List (Except Stop (Option (K × V)))} {n : Nat} {R : List (K × V)}
    (h : SortedStory (sortedQuery nodes) RankCode.Panics code n R outs) : (yields outs).length = min outs.length R.length := by
  induction outs generalizing n R with
  | nil => simp [yields]
  | cons o outs ih =>
    obtain ⟨n', R', h1, h2⟩ := h
    have h3 := ih h2
    have hd : ∀ n n' e, ¬ Dropped (sortedQuery nodes) code n n' e := fun _ _ _ ⟨_, _, _, h⟩ => h
    match o, h1 with
    | .ok none, h1 =>
      have : R = [] := List.eq_nil_iff_forall_not_mem.2 fun e he => hd _ _ _ (h1.2.1 e he)
      show (yields outs).length = _
      rw [h3, h1.2.2, this]
      simp
    | .ok (some e), ⟨h1, _, sk, h4, h5⟩ =>
      have : sk = [] := List.eq_nil_iff_forall_not_mem.2 fun e he => hd _ _ _ (h5 e he)
      subst this
      show (yields outs).length + 1 = _
      rw [h3, h4.length_eq, List.nil_append, List.length_cons, List.length_cons]
      omega
    | .error .user, h1 => exact absurd h1.2.1 (hp _)

end Plain

/-! ## User code that behaves well -/

section Answers

variable [LE Mt] [Std.IsLinearPreorder Mt] [DecidableLE Mt] {r : Ranking B K (Option Mt)} {code : Nat → RankCode B K (Option Mt) Mt}

theorem stdHeap_pop_none {T : Type} {h : ((RTree.BinaryHeap.stdHeap Mt).heap T).H} (hp : ((RTree.BinaryHeap.stdHeap Mt).heap T).pop h = none) :
    RTree.BinaryHeap.pop RTree.BinaryHeap.leRanked h.1 = none := by
  simp only [RTree.BinaryHeap.stdHeap] at hp
  split at hp
  · next h' => exact h'
  · cases hp

theorem stdHeap_pop_some {T : Type} {h h' : ((RTree.BinaryHeap.stdHeap Mt).heap T).H} {x : Score Mt × T}
    (hp : ((RTree.BinaryHeap.stdHeap Mt).heap T).pop h = some (x, h')) : RTree.BinaryHeap.pop RTree.BinaryHeap.leRanked h.1 = some (x, h'.1) := by
  simp only [RTree.BinaryHeap.stdHeap] at hp
  split at hp
  · cases hp
  · next h' => cases hp; exact h'

variable (ha : Answers r code)
include ha

theorem pushEntries_answers (es : List (K × V)) {h h' : ((RTree.BinaryHeap.stdHeap Mt).heap (SortedItem B K V)).H} (n : Nat)
    (he : RTree.FilterSortedIter.pushEntries ((RTree.BinaryHeap.stdHeap Mt).heap _) r es h = .ok h') :
    ∃ n', FilterSortedIter.pushEntries code es h.1 n = (.ok (), h'.1, n') := by
  have hc : CmpOk code := fun n => (ha n).2.2
  induction es generalizing h n with
  | nil => cases he; exact ⟨n, rfl⟩
  | cons e es ih =>
    unfold RTree.FilterSortedIter.pushEntries at he
    rw [List.foldlM_cons] at he
    obtain ⟨h₁, h1, h2⟩ := bind_eq_ok.1 he
    obtain ⟨o, h3, h4⟩ := bind_eq_ok.1 h1
    have hq : askFor code (fun f => f.rankKey e.1) h.1 n = (.ok o, h.1, n + 1) := by unfold askFor; dsimp only; rw [(ha n).2.1 _ _ h3]
    rw [FilterSortedIter.pushEntries, bind_ok' hq]
    cases o with
    | none => cases h4; exact ih (n + 1) h2
    | some m =>
      cases h4
      obtain ⟨n', h5⟩ := push_faithful hc (⟨m, 0⟩, .entry e) h.1 (n + 1)
      dsimp only
      rw [bind_ok' h5]
      exact ih n' h2

theorem pushNodes_answers (l : Nat) (cs : List (Node B K V)) {h h' : ((RTree.BinaryHeap.stdHeap Mt).heap (SortedItem B K V)).H} (n : Nat)
    (he : RTree.FilterSortedIter.pushNodes ((RTree.BinaryHeap.stdHeap Mt).heap _) r l cs h = .ok h') :
    ∃ n', FilterSortedIter.pushNodes code l cs h.1 n = (.ok (), h'.1, n') := by
  have hc : CmpOk code := fun n => (ha n).2.2
  induction cs generalizing h n with
  | nil => cases he; exact ⟨n, rfl⟩
  | cons c cs ih =>
    unfold RTree.FilterSortedIter.pushNodes at he
    rw [List.foldlM_cons] at he
    obtain ⟨h₁, h1, h2⟩ := bind_eq_ok.1 he
    obtain ⟨o, h3, h4⟩ := bind_eq_ok.1 h1
    have hq : askFor code (fun f => f.boundsMin c.bounds) h.1 n = (.ok o, h.1, n + 1) := by unfold askFor; dsimp only; rw [(ha n).1 _ _ h3]
    rw [FilterSortedIter.pushNodes, bind_ok' hq]
    cases o with
    | none => cases h4; exact ih (n + 1) h2
    | some m =>
      cases h4
      obtain ⟨n', h5⟩ := push_faithful hc (⟨m, l⟩, .node c) h.1 (n + 1)
      dsimp only
      rw [bind_ok' h5]
      exact ih n' h2

theorem nextLoop_answers (fuel : Nat) {h h' : ((RTree.BinaryHeap.stdHeap Mt).heap (SortedItem B K V)).H} {o : Option (K × V)} (n : Nat)
    (he : RTree.FilterSortedIter.nextLoop ((RTree.BinaryHeap.stdHeap Mt).heap _) r fuel h = .ok (o, h')) :
    ∃ n', FilterSortedIter.nextLoop code fuel h.1 n = (.ok o, h'.1, n') := by
  have hc : CmpOk code := fun n => (ha n).2.2
  induction fuel generalizing h n with
  | zero => cases he
  | succ fuel ih =>
    rw [RTree.FilterSortedIter.nextLoop] at he
    obtain ⟨n₁, h1⟩ := pop_faithful hc h.1 n
    rw [FilterSortedIter.nextLoop]
    cases hp : ((RTree.BinaryHeap.stdHeap Mt).heap (SortedItem B K V)).pop h with
    | none =>
      rw [hp] at he
      cases he
      rw [stdHeap_pop_none hp] at h1
      rw [bind_ok' h1]
      exact ⟨n₁, rfl⟩
    | some x =>
      obtain ⟨x, h₁⟩ := x
      rw [hp] at he
      rw [stdHeap_pop_some hp] at h1
      have h1' : BinaryHeap.pop code h.1 n = (.ok (some x), h₁.1, n₁) := h1
      rw [bind_ok' h1']
      obtain ⟨⟨m, l⟩, it⟩ := x
      match l, it, he with
      | 0, .entry e, he => cases he; exact ⟨n₁, rfl⟩
      | 0, .node nd, he => cases he
      | 1, .entry e, he => cases he
      | l + 2, .entry e, he => cases he
      | 1, .node (.inner b cs), he => cases he
      | l + 2, .node (.leaf b es), he => cases he
      | 1, .node (.leaf b es), he =>
        obtain ⟨_, g1, he⟩ := bind_eq_ok.1 he
        cases g1
        obtain ⟨_, g2, he⟩ := bind_eq_ok.1 he
        cases g2
        obtain ⟨h₂, h2, h3⟩ := bind_eq_ok.1 he
        obtain ⟨n₂, h4⟩ := pushEntries_answers ha es n₁ h2
        obtain ⟨n₃, h5⟩ := ih n₂ h3
        refine ⟨n₃, ?_⟩
        show (FilterSortedIter.pushEntries code es >>= fun _ => FilterSortedIter.nextLoop code fuel) h₁.1 n₁ = _
        rw [bind_ok' h4, h5]
      | l + 2, .node (.inner b cs), he =>
        obtain ⟨_, g1, he⟩ := bind_eq_ok.1 he
        cases g1
        obtain ⟨_, g2, he⟩ := bind_eq_ok.1 he
        cases g2
        obtain ⟨h₂, h2, h3⟩ := bind_eq_ok.1 he
        obtain ⟨n₂, h4⟩ := pushNodes_answers ha (l + 1) cs n₁ h2
        obtain ⟨n₃, h5⟩ := ih n₂ h3
        refine ⟨n₃, ?_⟩
        show (FilterSortedIter.pushNodes code (l + 1) cs >>= fun _ => FilterSortedIter.nextLoop code fuel) h₁.1 n₁ = _
        rw [bind_ok' h4, h5]

theorem nexts_answers (fuel k : Nat) {h : ((RTree.BinaryHeap.stdHeap Mt).heap (SortedItem B K V)).H} {out : List (K × V)} (n : Nat)
    (he : RTree.FilterSortedIter.collectLoop ((RTree.BinaryHeap.stdHeap Mt).heap _) r fuel k h = .ok out) :
    ∃ s' n', FilterSortedIter.nexts code fuel (out.length + 1) h.1 n = (.ok (out.map (fun e => .ok (some e)) ++ [.ok none]), s', n') := by
  induction k generalizing h n out with
  | zero => cases he
  | succ k ih =>
    rw [RTree.FilterSortedIter.collectLoop] at he
    obtain ⟨⟨o, h'⟩, h1, h2⟩ := bind_eq_ok.1 he
    obtain ⟨n₁, h3⟩ := nextLoop_answers ha fuel n h1
    match o, h2, h3 with
    | none, h2, h3 =>
      cases h2
      refine ⟨h'.1, n₁, ?_⟩
      rw [List.length_nil, FilterSortedIter.nexts, bind_ok' (catching_apply h3)]
      rfl
    | some e, h2, h3 =>
      obtain ⟨out', h4, h5⟩ := bind_eq_ok.1 h2
      cases h5
      obtain ⟨s', n', h6⟩ := ih n₁ h4
      refine ⟨s', n', ?_⟩
      rw [List.length_cons, FilterSortedIter.nexts, bind_ok' (catching_apply h3), bind_ok' h6]
      rfl

theorem filterIterAscBy_answers {t : Tree B K V} {out : List (K × V)} (ho : t.filterIterAscBy ((RTree.BinaryHeap.stdHeap Mt).heap _) r = .ok out)
    (s₀ : SortedHeap B K V Mt) : ∃ s s' n', FilterSortedIter.new code t.level t.root s₀ 0 = (.ok (), s, 1) ∧
      FilterSortedIter.nexts code t.sortedFuel (out.length + 1) s 1 = (.ok (out.map (fun e => .ok (some e)) ++ [.ok none]), s', n') := by
  rw [Tree.filterIterAscBy] at ho
  obtain ⟨h, h1, h2⟩ := bind_eq_ok.1 ho
  obtain ⟨s', n', h3⟩ := nexts_answers ha _ _ 1 h2
  refine ⟨h.1, s', n', ?_, h3⟩
  rw [RTree.FilterSortedIter.new] at h1
  obtain ⟨o, h4, h5⟩ := bind_eq_ok.1 h1
  rw [new_eq, (ha 0).1 _ _ h4]
  cases o with
  | none => cases h5; rfl
  | some m => cases h5; rfl

end Answers

end RTree.Calls
