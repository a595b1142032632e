import Verif.CallsSpec
import Verif.Proofs.Iter
/-! Filters that panic or answer inconsistently. -/

namespace RTree.Calls

variable {S α β : Type} {F : Type}

theorem pure_apply (a : α) (s : S) (n : Nat) : (pure a : M S α) s n = (.ok a, s, n) := rfl

theorem bind_ok' {x : M S α} {f : α → M S β} {s s' : S} {n n' : Nat} {a : α} (h : x s n = (.ok a, s', n')) : (x >>= f) s n = f a s' n' := by
  show (match x s n with | (.ok a, s, n) => f a s n | (.error e, s, n) => (.error e, s, n)) = _
  rw [h]

theorem bind_error' {x : M S α} {f : α → M S β} {s s' : S} {n n' : Nat} {e : Stop} (h : x s n = (.error e, s', n')) : (x >>= f) s n = (.error e, s', n') := by
  show (match x s n with | (.ok a, s, n) => f a s n | (.error e, s, n) => (.error e, s, n)) = _
  rw [h]

theorem self_bind (f : S → M S β) (s : S) (n : Nat) : (self >>= f) s n = f s s n := rfl
theorem put_bind (s' : S) (f : Unit → M S β) (s : S) (n : Nat) : (put s' >>= f) s n = f () s' n := rfl
theorem own_bind (a : α) (f : α → M S β) (s : S) (n : Nat) : (own (.ok a) >>= f) s n = f a s n := rfl
theorem pure_bind' (a : α) (f : α → M S β) (s : S) (n : Nat) : ((pure a : M S α) >>= f) s n = f a s n := rfl
theorem raise_ok_bind (a : α) (f : α → M S β) (s : S) (n : Nat) : (raise (.ok a) >>= f) s n = f a s n := rfl
theorem raise_error_bind (e : Stop) (f : α → M S β) (s : S) (n : Nat) : (raise (.error e) >>= f) s n = (.error e, s, n) := rfl
theorem catching_apply {x : M S α} {s s' : S} {n n' : Nat} {r} (h : x s n = (r, s', n')) : catching x s n = (.ok r, s', n') := by
  show (Except.ok (x s n).1, (x s n).2) = _
  rw [h]

/-- The outcome of `find`, which turned down `pre`. -/
def FoundEnd (code : Nat → Option F) (test : F → α → Bool) (n : Nat) (as pre : List α) (r : Except Stop (Option α)) (as' : List α) (n' : Nat) : Prop :=
  match r with
  | .ok none => n ≤ n' ∧ as = pre ∧ as' = []
  | .ok (some a) => n < n' ∧ as = pre ++ a :: as' ∧ ∃ f, code (n' - 1) = some f ∧ test f a = true
  | .error .user => n < n' ∧ code (n' - 1) = none ∧ ∃ a, as = pre ++ a :: as'
  | .error (.own _) => False

/-- The outcome of `find`. -/
def Found (code : Nat → Option F) (test : F → α → Bool) (n : Nat) (as : List α) (r : Except Stop (Option α)) (as' : List α) (n' : Nat) : Prop :=
  ∃ pre, (∀ x ∈ pre, ∃ m f, n ≤ m ∧ m < n' ∧ code m = some f ∧ test f x = false) ∧ FoundEnd code test n as pre r as' n'

theorem search_spec (code : Nat → Option F) (test : F → α → Bool) (as : List α) (s : S) (n : Nat) :
    ∃ r as' n', search code test as s n = (.ok (r, as'), s, n') ∧ Found code test n as r as' n' := by
  induction as generalizing n with
  | nil => exact ⟨.ok none, [], n, rfl, [], (fun _ h => by cases h), Nat.le_refl _, rfl, rfl⟩
  | cons a as ih =>
    rw [search]
    cases hc : code n with
    | none =>
      have h1 : catching (ask code) s n = (.ok (.error .user), s, n + 1) := catching_apply (by rw [ask, hc])
      refine ⟨.error .user, as, n + 1, by rw [bind_ok' h1]; rfl, [], (fun _ h => by cases h), by omega, hc, a, rfl⟩
    | some f =>
      have h1 : catching (ask code) s n = (.ok (.ok f), s, n + 1) := catching_apply (by rw [ask, hc])
      cases ht : test f a with
      | true =>
        refine ⟨.ok (some a), as, n + 1, ?_, [], (fun _ h => by cases h), by omega, rfl, f, hc, ht⟩
        rw [bind_ok' h1]
        show (if test f a = true then _ else _ : M S _) s (n + 1) = _
        rw [if_pos ht]; rfl
      | false =>
        obtain ⟨r, as', n', h2, pre, h3, h4⟩ := ih (n + 1)
        have hle : n + 1 ≤ n' := by
          match r, h4 with
          | .ok none, h4 => exact h4.1
          | .ok (some _), h4 => exact Nat.le_of_lt h4.1
          | .error .user, h4 => exact Nat.le_of_lt h4.1
        refine ⟨r, as', n', ?_, a :: pre, ?_, ?_⟩
        · rw [bind_ok' h1]
          show (if test f a = true then _ else _ : M S _) s (n + 1) = _
          rw [if_neg (by simp [ht])]; exact h2
        · intro x hx
          rcases List.mem_cons.1 hx with rfl | hx
          · exact ⟨n, f, Nat.le_refl _, by omega, hc, ht⟩
          · obtain ⟨m, g, h5, h6⟩ := h3 x hx
            exact ⟨m, g, by omega, h6⟩
        · match r, h4 with
          | .ok none, h4 => exact ⟨by omega, by rw [h4.2.1], h4.2.2⟩
          | .ok (some _), h4 => exact ⟨by omega, by rw [h4.2.1]; rfl, h4.2.2⟩
          | .error .user, h4 => exact ⟨by omega, h4.2.1, h4.2.2.imp fun _ h => by rw [h]; rfl⟩

section Generic

variable {E : Type} {q : Query F E} {code : Nat → Option F}

theorem TurnedDown.mono {n n' m m' : Nat} (h1 : m ≤ n) (h2 : n' ≤ m') {e : E} (h : TurnedDown q code n n' e) : TurnedDown q code m m' e := by
  obtain ⟨i, f, h3, h4, h5⟩ := h
  exact ⟨i, f, by omega, by omega, h5⟩

theorem Step.le {n n' : Nat} {R R' : List E} {o} (h : Step q code n R o n' R') : n ≤ n' := by
  match o, h with
  | .ok none, h => exact h.1
  | .ok (some _), h => exact Nat.le_of_lt h.1
  | .error .user, h => exact Nat.le_of_lt h.1

/-- Entries turned down before. -/
theorem Step.prepend {n m n' : Nat} {R pre R' : List E} {o} (hpre : ∀ e ∈ pre, TurnedDown q code n m e) (hnm : n ≤ m)
    (h : Step q code m R o n' R') : Step q code n (pre ++ R) o n' R' := by
  have hle := h.le
  have hpre' : ∀ e ∈ pre, TurnedDown q code n n' e := fun e he => (hpre e he).mono (Nat.le_refl _) hle
  match o, h with
  | .ok none, h =>
    refine ⟨by omega, ?_, h.2.2⟩
    intro e he
    rcases List.mem_append.1 he with he | he
    · exact hpre' e he
    · exact (h.2.1 e he).mono hnm (Nat.le_refl _)
  | .ok (some e), ⟨h1, sk, f, h2, h3, h4⟩ =>
    refine ⟨by omega, pre ++ sk, f, by rw [h2, List.append_assoc], ?_, h4⟩
    intro e he
    rcases List.mem_append.1 he with he | he
    · exact hpre' e he
    · exact (h3 e he).mono hnm (Nat.le_refl _)
  | .error .user, ⟨h1, h2, sk, lost, h3, h4, h5⟩ =>
    refine ⟨by omega, h2, pre ++ sk, lost, by rw [h3]; simp only [List.append_assoc], ?_, h5⟩
    intro e he
    rcases List.mem_append.1 he with he | he
    · exact hpre' e he
    · exact (h4 e he).mono hnm (Nat.le_refl _)

theorem Story.sublist {outs} {n : Nat} {R : List E} (h : Story q code n R outs) : (yields outs).Sublist R := by
  induction outs generalizing n R with
  | nil => exact List.nil_sublist _
  | cons o outs ih =>
    obtain ⟨n', R', h1, h2⟩ := h
    have := ih h2
    match o, h1 with
    | .ok none, h1 => rw [h1.2.2] at this; exact this.trans (List.nil_sublist _)
    | .ok (some e), ⟨_, sk, f, h3, _⟩ =>
      rw [h3]
      exact (List.Sublist.cons_cons e this).trans (List.sublist_append_right _ _)
    | .error .user, ⟨_, _, sk, lost, h3, _⟩ => rw [h3]; exact this.trans (List.sublist_append_right _ _)

theorem Story.no_own {outs} {n : Nat} {R : List E} (h : Story q code n R outs) (p : Panic) : .error (.own p) ∉ outs := by
  induction outs generalizing n R with
  | nil => intro h; cases h
  | cons o outs ih =>
    obtain ⟨n', R', h5, h6⟩ := h
    intro hm
    rcases List.mem_cons.1 hm with rfl | hm
    · exact h5
    · exact ih h6 hm

end Generic

variable {B K V Q : Type}

theorem mem_descendantsList {c d : Node B K V} {cs : List (Node B K V)} (h : d ∈ cs) (hc : c ∈ d :: d.descendants) : c ∈ descendantsList cs := by
  induction cs with
  | nil => cases h
  | cons x cs ih =>
    rw [descendantsList]
    rcases List.mem_cons.1 h with rfl | h
    · rcases List.mem_cons.1 hc with rfl | hc
      · exact List.mem_cons_self
      · exact List.mem_cons_of_mem _ (List.mem_append_left _ hc)
    · exact List.mem_cons_of_mem _ (List.mem_append_right _ (ih h))

mutual
theorem descendants_trans (r : Node B K V) {c : Node B K V} {b : B} {cs : List (Node B K V)} (h : .inner b cs ∈ r.descendants) (hc : c ∈ cs) : c ∈ r.descendants := by
  cases r with
  | leaf b es => rw [Node.descendants] at h; cases h
  | inner b' cs' => rw [Node.descendants] at h ⊢; exact descendantsList_trans cs' h hc
theorem descendantsList_trans (rs : List (Node B K V)) {c : Node B K V} {b : B} {cs : List (Node B K V)} (h : .inner b cs ∈ descendantsList rs) (hc : c ∈ cs) :
    c ∈ descendantsList rs := by
  cases rs with
  | nil => rw [descendantsList] at h; cases h
  | cons r rs =>
    rw [descendantsList] at h ⊢
    rcases List.mem_cons.1 h with h | h
    · refine List.mem_cons_of_mem _ (List.mem_append_left _ ?_)
      rw [← h, Node.descendants]
      exact mem_descendantsList hc List.mem_cons_self
    · rcases List.mem_append.1 h with h | h
      · exact List.mem_cons_of_mem _ (List.mem_append_left _ (descendants_trans r h hc))
      · exact List.mem_cons_of_mem _ (List.mem_append_right _ (descendantsList_trans rs h hc))
end

/-- Child nodes of nodes in the list are in the list. -/
def Closed (N : List (Node B K V)) : Prop := ∀ b cs, .inner b cs ∈ N → ∀ c ∈ cs, c ∈ N

theorem closed_nodes (t : Tree B K V) : Closed t.nodes := by
  intro b cs h c hc
  rw [Tree.nodes] at h ⊢
  rcases List.mem_cons.1 h with h | h
  · refine List.mem_cons_of_mem _ ?_
    rw [← h, Node.descendants]
    exact mem_descendantsList hc List.mem_cons_self
  · exact List.mem_cons_of_mem _ (descendants_trans _ h hc)

open IterStack in
/-- What the stack can still yield. -/
def todo (es : List (K × V)) (css : List (List (Node B K V))) : List (K × V) := es ++ css.flatMap entriesList

theorem entriesList_append (as bs : List (Node B K V)) : entriesList (as ++ bs) = entriesList as ++ entriesList bs := by
  induction as with
  | nil => rfl
  | cons a as ih => rw [List.cons_append, entriesList, entriesList, ih, List.append_assoc]

theorem mem_entriesList {e : K × V} {cs : List (Node B K V)} : e ∈ entriesList cs ↔ ∃ c ∈ cs, e ∈ c.entries := by
  induction cs with
  | nil => simp [entriesList]
  | cons c cs ih => simp [entriesList, ih]

variable {code : Nat → Option (SpatialFilter B Q)} {borrow : K → Q} {N : List (Node B K V)}

namespace TreeIter

open IterStack RTree.TreeIter

/-- Outcome of `next`: the stack is whole, what remains is `todo`. -/
def Post (code : Nat → Option (SpatialFilter B Q)) (borrow : K → Q) (N : List (Node B K V)) (n : Nat) (len : Nat) (R : List (K × V))
    (x : Except Stop (Option (K × V)) × TreeIter B K V × Nat) : Prop :=
  ∃ es' css', x.2.1 = newBox es' css' ∧ css'.length = len ∧ Typed 0 css' ∧ (∀ cs ∈ css', ∀ c ∈ cs, c ∈ N) ∧
    Step (iterQuery borrow N) code n R x.1 x.2.2 (todo es' css')

theorem Post.prepend {n m len : Nat} {R pre : List (K × V)} {x} (hpre : ∀ e ∈ pre, TurnedDown (iterQuery borrow N) code n m e) (hnm : n ≤ m)
    (h : Post code borrow N m len R x) : Post code borrow N n len (pre ++ R) x := by
  obtain ⟨es, css, h1, h2, h3, h4, h5⟩ := h
  exact ⟨es, css, h1, h2, h3, h4, h5.prepend hpre hnm⟩

theorem todo_empty (l : Nat) (rest : List (List (Node B K V))) : todo ([] : List (K × V)) (List.replicate l [] ++ rest) = rest.flatMap entriesList := by
  simp [todo, List.flatMap_replicate, entriesList]

theorem nextLoop_spec (hN : Closed N) (fuel : Nat) :
    (∀ (es : List (K × V)) (css : List (List (Node B K V))) (n : Nat), Typed 0 css → (∀ cs ∈ css, ∀ c ∈ cs, c ∈ N) →
      (es.length + (css.map weightList).sum) * (css.length + 2) + (css.length + 1) ≤ fuel →
      Post code borrow N n css.length (todo es css) (nextLoop code borrow fuel 0 (newBox es css) n)) ∧
    (∀ (l : Nat) (rest : List (List (Node B K V))) (n : Nat), Typed l rest → (∀ cs ∈ rest, ∀ c ∈ cs, c ∈ N) →
      (rest.map weightList).sum * (l + rest.length + 2) + rest.length ≤ fuel →
      Post code borrow N n (l + rest.length) (rest.flatMap entriesList) (nextLoop code borrow fuel (l + 1) (newBox [] (List.replicate l [] ++ rest)) n)) := by
  have typed0 : ∀ l, Typed 0 (List.replicate l ([] : List (Node B K V))) := fun l => by
    have := (typed_replicate (off := 0) (l := l) (rest := ([] : List (List (Node B K V))))).2 (by simp [Typed])
    simpa using this
  have stop : ∀ fuel l n, Post code borrow N n (l + 0) [] (nextLoop code borrow fuel (l + 1) (newBox [] (List.replicate l [] ++ [])) n) := by
    intro fuel l n
    refine ⟨[], List.replicate l [], ?_, by simp, typed0 l, ?_, ?_⟩
    · unfold nextLoop; rw [self_bind, if_neg (by simp)]; simp [pure_apply]
    · intro cs hcs c hc
      rw [(List.mem_replicate.1 hcs).2] at hc; cases hc
    · have e : nextLoop code borrow fuel (l + 1) (newBox ([] : List (K × V)) (List.replicate l [] ++ [])) n = (.ok none, newBox [] (List.replicate l [] ++ []), n) := by
        unfold nextLoop; rw [self_bind, if_neg (by simp)]; rfl
      rw [e]
      refine ⟨Nat.le_refl _, (fun _ h => by cases h), ?_⟩
      have := todo_empty (K := K) (V := V) (B := B) l []
      rw [List.append_nil] at this
      exact this
  induction fuel with
  | zero =>
    refine ⟨fun es css n _ _ h => by omega, ?_⟩
    intro l rest n ht hin h
    have hr : rest = [] := List.length_eq_zero_iff.1 (by omega)
    subst hr
    exact stop 0 l n
  | succ fuel ih =>
    obtain ⟨ih0, ih1⟩ := ih
    refine ⟨?_, ?_⟩
    · intro es css n ht hin hf
      obtain ⟨r, es', n', h1, pre, h2, h3⟩ := search_spec (S := TreeIter B K V) code (fun f (e : K × V) => f.testKey (borrow e.1)) es (newBox es css) n
      have hpre : ∀ e ∈ pre, TurnedDown (iterQuery borrow N) code n n' e := by
        intro e he
        obtain ⟨m, f, h4, h5, h6, h7⟩ := h2 e he
        exact ⟨m, f, h4, h5, h6, .inl h7⟩
      unfold nextLoop
      rw [self_bind, if_pos (by simp)]
      dsimp only
      rw [getLeaf_newBox, own_bind, bind_ok' h1]
      dsimp only
      rw [setLeaf_newBox, own_bind, put_bind]
      match r, h3 with
      | .error .user, ⟨h4, h5, a, h6⟩ =>
        rw [raise_error_bind]
        exact ⟨es', css, rfl, rfl, ht, hin, h4, h5, pre, [a], by simp [todo, h6], hpre, .inl ⟨a, rfl⟩⟩
      | .ok (some a), ⟨h4, h5, f, h6, h7⟩ =>
        rw [raise_ok_bind]
        exact ⟨es', css, rfl, rfl, ht, hin, h4, pre, f, by simp [todo, h5], hpre, h6, h7⟩
      | .ok none, ⟨h4, h5, h6⟩ =>
        subst h5 h6
        rw [raise_ok_bind]
        have hle : (css.map weightList).sum * (css.length + 2) ≤ (es.length + (css.map weightList).sum) * (css.length + 2) := Nat.mul_le_mul_right _ (by omega)
        have h := ih1 0 css n' ht hin (by simp; omega)
        simp only [List.replicate_zero, List.nil_append, Nat.zero_add] at h
        exact h.prepend hpre h4
    · intro l rest n ht hin hf
      cases rest with
      | nil => exact stop _ l n
      | cons it hi =>
        obtain ⟨r, it', n', h1, pre, h2, h3⟩ := search_spec (S := TreeIter B K V) code (fun f (c : Node B K V) => f.testBounds c.bounds) it
          (newBox [] (List.replicate l [] ++ it :: hi)) n
        have hitN : ∀ c ∈ it, c ∈ N := hin it List.mem_cons_self
        have hhiN : ∀ cs ∈ hi, ∀ c ∈ cs, c ∈ N := fun cs h => hin cs (List.mem_cons_of_mem _ h)
        have hpreN : ∀ c ∈ pre, c ∈ it := by
          intro c hc
          match r, h3 with
          | .error .user, ⟨_, _, a, h6⟩ => rw [h6]; exact List.mem_append_left _ hc
          | .ok (some a), ⟨_, h5, _⟩ => rw [h5]; exact List.mem_append_left _ hc
          | .ok none, ⟨_, h5, _⟩ => rw [h5]; exact hc
        have hpre : ∀ e ∈ entriesList pre, TurnedDown (iterQuery borrow N) code n n' e := by
          intro e he
          obtain ⟨c, hc, he⟩ := mem_entriesList.1 he
          obtain ⟨m, f, h4, h5, h6, h7⟩ := h2 c hc
          exact ⟨m, f, h4, h5, h6, .inr ⟨c, hitN c (hpreN c hc), he, h7⟩⟩
        unfold nextLoop
        rw [self_bind, if_pos (by simp)]
        have hg : getInner (newBox ([] : List (K × V)) (List.replicate l [] ++ it :: hi)) l = .ok it := by
          have := getInner_newBox ([] : List (K × V)) (List.replicate l []) hi it
          simpa using this
        have hs : ∀ it', setInner (newBox ([] : List (K × V)) (List.replicate l [] ++ it :: hi)) l it' = .ok (newBox [] (List.replicate l [] ++ it' :: hi)) := by
          intro it'
          have := setInner_newBox ([] : List (K × V)) (List.replicate l []) hi it it'
          simpa using this
        dsimp only
        rw [hg, own_bind, bind_ok' h1]
        dsimp only
        rw [hs, own_bind, put_bind]
        simp only [List.map_cons, List.sum_cons, List.length_cons] at hf
        have htl : Typed (l + 1) hi := ht.2
        match r, h3 with
        | .error .user, ⟨h4, h5, a, h6⟩ =>
          rw [raise_error_bind]
          refine ⟨[], _, rfl, by simp, ?_, ?_, h4, h5, entriesList pre, a.entries, ?_, hpre, .inr ⟨a, hitN a (by simp [h6]), rfl⟩⟩
          · rw [typed_replicate, Nat.zero_add]
            exact ⟨fun c hc => ht.1 c (by simp [h6, hc]), htl⟩
          · intro cs hcs c hc
            rcases List.mem_append.1 hcs with hcs | hcs
            · rw [(List.mem_replicate.1 hcs).2] at hc; cases hc
            · rcases List.mem_cons.1 hcs with rfl | hcs
              · exact hitN c (by simp [h6, hc])
              · exact hhiN cs hcs c hc
          · rw [todo_empty, List.flatMap_cons, List.flatMap_cons, h6, entriesList_append, entriesList]
            simp only [List.append_assoc]
        | .ok none, ⟨h4, h5, h6⟩ =>
          subst h5 h6
          rw [raise_ok_bind]
          dsimp only
          have heq : List.replicate l ([] : List (Node B K V)) ++ [] :: hi = List.replicate (l + 1) [] ++ hi := by
            rw [List.replicate_succ', List.append_assoc]; rfl
          rw [heq]
          have h := ih1 (l + 1) hi n' ht.2 hhiN (by
            rw [Nat.add_mul] at hf
            have h0 : l + 1 + hi.length + 2 = l + (hi.length + 1) + 2 := by omega
            rw [h0]; omega)
          have := h.prepend hpre h4
          rw [List.flatMap_cons, List.length_cons, show l + (hi.length + 1) = l + 1 + hi.length by omega]
          exact this
        | .ok (some a), ⟨h4, h5, f, h6, h7⟩ =>
          rw [raise_ok_bind]
          dsimp only
          have haN : a ∈ N := hitN a (by simp [h5])
          have hpN : ∀ c ∈ it', c ∈ N := fun c hc => hitN c (by simp [h5, hc])
          have hsa : Shape l a := ht.1 a (by simp [h5])
          have hsp : ∀ c ∈ it', Shape l c := fun c hc => ht.1 c (by simp [h5, hc])
          have hw : weightList it = weightList pre + (a.weight + weightList it') := by
            rw [h5, weightList_append]; simp [weightList]
          have htodo : (it :: hi).flatMap entriesList = entriesList pre ++ (a.entries ++ (entriesList it' ++ hi.flatMap entriesList)) := by
            rw [List.flatMap_cons, h5, entriesList_append, entriesList]
            simp only [List.append_assoc]
          rw [htodo]
          refine Post.prepend hpre (Nat.le_of_lt h4) ?_
          rw [Nat.add_mul] at hf
          cases l with
          | zero =>
            obtain ⟨b, es, rfl⟩ := hsa.leaf
            simp only [List.replicate_zero, List.nil_append]
            rw [Node.leafChildren, own_bind, setLeaf_newBox, own_bind, put_bind]
            have h := ih0 es (it' :: hi) n' ⟨hsp, htl⟩ (by
              intro cs hcs c hc
              rcases List.mem_cons.1 hcs with rfl | hcs
              · exact hpN c hc
              · exact hhiN cs hcs c hc) (by
              simp only [List.map_cons, List.sum_cons, List.length_cons]
              have h5 : es.length + (weightList it' + (hi.map weightList).sum) + 1 ≤ weightList it + (hi.map weightList).sum := by
                rw [hw]; simp [Node.weight]; omega
              have h6 := Nat.mul_le_mul_right (hi.length + 1 + 2) h5
              rw [Nat.add_mul _ 1, Nat.add_mul (weightList it)] at h6
              simp only [Nat.zero_add] at hf
              omega)
            have e : 0 + (it :: hi).length = (it' :: hi).length := by simp
            rw [e, Node.entries]
            exact h
          | succ l' =>
            obtain ⟨b, cs, rfl, hcs⟩ := hsa.inner
            have heq : ∀ x : List (Node B K V), List.replicate (l' + 1) ([] : List (Node B K V)) ++ x :: hi = List.replicate l' [] ++ [] :: x :: hi := by
              intro x; rw [List.replicate_succ', List.append_assoc]; rfl
            have hs' : setInner (newBox ([] : List (K × V)) (List.replicate l' [] ++ [] :: it' :: hi)) l' cs =
                .ok (newBox [] (List.replicate l' [] ++ cs :: it' :: hi)) := by
              have := setInner_newBox ([] : List (K × V)) (List.replicate l' []) (it' :: hi) [] cs
              simpa using this
            dsimp only
            rw [Node.innerChildren, own_bind, heq it', hs', own_bind, put_bind]
            have h := ih1 l' (cs :: it' :: hi) n' ⟨hcs, hsp, htl⟩ (by
              intro ds hds c hc
              rcases List.mem_cons.1 hds with rfl | hds
              · exact hN b _ haN c hc
              · rcases List.mem_cons.1 hds with rfl | hds
                · exact hpN c hc
                · exact hhiN ds hds c hc) (by
              simp only [List.map_cons, List.sum_cons, List.length_cons]
              have h5 : weightList cs + (weightList it' + (hi.map weightList).sum) + 1 ≤ weightList it + (hi.map weightList).sum := by
                rw [hw]; simp [Node.weight]; omega
              have h0 : l' + (hi.length + 1 + 1) + 2 = l' + 1 + (hi.length + 1) + 2 := by omega
              rw [h0]
              have h6 := Nat.mul_le_mul_right (l' + 1 + (hi.length + 1) + 2) h5
              rw [Nat.add_mul _ 1, Nat.add_mul (weightList it)] at h6
              omega)
            rw [List.length_cons, show l' + 1 + (hi.length + 1) = l' + (cs :: it' :: hi).length by simp; omega, Node.entries]
            exact h

theorem next_spec (hN : Closed N) {es : List (K × V)} {css : List (List (Node B K V))} (ht : Typed 0 css) (hin : ∀ cs ∈ css, ∀ c ∈ cs, c ∈ N) (n : Nat) :
    Post code borrow N n css.length (todo es css) (next code borrow (newBox es css) n) := by
  unfold next
  rw [self_bind]
  refine (nextLoop_spec hN _).1 es css n ht hin ?_
  rw [weight_newBox, length_newBox, Nat.add_mul (es.length + _) 1, Nat.one_mul, show css.length + 1 + 1 = css.length + 2 from rfl]
  omega

theorem nexts_spec (hN : Closed N) (k : Nat) {es : List (K × V)} {css : List (List (Node B K V))} (ht : Typed 0 css) (hin : ∀ cs ∈ css, ∀ c ∈ cs, c ∈ N) (n : Nat) :
    ∃ outs s n', nexts code borrow k (newBox es css) n = (.ok outs, s, n') ∧ outs.length = k ∧ Story (iterQuery borrow N) code n (todo es css) outs := by
  induction k generalizing es css n with
  | zero => exact ⟨[], _, _, rfl, rfl, trivial⟩
  | succ k ih =>
    have h := next_spec (code := code) (borrow := borrow) hN (es := es) ht hin n
    rcases hx : next code borrow (newBox es css) n with ⟨r, s, n'⟩
    rw [hx] at h
    obtain ⟨es', css', h1, h2, h3, h4, h5⟩ := h
    dsimp only at h1 h5
    subst h1
    obtain ⟨outs, s', n'', h6, h7, h8⟩ := ih (es := es') h3 h4 n'
    refine ⟨r :: outs, s', n'', ?_, by simp [h7], n', _, h5, h8⟩
    rw [nexts, bind_ok' (catching_apply hx), bind_ok' h6]; rfl

theorem nexts_empty (k n : Nat) : nexts code borrow k (RTree.TreeIter.newEmpty : TreeIter B K V) n = (.ok (List.replicate k (.ok none)), RTree.TreeIter.newEmpty, n) := by
  have h : next code borrow (RTree.TreeIter.newEmpty : TreeIter B K V) n = (.ok none, RTree.TreeIter.newEmpty, n) := by
    unfold next; rw [self_bind]; unfold nextLoop; rw [self_bind, if_neg (by simp [RTree.TreeIter.newEmpty, emptyBox])]; rfl
  induction k with
  | zero => rfl
  | succ k ih =>
    rw [nexts, bind_ok' (catching_apply h), bind_ok' ih]; rfl

theorem story_nil (k n : Nat) : Story (iterQuery borrow N) code n [] (List.replicate k (.ok none)) := by
  induction k with
  | zero => trivial
  | succ k ih => exact ⟨n, [], ⟨Nat.le_refl _, (fun _ h => by cases h), rfl⟩, ih⟩

/-! ### A filter that always answers the same -/

theorem search_const {F S α : Type} (f : F) (test : F → α → Bool) (as : List α) (s : S) (n : Nat) :
    ∃ n', search (fun _ => some f) test as s n = (.ok (.ok (findNext (test f) as).1, (findNext (test f) as).2), s, n') := by
  induction as generalizing n with
  | nil => exact ⟨n, rfl⟩
  | cons a as ih =>
    have h1 : catching (ask fun _ => some f) s n = (.ok (.ok f), s, n + 1) := rfl
    rw [search, bind_ok' h1, findNext]
    show ∃ n', (if test f a = true then _ else _ : M S _) s (n + 1) = _
    split
    · exact ⟨n + 1, rfl⟩
    · exact ih (n + 1)

theorem nextLoop_const (f : SpatialFilter B Q) (borrow : K → Q) (fuel level : Nat) {s s' : TreeIter B K V} {r : Option (K × V)} (n : Nat)
    (h : RTree.TreeIter.nextLoop borrow f fuel level s = .ok (r, s')) : ∃ n', nextLoop (fun _ => some f) borrow fuel level s n = (.ok r, s', n') := by
  induction fuel generalizing level s n with
  | zero =>
    unfold RTree.TreeIter.nextLoop at h
    unfold nextLoop
    rw [self_bind]
    split at h
    · cases h
    · next hlt => rw [if_neg hlt]; cases h; exact ⟨n, rfl⟩
  | succ fuel ih =>
    unfold RTree.TreeIter.nextLoop at h
    unfold nextLoop
    rw [self_bind]
    split at h
    · next hlt =>
      rw [if_pos hlt]
      match level with
      | 0 =>
        obtain ⟨it, h1, h⟩ := bind_eq_ok.1 h
        obtain ⟨n', h2⟩ := search_const f (fun f (e : K × V) => f.testKey (borrow e.1)) it s n
        obtain ⟨s₁, h3, h⟩ := bind_eq_ok.1 h
        dsimp only
        rw [h1, own_bind, bind_ok' h2]
        dsimp only
        rw [h3, own_bind, put_bind, raise_ok_bind]
        revert h
        generalize (findNext (fun e : K × V => f.testKey (borrow e.1)) it).1 = o
        intro h
        match o with
        | some e => cases h; exact ⟨n', rfl⟩
        | none => exact ih _ _ h
      | l + 1 =>
        obtain ⟨it, h1, h⟩ := bind_eq_ok.1 h
        obtain ⟨n', h2⟩ := search_const f (fun f (c : Node B K V) => f.testBounds c.bounds) it s n
        obtain ⟨s₁, h3, h⟩ := bind_eq_ok.1 h
        dsimp only
        rw [h1, own_bind, bind_ok' h2]
        dsimp only
        rw [h3, own_bind, put_bind, raise_ok_bind]
        revert h
        generalize (findNext (fun c : Node B K V => f.testBounds c.bounds) it).1 = o
        intro h
        match o with
        | none => exact ih _ _ h
        | some c =>
          dsimp only at h ⊢
          match l with
          | 0 =>
            obtain ⟨es, h4, h⟩ := bind_eq_ok.1 h
            obtain ⟨s₂, h5, h⟩ := bind_eq_ok.1 h
            dsimp only
            rw [h4, own_bind, h5, own_bind, put_bind]
            exact ih _ _ h
          | l' + 1 =>
            obtain ⟨es, h4, h⟩ := bind_eq_ok.1 h
            obtain ⟨s₂, h5, h⟩ := bind_eq_ok.1 h
            dsimp only
            rw [h4, own_bind, h5, own_bind, put_bind]
            exact ih _ _ h
    · next hlt => rw [if_neg hlt]; cases h; exact ⟨n, rfl⟩

theorem next_const (f : SpatialFilter B Q) (borrow : K → Q) {s s' : TreeIter B K V} {r : Option (K × V)} (n : Nat)
    (h : RTree.TreeIter.next borrow f s = .ok (r, s')) : ∃ n', next (fun _ => some f) borrow s n = (.ok r, s', n') := by
  unfold next
  rw [self_bind]
  exact nextLoop_const f borrow _ _ n h

/-- Calling `next` until the end. -/
theorem nexts_const (f : SpatialFilter B Q) (borrow : K → Q) (k : Nat) {s : TreeIter B K V} {es : List (K × V)} (n : Nat)
    (h : RTree.TreeIter.collectLoop borrow f k s = .ok es) : ∃ s' n', nexts (fun _ => some f) borrow (es.length + 1) s n = (.ok (es.map (fun e => .ok (some e)) ++ [.ok none]), s', n') := by
  induction k generalizing s es n with
  | zero => cases h
  | succ k ih =>
    rw [RTree.TreeIter.collectLoop] at h
    obtain ⟨⟨r, s₁⟩, h1, h⟩ := bind_eq_ok.1 h
    obtain ⟨n₁, h2⟩ := next_const f borrow n h1
    cases r with
    | none =>
      cases h
      refine ⟨s₁, n₁, ?_⟩
      show nexts (fun _ => some f) borrow 1 s n = _
      rw [nexts, bind_ok' (catching_apply h2)]; rfl
    | some e =>
      obtain ⟨es', h3, h⟩ := bind_eq_ok.1 h
      cases h
      obtain ⟨s', n', h4⟩ := ih n₁ h3
      refine ⟨s', n', ?_⟩
      show nexts (fun _ => some f) borrow (es'.length + 1 + 1) s n = _
      rw [nexts, bind_ok' (catching_apply h2), bind_ok' h4]; rfl

end TreeIter

theorem filter_iter_of_shape {t : Tree B K V} (hsh : Shape t.level t.root) (code : Nat → Option (SpatialFilter B Q)) (borrow : K → Q) (s₀ : TreeIter B K V) :
    match code 0 with
    | none => TreeIter.newFilter code t.level t.root s₀ 0 = (.error .user, s₀, 1)
    | some f => ∃ s, TreeIter.newFilter code t.level t.root s₀ 0 = (.ok (), s, 1) ∧
        ∀ k, ∃ outs s' n', TreeIter.nexts code borrow k s 1 = (.ok outs, s', n') ∧ outs.length = k ∧
          Story (iterQuery borrow t.nodes) code 1 (if f.testBounds t.root.bounds then t.entries else []) outs := by
  cases hc : code 0 with
  | none =>
    have : ask code s₀ 0 = (.error .user, s₀, 1) := by rw [ask, hc]
    exact bind_error' this
  | some f =>
    have h0 : ask code s₀ 0 = (.ok f, s₀, 1) := by rw [ask, hc]
    dsimp only
    cases hb : f.testBounds t.root.bounds with
    | false =>
      refine ⟨RTree.TreeIter.newEmpty, ?_, fun k => ⟨_, _, _, TreeIter.nexts_empty k 1, by simp, ?_⟩⟩
      · rw [TreeIter.newFilter, bind_ok' h0, hb]; rfl
      · exact TreeIter.story_nil k 1
    | true =>
      obtain ⟨es, css, h1, h2, h3, h4, h5⟩ : ∃ es css, RTree.TreeIter.new t.level t.root = .ok (IterStack.newBox es css) ∧ RTree.TreeIter.Typed 0 css ∧
          css.length = t.level ∧ todo es css = t.entries ∧ (∀ cs ∈ css, ∀ d ∈ cs, d ∈ t.nodes) := by
        have key : ∀ (l : Nat) (r : Node B K V), Shape l r → ∃ es css, RTree.TreeIter.new l r = .ok (IterStack.newBox es css) ∧ RTree.TreeIter.Typed 0 css ∧
          css.length = l ∧ todo es css = r.entries ∧ (∀ cs ∈ css, ∀ d ∈ cs, d ∈ r.descendants) := by
          intro l r hr
          cases l with
          | zero =>
            obtain ⟨b, es, rfl⟩ := hr.leaf
            exact ⟨es, [], rfl, trivial, rfl, by simp [todo, Node.entries], fun _ h => by cases h⟩
          | succ l =>
            obtain ⟨b, cs, rfl, hcs⟩ := hr.inner
            refine ⟨[], List.replicate l [] ++ [cs], ?_, ?_, by simp, ?_, ?_⟩
            · have := IterStack.setInner_newBox ([] : List (K × V)) (List.replicate l []) [] ([] : List (Node B K V)) cs
              simp only [List.length_replicate] at this
              simp only [RTree.TreeIter.new, Node.innerChildren, ok_bind]
              rw [← this, ← List.replicate_succ']
            · rw [RTree.TreeIter.typed_replicate]; exact ⟨by simpa using hcs, trivial⟩
            · rw [TreeIter.todo_empty, Node.entries]; simp
            · intro ds hds d hd
              rcases List.mem_append.1 hds with hds | hds
              · rw [(List.mem_replicate.1 hds).2] at hd; cases hd
              · rw [List.mem_singleton.1 hds] at hd
                rw [Node.descendants]
                exact mem_descendantsList hd List.mem_cons_self
        obtain ⟨es, css, h1, h2, h3, h4, h5⟩ := key t.level t.root hsh
        exact ⟨es, css, h1, h2, h3, h4, fun cs hcs d hd => List.mem_cons_of_mem _ (h5 cs hcs d hd)⟩
      refine ⟨IterStack.newBox es css, ?_, fun k => ?_⟩
      · rw [TreeIter.newFilter, bind_ok' h0, hb]
        show (own (RTree.TreeIter.new t.level t.root) >>= put) s₀ 1 = _
        rw [h1]; rfl
      · obtain ⟨outs, s', n', h6, h7, h8⟩ := TreeIter.nexts_spec (code := code) (borrow := borrow) (closed_nodes t) k h2 h5 1 (es := es)
        refine ⟨outs, s', n', h6, h7, ?_⟩
        rw [h4] at h8
        exact h8

theorem sublist_of_shape {t : Tree B K V} (hsh : Shape t.level t.root) (code : Nat → Option (SpatialFilter B Q)) (borrow : K → Q) {s₀ s s' : TreeIter B K V} {n n' k : Nat}
    {outs : List (Except Stop (Option (K × V)))} (hs : TreeIter.newFilter code t.level t.root s₀ 0 = (.ok (), s, n))
    (hk : TreeIter.nexts code borrow k s n = (.ok outs, s', n')) : (yields outs).Sublist t.entries ∧ ∀ p, .error (.own p) ∉ outs := by
  have key := filter_iter_of_shape hsh code borrow s₀
  cases hc : code 0 with
  | none => rw [hc] at key; rw [key] at hs; cases hs
  | some f =>
    rw [hc] at key
    obtain ⟨s₁, h1, h2⟩ := key
    rw [h1] at hs
    cases hs
    obtain ⟨outs', s'', n'', h3, -, h4⟩ := h2 k
    rw [hk] at h3
    cases h3
    refine ⟨h4.sublist.trans ?_, h4.no_own⟩
    split
    · exact List.Sublist.refl _
    · exact List.nil_sublist _

end RTree.Calls
