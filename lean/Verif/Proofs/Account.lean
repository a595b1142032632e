import Verif.AccountSpec
import Verif.Proofs.CallsJoin
/-! The exact account of the questions asked by iterators. -/

namespace RTree.Calls

section Generic

variable {F E S α I : Type} {code : Nat → Option F}

theorem account_append (ps qs : List (Plan F E)) (n : Nat) : account code (ps ++ qs) n =
    ((account code ps n).1 ++ (account code qs (account code ps n).2).1, (account code qs (account code ps n).2).2) := by
  induction ps generalizing n with
  | nil => rfl
  | cons p ps ih => simp only [List.cons_append, account, ih, List.append_assoc]

theorem account_append_of_nil {ps qs : List (Plan F E)} {n m : Nat} (h : account code ps n = ([], m)) :
    account code (ps ++ qs) n = account code qs m := by
  rw [account_append, h]; rfl

theorem account_node {test : F → Bool} {below ps : List (Plan F E)} {n : Nat} {f : F} (hc : code n = some f) (ht : test f = true) :
    account code (.node test below :: ps) n = account code (below ++ ps) (n + 1) := by
  rw [account_append, account, Plan.account, hc]
  simp [ht]

theorem account_entry {test : F → Bool} {e : E} {ps : List (Plan F E)} {n : Nat} {f : F} (hc : code n = some f) (ht : test f = true) :
    account code (.entry test e :: ps) n = ((n, .ok e) :: (account code ps (n + 1)).1, (account code ps (n + 1)).2) := by
  rw [account, Plan.account, hc]
  simp [ht]

theorem account_entry_none {test : F → Bool} {e : E} {ps : List (Plan F E)} {n : Nat} (hc : code n = none) :
    account code (.entry test e :: ps) n = ((n, .error .user) :: (account code ps (n + 1)).1, (account code ps (n + 1)).2) := by
  rw [account, Plan.account, hc]; rfl

theorem account_node_none {test : F → Bool} {below ps : List (Plan F E)} {n : Nat} (hc : code n = none) :
    account code (.node test below :: ps) n = ((n, .error .user) :: (account code ps (n + 1)).1, (account code ps (n + 1)).2) := by
  rw [account, Plan.account, hc]; rfl

/-- All of these are turned down, by the calls from `n` on. -/
def Rejected (code : Nat → Option F) (test : F → α → Bool) : List α → Nat → Prop
  | [], _ => True
  | a :: as, n => (∃ f, code n = some f ∧ test f a = false) ∧ Rejected code test as (n + 1)

theorem account_rejected {test : F → α → Bool} {pl : α → Plan F E}
    (hpl : (∃ mk : α → E, ∀ a, pl a = .entry (fun f => test f a) (mk a)) ∨ ∃ mk : α → List (Plan F E), ∀ a, pl a = .node (fun f => test f a) (mk a))
    {as : List α} {n : Nat} (h : Rejected code test as n) : account code (as.map pl) n = ([], n + as.length) := by
  induction as generalizing n with
  | nil => rfl
  | cons a as ih =>
    obtain ⟨⟨f, hc, ht⟩, h⟩ := h
    have h1 : (pl a).account code n = ([], n + 1) := by
      rcases hpl with ⟨mk, hm⟩ | ⟨mk, hm⟩ <;> rw [hm, Plan.account, hc] <;> simp [ht]
    rw [List.map_cons, account, h1, ih h]
    simp only [List.length_cons, List.nil_append, Prod.mk.injEq, true_and]
    omega

/-- How `find` ends, exactly: it turned down `pre`. -/
def FindEnd (code : Nat → Option F) (test : F → α → Bool) (n : Nat) (as pre : List α) (r : Except Stop (Option α)) (as' : List α) (n' : Nat) : Prop :=
  match r with
  | .ok none => as = pre ∧ as' = [] ∧ n' = n + pre.length
  | .ok (some a) => as = pre ++ a :: as' ∧ n' = n + pre.length + 1 ∧ ∃ f, code (n + pre.length) = some f ∧ test f a = true
  | .error .user => (∃ a, as = pre ++ a :: as') ∧ n' = n + pre.length + 1 ∧ code (n + pre.length) = none
  | .error (.own _) => False

theorem FindEnd.cons {test : F → α → Bool} {n n' : Nat} {as pre as' : List α} {r} (a : α) (h : FindEnd code test (n + 1) as pre r as' n') :
    FindEnd code test n (a :: as) (a :: pre) r as' n' := by
  have e : n + (a :: pre).length = n + 1 + pre.length := by simp; omega
  match r, h with
  | .ok none, h => exact ⟨by rw [h.1], h.2.1, by rw [e]; exact h.2.2⟩
  | .ok (some _), h => exact ⟨by rw [h.1]; rfl, by rw [e]; exact h.2.1, by rw [e]; exact h.2.2⟩
  | .error .user, h => exact ⟨h.1.imp fun _ h => by rw [h]; rfl, by rw [e]; exact h.2.1, by rw [e]; exact h.2.2⟩

theorem FindEnd.sub {test : F → α → Bool} {n n' : Nat} {as pre as' : List α} {r} (h : FindEnd code test n as pre r as' n') :
    (∀ c ∈ pre, c ∈ as) ∧ ∀ c ∈ as', c ∈ as := by
  match r, h with
  | .error .user, ⟨⟨a, h6⟩, _⟩ => rw [h6]; exact ⟨fun c hc => by simp [hc], fun c hc => by simp [hc]⟩
  | .ok (some a), ⟨h5, _⟩ => rw [h5]; exact ⟨fun c hc => by simp [hc], fun c hc => by simp [hc]⟩
  | .ok none, ⟨h5, h6, _⟩ => rw [h5, h6]; exact ⟨fun c hc => hc, fun c hc => by cases hc⟩

theorem search_account (code : Nat → Option F) (test : F → α → Bool) (as : List α) (s : S) (n : Nat) :
    ∃ r as' n', search code test as s n = (.ok (r, as'), s, n') ∧ ∃ pre, Rejected code test pre n ∧ FindEnd code test n as pre r as' n' := by
  induction as generalizing n with
  | nil => exact ⟨.ok none, [], n, rfl, [], trivial, rfl, rfl, rfl⟩
  | cons a as ih =>
    rw [search]
    cases hc : code n with
    | none =>
      have h1 : catching (ask code) s n = (.ok (.error .user), s, n + 1) := catching_apply (by rw [ask, hc])
      exact ⟨.error .user, as, n + 1, by rw [bind_ok' h1]; rfl, [], trivial, ⟨a, rfl⟩, rfl, hc⟩
    | some f =>
      have h1 : catching (ask code) s n = (.ok (.ok f), s, n + 1) := catching_apply (by rw [ask, hc])
      cases ht : test f a with
      | true =>
        refine ⟨.ok (some a), as, n + 1, ?_, [], trivial, rfl, rfl, f, hc, ht⟩
        rw [bind_ok' h1]
        show (if test f a = true then _ else _ : M S _) s (n + 1) = _
        rw [if_pos ht]; rfl
      | false =>
        obtain ⟨r, as', n', h2, pre, h3, h4⟩ := ih (n + 1)
        refine ⟨r, as', n', ?_, a :: pre, ⟨⟨f, hc, ht⟩, h3⟩, h4.cons a⟩
        rw [bind_ok' h1]
        show (if test f a = true then _ else _ : M S _) s (n + 1) = _
        rw [if_neg (by simp [ht])]; exact h2

theorem searchBy_account (code : Nat → Option F) (test : F → α → Bool) (next : I → Option α × I) (rest : I → List α) (Wf : I → Prop)
    (hnext : ∀ it, Wf it → (rest it = [] ∧ next it = (none, it)) ∨ ∃ x it', next it = (some x, it') ∧ rest it = x :: rest it' ∧ Wf it')
    (k : Nat) {it : I} (hw : Wf it) (hk : (rest it).length < k) (s : S) (n : Nat) :
    ∃ r it' n', searchBy code test next k it s n = (.ok (r, it'), s, n') ∧ Wf it' ∧
      ∃ pre, Rejected code test pre n ∧ FindEnd code test n (rest it) pre r (rest it') n' := by
  induction k generalizing it n with
  | zero => omega
  | succ k ih =>
    rw [searchBy]
    rcases hnext it hw with ⟨g1, hx⟩ | ⟨a, it₁, hx, g2, g1⟩
    · rw [hx]
      exact ⟨.ok none, it, n, rfl, hw, [], trivial, g1, g1, rfl⟩
    · rw [hx]
      dsimp only
      cases hc : code n with
      | none =>
        have h1 : catching (ask code) s n = (.ok (.error .user), s, n + 1) := catching_apply (by rw [ask, hc])
        exact ⟨.error .user, it₁, n + 1, by rw [bind_ok' h1]; rfl, g1, [], trivial, ⟨a, g2⟩, rfl, hc⟩
      | some f =>
        have h1 : catching (ask code) s n = (.ok (.ok f), s, n + 1) := catching_apply (by rw [ask, hc])
        cases ht : test f a with
        | true =>
          refine ⟨.ok (some a), it₁, n + 1, ?_, g1, [], trivial, g2, rfl, f, hc, ht⟩
          rw [bind_ok' h1]
          show (if test f a = true then _ else _ : M S _) s (n + 1) = _
          rw [if_pos ht]; rfl
        | false =>
          rw [g2, List.length_cons] at hk
          obtain ⟨r, it', n', h2, hw', pre, h3, h4⟩ := ih g1 (by omega) (n + 1)
          refine ⟨r, it', n', ?_, hw', a :: pre, ⟨⟨f, hc, ht⟩, h3⟩, ?_⟩
          · rw [bind_ok' h1]
            show (if test f a = true then _ else _ : M S _) s (n + 1) = _
            rw [if_neg (by simp [ht])]; exact h2
          · rw [g2]; exact h4.cons a

/-- One call of `next`: what remains of the account. -/
def Next (acc : List (Nat × Except Stop E) × Nat) (out : Except Stop (Option E)) (n' : Nat) (acc' : List (Nat × Except Stop E) × Nat) : Prop :=
  match acc with
  | ([], m) => out = .ok none ∧ n' = m ∧ acc' = ([], m)
  | ((m, o) :: rest, last) => out = outcome o ∧ n' = m + 1 ∧ acc' = (rest, last)

theorem Next.played {acc acc' : List (Nat × Except Stop E) × Nat} {out} {n' : Nat} (h : Next acc out n' acc') (k n : Nat) :
    Calls.played (k + 1) n acc = (out :: (Calls.played k n' acc').1, (Calls.played k n' acc').2) := by
  obtain ⟨l, m⟩ := acc
  match l, h with
  | [], ⟨h1, h2, h3⟩ => rw [h1, h2, h3]; rfl
  | (_, _) :: _, ⟨h1, h2, h3⟩ => rw [h1, h2, h3]; rfl

theorem played_end (k m : Nat) : Calls.played (E := E) k m ([], m) = (List.replicate k (.ok none), m) := by
  induction k with
  | zero => rfl
  | succ k ih => rw [Calls.played]; simp only [ih]; rfl

end Generic

variable {B K V Q : Type}

theorem planList_eq (borrow : K → Q) (cs : List (Node B K V)) :
    planList borrow cs = cs.map fun c => .node (fun f => f.testBounds c.bounds) (c.plan borrow) := by
  induction cs with
  | nil => rfl
  | cons c cs ih => rw [planList, ih]; rfl

theorem planList_append (borrow : K → Q) (as bs : List (Node B K V)) : planList borrow (as ++ bs) = planList borrow as ++ planList borrow bs := by
  simp [planList_eq]

/-- The plan of the entries of a leaf. -/
def leafPlan (borrow : K → Q) (es : List (K × V)) : List (Plan (SpatialFilter B Q) (K × V)) :=
  es.map fun e => .entry (fun f => f.testKey (borrow e.1)) e

/-- The plan of what the stack can still yield. -/
def stackPlan (borrow : K → Q) (es : List (K × V)) (css : List (List (Node B K V))) : List (Plan (SpatialFilter B Q) (K × V)) :=
  leafPlan borrow es ++ css.flatMap (planList borrow)

theorem stackPlan_empty (borrow : K → Q) (l : Nat) (rest : List (List (Node B K V))) :
    stackPlan borrow [] (List.replicate l [] ++ rest) = rest.flatMap (planList borrow) := by
  simp [stackPlan, leafPlan, List.flatMap_replicate, planList]

variable {code : Nat → Option (SpatialFilter B Q)} {borrow : K → Q}

namespace TreeIter

open IterStack RTree.TreeIter

/-- Outcome of `next`. -/
def Told (code : Nat → Option (SpatialFilter B Q)) (borrow : K → Q) (len : Nat) (acc : List (Nat × Except Stop (K × V)) × Nat)
    (x : Except Stop (Option (K × V)) × TreeIter B K V × Nat) : Prop :=
  ∃ es' css', x.2.1 = newBox es' css' ∧ css'.length = len ∧ Typed 0 css' ∧ Next acc x.1 x.2.2 (account code (stackPlan borrow es' css') x.2.2)

theorem nextLoop_account (fuel : Nat) :
    (∀ (es : List (K × V)) (css : List (List (Node B K V))) (n : Nat), Typed 0 css →
      (es.length + (css.map weightList).sum) * (css.length + 2) + (css.length + 1) ≤ fuel →
      Told code borrow css.length (account code (stackPlan borrow es css) n) (nextLoop code borrow fuel 0 (newBox es css) n)) ∧
    (∀ (l : Nat) (rest : List (List (Node B K V))) (n : Nat), Typed l rest →
      (rest.map weightList).sum * (l + rest.length + 2) + rest.length ≤ fuel →
      Told code borrow (l + rest.length) (account code (rest.flatMap (planList borrow)) n)
        (nextLoop code borrow fuel (l + 1) (newBox [] (List.replicate l [] ++ rest)) n)) := by
  have typed0 : ∀ l, Typed 0 (List.replicate l ([] : List (Node B K V))) := fun l => by
    have := (typed_replicate (off := 0) (l := l) (rest := ([] : List (List (Node B K V))))).2 (by simp [Typed])
    simpa using this
  have stop : ∀ fuel l n, Told code borrow (l + 0) (account code (([] : List (List (Node B K V))).flatMap (planList borrow)) n)
      (nextLoop code borrow fuel (l + 1) (newBox [] (List.replicate l [] ++ [])) n) := by
    intro fuel l n
    have e : nextLoop code borrow fuel (l + 1) (newBox ([] : List (K × V)) (List.replicate l [] ++ [])) n = (.ok none, newBox [] (List.replicate l []), n) := by
      unfold nextLoop; rw [self_bind, if_neg (by simp)]; simp [pure_apply]
    rw [e]
    refine ⟨[], List.replicate l [], rfl, by simp, typed0 l, ?_⟩
    have := stackPlan_empty (B := B) (V := V) borrow l []
    rw [List.append_nil] at this
    rw [this]
    exact ⟨rfl, rfl, rfl⟩
  induction fuel with
  | zero =>
    refine ⟨fun es css n _ h => by omega, ?_⟩
    intro l rest n ht h
    have hr : rest = [] := List.length_eq_zero_iff.1 (by omega)
    subst hr
    exact stop 0 l n
  | succ fuel ih =>
    obtain ⟨ih0, ih1⟩ := ih
    refine ⟨?_, ?_⟩
    · intro es css n ht hf
      obtain ⟨r, es', n', h1, pre, h2, h3⟩ := search_account (S := TreeIter B K V) code (fun f (e : K × V) => f.testKey (borrow e.1)) es (newBox es css) n
      have hpre : account code (leafPlan borrow pre) n = ([], n + pre.length) := account_rejected (.inl ⟨id, fun _ => rfl⟩) h2
      unfold nextLoop
      rw [self_bind, if_pos (by simp)]
      dsimp only
      rw [getLeaf_newBox, own_bind, bind_ok' h1]
      dsimp only
      rw [setLeaf_newBox, own_bind, put_bind]
      have hacc : ∀ a, es = pre ++ a :: es' → account code (stackPlan borrow es css) n =
          account code (.entry (fun f => f.testKey (borrow a.1)) a :: stackPlan borrow es' css) (n + pre.length) := by
        intro a h
        rw [← account_append_of_nil hpre, stackPlan, h]
        simp [leafPlan, stackPlan]
      match r, h3 with
      | .error .user, ⟨⟨a, h4⟩, h5, h6⟩ =>
        rw [raise_error_bind]
        refine ⟨es', css, rfl, rfl, ht, ?_⟩
        rw [hacc a h4, account_entry_none h6, h5]
        exact ⟨rfl, rfl, rfl⟩
      | .ok (some a), ⟨h4, h5, f, h6, h7⟩ =>
        rw [raise_ok_bind]
        refine ⟨es', css, rfl, rfl, ht, ?_⟩
        rw [hacc a h4, account_entry h6 h7, h5]
        exact ⟨rfl, rfl, rfl⟩
      | .ok none, ⟨h4, h5, h6⟩ =>
        subst h4 h5
        rw [raise_ok_bind]
        have hle : (css.map weightList).sum * (css.length + 2) ≤ (es.length + (css.map weightList).sum) * (css.length + 2) := Nat.mul_le_mul_right _ (by omega)
        have h := ih1 0 css n' ht (by simp; omega)
        simp only [List.replicate_zero, List.nil_append, Nat.zero_add] at h
        rw [stackPlan, account_append_of_nil hpre, ← h6]
        exact h
    · intro l rest n ht hf
      cases rest with
      | nil => exact stop _ l n
      | cons it hi =>
        obtain ⟨r, it', n', h1, pre, h2, h3⟩ := search_account (S := TreeIter B K V) code (fun f (c : Node B K V) => f.testBounds c.bounds) it
          (newBox [] (List.replicate l [] ++ it :: hi)) n
        obtain ⟨hsub1, hsub2⟩ := h3.sub
        have hpre : account code (planList borrow pre) n = ([], n + pre.length) := by
          rw [planList_eq]
          exact account_rejected (.inr ⟨fun c => c.plan borrow, fun _ => rfl⟩) h2
        have hacc : ∀ a, it = pre ++ a :: it' → account code ((it :: hi).flatMap (planList borrow)) n =
            account code (.node (fun f => f.testBounds a.bounds) (a.plan borrow) :: (it' :: hi).flatMap (planList borrow)) (n + pre.length) := by
          intro a h
          rw [← account_append_of_nil hpre, List.flatMap_cons, h, planList_append]
          simp [planList]
        unfold nextLoop
        rw [self_bind, if_pos (by simp)]
        have hg : getInner (newBox ([] : List (K × V)) (List.replicate l [] ++ it :: hi)) l = .ok it := by
          have := getInner_newBox ([] : List (K × V)) (List.replicate l []) hi it
          simpa using this
        have hs : ∀ it', setInner (newBox ([] : List (K × V)) (List.replicate l [] ++ it :: hi)) l it' = .ok (newBox [] (List.replicate l [] ++ it' :: hi)) := by
          intro it'
          have := setInner_newBox ([] : List (K × V)) (List.replicate l []) hi it it'
          simpa using this
        dsimp only
        rw [hg, own_bind, bind_ok' h1]
        dsimp only
        rw [hs, own_bind, put_bind]
        simp only [List.map_cons, List.sum_cons, List.length_cons] at hf
        have htl : Typed (l + 1) hi := ht.2
        match r, h3 with
        | .error .user, ⟨⟨a, h4⟩, h5, h6⟩ =>
          rw [raise_error_bind]
          refine ⟨[], _, rfl, by simp, ?_, ?_⟩
          · rw [typed_replicate, Nat.zero_add]
            exact ⟨fun c hc => ht.1 c (hsub2 c hc), htl⟩
          · rw [hacc a h4, account_node_none h6, h5]
            dsimp only
            rw [stackPlan_empty]
            exact ⟨rfl, rfl, rfl⟩
        | .ok none, ⟨h4, h5, h6⟩ =>
          subst h4 h5
          rw [raise_ok_bind]
          dsimp only
          have heq : List.replicate l ([] : List (Node B K V)) ++ [] :: hi = List.replicate (l + 1) [] ++ hi := by
            rw [List.replicate_succ', List.append_assoc]; rfl
          rw [heq]
          have h := ih1 (l + 1) hi n' ht.2 (by
            rw [Nat.add_mul] at hf
            have h0 : l + 1 + hi.length + 2 = l + (hi.length + 1) + 2 := by omega
            rw [h0]; omega)
          rw [List.flatMap_cons, account_append_of_nil hpre, ← h6, List.length_cons, show l + (hi.length + 1) = l + 1 + hi.length by omega]
          exact h
        | .ok (some a), ⟨h5, h4, f, h6, h7⟩ =>
          rw [raise_ok_bind]
          dsimp only
          have hsa : Shape l a := ht.1 a (by simp [h5])
          have hsp : ∀ c ∈ it', Shape l c := fun c hc => ht.1 c (hsub2 c hc)
          have hw : weightList it = weightList pre + (a.weight + weightList it') := by
            rw [h5, weightList_append]; simp [weightList]
          rw [hacc a h5, account_node h6 h7, ← h4]
          rw [Nat.add_mul] at hf
          cases l with
          | zero =>
            obtain ⟨b, es, rfl⟩ := hsa.leaf
            simp only [List.replicate_zero, List.nil_append]
            rw [Node.leafChildren, own_bind, setLeaf_newBox, own_bind, put_bind]
            have h := ih0 es (it' :: hi) n' ⟨hsp, htl⟩ (by
              simp only [List.map_cons, List.sum_cons, List.length_cons]
              have h5 : es.length + (weightList it' + (hi.map weightList).sum) + 1 ≤ weightList it + (hi.map weightList).sum := by
                rw [hw]; simp [Node.weight]; omega
              have h6 := Nat.mul_le_mul_right (hi.length + 1 + 2) h5
              rw [Nat.add_mul _ 1, Nat.add_mul (weightList it)] at h6
              simp only [Nat.zero_add] at hf
              omega)
            have e : 0 + (it :: hi).length = (it' :: hi).length := by simp
            rw [e, Node.plan]
            exact h
          | succ l' =>
            obtain ⟨b, cs, rfl, hcs⟩ := hsa.inner
            have heq : ∀ x : List (Node B K V), List.replicate (l' + 1) ([] : List (Node B K V)) ++ x :: hi = List.replicate l' [] ++ [] :: x :: hi := by
              intro x; rw [List.replicate_succ', List.append_assoc]; rfl
            have hs' : setInner (newBox ([] : List (K × V)) (List.replicate l' [] ++ [] :: it' :: hi)) l' cs =
                .ok (newBox [] (List.replicate l' [] ++ cs :: it' :: hi)) := by
              have := setInner_newBox ([] : List (K × V)) (List.replicate l' []) (it' :: hi) [] cs
              simpa using this
            dsimp only
            rw [Node.innerChildren, own_bind, heq it', hs', own_bind, put_bind]
            have h := ih1 l' (cs :: it' :: hi) n' ⟨hcs, hsp, htl⟩ (by
              simp only [List.map_cons, List.sum_cons, List.length_cons]
              have h5 : weightList cs + (weightList it' + (hi.map weightList).sum) + 1 ≤ weightList it + (hi.map weightList).sum := by
                rw [hw]; simp [Node.weight]; omega
              have h0 : l' + (hi.length + 1 + 1) + 2 = l' + 1 + (hi.length + 1) + 2 := by omega
              rw [h0]
              have h6 := Nat.mul_le_mul_right (l' + 1 + (hi.length + 1) + 2) h5
              rw [Nat.add_mul _ 1, Nat.add_mul (weightList it)] at h6
              omega)
            rw [List.length_cons, show l' + 1 + (hi.length + 1) = l' + (cs :: it' :: hi).length by simp; omega, Node.plan]
            exact h

theorem next_account {es : List (K × V)} {css : List (List (Node B K V))} (ht : Typed 0 css) (n : Nat) :
    Told code borrow css.length (account code (stackPlan borrow es css) n) (next code borrow (newBox es css) n) := by
  unfold next
  rw [self_bind]
  refine (nextLoop_account _).1 es css n ht ?_
  rw [weight_newBox, length_newBox, Nat.add_mul (es.length + _) 1, Nat.one_mul, show css.length + 1 + 1 = css.length + 2 from rfl]
  omega

theorem nexts_account (k : Nat) {es : List (K × V)} {css : List (List (Node B K V))} (ht : Typed 0 css) (n : Nat) :
    ∃ s, nexts code borrow k (newBox es css) n =
      (.ok (played k n (account code (stackPlan borrow es css) n)).1, s, (played k n (account code (stackPlan borrow es css) n)).2) := by
  induction k generalizing es css n with
  | zero => exact ⟨_, rfl⟩
  | succ k ih =>
    have h := next_account (code := code) (borrow := borrow) (es := es) ht n
    rcases hx : next code borrow (newBox es css) n with ⟨r, s, n'⟩
    rw [hx] at h
    obtain ⟨es', css', h1, h2, h3, h4⟩ := h
    dsimp only at h1 h4
    subst h1
    obtain ⟨s', h6⟩ := ih (es := es') h3 n'
    refine ⟨s', ?_⟩
    rw [nexts, bind_ok' (catching_apply hx), bind_ok' h6, h4.played]; rfl

end TreeIter

/-- Making an iterator: its stack has the plan of the root. -/
theorem new_plan {l : Nat} {r : Node B K V} (hr : Shape l r) (borrow : K → Q) :
    ∃ es css, RTree.TreeIter.new l r = .ok (IterStack.newBox es css) ∧ RTree.TreeIter.Typed 0 css ∧ stackPlan borrow es css = r.plan borrow := by
  cases l with
  | zero =>
    obtain ⟨b, es, rfl⟩ := hr.leaf
    exact ⟨es, [], rfl, trivial, by simp [stackPlan, leafPlan, Node.plan]⟩
  | succ l =>
    obtain ⟨b, cs, rfl, hcs⟩ := hr.inner
    refine ⟨[], List.replicate l [] ++ [cs], ?_, ?_, ?_⟩
    · have := IterStack.setInner_newBox ([] : List (K × V)) (List.replicate l []) [] ([] : List (Node B K V)) cs
      simp only [List.length_replicate] at this
      simp only [RTree.TreeIter.new, Node.innerChildren, ok_bind]
      rw [← this, ← List.replicate_succ']
    · rw [RTree.TreeIter.typed_replicate]; exact ⟨by simpa using hcs, trivial⟩
    · rw [stackPlan_empty, Node.plan]; simp

theorem filter_iter_account {t : Tree B K V} (hsh : Shape t.level t.root) (code : Nat → Option (SpatialFilter B Q)) (borrow : K → Q) (s₀ : TreeIter B K V) :
    match code 0 with
    | none => TreeIter.newFilter code t.level t.root s₀ 0 = (.error .user, s₀, 1)
    | some f => ∃ s, TreeIter.newFilter code t.level t.root s₀ 0 = (.ok (), s, 1) ∧
        ∀ k, ∃ s', TreeIter.nexts code borrow k s 1 =
          (.ok (played k 1 (account code (if f.testBounds t.root.bounds then t.root.plan borrow else []) 1)).1, s',
            (played k 1 (account code (if f.testBounds t.root.bounds then t.root.plan borrow else []) 1)).2) := by
  cases hc : code 0 with
  | none =>
    have : ask code s₀ 0 = (.error .user, s₀, 1) := by rw [ask, hc]
    exact bind_error' this
  | some f =>
    have h0 : ask code s₀ 0 = (.ok f, s₀, 1) := by rw [ask, hc]
    dsimp only
    cases hb : f.testBounds t.root.bounds with
    | false =>
      refine ⟨RTree.TreeIter.newEmpty, ?_, fun k => ⟨RTree.TreeIter.newEmpty, ?_⟩⟩
      · rw [TreeIter.newFilter, bind_ok' h0, hb]; rfl
      · rw [TreeIter.nexts_empty]
        have : account code (if false = true then t.root.plan borrow else []) 1 = ([], 1) := rfl
        rw [this, played_end]
    | true =>
      obtain ⟨es, css, h1, h2, h3⟩ := new_plan hsh borrow
      refine ⟨IterStack.newBox es css, ?_, fun k => ?_⟩
      · rw [TreeIter.newFilter, bind_ok' h0, hb]
        show (own (RTree.TreeIter.new t.level t.root) >>= put) s₀ 1 = _
        rw [h1]; rfl
      · have := TreeIter.nexts_account (code := code) (borrow := borrow) k h2 1 (es := es)
        rw [h3] at this
        exact this

/-! ## Joins -/

variable {B0 B1 K0 K1 V0 V1 Q0 Q1 : Type} {p0 p1 : Nat}

namespace JoinIter

open IterStack RTree.JoinIter

/-- The plan of pairs of entries. -/
def pairPlan (borrow0 : K0 → Q0) (borrow1 : K1 → Q1) (xs : List ((K0 × V0) × (K1 × V1))) : List (Plan (JoinFilter B0 B1 Q0 Q1) ((K0 × V0) × (K1 × V1))) :=
  xs.map fun x => .entry (fun f => f.testKey (borrow0 x.1.1) (borrow1 x.2.1)) x

/-- The plan of pairs of nodes. -/
def nodesPlan (borrow0 : K0 → Q0) (borrow1 : K1 → Q1) (l : Nat) (xs : List (Node B0 K0 V0 × Node B1 K1 V1)) :
    List (Plan (JoinFilter B0 B1 Q0 Q1) ((K0 × V0) × (K1 × V1))) :=
  xs.map fun x => .node (fun f => f.testBounds x.1.bounds x.2.bounds) (joinPlan borrow0 borrow1 l x.1 x.2)

/-- The plan of the upper part of the stack. -/
def innerPlan (borrow0 : K0 → Q0) (borrow1 : K1 → Q1) : Nat → List (NodeIter B0 B1 K0 K1 V0 V1) → List (Plan (JoinFilter B0 B1 Q0 Q1) ((K0 × V0) × (K1 × V1)))
  | _, [] => []
  | l, it :: its => nodesPlan borrow0 borrow1 l it.rest ++ innerPlan borrow0 borrow1 (l + 1) its

theorem innerPlan_drained {borrow0 : K0 → Q0} {borrow1 : K1 → Q1} {off : Nat} {lo its : List (NodeIter B0 B1 K0 K1 V0 V1)} (h : Drained lo) :
    innerPlan borrow0 borrow1 off (lo ++ its) = innerPlan borrow0 borrow1 (off + lo.length) its := by
  induction lo generalizing off with
  | nil => rfl
  | cons it lo ih =>
    rw [List.cons_append, innerPlan, (h it List.mem_cons_self).2, ih fun x hx => h x (List.mem_cons_of_mem _ hx), List.length_cons]
    rw [show off + (lo.length + 1) = off + 1 + lo.length by omega]; rfl

theorem joinPlan_zero (borrow0 : K0 → Q0) (borrow1 : K1 → Q1) (n0 : Node B0 K0 V0) (n1 : Node B1 K1 V1) :
    joinPlan borrow0 borrow1 0 n0 n1 = pairPlan borrow0 borrow1 (pairs n0.entries n1.entries) := by
  simp [joinPlan, pairPlan, pairs, List.map_flatMap, Function.comp_def]

theorem descend_eq (n : Node B K V) : descend n = n.kids := by cases n <;> rfl

theorem joinPlan_succ (borrow0 : K0 → Q0) (borrow1 : K1 → Q1) (l : Nat) (n0 : Node B0 K0 V0) (n1 : Node B1 K1 V1) :
    joinPlan borrow0 borrow1 (l + 1) n0 n1 = nodesPlan borrow0 borrow1 l (pairs n0.kids n1.kids) := by
  simp [joinPlan, nodesPlan, pairs, List.map_flatMap, Function.comp_def, descend_eq]

/-- Outcome of `next`. -/
def Told (code : Nat → Option (JoinFilter B0 B1 Q0 Q1)) (borrow0 : K0 → Q0) (borrow1 : K1 → Q1) (p0 p1 len : Nat)
    (acc : List (Nat × Except Stop ((K0 × V0) × (K1 × V1))) × Nat)
    (x : Except Stop (Option ((K0 × V0) × (K1 × V1))) × JoinIter B0 B1 K0 K1 V0 V1 × Nat) : Prop :=
  ∃ lf its, x.2.1 = ⟨newBox lf its, p0, p1⟩ ∧ its.length = len ∧ lf.Wf ∧ Typed p0 p1 0 its ∧
    Next acc x.1 x.2.2 (account code (pairPlan borrow0 borrow1 lf.rest ++ innerPlan borrow0 borrow1 0 its) x.2.2)

variable {code : Nat → Option (JoinFilter B0 B1 Q0 Q1)} {borrow0 : K0 → Q0} {borrow1 : K1 → Q1}

theorem nextLoop_account (hp : p0 = 0 ∨ p1 = 0) (fuel : Nat) :
    (∀ (lf : ProductIter (K0 × V0) (K1 × V1)) (its : List (NodeIter B0 B1 K0 K1 V0 V1)) (n : Nat), lf.Wf → Typed p0 p1 0 its →
      (lf.rest.length + weightInner 0 its) * (its.length + 2) + (its.length + 1) ≤ fuel →
      Told code borrow0 borrow1 p0 p1 its.length (account code (pairPlan borrow0 borrow1 lf.rest ++ innerPlan borrow0 borrow1 0 its) n)
        (nextLoop code borrow0 borrow1 fuel 0 ⟨newBox lf its, p0, p1⟩ n)) ∧
    (∀ (lf : ProductIter (K0 × V0) (K1 × V1)) (lo rest : List (NodeIter B0 B1 K0 K1 V0 V1)) (n : Nat), lf.Wf → lf.rest = [] →
      Drained lo → Typed p0 p1 lo.length rest →
      weightInner lo.length rest * (lo.length + rest.length + 2) + rest.length ≤ fuel →
      Told code borrow0 borrow1 p0 p1 (lo.length + rest.length) (account code (innerPlan borrow0 borrow1 lo.length rest) n)
        (nextLoop code borrow0 borrow1 fuel (lo.length + 1) ⟨newBox lf (lo ++ rest), p0, p1⟩ n)) := by
  have stop : ∀ fuel (lf : ProductIter (K0 × V0) (K1 × V1)) (lo : List (NodeIter B0 B1 K0 K1 V0 V1)) n, lf.Wf → lf.rest = [] → Drained lo →
      Told code borrow0 borrow1 p0 p1 (lo.length + 0) ([], n) (nextLoop code borrow0 borrow1 fuel (lo.length + 1) ⟨newBox lf (lo ++ []), p0, p1⟩ n) := by
    intro fuel lf lo n hw hlf hlo
    have e : nextLoop code borrow0 borrow1 fuel (lo.length + 1) ⟨newBox lf (lo ++ []), p0, p1⟩ n = (.ok none, ⟨newBox lf lo, p0, p1⟩, n) := by
      unfold nextLoop; rw [self_bind, if_neg (by simp)]; simp [pure_apply]
    rw [e]
    refine ⟨lf, lo, rfl, rfl, hw, ?_, rfl, rfl, ?_⟩
    · have := (typed_drained (p0 := p0) (p1 := p1) (off := 0) (its := []) hlo).2 trivial
      simpa using this
    · have := innerPlan_drained (borrow0 := borrow0) (borrow1 := borrow1) (off := 0) (its := []) hlo
      rw [List.append_nil] at this
      rw [hlf, this]; rfl
  induction fuel with
  | zero =>
    refine ⟨fun es css n _ _ h => by omega, ?_⟩
    intro lf lo rest n hw hlf hlo ht h
    have hr : rest = [] := List.length_eq_zero_iff.1 (by omega)
    subst hr
    exact stop 0 lf lo n hw hlf hlo
  | succ fuel ih =>
    obtain ⟨ih0, ih1⟩ := ih
    refine ⟨?_, ?_⟩
    · intro lf its n hw ht hf
      have hll := lf.length_rest
      obtain ⟨r, lf', n', h1, hw', pre, h2, h3⟩ := searchBy_account (S := JoinIter B0 B1 K0 K1 V0 V1) code
        (fun f (x : (K0 × V0) × (K1 × V1)) => f.testKey (borrow0 x.1.1) (borrow1 x.2.1)) ProductIter.next ProductIter.rest ProductIter.Wf
        (fun it h => ProductIter.next_spec h) (lf.fst.slice.length * lf.snd.length + 1) hw (by omega) ⟨newBox lf its, p0, p1⟩ n
      have hpre : account code (pairPlan borrow0 borrow1 pre) n = ([], n + pre.length) := account_rejected (.inl ⟨id, fun _ => rfl⟩) h2
      have hacc : ∀ a, lf.rest = pre ++ a :: lf'.rest → account code (pairPlan borrow0 borrow1 lf.rest ++ innerPlan borrow0 borrow1 0 its) n =
          account code (.entry (fun f => f.testKey (borrow0 a.1.1) (borrow1 a.2.1)) a :: (pairPlan borrow0 borrow1 lf'.rest ++ innerPlan borrow0 borrow1 0 its))
            (n + pre.length) := by
        intro a h
        rw [← account_append_of_nil hpre, h]
        simp [pairPlan]
      unfold nextLoop
      rw [self_bind, if_pos (by simp)]
      dsimp only
      rw [getLeaf_newBox, own_bind, bind_ok' h1]
      dsimp only
      rw [setLeaf_newBox, own_bind, put_bind]
      match r, h3 with
      | .error .user, ⟨⟨a, h4⟩, h5, h6⟩ =>
        rw [raise_error_bind]
        refine ⟨lf', its, rfl, rfl, hw', ht, ?_⟩
        rw [hacc a h4, account_entry_none h6, h5]
        exact ⟨rfl, rfl, rfl⟩
      | .ok (some a), ⟨h4, h5, f, h6, h7⟩ =>
        rw [raise_ok_bind]
        refine ⟨lf', its, rfl, rfl, hw', ht, ?_⟩
        rw [hacc a h4, account_entry h6 h7, h5]
        exact ⟨rfl, rfl, rfl⟩
      | .ok none, ⟨h4, h5, h6⟩ =>
        rw [raise_ok_bind]
        have hle : weightInner 0 its * (its.length + 2) ≤ (lf.rest.length + weightInner 0 its) * (its.length + 2) := Nat.mul_le_mul_right _ (by omega)
        have h := ih1 lf' [] its n' hw' h5 (by intro x hx; cases hx) ht (by simp; omega)
        simp only [List.nil_append, List.length_nil, Nat.zero_add] at h
        rw [h4, account_append_of_nil hpre, ← h6]
        exact h
    · intro lf lo rest n hw hlf hlo ht hf
      cases rest with
      | nil => exact stop _ lf lo n hw hlf hlo
      | cons it hi =>
        obtain ⟨hit, hsh, hti⟩ := ht
        have hll := it.length_rest
        obtain ⟨r, it', n', h1, hw', pre, h2, h3⟩ := searchBy_account (S := JoinIter B0 B1 K0 K1 V0 V1) code
          (fun f (x : Node B0 K0 V0 × Node B1 K1 V1) => f.testBounds x.1.bounds x.2.bounds) ProductIter.next ProductIter.rest ProductIter.Wf
          (fun it h => ProductIter.next_spec h) (it.fst.slice.length * it.snd.length + 1) hit (by omega) ⟨newBox lf (lo ++ it :: hi), p0, p1⟩ n
        obtain ⟨hsub1, hsub2⟩ := h3.sub
        have hpre : account code (nodesPlan borrow0 borrow1 lo.length pre) n = ([], n + pre.length) :=
          account_rejected (.inr ⟨fun x : Node B0 K0 V0 × Node B1 K1 V1 => joinPlan borrow0 borrow1 lo.length x.1 x.2, fun _ => rfl⟩) h2
        have hacc : ∀ a, it.rest = pre ++ a :: it'.rest → account code (innerPlan borrow0 borrow1 lo.length (it :: hi)) n =
            account code (.node (fun f => f.testBounds a.1.bounds a.2.bounds) (joinPlan borrow0 borrow1 lo.length a.1 a.2) ::
              innerPlan borrow0 borrow1 lo.length (it' :: hi)) (n + pre.length) := by
          intro a h
          rw [← account_append_of_nil hpre, innerPlan, innerPlan, h]
          simp [nodesPlan]
        have hsp : ∀ c ∈ it'.rest, Shape (lo.length - p0) c.1 ∧ Shape (lo.length - p1) c.2 := fun c hc => hsh c (hsub2 c hc)
        unfold nextLoop
        rw [self_bind, if_pos (by simp)]
        dsimp only
        rw [getInner_newBox, own_bind, bind_ok' h1]
        dsimp only
        rw [setInner_newBox, own_bind, put_bind]
        simp only [weightInner, List.length_cons] at hf
        match r, h3 with
        | .error .user, ⟨⟨a, h4⟩, h5, h6⟩ =>
          rw [raise_error_bind]
          refine ⟨lf, _, rfl, by simp, hw, ?_, ?_⟩
          · rw [typed_drained hlo, Nat.zero_add]
            exact ⟨hw', hsp, hti⟩
          · rw [hacc a h4, account_node_none h6, h5]
            dsimp only
            rw [hlf, innerPlan_drained hlo, Nat.zero_add]
            exact ⟨rfl, rfl, rfl⟩
        | .ok none, ⟨h4, h5, h6⟩ =>
          rw [raise_ok_bind]
          dsimp only
          have heq : lo ++ it' :: hi = (lo ++ [it']) ++ hi := by simp
          have hlen : (lo ++ [it']).length = lo.length + 1 := by simp
          have h := ih1 lf (lo ++ [it']) hi n' hw hlf (hlo.snoc hw' h5) (by rw [hlen]; exact hti) (by
            rw [hlen]
            rw [Nat.add_mul] at hf
            have h0 : lo.length + 1 + hi.length + 2 = lo.length + (hi.length + 1) + 2 := by omega
            rw [h0]; omega)
          rw [hlen] at h
          rw [heq, innerPlan, h4, account_append_of_nil hpre, ← h6, List.length_cons, show lo.length + (hi.length + 1) = lo.length + 1 + hi.length by omega]
          exact h
        | .ok (some (n0, n1)), ⟨h5, h4, f, h6, h7⟩ =>
          rw [raise_ok_bind]
          dsimp only
          have hsa := hsh (n0, n1) (by simp [h5])
          have hwt : listWeight lo.length it.rest = listWeight lo.length pre + (joinWeight lo.length n0 n1 + listWeight lo.length it'.rest) := by
            rw [h5]; simp [listWeight]
          rw [hacc _ h5, account_node h6 h7, ← h4]
          rw [Nat.add_mul] at hf
          cases hlol : lo.length with
          | zero =>
            have hlo0 : lo = [] := List.length_eq_zero_iff.1 hlol
            subst hlo0
            simp only [hlol, Nat.zero_sub] at hsa hsp hf hwt ⊢
            obtain ⟨b, es, rfl⟩ := hsa.1.leaf
            obtain ⟨b', fs, rfl⟩ := hsa.2.leaf
            simp only [startJoin, Nat.max_self, Node.leafChildren, ok_bind, setLeaf_newBox, List.nil_append]
            rw [own_bind, put_bind]
            have hlr : (ProductIter.new es fs).rest.length = es.length * fs.length := by
              rw [ProductIter.rest_new, length_pairs]
            have hjw : joinWeight 0 (Node.leaf b es : Node B0 K0 V0) (Node.leaf b' fs : Node B1 K1 V1) =
              1 + es.length * fs.length := rfl
            have h := ih0 (ProductIter.new es fs) (it' :: hi) n' (ProductIter.wf_new _ _)
              ⟨hw', by simpa using hsp, hti⟩ (by
                rw [hlr]
                simp only [weightInner, List.length_cons]
                have h5 : es.length * fs.length + (listWeight 0 it'.rest + weightInner (0 + 1) hi) + 1 ≤
                    listWeight 0 it.rest + weightInner (0 + 1) hi := by omega
                have h6 := Nat.mul_le_mul_right (hi.length + 1 + 2) h5
                rw [Nat.add_mul _ 1, Nat.add_mul (listWeight 0 it.rest)] at h6
                simp only [Nat.zero_add] at hf h6 ⊢
                omega)
            rw [ProductIter.rest_new] at h
            rw [joinPlan_zero, Nat.zero_add]
            exact h
          | succ l' =>
            rw [hlol] at hsa hsp hf hwt
            obtain ⟨lo', last, rfl⟩ : ∃ lo' last, lo = lo' ++ [last] :=
              ⟨lo.dropLast, lo.getLast (by intro h; simp [h] at hlol), (List.dropLast_concat_getLast _).symm⟩
            have hl' : lo'.length = l' := by simpa using hlol
            have hmax : max (l' + 1 - p0) (l' + 1 - p1) = l' + 1 := by
              rcases hp with rfl | rfl <;> simp <;> omega
            simp only [startJoin, hmax, slice_ok hsa.1, slice_ok hsa.2, ok_bind]
            have heq : lo' ++ [last] ++ it' :: hi = lo' ++ last :: it' :: hi := by simp
            have hset := setInner_newBox lf lo' (it' :: hi) last (ProductIter.new n0.kids n1.kids)
            rw [hl'] at hset
            rw [heq, hset, own_bind, put_bind]
            have hlod : Drained lo' := fun x hx => hlo x (List.mem_append_left _ hx)
            have hkids : ∀ x ∈ (ProductIter.new n0.kids n1.kids).rest, Shape (l' - p0) x.1 ∧ Shape (l' - p1) x.2 := by
              intro x hx
              rw [ProductIter.rest_new, mem_pairs] at hx
              exact ⟨shape_kids hsa.1 _ hx.1, shape_kids hsa.2 _ hx.2⟩
            have hlw : listWeight l' (ProductIter.new n0.kids n1.kids).rest + 1 = joinWeight (l' + 1) n0 n1 := by
              rw [ProductIter.rest_new, joinWeight, listWeight, Nat.add_comm]
            have h := ih1 lf lo' (ProductIter.new n0.kids n1.kids :: it' :: hi) n' hw hlf hlod (by
                rw [hl']
                refine ⟨ProductIter.wf_new _ _, hkids, hw', hsp, ?_⟩
                rw [hlol] at hti; exact hti) (by
                rw [hl']
                simp only [weightInner, List.length_cons]
                have h5 : listWeight l' (ProductIter.new n0.kids n1.kids).rest + (listWeight (l' + 1) it'.rest +
                    weightInner (l' + 1 + 1) hi) + 1 ≤ listWeight (l' + 1) it.rest + weightInner (l' + 1 + 1) hi := by omega
                have h0 : l' + (hi.length + 1 + 1) + 2 = l' + 1 + (hi.length + 1) + 2 := by omega
                rw [h0]
                have h6 := Nat.mul_le_mul_right (l' + 1 + (hi.length + 1) + 2) h5
                rw [Nat.add_mul _ 1, Nat.add_mul (listWeight (l' + 1) it.rest)] at h6
                omega)
            rw [hl'] at h
            rw [show l' + (ProductIter.new n0.kids n1.kids :: it' :: hi).length = l' + 1 + (it :: hi).length by simp; omega] at h
            rw [joinPlan_succ]
            rw [innerPlan, ProductIter.rest_new] at h
            exact h

theorem next_account (hp : p0 = 0 ∨ p1 = 0) {lf : ProductIter (K0 × V0) (K1 × V1)} {its : List (NodeIter B0 B1 K0 K1 V0 V1)}
    (hw : lf.Wf) (ht : Typed p0 p1 0 its) (n : Nat) :
    Told code borrow0 borrow1 p0 p1 its.length (account code (pairPlan borrow0 borrow1 lf.rest ++ innerPlan borrow0 borrow1 0 its) n)
      (next code borrow0 borrow1 ⟨newBox lf its, p0, p1⟩ n) := by
  unfold next
  rw [self_bind]
  refine (nextLoop_account hp _).1 lf its n hw ht ?_
  have h2 := Nat.mul_le_mul_right (its.length + 2) (Nat.add_le_add_right (weight_newBox lf its) 1)
  rw [length_newBox, show its.length + 1 + 1 = its.length + 2 from rfl]
  rw [Nat.add_mul (lf.rest.length + _) 1, Nat.one_mul] at h2
  dsimp only
  omega

theorem nexts_account (hp : p0 = 0 ∨ p1 = 0) (k : Nat) {lf : ProductIter (K0 × V0) (K1 × V1)} {its : List (NodeIter B0 B1 K0 K1 V0 V1)}
    (hw : lf.Wf) (ht : Typed p0 p1 0 its) (n : Nat) :
    ∃ s, nexts code borrow0 borrow1 k ⟨newBox lf its, p0, p1⟩ n =
      (.ok (played k n (account code (pairPlan borrow0 borrow1 lf.rest ++ innerPlan borrow0 borrow1 0 its) n)).1, s,
        (played k n (account code (pairPlan borrow0 borrow1 lf.rest ++ innerPlan borrow0 borrow1 0 its) n)).2) := by
  induction k generalizing lf its n with
  | zero => exact ⟨_, rfl⟩
  | succ k ih =>
    have h := next_account (code := code) (borrow0 := borrow0) (borrow1 := borrow1) hp hw ht n
    rcases hx : next code borrow0 borrow1 ⟨newBox lf its, p0, p1⟩ n with ⟨r, s, n'⟩
    rw [hx] at h
    obtain ⟨lf', its', h1, h2, h3, h4, h5⟩ := h
    dsimp only at h1 h5
    subst h1
    obtain ⟨s', h6⟩ := ih h3 h4 n'
    refine ⟨s', ?_⟩
    rw [nexts, bind_ok' (catching_apply hx), bind_ok' h6, h5.played]; rfl

/-- What a new iterator looks like. -/
theorem start_plan {t0 : Tree B0 K0 V0} {t1 : Tree B1 K1 V1} (h0 : Shape t0.level t0.root) (h1 : Shape t1.level t1.root) (borrow0 : K0 → Q0) (borrow1 : K1 → Q1) :
    ∃ lf its, RTree.JoinIter.startJoin (IterStack.newBox (.new [] []) (List.replicate (max t0.level t1.level) (.new [] [])))
          t0.root t0.level t1.root t1.level = .ok (IterStack.newBox lf its) ∧ lf.Wf ∧
          RTree.JoinIter.Typed (max t0.level t1.level - t0.level) (max t0.level t1.level - t1.level) 0 its ∧
          pairPlan borrow0 borrow1 lf.rest ++ innerPlan borrow0 borrow1 0 its = joinPlan borrow0 borrow1 (max t0.level t1.level) t0.root t1.root := by
  have hp : max t0.level t1.level - t0.level = 0 ∨ max t0.level t1.level - t1.level = 0 := by omega
  have hl0 : t0.level = max t0.level t1.level - (max t0.level t1.level - t0.level) := by omega
  have hl1 : t1.level = max t0.level t1.level - (max t0.level t1.level - t1.level) := by omega
  generalize max t0.level t1.level - t0.level = p0 at hp hl0 ⊢
  generalize max t0.level t1.level - t1.level = p1 at hp hl1 ⊢
  unfold RTree.JoinIter.startJoin
  cases hm : max t0.level t1.level with
  | zero =>
    have e0 : t0.level = 0 := by omega
    have e1 : t1.level = 0 := by omega
    rw [e0] at h0
    rw [e1] at h1
    obtain ⟨b, es, hr0⟩ := h0.leaf
    obtain ⟨b', fs, hr1⟩ := h1.leaf
    refine ⟨.new es fs, [], by rw [hr0, hr1]; rfl, ProductIter.wf_new _ _, trivial, ?_⟩
    rw [hr0, hr1, ProductIter.rest_new, joinPlan_zero]
    simp [innerPlan, Node.entries]
  | succ l =>
    rw [hm] at hl0 hl1
    have hd : RTree.JoinIter.Drained (List.replicate l (ProductIter.new [] [] : RTree.JoinIter.NodeIter B0 B1 K0 K1 V0 V1)) := by
      intro x hx
      obtain rfl := List.eq_of_mem_replicate hx
      exact ⟨ProductIter.wf_new _ _, rfl⟩
    refine ⟨.new [] [], List.replicate l (.new [] []) ++ [ProductIter.new t0.root.kids t1.root.kids], ?_, ProductIter.wf_new _ _, ?_, ?_⟩
    · simp only [RTree.JoinIter.slice_ok h0, RTree.JoinIter.slice_ok h1, ok_bind]
      have hset := IterStack.setInner_newBox (ProductIter.new ([] : List (K0 × V0)) ([] : List (K1 × V1)))
        (List.replicate l (ProductIter.new [] [])) [] (ProductIter.new [] []) (ProductIter.new t0.root.kids t1.root.kids)
      rw [List.length_replicate] at hset
      rw [List.replicate_succ', hset]
    · rw [RTree.JoinIter.typed_drained hd, List.length_replicate, Nat.zero_add]
      refine ⟨ProductIter.wf_new _ _, ?_, trivial⟩
      intro x hx
      rw [ProductIter.rest_new, mem_pairs] at hx
      rw [hl0] at h0
      rw [hl1] at h1
      exact ⟨RTree.JoinIter.shape_kids h0 _ hx.1, RTree.JoinIter.shape_kids h1 _ hx.2⟩
    · rw [innerPlan_drained hd, List.length_replicate, Nat.zero_add, innerPlan, ProductIter.rest_new, ProductIter.rest_new, joinPlan_succ]
      simp [innerPlan, pairs, pairPlan]

end JoinIter

theorem join_account {t0 : Tree B0 K0 V0} {t1 : Tree B1 K1 V1} (h0 : Shape t0.level t0.root) (h1 : Shape t1.level t1.root)
    (code : Nat → Option (JoinFilter B0 B1 Q0 Q1)) (borrow0 : K0 → Q0) (borrow1 : K1 → Q1) (s₀ : JoinIter B0 B1 K0 K1 V0 V1) :
    match code 0 with
    | none => JoinIter.new code t0.root t0.level t1.root t1.level s₀ 0 = (.error .user, s₀, 1)
    | some f => ∃ s, JoinIter.new code t0.root t0.level t1.root t1.level s₀ 0 = (.ok (), s, 1) ∧
        ∀ k, ∃ s', JoinIter.nexts code borrow0 borrow1 k s 1 =
          (.ok (played k 1 (account code (if f.testBounds t0.root.bounds t1.root.bounds then
              joinPlan borrow0 borrow1 (max t0.level t1.level) t0.root t1.root else []) 1)).1, s',
            (played k 1 (account code (if f.testBounds t0.root.bounds t1.root.bounds then
              joinPlan borrow0 borrow1 (max t0.level t1.level) t0.root t1.root else []) 1)).2) := by
  cases hc : code 0 with
  | none =>
    have : ask code s₀ 0 = (.error .user, s₀, 1) := by rw [ask, hc]
    exact bind_error' this
  | some f =>
    have ha : ask code s₀ 0 = (.ok f, s₀, 1) := by rw [ask, hc]
    dsimp only
    cases hb : f.testBounds t0.root.bounds t1.root.bounds with
    | false =>
      refine ⟨⟨IterStack.emptyBox, 0, 0⟩, ?_, fun k => ⟨⟨IterStack.emptyBox, 0, 0⟩, ?_⟩⟩
      · rw [JoinIter.new, bind_ok' ha, hb]; rfl
      · rw [JoinIter.nexts_empty]
        have : account code (if false = true then joinPlan borrow0 borrow1 (max t0.level t1.level) t0.root t1.root else []) 1 = ([], 1) := rfl
        rw [this, played_end]
    | true =>
      have hp : max t0.level t1.level - t0.level = 0 ∨ max t0.level t1.level - t1.level = 0 := by omega
      obtain ⟨lf, its, g1, g2, g3, g4⟩ := JoinIter.start_plan h0 h1 borrow0 borrow1
      refine ⟨⟨IterStack.newBox lf its, max t0.level t1.level - t0.level, max t0.level t1.level - t1.level⟩, ?_, fun k => ?_⟩
      · rw [JoinIter.new, bind_ok' ha, hb]
        dsimp only
        show ((put _ >>= fun _ => own _ >>= fun stack => put _ : M _ _) s₀ 1 : _ × _ × _) = _
        rw [put_bind, g1, own_bind]; rfl
      · have := JoinIter.nexts_account (code := code) (borrow0 := borrow0) (borrow1 := borrow1) hp k g2 g3 1
        rw [g4] at this
        exact this

/-! ## The number of questions -/

section Number

variable {F E : Type}

mutual
theorem Plan.account_const (f : F) (p : Plan F E) (n : Nat) : (p.account (fun _ => some f) n).2 = n + p.tests f := by
  cases p with
  | entry test e => rw [Plan.account, Plan.tests]; dsimp only; split <;> rfl
  | node test below =>
    rw [Plan.account, Plan.tests]
    dsimp only
    split
    · rw [Calls.account_const f below]; omega
    · rfl
theorem account_const (f : F) (ps : List (Plan F E)) (n : Nat) : (account (fun _ => some f) ps n).2 = n + tests f ps := by
  cases ps with
  | nil => rfl
  | cons p ps => rw [account, tests, account_const f ps, Plan.account_const f p]; omega
end

/-- After the end everything has been asked. -/
theorem played_last {k n : Nat} {acc : List (Nat × Except Stop E) × Nat} (h : .ok none ∈ (played (k + 1) n acc).1) : (played (k + 1) n acc).2 = acc.2 := by
  obtain ⟨l, last⟩ := acc
  induction k generalizing n l with
  | zero =>
    match l with
    | [] => rfl
    | (m, o) :: rest =>
      simp only [played, List.mem_singleton] at h
      cases o <;> cases h
  | succ k ih =>
    match l with
    | [] =>
      rw [played]
      dsimp only
      rw [played_end]
    | (m, o) :: rest =>
      rw [played] at h ⊢
      simp only [List.mem_cons] at h
      rcases h with h | h
      · cases o <;> cases h
      · exact ih rest h

end Number

theorem tests_append {F E : Type} (f : F) (ps qs : List (Plan F E)) : tests f (ps ++ qs) = tests f ps + tests f qs := by
  induction ps with
  | nil => simp [tests]
  | cons p ps ih => simp only [List.cons_append, tests, ih]; omega

theorem tests_leafPlan (f : SpatialFilter B Q) (borrow : K → Q) (es : List (K × V)) :
    tests f (es.map fun e => (.entry (fun f => f.testKey (borrow e.1)) e : Plan (SpatialFilter B Q) (K × V))) = es.length := by
  induction es with
  | nil => rfl
  | cons e es ih => rw [List.map_cons, tests, ih, Plan.tests, List.length_cons]; omega

mutual
theorem tests_plan_le (f : SpatialFilter B Q) (borrow : K → Q) (n : Node B K V) : tests f (n.plan borrow) ≤ n.descendants.length + n.entries.length := by
  cases n with
  | leaf b es => rw [Node.plan, tests_leafPlan, Node.entries]; omega
  | inner b cs => rw [Node.plan, Node.descendants, Node.entries]; exact tests_planList_le f borrow cs
theorem tests_planList_le (f : SpatialFilter B Q) (borrow : K → Q) (cs : List (Node B K V)) :
    tests f (planList borrow cs) ≤ (descendantsList cs).length + (entriesList cs).length := by
  cases cs with
  | nil => exact Nat.le_refl _
  | cons c cs =>
    have h1 := tests_plan_le f borrow c
    have h2 := tests_planList_le f borrow cs
    rw [planList, tests, Plan.tests, descendantsList, entriesList, List.length_cons, List.length_append, List.length_append]
    split <;> omega
end

mutual
theorem tests_plan_pruned (f : SpatialFilter B Q) (borrow : K → Q) (M : Nat) (n : Node B K V) (hm : ∀ d ∈ n :: n.descendants, d.fanout ≤ M) :
    tests f (n.plan borrow) ≤ M * ((n.descendants.filter fun n => f.testBounds n.bounds).length + 1) := by
  have h0 := hm n List.mem_cons_self
  cases n with
  | leaf b es =>
    rw [Node.plan, tests_leafPlan]
    exact Nat.le_trans h0 (Nat.le_mul_of_pos_right _ (by omega))
  | inner b cs =>
    rw [Node.plan, Node.descendants]
    have h := tests_planList_pruned f borrow M cs (fun d hd => hm d (List.mem_cons_of_mem _ (by rw [Node.descendants]; exact hd)))
    rw [Nat.mul_add, Nat.mul_one]
    have : cs.length ≤ M := h0
    omega
theorem tests_planList_pruned (f : SpatialFilter B Q) (borrow : K → Q) (M : Nat) (cs : List (Node B K V)) (hm : ∀ d ∈ descendantsList cs, d.fanout ≤ M) :
    tests f (planList borrow cs) ≤ cs.length + M * ((descendantsList cs).filter fun n => f.testBounds n.bounds).length := by
  cases cs with
  | nil => exact Nat.zero_le _
  | cons c cs =>
    rw [descendantsList] at hm
    have h1 := tests_plan_pruned f borrow M c (fun d hd => hm d (by
      rcases List.mem_cons.1 hd with rfl | hd
      · exact List.mem_cons_self
      · exact List.mem_cons_of_mem _ (List.mem_append_left _ hd)))
    have h2 := tests_planList_pruned f borrow M cs (fun d hd => hm d (List.mem_cons_of_mem _ (List.mem_append_right _ hd)))
    rw [planList, tests, Plan.tests, descendantsList, List.length_cons, List.filter_cons, List.filter_append]
    split
    · rw [List.length_cons, List.length_append]
      rw [show ∀ a b : Nat, a + b + 1 = (a + 1) + b by omega, Nat.mul_add]
      omega
    · rw [List.length_append, Nat.mul_add]
      omega
end

end RTree.Calls
