import Verif.Proofs.Callbacks
import Verif.Proofs.Join
/-! Join filters that panic or answer inconsistently. -/

namespace RTree.Calls

section Generic

variable {S α F I E : Type}

theorem story_nil' {q : Query F E} {code : Nat → Option F} (k n : Nat) : Story q code n [] (List.replicate k (.ok none)) := by
  induction k with
  | zero => trivial
  | succ k ih => exact ⟨n, [], ⟨Nat.le_refl _, (fun _ h => by cases h), rfl⟩, ih⟩

/-- `find` on an iterator of which `rest` is what it will still yield. -/
theorem searchBy_spec (code : Nat → Option F) (test : F → α → Bool) (next : I → Option α × I) (rest : I → List α) (Wf : I → Prop)
    (hnext : ∀ it, Wf it → (rest it = [] ∧ next it = (none, it)) ∨ ∃ x it', next it = (some x, it') ∧ rest it = x :: rest it' ∧ Wf it')
    (k : Nat) {it : I} (hw : Wf it) (hk : (rest it).length < k) (s : S) (n : Nat) :
    ∃ r it' n', searchBy code test next k it s n = (.ok (r, it'), s, n') ∧ Wf it' ∧ Found code test n (rest it) r (rest it') n' := by
  induction k generalizing it n with
  | zero => omega
  | succ k ih =>
    rw [searchBy]
    rcases hnext it hw with ⟨h1, h2⟩ | ⟨a, it', h1, h2, h3⟩
    · rw [h2]
      exact ⟨.ok none, it, n, rfl, hw, [], (fun _ h => by cases h), Nat.le_refl _, h1, h1⟩
    · rw [h1, h2]
      dsimp only
      cases hc : code n with
      | none =>
        have h4 : catching (ask code) s n = (.ok (.error .user), s, n + 1) := catching_apply (by rw [ask, hc])
        exact ⟨.error .user, it', n + 1, by rw [bind_ok' h4]; rfl, h3, [], (fun _ h => by cases h), by omega, hc, a, rfl⟩
      | some f =>
        have h4 : catching (ask code) s n = (.ok (.ok f), s, n + 1) := catching_apply (by rw [ask, hc])
        rw [bind_ok' h4]
        cases ht : test f a with
        | true =>
          refine ⟨.ok (some a), it', n + 1, ?_, h3, [], (fun _ h => by cases h), by omega, rfl, f, hc, ht⟩
          show (if test f a = true then _ else _ : M S _) s (n + 1) = _
          rw [if_pos ht]; rfl
        | false =>
          obtain ⟨r, it'', n', h5, h6, pre, h7, h8⟩ := ih h3 (by rw [h2] at hk; simp at hk; omega) (n + 1)
          have hle : n + 1 ≤ n' := by
            match r, h8 with
            | .ok none, h8 => exact h8.1
            | .ok (some _), h8 => exact Nat.le_of_lt h8.1
            | .error .user, h8 => exact Nat.le_of_lt h8.1
          refine ⟨r, it'', n', ?_, h6, a :: pre, ?_, ?_⟩
          · show (if test f a = true then _ else _ : M S _) s (n + 1) = _
            rw [if_neg (by simp [ht])]; exact h5
          · intro x hx
            rcases List.mem_cons.1 hx with rfl | hx
            · exact ⟨n, f, Nat.le_refl _, by omega, hc, ht⟩
            · obtain ⟨m, g, h9, h10⟩ := h7 x hx
              exact ⟨m, g, by omega, h10⟩
          · match r, h8 with
            | .ok none, h8 => exact ⟨by omega, by rw [h8.2.1], h8.2.2⟩
            | .ok (some _), h8 => exact ⟨by omega, by rw [h8.2.1]; rfl, h8.2.2⟩
            | .error .user, h8 => exact ⟨by omega, h8.2.1, h8.2.2.imp fun _ h => by rw [h]; rfl⟩

/-- What `find` went through is part of what was there. -/
theorem FoundEnd.sub {code : Nat → Option F} {test : F → α → Bool} {n n' : Nat} {as as' : List α} {r} {pre : List α}
    (h : FoundEnd code test n as pre r as' n') : (∀ x ∈ pre, x ∈ as) ∧ ∀ x ∈ as', x ∈ as := by
  match r, h with
  | .error .user, ⟨_, _, a, h⟩ => subst h; exact ⟨fun x hx => by simp [hx], fun x hx => by simp [hx]⟩
  | .ok (some a), ⟨_, h, _⟩ => subst h; exact ⟨fun x hx => by simp [hx], fun x hx => by simp [hx]⟩
  | .ok none, ⟨_, h, h'⟩ => subst h h'; exact ⟨fun _ h => h, fun _ h => by cases h⟩

end Generic

variable {B0 B1 K0 K1 V0 V1 Q0 Q1 : Type}

/-- All pairs of entries below a pair of nodes, in the order in which a join comes to them. -/
abbrev allPairs (l : Nat) (x : Node B0 K0 V0 × Node B1 K1 V1) : List ((K0 × V0) × (K1 × V1)) := joinMatching (fun _ => true) (fun _ => true) l x

theorem mem_allPairs {l : Nat} {x : Node B0 K0 V0 × Node B1 K1 V1} {e} (h : e ∈ allPairs l x) : e.1 ∈ x.1.entries ∧ e.2 ∈ x.2.entries := by
  obtain ⟨sk, hsk⟩ := joinMatching_subset (tb := fun _ => true) (tk := fun _ => true) (l := l) (x := x)
  have := hsk.subset (List.mem_append_left sk h)
  rw [List.mem_filter, mem_pairs] at this
  exact this.1

theorem allPairs_perm {l p0 p1 : Nat} {x : Node B0 K0 V0 × Node B1 K1 V1} (h0 : Shape (l - p0) x.1) (h1 : Shape (l - p1) x.2) :
    (allPairs l x).Perm (x.1.entries.flatMap fun a => x.2.entries.map fun b => (a, b)) := by
  have hsh : ∀ {B K V : Type}, NodeInv (Shape (B := B) (K := K) (V := V)) := ⟨fun h => h.leaf, fun h => h.inner⟩
  have := hsh.joinMatching hsh (tb := fun _ => true) (tk := fun _ => true) (fun _ _ _ _ _ _ _ _ _ _ _ => rfl) h0 h1
  rw [List.filter_eq_self.2 (fun _ _ => rfl)] at this
  exact List.Perm.trans (by simpa using this) (pairs_perm_product _ _)

namespace JoinIter

open IterStack RTree.JoinIter

variable {code : Nat → Option (JoinFilter B0 B1 Q0 Q1)} {borrow0 : K0 → Q0} {borrow1 : K1 → Q1} {N0 : List (Node B0 K0 V0)} {N1 : List (Node B1 K1 V1)} {p0 p1 : Nat}

/-- What the inner iterators can still yield. -/
abbrev todoInner (off : Nat) (its : List (NodeIter B0 B1 K0 K1 V0 V1)) : List ((K0 × V0) × (K1 × V1)) := remInner (fun _ => true) (fun _ => true) off its

theorem yields_true (l : Nat) (xs : List (Node B0 K0 V0 × Node B1 K1 V1)) :
    RTree.JoinIter.yields (fun _ => true) (fun _ => true) l xs = xs.flatMap (allPairs l) := by
  simp [RTree.JoinIter.yields]

theorem todoInner_cons (off : Nat) (it : NodeIter B0 B1 K0 K1 V0 V1) (its : List (NodeIter B0 B1 K0 K1 V0 V1)) :
    todoInner off (it :: its) = it.rest.flatMap (allPairs off) ++ todoInner (off + 1) its := by
  rw [todoInner, remInner, yields_true]

/-- The nodes are nodes of the two trees. -/
def Within (N0 : List (Node B0 K0 V0)) (N1 : List (Node B1 K1 V1)) (xs : List (Node B0 K0 V0 × Node B1 K1 V1)) : Prop := ∀ x ∈ xs, x.1 ∈ N0 ∧ x.2 ∈ N1

theorem kids_mem {B K V : Type} {N : List (Node B K V)} (hN : Closed N) {n c : Node B K V} (hn : n ∈ N) (hc : c ∈ n.kids) : c ∈ N := by
  cases n with
  | leaf b es => rw [Node.kids, List.mem_singleton] at hc; rw [hc]; exact hn
  | inner b cs => exact hN b cs hn c hc

/-- Outcome of `next`. -/
def Post (code : Nat → Option (JoinFilter B0 B1 Q0 Q1)) (borrow0 : K0 → Q0) (borrow1 : K1 → Q1) (N0 : List (Node B0 K0 V0)) (N1 : List (Node B1 K1 V1)) (p0 p1 n len : Nat)
    (R : List ((K0 × V0) × (K1 × V1))) (x : Except Stop (Option ((K0 × V0) × (K1 × V1))) × JoinIter B0 B1 K0 K1 V0 V1 × Nat) : Prop :=
  ∃ lf its, x.2.1 = ⟨newBox lf its, p0, p1⟩ ∧ its.length = len ∧ lf.Wf ∧ Typed p0 p1 0 its ∧ (∀ it ∈ its, Within N0 N1 it.rest) ∧
    Step (joinQuery borrow0 borrow1 N0 N1) code n R x.1 x.2.2 (lf.rest ++ todoInner 0 its)

theorem Post.prepend {n m len : Nat} {R pre} {x} (hpre : ∀ e ∈ pre, TurnedDown (joinQuery borrow0 borrow1 N0 N1) code n m e) (hnm : n ≤ m)
    (h : Post code borrow0 borrow1 N0 N1 p0 p1 m len R x) : Post code borrow0 borrow1 N0 N1 p0 p1 n len (pre ++ R) x := by
  obtain ⟨es, css, h1, h2, h3, h4, h5, h6⟩ := h
  exact ⟨es, css, h1, h2, h3, h4, h5, h6.prepend hpre hnm⟩

theorem nextLoop_spec (hN0 : Closed N0) (hN1 : Closed N1) (hp : p0 = 0 ∨ p1 = 0) (fuel : Nat) :
    (∀ (lf : ProductIter (K0 × V0) (K1 × V1)) (its : List (NodeIter B0 B1 K0 K1 V0 V1)) (n : Nat), lf.Wf → Typed p0 p1 0 its → (∀ it ∈ its, Within N0 N1 it.rest) →
      (lf.rest.length + weightInner 0 its) * (its.length + 2) + (its.length + 1) ≤ fuel →
      Post code borrow0 borrow1 N0 N1 p0 p1 n its.length (lf.rest ++ todoInner 0 its) (nextLoop code borrow0 borrow1 fuel 0 ⟨newBox lf its, p0, p1⟩ n)) ∧
    (∀ (lf : ProductIter (K0 × V0) (K1 × V1)) (lo rest : List (NodeIter B0 B1 K0 K1 V0 V1)) (n : Nat), lf.Wf → lf.rest = [] →
      Drained lo → Typed p0 p1 lo.length rest → (∀ it ∈ rest, Within N0 N1 it.rest) →
      weightInner lo.length rest * (lo.length + rest.length + 2) + rest.length ≤ fuel →
      Post code borrow0 borrow1 N0 N1 p0 p1 n (lo.length + rest.length) (todoInner lo.length rest)
        (nextLoop code borrow0 borrow1 fuel (lo.length + 1) ⟨newBox lf (lo ++ rest), p0, p1⟩ n)) := by
  have within_drained : ∀ lo : List (NodeIter B0 B1 K0 K1 V0 V1), Drained lo → ∀ it ∈ lo, Within N0 N1 it.rest := by
    intro lo hlo it hit x hx
    rw [(hlo it hit).2] at hx; cases hx
  have stop : ∀ fuel (lf : ProductIter (K0 × V0) (K1 × V1)) lo n, lf.Wf → lf.rest = [] → Drained lo →
      Post code borrow0 borrow1 N0 N1 p0 p1 n (lo.length + 0) [] (nextLoop code borrow0 borrow1 fuel (lo.length + 1) ⟨newBox lf (lo ++ []), p0, p1⟩ n) := by
    intro fuel lf lo n hw hlf hlo
    have e : nextLoop code borrow0 borrow1 fuel (lo.length + 1) ⟨newBox lf (lo ++ []), p0, p1⟩ n = (.ok none, ⟨newBox lf lo, p0, p1⟩, n) := by
      unfold nextLoop; rw [self_bind, if_neg (by simp)]; simp [pure_apply]
    rw [e]
    refine ⟨lf, lo, rfl, rfl, hw, ?_, within_drained lo hlo, Nat.le_refl _, (fun _ h => by cases h), ?_⟩
    · have := (typed_drained (p0 := p0) (p1 := p1) (off := 0) (its := []) hlo).2 trivial
      simpa using this
    · have := remInner_drained (tb := fun _ => true) (tk := fun _ => true) (off := 0) (its := []) hlo
      rw [List.append_nil] at this
      rw [hlf, todoInner, this]; rfl
  induction fuel with
  | zero =>
    refine ⟨fun es css n _ _ _ h => by omega, ?_⟩
    intro lf lo rest n hw hlf hlo ht hin h
    have hr : rest = [] := List.length_eq_zero_iff.1 (by omega)
    subst hr
    exact stop 0 lf lo n hw hlf hlo
  | succ fuel ih =>
    obtain ⟨ih0, ih1⟩ := ih
    refine ⟨?_, ?_⟩
    · intro lf its n hw ht hin hf
      have hll := lf.length_rest
      obtain ⟨r, lf', n', h1, hw', pre, h2, h3⟩ := searchBy_spec (S := JoinIter B0 B1 K0 K1 V0 V1) code
        (fun f (x : (K0 × V0) × (K1 × V1)) => f.testKey (borrow0 x.1.1) (borrow1 x.2.1)) ProductIter.next ProductIter.rest ProductIter.Wf
        (fun it h => ProductIter.next_spec h) (lf.fst.slice.length * lf.snd.length + 1) hw (by omega) ⟨newBox lf its, p0, p1⟩ n
      have hpre : ∀ e ∈ pre, TurnedDown (joinQuery borrow0 borrow1 N0 N1) code n n' e := by
        intro e he
        obtain ⟨m, f, h4, h5, h6, h7⟩ := h2 e he
        exact ⟨m, f, h4, h5, h6, .inl h7⟩
      unfold nextLoop
      rw [self_bind, if_pos (by simp)]
      dsimp only
      rw [getLeaf_newBox, own_bind, bind_ok' h1]
      dsimp only
      rw [setLeaf_newBox, own_bind, put_bind]
      match r, h3 with
      | .error .user, ⟨h4, h5, a, h6⟩ =>
        rw [raise_error_bind]
        exact ⟨lf', its, rfl, rfl, hw', ht, hin, h4, h5, pre, [a], by simp [h6], hpre, .inl ⟨a, rfl⟩⟩
      | .ok (some a), ⟨h4, h5, f, h6, h7⟩ =>
        rw [raise_ok_bind]
        exact ⟨lf', its, rfl, rfl, hw', ht, hin, h4, pre, f, by simp [h5], hpre, h6, h7⟩
      | .ok none, ⟨h4, h5, h6⟩ =>
        rw [raise_ok_bind]
        have hle : weightInner 0 its * (its.length + 2) ≤ (lf.rest.length + weightInner 0 its) * (its.length + 2) := Nat.mul_le_mul_right _ (by omega)
        have h := ih1 lf' [] its n' hw' h6 (by intro x hx; cases hx) ht hin (by simp; omega)
        simp only [List.nil_append, List.length_nil, Nat.zero_add] at h
        rw [h5]
        exact h.prepend hpre h4
    · intro lf lo rest n hw hlf hlo ht hin hf
      cases rest with
      | nil => exact stop _ lf lo n hw hlf hlo
      | cons it hi =>
        obtain ⟨hit, hsh, hti⟩ := ht
        have hll := it.length_rest
        obtain ⟨r, it', n', h1, hw', pre, h2, h3⟩ := searchBy_spec (S := JoinIter B0 B1 K0 K1 V0 V1) code
          (fun f (x : Node B0 K0 V0 × Node B1 K1 V1) => f.testBounds x.1.bounds x.2.bounds) ProductIter.next ProductIter.rest ProductIter.Wf
          (fun it h => ProductIter.next_spec h) (it.fst.slice.length * it.snd.length + 1) hit (by omega) ⟨newBox lf (lo ++ it :: hi), p0, p1⟩ n
        have hitN := hin it List.mem_cons_self
        have hhiN : ∀ i ∈ hi, Within N0 N1 i.rest := fun i h => hin i (List.mem_cons_of_mem _ h)
        obtain ⟨hsub1, hsub2⟩ := h3.sub
        have hpre : ∀ e ∈ pre.flatMap (allPairs lo.length), TurnedDown (joinQuery borrow0 borrow1 N0 N1) code n n' e := by
          intro e he
          obtain ⟨c, hc, he⟩ := List.mem_flatMap.1 he
          obtain ⟨m, f, h4, h5, h6, h7⟩ := h2 c hc
          obtain ⟨ha, hb⟩ := hitN c (hsub1 c hc)
          obtain ⟨he0, he1⟩ := mem_allPairs he
          exact ⟨m, f, h4, h5, h6, .inr ⟨c.1, ha, c.2, hb, he0, he1, h7⟩⟩
        have hsp : ∀ c ∈ it'.rest, Shape (lo.length - p0) c.1 ∧ Shape (lo.length - p1) c.2 := fun c hc => hsh c (hsub2 c hc)
        have hpN : Within N0 N1 it'.rest := fun c hc => hitN c (hsub2 c hc)
        unfold nextLoop
        rw [self_bind, if_pos (by simp)]
        dsimp only
        rw [getInner_newBox, own_bind, bind_ok' h1]
        dsimp only
        rw [setInner_newBox, own_bind, put_bind]
        simp only [weightInner, List.length_cons] at hf
        match r, h3 with
        | .error .user, ⟨h4, h5, a, h6⟩ =>
          rw [raise_error_bind]
          have haN := hitN a (by simp [h6])
          have hsa := hsh a (by simp [h6])
          refine ⟨lf, _, rfl, by simp, hw, ?_, ?_, h4, h5, pre.flatMap (allPairs lo.length), allPairs lo.length a, ?_, hpre,
            .inr ⟨a.1, haN.1, a.2, haN.2, allPairs_perm hsa.1 hsa.2⟩⟩
          · rw [typed_drained hlo, Nat.zero_add]
            exact ⟨hw', hsp, hti⟩
          · intro i hi' c hc
            rcases List.mem_append.1 hi' with hi' | hi'
            · exact within_drained lo hlo i hi' c hc
            · rcases List.mem_cons.1 hi' with rfl | hi'
              · exact hpN c hc
              · exact hhiN i hi' c hc
          · have e1 : todoInner 0 (lo ++ it' :: hi) = todoInner lo.length (it' :: hi) := by rw [todoInner, remInner_drained hlo, Nat.zero_add]
            rw [hlf, List.nil_append, e1, todoInner_cons, todoInner_cons, h6]
            simp
        | .ok none, ⟨h4, h5, h6⟩ =>
          rw [raise_ok_bind]
          dsimp only
          have heq : lo ++ it' :: hi = (lo ++ [it']) ++ hi := by simp
          have hlen : (lo ++ [it']).length = lo.length + 1 := by simp
          have h := ih1 lf (lo ++ [it']) hi n' hw hlf (hlo.snoc hw' h6) (by rw [hlen]; exact hti) hhiN (by
            rw [hlen]
            rw [Nat.add_mul] at hf
            have h0 : lo.length + 1 + hi.length + 2 = lo.length + (hi.length + 1) + 2 := by omega
            rw [h0]; omega)
          rw [hlen] at h
          rw [heq, todoInner_cons, h5, List.length_cons, show lo.length + (hi.length + 1) = lo.length + 1 + hi.length by omega]
          exact h.prepend hpre h4
        | .ok (some (n0, n1)), ⟨h4, h5, f, h6, h7⟩ =>
          rw [raise_ok_bind]
          dsimp only
          have hsa := hsh (n0, n1) (by simp [h5])
          have haN := hitN (n0, n1) (by simp [h5])
          have hwt : listWeight lo.length it.rest = listWeight lo.length pre + (joinWeight lo.length n0 n1 + listWeight lo.length it'.rest) := by
            rw [h5]; simp [listWeight]
          have hrem : todoInner lo.length (it :: hi) =
              pre.flatMap (allPairs lo.length) ++ (allPairs lo.length (n0, n1) ++ todoInner lo.length (it' :: hi)) := by
            rw [todoInner_cons, todoInner_cons, h5]; simp
          rw [hrem]
          refine Post.prepend hpre (Nat.le_of_lt h4) ?_
          rw [Nat.add_mul] at hf
          have hinit : ∀ x : NodeIter B0 B1 K0 K1 V0 V1, Within N0 N1 x.rest → ∀ i ∈ x :: it' :: hi, Within N0 N1 i.rest := by
            intro x hx i hi'
            rcases List.mem_cons.1 hi' with rfl | hi'
            · exact hx
            · rcases List.mem_cons.1 hi' with rfl | hi'
              · exact hpN
              · exact hhiN i hi'
          cases hlol : lo.length with
          | zero =>
            have hlo0 : lo = [] := List.length_eq_zero_iff.1 hlol
            subst hlo0
            simp only [hlol, Nat.zero_sub] at hsa hsp hf hwt ⊢
            obtain ⟨b, es, rfl⟩ := hsa.1.leaf
            obtain ⟨b', fs, rfl⟩ := hsa.2.leaf
            simp only [startJoin, Nat.max_self, Node.leafChildren, ok_bind, setLeaf_newBox, List.nil_append]
            rw [own_bind, put_bind]
            have hlr : (ProductIter.new es fs).rest.length = es.length * fs.length := by
              rw [ProductIter.rest_new, length_pairs]
            have hjw : joinWeight 0 (Node.leaf b es : Node B0 K0 V0) (Node.leaf b' fs : Node B1 K1 V1) =
              1 + es.length * fs.length := rfl
            have h := ih0 (ProductIter.new es fs) (it' :: hi) n' (ProductIter.wf_new _ _)
              ⟨hw', by simpa using hsp, hti⟩ (by
                intro i hi'
                rcases List.mem_cons.1 hi' with rfl | hi'
                · exact hpN
                · exact hhiN i hi') (by
                rw [hlr]
                simp only [weightInner, List.length_cons]
                have h5 : es.length * fs.length + (listWeight 0 it'.rest + weightInner (0 + 1) hi) + 1 ≤
                    listWeight 0 it.rest + weightInner (0 + 1) hi := by omega
                have h6 := Nat.mul_le_mul_right (hi.length + 1 + 2) h5
                rw [Nat.add_mul _ 1, Nat.add_mul (listWeight 0 it.rest)] at h6
                simp only [Nat.zero_add] at hf h6 ⊢
                omega)
            have e1 : allPairs 0 ((Node.leaf b es : Node B0 K0 V0), (Node.leaf b' fs : Node B1 K1 V1)) = (ProductIter.new es fs).rest := by
              rw [ProductIter.rest_new]; simp [joinMatching]
            rw [e1, Nat.zero_add]
            exact h
          | succ l' =>
            rw [hlol] at hsa hsp hf hwt
            obtain ⟨lo', last, rfl⟩ : ∃ lo' last, lo = lo' ++ [last] :=
              ⟨lo.dropLast, lo.getLast (by intro h; simp [h] at hlol), (List.dropLast_concat_getLast _).symm⟩
            have hl' : lo'.length = l' := by simpa using hlol
            have hmax : max (l' + 1 - p0) (l' + 1 - p1) = l' + 1 := by
              rcases hp with rfl | rfl <;> simp <;> omega
            simp only [startJoin, hmax, slice_ok hsa.1, slice_ok hsa.2, ok_bind]
            have heq : lo' ++ [last] ++ it' :: hi = lo' ++ last :: it' :: hi := by simp
            have hset := setInner_newBox lf lo' (it' :: hi) last (ProductIter.new n0.kids n1.kids)
            rw [hl'] at hset
            rw [heq, hset, own_bind, put_bind]
            have hlod : Drained lo' := fun x hx => hlo x (List.mem_append_left _ hx)
            have hkids : ∀ x ∈ (ProductIter.new n0.kids n1.kids).rest, Shape (l' - p0) x.1 ∧ Shape (l' - p1) x.2 := by
              intro x hx
              rw [ProductIter.rest_new, mem_pairs] at hx
              exact ⟨shape_kids hsa.1 _ hx.1, shape_kids hsa.2 _ hx.2⟩
            have hkidsN : Within N0 N1 (ProductIter.new n0.kids n1.kids).rest := by
              intro x hx
              rw [ProductIter.rest_new, mem_pairs] at hx
              exact ⟨kids_mem hN0 haN.1 hx.1, kids_mem hN1 haN.2 hx.2⟩
            have hlw : listWeight l' (ProductIter.new n0.kids n1.kids).rest + 1 = joinWeight (l' + 1) n0 n1 := by
              rw [ProductIter.rest_new, joinWeight, listWeight, Nat.add_comm]
            have h := ih1 lf lo' (ProductIter.new n0.kids n1.kids :: it' :: hi) n' hw hlf hlod (by
                rw [hl']
                refine ⟨ProductIter.wf_new _ _, hkids, hw', hsp, ?_⟩
                rw [hlol] at hti; exact hti) (hinit _ hkidsN) (by
                rw [hl']
                simp only [weightInner, List.length_cons]
                have h5 : listWeight l' (ProductIter.new n0.kids n1.kids).rest + (listWeight (l' + 1) it'.rest +
                    weightInner (l' + 1 + 1) hi) + 1 ≤ listWeight (l' + 1) it.rest + weightInner (l' + 1 + 1) hi := by omega
                have h0 : l' + (hi.length + 1 + 1) + 2 = l' + 1 + (hi.length + 1) + 2 := by omega
                rw [h0]
                have h6 := Nat.mul_le_mul_right (l' + 1 + (hi.length + 1) + 2) h5
                rw [Nat.add_mul _ 1, Nat.add_mul (listWeight (l' + 1) it.rest)] at h6
                omega)
            rw [hl'] at h
            have e1 : allPairs (l' + 1) (n0, n1) = (ProductIter.new n0.kids n1.kids).rest.flatMap (allPairs l') := by
              rw [ProductIter.rest_new]; simp [joinMatching]
            rw [e1, ← todoInner_cons, List.length_cons, show l' + 1 + (hi.length + 1) = l' + (hi.length + 1 + 1) by omega]
            exact h

/-- The fuel of `next` suffices. -/
theorem weightInner_le (off : Nat) (its : List (NodeIter B0 B1 K0 K1 V0 V1)) : weightInner off its ≤
    (((its.map (StackEntry.inner (L := ProductIter (K0 × V0) (K1 × V1)))).zipIdx (off + 1)).map fun x =>
    match x.1 with
    | .leaf it => it.fst.slice.length * it.snd.length
    | .inner it => ((pairs it.fst.slice it.snd).map fun y => joinWeight (x.2 - 1) y.1 y.2).sum).sum := by
  induction its generalizing off with
  | nil => simp [weightInner]
  | cons it its ih =>
    simp only [weightInner, List.map_cons, List.zipIdx_cons, List.sum_cons]
    refine Nat.add_le_add ?_ (ih (off + 1))
    rw [Nat.add_sub_cancel]
    obtain ⟨⟨s, i⟩, snd⟩ := it
    cases snd with
    | nil => simp [listWeight, ProductIter.rest]
    | cons b bs =>
      have e1 : pairs s (b :: bs) = s.map (fun a => (a, b)) ++ pairs s bs := rfl
      rw [listWeight, ProductIter.rest]
      dsimp only
      rw [e1, List.map_append, List.map_append, List.sum_append, List.sum_append]
      refine Nat.add_le_add_right ?_ _
      have e2 : s.map (fun a => (a, b)) = (s.take i).map (fun a => (a, b)) ++ (s.drop i).map (fun a => (a, b)) := by
        rw [← List.map_append, List.take_append_drop]
      rw [e2, List.map_append, List.sum_append]
      omega

theorem weight_newBox (lf : ProductIter (K0 × V0) (K1 × V1)) (its : List (NodeIter B0 B1 K0 K1 V0 V1)) : lf.rest.length + weightInner 0 its ≤ weight (newBox lf its) := by
  unfold weight newBox
  rw [List.zipIdx_cons, List.map_cons, List.sum_cons]
  exact Nat.add_le_add lf.length_rest (weightInner_le 0 its)

theorem next_spec (hN0 : Closed N0) (hN1 : Closed N1) (hp : p0 = 0 ∨ p1 = 0) {lf : ProductIter (K0 × V0) (K1 × V1)} {its : List (NodeIter B0 B1 K0 K1 V0 V1)}
    (hw : lf.Wf) (ht : Typed p0 p1 0 its) (hin : ∀ it ∈ its, Within N0 N1 it.rest) (n : Nat) :
    Post code borrow0 borrow1 N0 N1 p0 p1 n its.length (lf.rest ++ todoInner 0 its) (next code borrow0 borrow1 ⟨newBox lf its, p0, p1⟩ n) := by
  unfold next
  rw [self_bind]
  refine (nextLoop_spec hN0 hN1 hp _).1 lf its n hw ht hin ?_
  have h1 := weight_newBox lf its
  have h2 := Nat.mul_le_mul_right (its.length + 2) (Nat.add_le_add_right h1 1)
  dsimp only
  rw [length_newBox, show its.length + 1 + 1 = its.length + 2 from rfl]
  rw [Nat.add_mul (lf.rest.length + _) 1, Nat.one_mul] at h2
  omega

theorem nexts_spec (hN0 : Closed N0) (hN1 : Closed N1) (hp : p0 = 0 ∨ p1 = 0) (k : Nat) {lf : ProductIter (K0 × V0) (K1 × V1)} {its : List (NodeIter B0 B1 K0 K1 V0 V1)}
    (hw : lf.Wf) (ht : Typed p0 p1 0 its) (hin : ∀ it ∈ its, Within N0 N1 it.rest) (n : Nat) :
    ∃ outs s n', nexts code borrow0 borrow1 k ⟨newBox lf its, p0, p1⟩ n = (.ok outs, s, n') ∧ outs.length = k ∧
      Story (joinQuery borrow0 borrow1 N0 N1) code n (lf.rest ++ todoInner 0 its) outs := by
  induction k generalizing lf its n with
  | zero => exact ⟨[], _, _, rfl, rfl, trivial⟩
  | succ k ih =>
    have h := next_spec (code := code) (borrow0 := borrow0) (borrow1 := borrow1) hN0 hN1 hp hw ht hin n
    rcases hx : next code borrow0 borrow1 ⟨newBox lf its, p0, p1⟩ n with ⟨r, s, n'⟩
    rw [hx] at h
    obtain ⟨lf', its', h1, h2, h3, h4, h5, h6⟩ := h
    dsimp only at h1 h6
    subst h1
    obtain ⟨outs, s', n'', h7, h8, h9⟩ := ih h3 h4 h5 n'
    refine ⟨r :: outs, s', n'', ?_, by simp [h8], n', _, h6, h9⟩
    rw [nexts, bind_ok' (catching_apply hx), bind_ok' h7]; rfl

theorem nexts_empty (k n : Nat) : nexts code borrow0 borrow1 k (⟨emptyBox, 0, 0⟩ : JoinIter B0 B1 K0 K1 V0 V1) n = (.ok (List.replicate k (.ok none)), ⟨emptyBox, 0, 0⟩, n) := by
  have h : next code borrow0 borrow1 (⟨emptyBox, 0, 0⟩ : JoinIter B0 B1 K0 K1 V0 V1) n = (.ok none, ⟨emptyBox, 0, 0⟩, n) := by
    unfold next; rw [self_bind]; unfold nextLoop; rw [self_bind, if_neg (by simp [emptyBox])]; rfl
  induction k with
  | zero => rfl
  | succ k ih =>
    rw [nexts, bind_ok' (catching_apply h), bind_ok' ih]; rfl

/-! ### A filter that always answers the same -/

theorem findLoop_const {S α β F : Type} (f : F) (test : F → α × β → Bool) (k : Nat) {it it' : ProductIter α β} {r} (s : S) (n : Nat)
    (h : ProductIter.findLoop (test f) k it = .ok (r, it')) : ∃ n', searchBy (fun _ => some f) test ProductIter.next k it s n = (.ok (.ok r, it'), s, n') := by
  induction k generalizing it n with
  | zero => cases h
  | succ k ih =>
    rw [ProductIter.findLoop] at h
    rw [searchBy]
    rcases hx : it.next with ⟨o, it₁⟩
    rw [hx] at h
    cases o with
    | none => cases h; exact ⟨n, rfl⟩
    | some a =>
      dsimp only at h ⊢
      have h1 : catching (ask fun _ => some f) s n = (.ok (.ok f), s, n + 1) := rfl
      rw [bind_ok' h1]
      show ∃ n', (if test f a = true then _ else _ : M S _) s (n + 1) = _
      split at h
      · next ht => rw [if_pos ht]; cases h; exact ⟨n + 1, rfl⟩
      · next ht => rw [if_neg ht]; exact ih (n + 1) h

theorem nextLoop_const (f : JoinFilter B0 B1 Q0 Q1) (fuel level : Nat) {s s' : JoinIterStack B0 B1 K0 K1 V0 V1} {r} (n : Nat)
    (h : RTree.JoinIter.nextLoop borrow0 borrow1 f p0 p1 fuel level s = .ok (r, s')) :
    ∃ n', nextLoop (fun _ => some f) borrow0 borrow1 fuel level ⟨s, p0, p1⟩ n = (.ok r, ⟨s', p0, p1⟩, n') := by
  induction fuel generalizing level s n with
  | zero =>
    unfold RTree.JoinIter.nextLoop at h
    unfold nextLoop
    rw [self_bind]
    split at h
    · cases h
    · next hlt => rw [if_neg hlt]; cases h; exact ⟨n, rfl⟩
  | succ fuel ih =>
    unfold RTree.JoinIter.nextLoop at h
    unfold nextLoop
    rw [self_bind]
    split at h
    · next hlt =>
      rw [if_pos hlt]
      match level with
      | 0 =>
        obtain ⟨it, h1, h⟩ := bind_eq_ok.1 h
        obtain ⟨⟨o, it'⟩, h2, h⟩ := bind_eq_ok.1 h
        obtain ⟨s₁, h3, h⟩ := bind_eq_ok.1 h
        obtain ⟨n', h4⟩ := findLoop_const f (fun f (x : (K0 × V0) × (K1 × V1)) => f.testKey (borrow0 x.1.1) (borrow1 x.2.1)) _
          (⟨s, p0, p1⟩ : JoinIter B0 B1 K0 K1 V0 V1) n h2
        dsimp only
        rw [h1, own_bind, bind_ok' h4]
        dsimp only
        rw [h3, own_bind, put_bind, raise_ok_bind]
        match o with
        | some e => cases h; exact ⟨n', rfl⟩
        | none => exact ih _ _ h
      | l + 1 =>
        obtain ⟨it, h1, h⟩ := bind_eq_ok.1 h
        obtain ⟨⟨o, it'⟩, h2, h⟩ := bind_eq_ok.1 h
        obtain ⟨s₁, h3, h⟩ := bind_eq_ok.1 h
        obtain ⟨n', h4⟩ := findLoop_const f (fun f (x : Node B0 K0 V0 × Node B1 K1 V1) => f.testBounds x.1.bounds x.2.bounds) _
          (⟨s, p0, p1⟩ : JoinIter B0 B1 K0 K1 V0 V1) n h2
        dsimp only
        rw [h1, own_bind, bind_ok' h4]
        dsimp only
        rw [h3, own_bind, put_bind, raise_ok_bind]
        match o with
        | none => exact ih _ _ h
        | some (a, b) =>
          obtain ⟨s₂, h5, h⟩ := bind_eq_ok.1 h
          dsimp only
          rw [h5, own_bind, put_bind]
          exact ih _ _ h
    · next hlt => rw [if_neg hlt]; cases h; exact ⟨n, rfl⟩

/-- More fuel does not change anything. -/
theorem nextLoop_mono (f : JoinFilter B0 B1 Q0 Q1) (fuel fuel' level : Nat) (hle : fuel ≤ fuel') {s s' : JoinIterStack B0 B1 K0 K1 V0 V1} {r}
    (h : RTree.JoinIter.nextLoop borrow0 borrow1 f p0 p1 fuel level s = .ok (r, s')) :
    RTree.JoinIter.nextLoop borrow0 borrow1 f p0 p1 fuel' level s = .ok (r, s') := by
  induction fuel generalizing fuel' level s with
  | zero =>
    unfold RTree.JoinIter.nextLoop at h
    split at h
    · cases h
    · next hlt => unfold RTree.JoinIter.nextLoop; rw [if_neg hlt]; exact h
  | succ fuel ih =>
    obtain ⟨fuel', rfl⟩ : ∃ k, fuel' = k + 1 := ⟨fuel' - 1, by omega⟩
    have hle' : fuel ≤ fuel' := by omega
    unfold RTree.JoinIter.nextLoop at h
    unfold RTree.JoinIter.nextLoop
    split at h
    · next hlt =>
      rw [if_pos hlt]
      match level with
      | 0 =>
        obtain ⟨it, h1, h⟩ := bind_eq_ok.1 h
        obtain ⟨⟨o, it'⟩, h2, h⟩ := bind_eq_ok.1 h
        obtain ⟨s₁, h3, h⟩ := bind_eq_ok.1 h
        refine bind_eq_ok.2 ⟨it, h1, bind_eq_ok.2 ⟨_, h2, bind_eq_ok.2 ⟨s₁, h3, ?_⟩⟩⟩
        match o with
        | some e => exact h
        | none => exact ih _ _ hle' h
      | l + 1 =>
        obtain ⟨it, h1, h⟩ := bind_eq_ok.1 h
        obtain ⟨⟨o, it'⟩, h2, h⟩ := bind_eq_ok.1 h
        obtain ⟨s₁, h3, h⟩ := bind_eq_ok.1 h
        refine bind_eq_ok.2 ⟨it, h1, bind_eq_ok.2 ⟨_, h2, bind_eq_ok.2 ⟨s₁, h3, ?_⟩⟩⟩
        match o with
        | none => exact ih _ _ hle' h
        | some (a, b) =>
          obtain ⟨s₂, h5, h⟩ := bind_eq_ok.1 h
          exact bind_eq_ok.2 ⟨s₂, h5, ih _ _ hle' h⟩
    · next hlt => rw [if_neg hlt]; exact h

theorem nexts_const (f : JoinFilter B0 B1 Q0 Q1) (hp : p0 = 0 ∨ p1 = 0) (fuel k : Nat) {lf : ProductIter (K0 × V0) (K1 × V1)} {its : List (NodeIter B0 B1 K0 K1 V0 V1)}
    (hw : lf.Wf) (ht : Typed p0 p1 0 its) {es} (n : Nat) (h : RTree.JoinIter.collectLoop borrow0 borrow1 f p0 p1 fuel k (newBox lf its) = .ok es) :
    ∃ s' n', nexts (fun _ => some f) borrow0 borrow1 (es.length + 1) ⟨newBox lf its, p0, p1⟩ n = (.ok (es.map (fun e => .ok (some e)) ++ [.ok none]), s', n') := by
  induction k generalizing lf its es n with
  | zero => cases h
  | succ k ih =>
    rw [RTree.JoinIter.collectLoop] at h
    obtain ⟨⟨r, s₁⟩, h1, h⟩ := bind_eq_ok.1 h
    have hfuel : (lf.rest.length + weightInner 0 its) * (its.length + 2) + (its.length + 1) ≤ (weight (newBox lf its) + 1) * ((newBox lf its).length + 1) := by
      have h2 := Nat.mul_le_mul_right (its.length + 2) (Nat.add_le_add_right (weight_newBox lf its) 1)
      rw [length_newBox, show its.length + 1 + 1 = its.length + 2 from rfl]
      rw [Nat.add_mul (lf.rest.length + _) 1, Nat.one_mul] at h2
      omega
    obtain ⟨r', lf', its', g1, g2, g3, g4, -⟩ := (RTree.JoinIter.nextLoop_spec borrow0 borrow1 f rfl rfl hp _).1 lf its hw ht hfuel
    have e1 := nextLoop_mono f _ (max fuel ((weight (newBox lf its) + 1) * ((newBox lf its).length + 1))) 0 (Nat.le_max_left _ _) h1
    have e2 := nextLoop_mono f _ (max fuel ((weight (newBox lf its) + 1) * ((newBox lf its).length + 1))) 0 (Nat.le_max_right _ _) g1
    rw [e1] at e2
    cases e2
    obtain ⟨n₁, h2⟩ := nextLoop_const f _ 0 n g1
    have h2' : next (fun _ => some f) borrow0 borrow1 ⟨newBox lf its, p0, p1⟩ n = (.ok r, ⟨newBox lf' its', p0, p1⟩, n₁) := by
      unfold next; rw [self_bind]; exact h2
    cases r with
    | none =>
      cases h
      refine ⟨⟨newBox lf' its', p0, p1⟩, n₁, ?_⟩
      show nexts (fun _ => some f) borrow0 borrow1 1 _ n = _
      rw [nexts, bind_ok' (catching_apply h2')]; rfl
    | some e =>
      obtain ⟨es', h3, h⟩ := bind_eq_ok.1 h
      cases h
      obtain ⟨s', n', h4⟩ := ih g3 g4 n₁ h3
      refine ⟨s', n', ?_⟩
      show nexts (fun _ => some f) borrow0 borrow1 (es'.length + 1 + 1) _ n = _
      rw [nexts, bind_ok' (catching_apply h2'), bind_ok' h4]; rfl

/-- What a new iterator looks like. -/
theorem start_of_shape {t0 : Tree B0 K0 V0} {t1 : Tree B1 K1 V1} (h0 : Shape t0.level t0.root) (h1 : Shape t1.level t1.root) :
    ∃ lf its, RTree.JoinIter.startJoin (IterStack.newBox (.new [] []) (List.replicate (max t0.level t1.level) (.new [] [])))
          t0.root t0.level t1.root t1.level = .ok (IterStack.newBox lf its) ∧ lf.Wf ∧
          RTree.JoinIter.Typed (max t0.level t1.level - t0.level) (max t0.level t1.level - t1.level) 0 its ∧
          (∀ it ∈ its, JoinIter.Within t0.nodes t1.nodes it.rest) ∧ lf.rest ++ JoinIter.todoInner 0 its = allPairs (max t0.level t1.level) (t0.root, t1.root) := by
  have hr0 : t0.root ∈ t0.nodes := List.mem_cons_self
  have hr1 : t1.root ∈ t1.nodes := List.mem_cons_self
  have hp : max t0.level t1.level - t0.level = 0 ∨ max t0.level t1.level - t1.level = 0 := by omega
  have hl0 : t0.level = max t0.level t1.level - (max t0.level t1.level - t0.level) := by omega
  have hl1 : t1.level = max t0.level t1.level - (max t0.level t1.level - t1.level) := by omega
  generalize max t0.level t1.level - t0.level = p0 at hp hl0 ⊢
  generalize max t0.level t1.level - t1.level = p1 at hp hl1 ⊢
  unfold RTree.JoinIter.startJoin
  cases hm : max t0.level t1.level with
  | zero =>
    have e0 : t0.level = 0 := by omega
    have e1 : t1.level = 0 := by omega
    rw [e0] at h0
    rw [e1] at h1
    obtain ⟨b, es, hr0⟩ := h0.leaf
    obtain ⟨b', fs, hr1⟩ := h1.leaf
    refine ⟨.new es fs, [], by rw [hr0, hr1]; rfl, ProductIter.wf_new _ _, trivial, (fun _ h => by cases h), ?_⟩
    rw [hr0, hr1, ProductIter.rest_new]
    simp only [joinMatching, RTree.JoinIter.remInner, List.append_nil]
    exact (List.filter_eq_self.2 fun _ _ => rfl).symm
  | succ l =>
    rw [hm] at hl0 hl1
    have hd : RTree.JoinIter.Drained (List.replicate l (ProductIter.new [] [] : RTree.JoinIter.NodeIter B0 B1 K0 K1 V0 V1)) := by
      intro x hx
      obtain rfl := List.eq_of_mem_replicate hx
      exact ⟨ProductIter.wf_new _ _, rfl⟩
    refine ⟨.new [] [], List.replicate l (.new [] []) ++ [ProductIter.new t0.root.kids t1.root.kids], ?_, ProductIter.wf_new _ _, ?_, ?_, ?_⟩
    · simp only [RTree.JoinIter.slice_ok h0, RTree.JoinIter.slice_ok h1, ok_bind]
      have hset := IterStack.setInner_newBox (ProductIter.new ([] : List (K0 × V0)) ([] : List (K1 × V1)))
        (List.replicate l (ProductIter.new [] [])) [] (ProductIter.new [] []) (ProductIter.new t0.root.kids t1.root.kids)
      rw [List.length_replicate] at hset
      rw [List.replicate_succ', hset]
    · rw [RTree.JoinIter.typed_drained hd, List.length_replicate, Nat.zero_add]
      refine ⟨ProductIter.wf_new _ _, ?_, trivial⟩
      intro x hx
      rw [ProductIter.rest_new, mem_pairs] at hx
      rw [hl0] at h0
      rw [hl1] at h1
      exact ⟨RTree.JoinIter.shape_kids h0 _ hx.1, RTree.JoinIter.shape_kids h1 _ hx.2⟩
    · intro it hit x hx
      rcases List.mem_append.1 hit with hit | hit
      · rw [(hd it hit).2] at hx; cases hx
      · rw [List.mem_singleton.1 hit, ProductIter.rest_new, mem_pairs] at hx
        exact ⟨JoinIter.kids_mem (closed_nodes t0) hr0 hx.1, JoinIter.kids_mem (closed_nodes t1) hr1 hx.2⟩
    · rw [JoinIter.todoInner, RTree.JoinIter.remInner_drained hd, List.length_replicate, Nat.zero_add]
      show _ ++ JoinIter.todoInner l [ProductIter.new t0.root.kids t1.root.kids] = _
      rw [JoinIter.todoInner_cons, ProductIter.rest_new, ProductIter.rest_new]
      simp [joinMatching, RTree.JoinIter.remInner, pairs]

end JoinIter

/-- Making a join iterator and calling it. -/
theorem join_of_shape {t0 : Tree B0 K0 V0} {t1 : Tree B1 K1 V1} (h0 : Shape t0.level t0.root) (h1 : Shape t1.level t1.root)
    (code : Nat → Option (JoinFilter B0 B1 Q0 Q1)) (borrow0 : K0 → Q0) (borrow1 : K1 → Q1) (s₀ : JoinIter B0 B1 K0 K1 V0 V1) :
    match code 0 with
    | none => JoinIter.new code t0.root t0.level t1.root t1.level s₀ 0 = (.error .user, s₀, 1)
    | some f => ∃ s, JoinIter.new code t0.root t0.level t1.root t1.level s₀ 0 = (.ok (), s, 1) ∧
        ∀ k, ∃ outs s' n', JoinIter.nexts code borrow0 borrow1 k s 1 = (.ok outs, s', n') ∧ outs.length = k ∧
          Story (joinQuery borrow0 borrow1 t0.nodes t1.nodes) code 1
            (if f.testBounds t0.root.bounds t1.root.bounds then allPairs (max t0.level t1.level) (t0.root, t1.root) else []) outs := by
  cases hc : code 0 with
  | none =>
    have : ask code s₀ 0 = (.error .user, s₀, 1) := by rw [ask, hc]
    exact bind_error' this
  | some f =>
    have ha : ask code s₀ 0 = (.ok f, s₀, 1) := by rw [ask, hc]
    dsimp only
    cases hb : f.testBounds t0.root.bounds t1.root.bounds with
    | false =>
      refine ⟨⟨IterStack.emptyBox, 0, 0⟩, ?_, fun k => ⟨_, _, _, JoinIter.nexts_empty k 1, by simp, ?_⟩⟩
      · rw [JoinIter.new, bind_ok' ha, hb]; rfl
      · exact story_nil' k 1
    | true =>
      have hr0 : t0.root ∈ t0.nodes := List.mem_cons_self
      have hr1 : t1.root ∈ t1.nodes := List.mem_cons_self
      have hp : max t0.level t1.level - t0.level = 0 ∨ max t0.level t1.level - t1.level = 0 := by omega
      obtain ⟨lf, its, g1, g2, g3, g4, g5⟩ := JoinIter.start_of_shape h0 h1
      refine ⟨⟨IterStack.newBox lf its, max t0.level t1.level - t0.level, max t0.level t1.level - t1.level⟩, ?_, fun k => ?_⟩
      · rw [JoinIter.new, bind_ok' ha, hb]
        dsimp only
        show ((put _ >>= fun _ => own _ >>= fun stack => put _ : M _ _) s₀ 1 : _ × _ × _) = _
        rw [put_bind, g1, own_bind]; rfl
      · obtain ⟨outs, s', n', h6, h7, h8⟩ := JoinIter.nexts_spec (code := code) (borrow0 := borrow0) (borrow1 := borrow1) (closed_nodes t0) (closed_nodes t1) hp k g2 g3 g4 1
        refine ⟨outs, s', n', h6, h7, ?_⟩
        rw [g5] at h8
        exact h8

end RTree.Calls
