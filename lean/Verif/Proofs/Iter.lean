import Verif.Model.Iter
import Verif.Proofs.Invariant
/-! What the iterator stacks yield. -/

namespace RTree

variable {B K V Q : Type}

theorem Shape.leaf {n : Node B K V} (h : Shape 0 n) : ∃ b es, n = .leaf b es := by
  cases n with
  | leaf b es => exact ⟨b, es, rfl⟩
  | inner b cs => simp [Shape] at h

theorem Shape.inner {l : Nat} {n : Node B K V} (h : Shape (l + 1) n) :
    ∃ b cs, n = .inner b cs ∧ ∀ c ∈ cs, Shape l c := by
  cases n with
  | leaf b es => simp [Shape] at h
  | inner b cs => exact ⟨b, cs, rfl, by simpa [Shape] using h⟩

mutual
/-- The entries below a node that pass the filter, where nodes failing the bounds test are skipped. -/
def Node.matching (tb : B → Bool) (tk : K × V → Bool) : Node B K V → List (K × V)
  | .leaf _ es => es.filter tk
  | .inner _ cs => matchingList tb tk cs
/-- See `Node.matching`. -/
def matchingList (tb : B → Bool) (tk : K × V → Bool) : List (Node B K V) → List (K × V)
  | [] => []
  | c :: cs => (if tb c.bounds then c.matching tb tk else []) ++ matchingList tb tk cs
end

theorem matchingList_append {tb : B → Bool} {tk : K × V → Bool} (as bs : List (Node B K V)) :
    matchingList tb tk (as ++ bs) = matchingList tb tk as ++ matchingList tb tk bs := by
  induction as with
  | nil => simp [matchingList]
  | cons a as ih => simp [matchingList, ih]

theorem matchingList_eq_nil {tb : B → Bool} {tk : K × V → Bool} {as : List (Node B K V)}
    (h : ∀ a ∈ as, tb a.bounds = false) : matchingList tb tk as = [] := by
  induction as with
  | nil => simp [matchingList]
  | cons a as ih => simp [matchingList, h a (by simp), ih fun x hx => h x (by simp [hx])]

theorem weightList_append (as bs : List (Node B K V)) :
    weightList (as ++ bs) = weightList as + weightList bs := by
  induction as with
  | nil => simp [weightList]
  | cons a as ih => simp [weightList, ih]; omega

theorem findNext_spec {α : Type} (p : α → Bool) (l : List α) :
    (findNext p l = (none, []) ∧ ∀ x ∈ l, p x = false) ∨
    ∃ pre a post, l = pre ++ a :: post ∧ (∀ x ∈ pre, p x = false) ∧ p a = true ∧
      findNext p l = (some a, post) := by
  induction l with
  | nil => left; simp [findNext]
  | cons a l ih =>
    by_cases ha : p a = true
    · right; exact ⟨[], a, l, rfl, by simp, ha, by simp [findNext, ha]⟩
    · have ha : p a = false := by simpa using ha
      rcases ih with ⟨h1, h2⟩ | ⟨pre, x, post, h1, h2, h3, h4⟩
      · left; exact ⟨by simp [findNext, ha, h1], by simpa [ha] using h2⟩
      · right
        exact ⟨a :: pre, x, post, by simp [h1], by simpa [ha] using h2, h3, by simp [findNext, ha, h4]⟩

namespace IterStack

variable {L I : Type}

@[simp] theorem length_newBox (leaf : L) (inner : List I) : (newBox leaf inner).length = inner.length + 1 := by
  simp [newBox]

@[simp] theorem getLeaf_newBox (leaf : L) (inner : List I) : getLeaf (newBox leaf inner) = .ok leaf := rfl

@[simp] theorem setLeaf_newBox (leaf leaf' : L) (inner : List I) :
    setLeaf (newBox leaf inner) leaf' = .ok (newBox leaf' inner) := rfl

theorem getInner_newBox (leaf : L) (lo hi : List I) (it : I) :
    getInner (newBox leaf (lo ++ it :: hi)) lo.length = .ok it := by
  simp [getInner, newBox, index]

theorem setInner_newBox (leaf : L) (lo hi : List I) (it it' : I) :
    setInner (newBox leaf (lo ++ it :: hi)) lo.length it' = .ok (newBox leaf (lo ++ it' :: hi)) := by
  simp [setInner, newBox, index]

end IterStack

namespace TreeIter

open IterStack

theorem weight_newBox (es : List (K × V)) (css : List (List (Node B K V))) :
    TreeIter.weight (newBox es css) = es.length + (css.map weightList).sum := by
  simp only [TreeIter.weight, newBox, List.map_cons, List.map_map, List.sum_cons]
  rfl

/-- What the stack will still yield. -/
def rem (tb : B → Bool) (tk : K × V → Bool) (es : List (K × V)) (css : List (List (Node B K V))) :
    List (K × V) :=
  es.filter tk ++ css.flatMap (matchingList tb tk)

/-- The iterator at position `i` ranges over nodes of level `i + off`. -/
def Typed : Nat → List (List (Node B K V)) → Prop
  | _, [] => True
  | off, cs :: css => (∀ c ∈ cs, Shape off c) ∧ Typed (off + 1) css

theorem typed_replicate {off l : Nat} {rest : List (List (Node B K V))} :
    Typed off (List.replicate l [] ++ rest) ↔ Typed (off + l) rest := by
  induction l generalizing off with
  | zero => simp
  | succ l ih => simp [List.replicate_succ, Typed, ih, Nat.add_assoc, Nat.add_comm 1]

/-- Outcome of `next`. -/
def NextPost (tb : B → Bool) (tk : K × V → Bool) (es : List (K × V)) (css : List (List (Node B K V)))
    (x : Res (Option (K × V) × TreeIter B K V)) : Prop :=
  ∃ r es' css', x = .ok (r, newBox es' css') ∧ css'.length = css.length ∧ Typed 0 css' ∧
    match r with
    | none => rem tb tk es css = [] ∧ rem tb tk es' css' = []
    | some e => rem tb tk es css = e :: rem tb tk es' css' ∧
        es'.length + (css'.map weightList).sum < es.length + (css.map weightList).sum

theorem nextLoop_spec (borrow : K → Q) (f : SpatialFilter B Q) (fuel : Nat) :
    (∀ (es : List (K × V)) (css : List (List (Node B K V))), Typed 0 css →
      (es.length + (css.map weightList).sum) * (css.length + 2) + (css.length + 1) ≤ fuel →
      NextPost f.testBounds (fun e => f.testKey (borrow e.1)) es css
        (nextLoop borrow f fuel 0 (newBox es css))) ∧
    (∀ (l : Nat) (rest : List (List (Node B K V))), Typed l rest →
      (rest.map weightList).sum * (l + rest.length + 2) + rest.length ≤ fuel →
      NextPost f.testBounds (fun e => f.testKey (borrow e.1)) [] (List.replicate l [] ++ rest)
        (nextLoop borrow f fuel (l + 1) (newBox [] (List.replicate l [] ++ rest)))) := by
  induction fuel with
  | zero =>
    constructor
    · intro es css _ h; omega
    · intro l rest ht h
      have hr : rest = [] := List.length_eq_zero_iff.1 (by omega)
      subst hr
      refine ⟨none, [], List.replicate l [], ?_, by simp, by
        have := (typed_replicate (off := 0) (l := l) (rest := ([] : List (List (Node B K V))))).2
          (by simp [Typed])
        simpa using this, ?_⟩
      · unfold nextLoop; simp
      · simp [rem, List.flatMap_replicate, matchingList]
  | succ fuel ih =>
    obtain ⟨ih0, ih1⟩ := ih
    constructor
    · intro es css ht hf
      unfold nextLoop
      rw [if_pos (by simp)]
      simp only [getLeaf_newBox, ok_bind]
      rcases findNext_spec (fun e => f.testKey (borrow e.1)) es with
        ⟨h1, h2⟩ | ⟨pre, a, post, h1, h2, h3, h4⟩
      · simp only [h1, setLeaf_newBox, ok_bind]
        have hle : (css.map weightList).sum * (css.length + 2) ≤
            (es.length + (css.map weightList).sum) * (css.length + 2) := Nat.mul_le_mul_right _ (by omega)
        have h := ih1 0 css ht (by simp; omega)
        simp only [List.replicate_zero, List.nil_append, Nat.zero_add] at h
        obtain ⟨r, es', css', h5, h6, h7, h8⟩ := h
        have hrem : rem f.testBounds (fun e => f.testKey (borrow e.1)) es css =
            rem f.testBounds (fun e => f.testKey (borrow e.1)) [] css := by
          simp [rem]; simpa using h2
        refine ⟨r, es', css', h5, h6, h7, ?_⟩
        cases r with
        | none => rw [hrem]; exact h8
        | some e => rw [hrem]; exact ⟨h8.1, by have := h8.2; simp at this; omega⟩
      · simp only [h4, setLeaf_newBox, ok_bind]
        refine ⟨some a, post, css, rfl, rfl, ht, ?_, ?_⟩
        · have : pre.filter (fun e => f.testKey (borrow e.1)) = [] := by simpa using h2
          simp [rem, h1, h3, this]
        · simp [h1]; omega
    · intro l rest ht hf
      cases rest with
      | nil =>
        refine ⟨none, [], List.replicate l [], ?_, by simp, by
          have := (typed_replicate (off := 0) (l := l) (rest := ([] : List (List (Node B K V))))).2
            (by simp [Typed])
          simpa using this, ?_⟩
        · unfold nextLoop; simp
        · simp [rem, List.flatMap_replicate, matchingList]
      | cons it hi =>
        unfold nextLoop
        rw [if_pos (by simp)]
        have hg : getInner (newBox ([] : List (K × V)) (List.replicate l [] ++ it :: hi)) l = .ok it := by
          have := getInner_newBox ([] : List (K × V)) (List.replicate l []) hi it
          simpa using this
        have hs : ∀ it', setInner (newBox ([] : List (K × V)) (List.replicate l [] ++ it :: hi)) l it' =
            .ok (newBox [] (List.replicate l [] ++ it' :: hi)) := by
          intro it'
          have := setInner_newBox ([] : List (K × V)) (List.replicate l []) hi it it'
          simpa using this
        simp only [hg, ok_bind]
        simp only [List.map_cons, List.sum_cons, List.length_cons] at hf
        have htl : Typed (l + 1) hi := ht.2
        rcases findNext_spec (fun n : Node B K V => f.testBounds n.bounds) it with
          ⟨h1, h2⟩ | ⟨pre, a, post, h1, h2, h3, h4⟩
        · simp only [h1, hs, ok_bind]
          have heq : List.replicate l ([] : List (Node B K V)) ++ [] :: hi = List.replicate (l + 1) [] ++ hi := by
            rw [List.replicate_succ', List.append_assoc]; rfl
          rw [heq]
          have h := ih1 (l + 1) hi ht.2 (by
            rw [Nat.add_mul] at hf
            have h0 : l + 1 + hi.length + 2 = l + (hi.length + 1) + 2 := by omega
            rw [h0]; omega)
          obtain ⟨r, es', css', h5, h6, h7, h8⟩ := h
          have hrem : rem f.testBounds (fun e => f.testKey (borrow e.1)) ([] : List (K × V))
                (List.replicate l [] ++ it :: hi) =
              rem f.testBounds (fun e => f.testKey (borrow e.1)) [] (List.replicate (l + 1) [] ++ hi) := by
            simp [rem, List.flatMap_replicate, matchingList, matchingList_eq_nil h2]
          refine ⟨r, es', css', h5, by simp at h6 ⊢; omega, h7, ?_⟩
          cases r with
          | none => rw [hrem]; exact h8
          | some e =>
            rw [hrem]; refine ⟨h8.1, ?_⟩
            have := h8.2
            simp [weightList] at this ⊢; omega
        · simp only [h4, hs, ok_bind]
          have hsa : Shape l a := ht.1 a (by simp [h1])
          have hsp : ∀ c ∈ post, Shape l c := fun c hc => ht.1 c (by simp [h1, hc])
          have hw : weightList it = weightList pre + (a.weight + weightList post) := by
            rw [h1, weightList_append]; simp [weightList]
          rw [Nat.add_mul] at hf
          cases l with
          | zero =>
            obtain ⟨b, es, rfl⟩ := hsa.leaf
            simp only [Node.leafChildren, ok_bind]
            simp only [List.replicate_zero, List.nil_append]
            simp only [setLeaf_newBox, ok_bind]
            have h := ih0 es (post :: hi) ⟨hsp, htl⟩ (by
              simp only [List.map_cons, List.sum_cons, List.length_cons]
              have h5 : es.length + (weightList post + (hi.map weightList).sum) + 1 ≤
                  weightList it + (hi.map weightList).sum := by
                rw [hw]; simp [Node.weight]; omega
              have h6 := Nat.mul_le_mul_right (hi.length + 1 + 2) h5
              rw [Nat.add_mul _ 1, Nat.add_mul (weightList it)] at h6
              simp only [Nat.zero_add] at hf
              omega)
            obtain ⟨r, es', css', h5, h6, h7, h8⟩ := h
            have hrem : rem f.testBounds (fun e => f.testKey (borrow e.1)) ([] : List (K × V)) (it :: hi) =
                rem f.testBounds (fun e => f.testKey (borrow e.1)) es (post :: hi) := by
              simp only [rem, List.flatMap_cons, List.filter_nil, List.nil_append, h1, matchingList_append,
                matchingList_eq_nil h2, matchingList, h3, if_true, Node.matching, List.append_assoc]
            refine ⟨r, es', css', h5, h6, h7, ?_⟩
            cases r with
            | none => rw [hrem]; exact h8
            | some e =>
              rw [hrem]; refine ⟨h8.1, ?_⟩
              have := h8.2
              simp [Node.weight] at this hw ⊢; omega
          | succ l' =>
            obtain ⟨b, cs, rfl, hcs⟩ := hsa.inner
            simp only [Node.innerChildren, ok_bind]
            have heq : ∀ x : List (Node B K V), List.replicate (l' + 1) ([] : List (Node B K V)) ++ x :: hi =
                List.replicate l' [] ++ [] :: x :: hi := by
              intro x; rw [List.replicate_succ', List.append_assoc]; rfl
            have hs' : setInner (newBox ([] : List (K × V)) (List.replicate l' [] ++ [] :: post :: hi)) l' cs =
                .ok (newBox [] (List.replicate l' [] ++ cs :: post :: hi)) := by
              have := setInner_newBox ([] : List (K × V)) (List.replicate l' []) (post :: hi) [] cs
              simpa using this
            rw [heq post, hs']
            simp only [ok_bind]
            have h := ih1 l' (cs :: post :: hi) ⟨hcs, hsp, htl⟩ (by
              simp only [List.map_cons, List.sum_cons, List.length_cons]
              have h5 : weightList cs + (weightList post + (hi.map weightList).sum) + 1 ≤
                  weightList it + (hi.map weightList).sum := by
                rw [hw]; simp [Node.weight]; omega
              have h0 : l' + (hi.length + 1 + 1) + 2 = l' + 1 + (hi.length + 1) + 2 := by omega
              rw [h0]
              have h6 := Nat.mul_le_mul_right (l' + 1 + (hi.length + 1) + 2) h5
              rw [Nat.add_mul _ 1, Nat.add_mul (weightList it)] at h6
              omega)
            obtain ⟨r, es', css', h5, h6, h7, h8⟩ := h
            have hrem : rem f.testBounds (fun e => f.testKey (borrow e.1)) ([] : List (K × V))
                  (List.replicate (l' + 1) [] ++ it :: hi) =
                rem f.testBounds (fun e => f.testKey (borrow e.1)) []
                  (List.replicate l' [] ++ cs :: post :: hi) := by
              simp [rem, List.flatMap_replicate, matchingList, h1, matchingList_append,
                matchingList_eq_nil h2, h3, Node.matching]
            refine ⟨r, es', css', h5, by simp at h6 ⊢; omega, h7, ?_⟩
            cases r with
            | none => rw [hrem]; exact h8
            | some e =>
              rw [hrem]; refine ⟨h8.1, ?_⟩
              have := h8.2
              simp [Node.weight, weightList] at this hw ⊢; omega

theorem next_spec (borrow : K → Q) (f : SpatialFilter B Q) {es : List (K × V)}
    {css : List (List (Node B K V))} (ht : Typed 0 css) :
    NextPost f.testBounds (fun e => f.testKey (borrow e.1)) es css (next borrow f (newBox es css)) := by
  unfold next
  refine (nextLoop_spec borrow f _).1 es css ht ?_
  rw [weight_newBox, length_newBox, Nat.add_mul (es.length + _) 1, Nat.one_mul,
    show css.length + 1 + 1 = css.length + 2 from rfl]
  omega

theorem collectLoop_spec (borrow : K → Q) (f : SpatialFilter B Q) (n : Nat) {es : List (K × V)}
    {css : List (List (Node B K V))} (ht : Typed 0 css) (hn : es.length + (css.map weightList).sum < n) :
    collectLoop borrow f n (newBox es css) =
      .ok (rem f.testBounds (fun e => f.testKey (borrow e.1)) es css) := by
  induction n generalizing es css with
  | zero => omega
  | succ n ih =>
    obtain ⟨r, es', css', h1, h2, h3, h4⟩ := next_spec borrow f (es := es) ht
    unfold collectLoop
    rw [h1]
    cases r with
    | none => simp only [ok_bind]; rw [h4.1]; rfl
    | some e =>
      simp only [ok_bind]
      rw [ih h3 (by have := h4.2; omega), h4.1]; rfl

theorem collect_spec (borrow : K → Q) (f : SpatialFilter B Q) {es : List (K × V)}
    {css : List (List (Node B K V))} (ht : Typed 0 css) :
    collect borrow f (newBox es css) =
      .ok (rem f.testBounds (fun e => f.testKey (borrow e.1)) es css) := by
  unfold collect
  refine collectLoop_spec borrow f _ ht ?_
  rw [weight_newBox]; omega

theorem new_spec {level : Nat} {root : Node B K V} (h : Shape level root) (tb : B → Bool) (tk : K × V → Bool) :
    ∃ es css, TreeIter.new level root = .ok (newBox es css) ∧ Typed 0 css ∧ css.length = level ∧
      rem tb tk es css = root.matching tb tk := by
  cases level with
  | zero =>
    obtain ⟨b, es, rfl⟩ := h.leaf
    exact ⟨es, [], rfl, trivial, rfl, by simp [rem, Node.matching]⟩
  | succ l =>
    obtain ⟨b, cs, rfl, hcs⟩ := h.inner
    refine ⟨[], List.replicate l [] ++ [cs], ?_, ?_, by simp, ?_⟩
    · have := setInner_newBox ([] : List (K × V)) (List.replicate l []) [] ([] : List (Node B K V)) cs
      simp only [List.length_replicate] at this
      simp only [TreeIter.new, Node.innerChildren, ok_bind]
      rw [← this, ← List.replicate_succ']
    · rw [typed_replicate]; exact ⟨by simpa using hcs, trivial⟩
    · simp [rem, List.flatMap_replicate, matchingList, Node.matching]

theorem collect_newEmpty (borrow : K → Q) (f : SpatialFilter B Q) :
    (TreeIter.newEmpty : TreeIter B K V).collect borrow f = .ok [] := by
  simp [collect, newEmpty, emptyBox, collectLoop, next, nextLoop]

end TreeIter

theorem Tree.iter_of_shape {t : Tree B K V} (h : Shape t.level t.root) :
    t.iter = .ok (t.root.matching (fun _ => true) fun _ => true) := by
  obtain ⟨es, css, h1, h2, _, h3⟩ := TreeIter.new_spec h (fun _ => true) (fun _ => true)
  simp only [Tree.iter, h1, ok_bind, TreeIter.collect_spec _ _ h2]
  rw [← h3]; rfl

theorem Tree.filterIter_of_shape {t : Tree B K V} (borrow : K → Q) (f : SpatialFilter B Q)
    (h : Shape t.level t.root) :
    t.filterIter borrow f = .ok (if f.testBounds t.root.bounds then
      t.root.matching f.testBounds (fun e => f.testKey (borrow e.1)) else []) := by
  unfold Tree.filterIter TreeIter.newFilter
  split
  · obtain ⟨es, css, h1, h2, _, h3⟩ :=
      TreeIter.new_spec h f.testBounds (fun e => f.testKey (borrow e.1))
    simp only [h1, ok_bind, TreeIter.collect_spec _ _ h2, h3]
  · simp only [ok_bind, TreeIter.collect_newEmpty]

mutual
theorem Node.matching_true (n : Node B K V) :
    n.matching (fun _ => true) (fun _ => true) = n.entries := by
  cases n with
  | leaf b es => simp [Node.matching, Node.entries]
  | inner b cs => simp only [Node.matching, Node.entries]; exact matchingList_true cs
theorem matchingList_true (cs : List (Node B K V)) :
    matchingList (fun _ => true) (fun _ => true) cs = entriesList cs := by
  cases cs with
  | nil => rfl
  | cons c cs => simp only [matchingList, entriesList, if_true, Node.matching_true c, matchingList_true cs]
end

mutual
/-- Strengthening the test of keys filters the result. -/
theorem Node.matching_and (tb : B → Bool) (tk s : K × V → Bool) (n : Node B K V) :
    n.matching tb (fun e => tk e && s e) = (n.matching tb tk).filter s := by
  cases n with
  | leaf b es => simp [Node.matching, List.filter_filter, Bool.and_comm]
  | inner b cs => simp only [Node.matching]; exact matchingList_and tb tk s cs
theorem matchingList_and (tb : B → Bool) (tk s : K × V → Bool) (cs : List (Node B K V)) :
    matchingList tb (fun e => tk e && s e) cs = (matchingList tb tk cs).filter s := by
  cases cs with
  | nil => rfl
  | cons c cs =>
    simp only [matchingList, List.filter_append, Node.matching_and tb tk s c, matchingList_and tb tk s cs]
    congr 1
    split <;> rfl
end

mutual
theorem Node.matching_sublist (tb : B → Bool) (tk : K × V → Bool) (n : Node B K V) :
    (n.matching tb tk).Sublist (n.entries.filter tk) := by
  cases n with
  | leaf b es => simp [Node.matching, Node.entries]
  | inner b cs => simp only [Node.matching, Node.entries]; exact matchingList_sublist tb tk cs
theorem matchingList_sublist (tb : B → Bool) (tk : K × V → Bool) (cs : List (Node B K V)) :
    (matchingList tb tk cs).Sublist ((entriesList cs).filter tk) := by
  cases cs with
  | nil => simp [matchingList, entriesList]
  | cons c cs =>
    simp only [matchingList, entriesList, List.filter_append]
    refine List.Sublist.append ?_ (matchingList_sublist tb tk cs)
    split
    · exact Node.matching_sublist tb tk c
    · exact List.nil_sublist _
end

section

variable [Bounds B] [Volume B] [VolumeLaws B] [Bounded K B] {rel : B → List B → Prop} {a : Alloc} {g : Prop}

theorem Ok.shape {l : Nat} {n : Node B K V} (h : Ok rel a g l n) : Shape l n := by
  induction l generalizing n with
  | zero => obtain ⟨b, es, rfl, _⟩ := h.leaf; trivial
  | succ l ih =>
    obtain ⟨b, cs, rfl, _, _, hcs⟩ := h.inner
    simp only [Shape]
    exact fun c hc => ih (hcs c hc).1

/-- Pruning loses nothing if every recorded bounds passes whenever a matching key is below. -/
theorem Ok.matching {tb : B → Bool} {tk : K × V → Bool}
    (hp : ∀ b (es : List (K × V)), rel b (es.map entryBounds) → ∀ e ∈ es, tk e = true → tb b = true)
    {l : Nat} {n : Node B K V} (h : Ok rel a g l n) :
    (if tb n.bounds then n.matching tb tk else []) = n.entries.filter tk ∧
      n.matching tb tk = n.entries.filter tk := by
  have aux : ∀ (n : Node B K V), rel n.bounds (n.entries.map entryBounds) → tb n.bounds = false →
      n.entries.filter tk = [] := by
    intro n hr ht
    rw [List.filter_eq_nil_iff]
    intro e he hk
    simp [hp _ _ hr e he hk] at ht
  suffices hm : n.matching tb tk = n.entries.filter tk by
    refine ⟨?_, hm⟩
    split
    · exact hm
    · rename_i hb; exact (aux n h.agg (by simpa using hb)).symm
  induction l generalizing n with
  | zero => obtain ⟨b, es, rfl, _⟩ := h.leaf; simp [Node.matching]
  | succ l ih =>
    obtain ⟨b, cs, rfl, h1, h2, hcs⟩ := h.inner
    simp only [Node.matching, entries_inner]
    clear h h1 h2
    induction cs with
    | nil => simp [matchingList]
    | cons c cs ihc =>
      have hc := (hcs c (by simp)).1
      rw [matchingList, entriesList_cons, List.filter_append, ihc fun x hx => hcs x (by simp [hx])]
      congr 1
      split
      · exact ih hc
      · rename_i hb; exact (aux c hc.agg (by simpa using hb)).symm

end

end RTree
