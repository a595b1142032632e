import Verif.Model.Join
import Verif.Proofs.NodeInv
/-! What a join yields. -/

namespace RTree

theorem length_pairs {α β : Type} (as : List α) (bs : List β) : (pairs as bs).length = as.length * bs.length := by
  induction bs with
  | nil => rfl
  | cons b bs ih =>
    have : pairs as (b :: bs) = as.map (fun a => (a, b)) ++ pairs as bs := rfl
    rw [this, List.length_append, ih, List.length_map, List.length_cons, Nat.mul_add, Nat.mul_one, Nat.add_comm]

namespace ProductIter

variable {α β : Type}

/-- The pairs not yet yielded. -/
def rest (it : ProductIter α β) : List (α × β) :=
  match it.snd with
  | [] => []
  | b :: bs => (it.fst.slice.drop it.fst.i).map (fun a => (a, b)) ++ pairs it.fst.slice bs

/-- The invariant of the first component. -/
def Wf (it : ProductIter α β) : Prop := it.fst.i < it.fst.slice.length ∨ it.fst.slice = []

theorem wf_new (as : List α) (bs : List β) : (new as bs).Wf := by
  cases as with
  | nil => exact .inr rfl
  | cons a as => exact .inl (by simp [new, CyclicIter.new])

theorem rest_new (as : List α) (bs : List β) : (new as bs).rest = pairs as bs := by
  cases bs with
  | nil => rfl
  | cons b bs => simp [rest, new, CyclicIter.new, pairs]

theorem next_spec {it : ProductIter α β} (h : it.Wf) :
    (it.rest = [] ∧ it.next = (none, it)) ∨
    ∃ x it', it.next = (some x, it') ∧ it.rest = x :: it'.rest ∧ it'.Wf := by
  obtain ⟨⟨s, i⟩, snd⟩ := it
  rcases h with h | h
  · simp only at h
    cases snd with
    | nil => exact .inl ⟨rfl, by simp [next, CyclicIter.get, h]⟩
    | cons b bs =>
      right
      have hd : s.drop i = s[i] :: s.drop (i + 1) := List.drop_eq_getElem_cons h
      by_cases hl : i + 1 ≥ s.length
      · refine ⟨(s[i], b), ⟨⟨s, 0⟩, bs⟩, ?_, ?_, ?_⟩
        · simp [next, CyclicIter.get, h, CyclicIter.advance, hl]
        · have h0 : s.drop (i + 1) = [] := List.drop_eq_nil_of_le hl
          simp only [rest, hd, h0, List.map_cons, List.map_nil, List.cons_append, List.nil_append]
          cases bs with
          | nil => rfl
          | cons b' bs => simp [pairs]
        · exact .inl (by simp; omega)
      · refine ⟨(s[i], b), ⟨⟨s, i + 1⟩, b :: bs⟩, ?_, ?_, ?_⟩
        · simp [next, CyclicIter.get, h, CyclicIter.advance, hl]
        · simp only [rest, hd, List.map_cons, List.cons_append]
        · exact .inl (by simp; omega)
  · simp only at h
    subst h
    left
    constructor
    · cases snd <;> simp [rest, pairs]
    · simp [next, CyclicIter.get]

theorem findLoop_spec (p : α × β → Bool) (n : Nat) {it : ProductIter α β} (h : it.Wf) (hn : it.rest.length < n) :
    ∃ it', findLoop p n it = .ok ((findNext p it.rest).1, it') ∧ it'.rest = (findNext p it.rest).2 ∧ it'.Wf := by
  induction n generalizing it with
  | zero => omega
  | succ n ih =>
    unfold findLoop
    rcases next_spec h with ⟨h1, h2⟩ | ⟨x, it', h1, h2, h3⟩
    · rw [h2, h1]
      exact ⟨it, rfl, h1, h⟩
    · rw [h1]
      simp only [h2, findNext]
      by_cases hx : p x = true
      · simp only [hx, if_true]
        exact ⟨it', rfl, rfl, h3⟩
      · simp only [hx, if_false, Bool.false_eq_true]
        exact ih h3 (by rw [h2] at hn; simp at hn; omega)

theorem length_rest (it : ProductIter α β) : it.rest.length ≤ it.fst.slice.length * it.snd.length := by
  obtain ⟨⟨s, i⟩, snd⟩ := it
  cases snd with
  | nil => simp [rest]
  | cons b bs => simp [rest, length_pairs, Nat.mul_add]; omega

theorem find_spec (p : α × β → Bool) {it : ProductIter α β} (h : it.Wf) :
    ∃ it', find p it = .ok ((findNext p it.rest).1, it') ∧ it'.rest = (findNext p it.rest).2 ∧ it'.Wf := by
  have := it.length_rest
  exact findLoop_spec p _ h (by omega)

end ProductIter

variable {B0 B1 K0 K1 V0 V1 Q0 Q1 : Type}

/-- The pairs of entries below a pair of nodes that pass the filter, where pairs failing the bounds test are skipped. -/
def joinMatching (tb : Node B0 K0 V0 × Node B1 K1 V1 → Bool) (tk : (K0 × V0) × (K1 × V1) → Bool) :
    Nat → Node B0 K0 V0 × Node B1 K1 V1 → List ((K0 × V0) × (K1 × V1))
  | 0, (.leaf _ es, .leaf _ fs) => (pairs es fs).filter tk
  | 0, _ => []
  | l + 1, x => (pairs x.1.kids x.2.kids).flatMap fun y => if tb y then joinMatching tb tk l y else []

namespace JoinIter

open IterStack

section Machine

variable (tb : Node B0 K0 V0 × Node B1 K1 V1 → Bool) (tk : (K0 × V0) × (K1 × V1) → Bool) (p0 p1 : Nat)

/-- What the pairs waiting at a level will still yield. -/
def yields (l : Nat) (xs : List (Node B0 K0 V0 × Node B1 K1 V1)) : List ((K0 × V0) × (K1 × V1)) :=
  xs.flatMap fun y => if tb y then joinMatching tb tk l y else []

/-- What the inner iterators, from level `off`, will still yield. -/
def remInner : Nat → List (ProductIter (Node B0 K0 V0) (Node B1 K1 V1)) → List ((K0 × V0) × (K1 × V1))
  | _, [] => []
  | off, it :: its => yields tb tk off it.rest ++ remInner (off + 1) its

/-- Number of pairs waiting at a level. -/
def listWeight (l : Nat) (xs : List (Node B0 K0 V0 × Node B1 K1 V1)) : Nat := (xs.map fun x => joinWeight l x.1 x.2).sum

/-- Number of pairs waiting in the inner iterators. -/
def weightInner : Nat → List (ProductIter (Node B0 K0 V0) (Node B1 K1 V1)) → Nat
  | _, [] => 0
  | off, it :: its => listWeight off it.rest + weightInner (off + 1) its

/-- The inner iterator at position `i` ranges over pairs of nodes of level `i + off`, less the padding. -/
def Typed : Nat → List (ProductIter (Node B0 K0 V0) (Node B1 K1 V1)) → Prop
  | _, [] => True
  | off, it :: its => it.Wf ∧ (∀ x ∈ it.rest, Shape (off - p0) x.1 ∧ Shape (off - p1) x.2) ∧ Typed (off + 1) its

end Machine

variable {tb : Node B0 K0 V0 × Node B1 K1 V1 → Bool} {tk : (K0 × V0) × (K1 × V1) → Bool} {p0 p1 : Nat}

abbrev NodeIter (B0 B1 K0 K1 V0 V1 : Type) := ProductIter (Node B0 K0 V0) (Node B1 K1 V1)

/-- Every iterator is exhausted. -/
def Drained (its : List (NodeIter B0 B1 K0 K1 V0 V1)) : Prop := ∀ it ∈ its, it.Wf ∧ it.rest = []

theorem remInner_drained {off : Nat} {lo its : List (NodeIter B0 B1 K0 K1 V0 V1)} (h : Drained lo) :
    remInner tb tk off (lo ++ its) = remInner tb tk (off + lo.length) its := by
  induction lo generalizing off with
  | nil => rfl
  | cons it lo ih =>
    have h1 := (h it List.mem_cons_self).2
    simp only [List.cons_append, remInner, yields, h1, List.flatMap_nil, List.nil_append, List.length_cons]
    rw [ih fun x hx => h x (List.mem_cons_of_mem _ hx)]
    congr 1; omega

theorem weightInner_drained {off : Nat} {lo its : List (NodeIter B0 B1 K0 K1 V0 V1)} (h : Drained lo) :
    weightInner off (lo ++ its) = weightInner (off + lo.length) its := by
  induction lo generalizing off with
  | nil => rfl
  | cons it lo ih =>
    have h1 := (h it List.mem_cons_self).2
    simp only [List.cons_append, weightInner, listWeight, h1, List.map_nil, List.sum_nil, Nat.zero_add, List.length_cons]
    rw [ih fun x hx => h x (List.mem_cons_of_mem _ hx)]
    congr 1; omega

theorem typed_drained {off : Nat} {lo its : List (NodeIter B0 B1 K0 K1 V0 V1)} (h : Drained lo) :
    Typed p0 p1 off (lo ++ its) ↔ Typed p0 p1 (off + lo.length) its := by
  induction lo generalizing off with
  | nil => rfl
  | cons it lo ih =>
    have h1 := h it List.mem_cons_self
    simp only [List.cons_append, Typed, h1, List.not_mem_nil, false_implies, implies_true, true_and, List.length_cons]
    rw [ih fun x hx => h x (List.mem_cons_of_mem _ hx)]
    rw [show off + 1 + lo.length = off + (lo.length + 1) by omega]

theorem Drained.snoc {lo : List (NodeIter B0 B1 K0 K1 V0 V1)} {it : NodeIter B0 B1 K0 K1 V0 V1} (h : Drained lo)
    (h1 : it.Wf) (h2 : it.rest = []) : Drained (lo ++ [it]) := by
  intro x hx
  rcases List.mem_append.1 hx with hx | hx
  · exact h x hx
  · obtain rfl := List.mem_singleton.1 hx
    exact ⟨h1, h2⟩

theorem yields_find {l : Nat} {pre post : List (Node B0 K0 V0 × Node B1 K1 V1)} {x : Node B0 K0 V0 × Node B1 K1 V1}
    (hpre : ∀ y ∈ pre, tb y = false) (hx : tb x = true) :
    yields tb tk l (pre ++ x :: post) = joinMatching tb tk l x ++ yields tb tk l post := by
  have : yields tb tk l pre = [] := by
    simp only [yields, List.flatMap_eq_nil_iff]
    intro y hy
    simp [hpre y hy]
  simp only [yields] at this
  simp [yields, this, hx]

theorem yields_nil {l : Nat} {xs : List (Node B0 K0 V0 × Node B1 K1 V1)} (h : ∀ y ∈ xs, tb y = false) :
    yields tb tk l xs = [] := by
  simp only [yields, List.flatMap_eq_nil_iff]
  intro y hy
  simp [h y hy]

theorem slice_ok {B K V : Type} {l : Nat} {n : Node B K V} (h : Shape l n) : slice n l = .ok n.kids := by
  cases l with
  | zero => obtain ⟨b, es, rfl⟩ := h.leaf; rfl
  | succ l => obtain ⟨b, cs, rfl, _⟩ := h.inner; rfl

theorem shape_kids {B K V : Type} {l p : Nat} {n : Node B K V} (h : Shape (l + 1 - p) n) :
    ∀ c ∈ n.kids, Shape (l - p) c := by
  intro c hc
  by_cases hp : l + 1 ≤ p
  · rw [show l + 1 - p = 0 by omega] at h
    obtain ⟨b, es, rfl⟩ := h.leaf
    simp only [Node.kids, List.mem_singleton] at hc
    subst hc
    rw [show l - p = 0 by omega]
    trivial
  · rw [show l + 1 - p = (l - p) + 1 by omega] at h
    obtain ⟨b, cs, rfl, hcs⟩ := h.inner
    exact hcs c hc

theorem _root_.RTree.mem_pairs {α β : Type} {as : List α} {bs : List β} {x : α × β} : x ∈ pairs as bs ↔ x.1 ∈ as ∧ x.2 ∈ bs := by
  obtain ⟨a, b⟩ := x
  simp only [pairs, List.mem_flatMap, List.mem_map, Prod.mk.injEq]
  constructor
  · rintro ⟨b', hb, a', ha, rfl, rfl⟩
    exact ⟨ha, hb⟩
  · rintro ⟨ha, hb⟩
    exact ⟨b, hb, a, ha, rfl, rfl⟩

/-- Outcome of `next`. -/
def NextPost (tb : Node B0 K0 V0 × Node B1 K1 V1 → Bool) (tk : (K0 × V0) × (K1 × V1) → Bool) (p0 p1 : Nat)
    (rem : List ((K0 × V0) × (K1 × V1))) (len weight : Nat)
    (x : Res (Option ((K0 × V0) × (K1 × V1)) × JoinIterStack B0 B1 K0 K1 V0 V1)) : Prop :=
  ∃ r lf its, x = .ok (r, newBox lf its) ∧ its.length = len ∧ lf.Wf ∧ Typed p0 p1 0 its ∧
    match r with
    | none => rem = []
    | some e => rem = e :: (lf.rest.filter tk ++ remInner tb tk 0 its) ∧
        lf.rest.length + weightInner 0 its < weight

theorem NextPost.mono {rem rem' : List ((K0 × V0) × (K1 × V1))} {len len' weight weight' : Nat}
    {x : Res (Option ((K0 × V0) × (K1 × V1)) × JoinIterStack B0 B1 K0 K1 V0 V1)}
    (h : NextPost tb tk p0 p1 rem len weight x) (hr : rem = rem') (hl : len = len') (hw : weight ≤ weight') :
    NextPost tb tk p0 p1 rem' len' weight' x := by
  subst hr hl
  obtain ⟨r, lf, its, h1, h2, h3, h4, h5⟩ := h
  refine ⟨r, lf, its, h1, h2, h3, h4, ?_⟩
  cases r with
  | none => exact h5
  | some e => exact ⟨h5.1, by have := h5.2; omega⟩

theorem nextLoop_spec (borrow0 : K0 → Q0) (borrow1 : K1 → Q1) (f : JoinFilter B0 B1 Q0 Q1)
    (htb : tb = fun x => f.testBounds x.1.bounds x.2.bounds)
    (htk : tk = fun x => f.testKey (borrow0 x.1.1) (borrow1 x.2.1)) (hp : p0 = 0 ∨ p1 = 0) (fuel : Nat) :
    (∀ (lf : ProductIter (K0 × V0) (K1 × V1)) (its : List (NodeIter B0 B1 K0 K1 V0 V1)), lf.Wf → Typed p0 p1 0 its →
      (lf.rest.length + weightInner 0 its) * (its.length + 2) + (its.length + 1) ≤ fuel →
      NextPost tb tk p0 p1 (lf.rest.filter tk ++ remInner tb tk 0 its) its.length (lf.rest.length + weightInner 0 its)
        (nextLoop borrow0 borrow1 f p0 p1 fuel 0 (newBox lf its))) ∧
    (∀ (lf : ProductIter (K0 × V0) (K1 × V1)) (lo rest : List (NodeIter B0 B1 K0 K1 V0 V1)), lf.Wf → lf.rest = [] →
      Drained lo → Typed p0 p1 lo.length rest →
      weightInner lo.length rest * (lo.length + rest.length + 2) + rest.length ≤ fuel →
      NextPost tb tk p0 p1 (remInner tb tk lo.length rest) (lo.length + rest.length) (weightInner lo.length rest)
        (nextLoop borrow0 borrow1 f p0 p1 fuel (lo.length + 1) (newBox lf (lo ++ rest)))) := by
  induction fuel with
  | zero =>
    constructor
    · intro lf its _ _ h; omega
    · intro lf lo rest hw hlf hlo ht h
      have hr : rest = [] := List.length_eq_zero_iff.1 (by omega)
      subst hr
      refine ⟨none, lf, lo, ?_, by simp, hw, by
        have := (typed_drained (p0 := p0) (p1 := p1) (off := 0) (its := []) hlo).2 trivial
        simpa using this, ?_⟩
      · unfold nextLoop; simp
      · rfl
  | succ fuel ih =>
    obtain ⟨ih0, ih1⟩ := ih
    constructor
    · intro lf its hw ht hf
      unfold nextLoop
      rw [if_pos (by simp)]
      simp only [getLeaf_newBox, ok_bind]
      obtain ⟨lf', h1, h2, h3⟩ := ProductIter.find_spec tk hw
      rw [htk] at h1
      rw [h1]
      rw [← htk]
      simp only [ok_bind, setLeaf_newBox]
      rcases findNext_spec tk lf.rest with ⟨h4, h5⟩ | ⟨pre, a, post, h4, h5, h6, h7⟩
      · simp only [h4]
        rw [h4] at h2
        have hle : weightInner 0 its * (its.length + 2) ≤ (lf.rest.length + weightInner 0 its) * (its.length + 2) :=
          Nat.mul_le_mul_right _ (by omega)
        have h := ih1 lf' [] its h3 h2 (by intro x hx; cases hx) ht (by simp; omega)
        refine h.mono ?_ (by simp) (by simp)
        rw [List.filter_eq_nil_iff.2 (fun x hx => by simp [h5 x hx])]
        rfl
      · simp only [h7]
        rw [h7] at h2
        refine ⟨some a, lf', its, rfl, rfl, h3, ht, ?_, ?_⟩
        · have : pre.filter tk = [] := by simpa using h5
          simp [h4, h6, this, h2]
        · simp [h4, h2]; omega
    · intro lf lo rest hw hlf hlo ht hf
      cases rest with
      | nil =>
        refine ⟨none, lf, lo, ?_, by simp, hw, by
          have := (typed_drained (p0 := p0) (p1 := p1) (off := 0) (its := []) hlo).2 trivial
          simpa using this, ?_⟩
        · unfold nextLoop; simp
        · rfl
      | cons it hi =>
        obtain ⟨hit, hsh, hti⟩ := ht
        unfold nextLoop
        rw [if_pos (by simp)]
        simp only [getInner_newBox, ok_bind]
        obtain ⟨it', h1, h2, h3⟩ := ProductIter.find_spec tb hit
        rw [htb] at h1
        rw [h1]
        rw [← htb]
        simp only [ok_bind, setInner_newBox]
        simp only [weightInner, List.length_cons] at hf
        rcases findNext_spec tb it.rest with ⟨h4, h5⟩ | ⟨pre, a, post, h4, h5, h6, h7⟩
        · simp only [h4]
          rw [h4] at h2
          have heq : lo ++ it' :: hi = (lo ++ [it']) ++ hi := by simp
          have hlen : (lo ++ [it']).length = lo.length + 1 := by simp
          have h := ih1 lf (lo ++ [it']) hi hw hlf (hlo.snoc h3 h2) (by rw [hlen]; exact hti) (by
            rw [hlen]
            rw [Nat.add_mul] at hf
            have h0 : lo.length + 1 + hi.length + 2 = lo.length + (hi.length + 1) + 2 := by omega
            rw [h0]; omega)
          rw [hlen] at h
          rw [heq]
          refine h.mono ?_ (by simp only [List.length_cons]; omega) (by simp only [weightInner]; omega)
          simp only [remInner, yields_nil h5, List.nil_append]
        · simp only [h7]
          rw [h7] at h2
          obtain ⟨n0, n1⟩ := a
          have hsa := hsh (n0, n1) (by simp [h4])
          have hsp : ∀ c ∈ it'.rest, Shape (lo.length - p0) c.1 ∧ Shape (lo.length - p1) c.2 :=
            fun c hc => hsh c (by rw [h2] at hc; simp [h4, hc])
          have hwt : listWeight lo.length it.rest =
              listWeight lo.length pre + (joinWeight lo.length n0 n1 + listWeight lo.length it'.rest) := by
            rw [h4, h2]; simp [listWeight]
          have hrem : remInner tb tk lo.length (it :: hi) =
              joinMatching tb tk lo.length (n0, n1) ++ remInner tb tk lo.length (it' :: hi) := by
            simp only [remInner, h4, h2, yields_find h5 h6, List.append_assoc]
          rw [Nat.add_mul] at hf
          cases hlol : lo.length with
          | zero =>
            have hlo0 : lo = [] := List.length_eq_zero_iff.1 hlol
            subst hlo0
            simp only [hlol, Nat.zero_sub] at hsa hsp hf hrem hwt ⊢
            obtain ⟨b, es, rfl⟩ := hsa.1.leaf
            obtain ⟨b', fs, rfl⟩ := hsa.2.leaf
            simp only [startJoin, Nat.max_self, Node.leafChildren, ok_bind, setLeaf_newBox, List.nil_append]
            have hlr : (ProductIter.new es fs).rest.length = es.length * fs.length := by
              rw [ProductIter.rest_new, length_pairs]
            have hjw : joinWeight 0 (Node.leaf b es : Node B0 K0 V0) (Node.leaf b' fs : Node B1 K1 V1) =
              1 + es.length * fs.length := rfl
            have h := ih0 (ProductIter.new es fs) (it' :: hi) (ProductIter.wf_new _ _)
              ⟨h3, by simpa using hsp, hti⟩ (by
                rw [hlr]
                simp only [weightInner, List.length_cons]
                have h5 : es.length * fs.length + (listWeight 0 it'.rest + weightInner (0 + 1) hi) + 1 ≤
                    listWeight 0 it.rest + weightInner (0 + 1) hi := by omega
                have h6 := Nat.mul_le_mul_right (hi.length + 1 + 2) h5
                rw [Nat.add_mul _ 1, Nat.add_mul (listWeight 0 it.rest)] at h6
                simp only [Nat.zero_add] at hf h6 ⊢
                omega)
            refine h.mono ?_ (by simp) ?_
            · rw [hrem, ProductIter.rest_new]; rfl
            · rw [hlr]; simp only [weightInner]; omega
          | succ l' =>
            rw [hlol] at hsa hsp hf hrem hwt
            obtain ⟨lo', last, rfl⟩ : ∃ lo' last, lo = lo' ++ [last] :=
              ⟨lo.dropLast, lo.getLast (by intro h; simp [h] at hlol), (List.dropLast_concat_getLast _).symm⟩
            have hl' : lo'.length = l' := by simpa using hlol
            have hmax : max (l' + 1 - p0) (l' + 1 - p1) = l' + 1 := by
              rcases hp with rfl | rfl <;> simp <;> omega
            simp only [startJoin, hmax, slice_ok hsa.1, slice_ok hsa.2, ok_bind]
            have heq : lo' ++ [last] ++ it' :: hi = lo' ++ last :: it' :: hi := by simp
            have hset := setInner_newBox lf lo' (it' :: hi) last (ProductIter.new n0.kids n1.kids)
            rw [hl'] at hset
            rw [heq, hset]
            simp only [ok_bind]
            have hlod : Drained lo' := fun x hx => hlo x (List.mem_append_left _ hx)
            have hkids : ∀ x ∈ (ProductIter.new n0.kids n1.kids).rest, Shape (l' - p0) x.1 ∧ Shape (l' - p1) x.2 := by
              intro x hx
              rw [ProductIter.rest_new, mem_pairs] at hx
              exact ⟨shape_kids hsa.1 _ hx.1, shape_kids hsa.2 _ hx.2⟩
            have hlw : listWeight l' (ProductIter.new n0.kids n1.kids).rest + 1 = joinWeight (l' + 1) n0 n1 := by
              rw [ProductIter.rest_new, joinWeight, listWeight, Nat.add_comm]
            have h := ih1 lf lo' (ProductIter.new n0.kids n1.kids :: it' :: hi) hw hlf hlod (by
                rw [hl']
                refine ⟨ProductIter.wf_new _ _, hkids, h3, hsp, ?_⟩
                rw [hlol] at hti; exact hti) (by
                rw [hl']
                simp only [weightInner, List.length_cons]
                have h5 : listWeight l' (ProductIter.new n0.kids n1.kids).rest + (listWeight (l' + 1) it'.rest +
                    weightInner (l' + 1 + 1) hi) + 1 ≤ listWeight (l' + 1) it.rest + weightInner (l' + 1 + 1) hi := by omega
                have h0 : l' + (hi.length + 1 + 1) + 2 = l' + 1 + (hi.length + 1) + 2 := by omega
                rw [h0]
                have h6 := Nat.mul_le_mul_right (l' + 1 + (hi.length + 1) + 2) h5
                rw [Nat.add_mul _ 1, Nat.add_mul (listWeight (l' + 1) it.rest)] at h6
                omega)
            rw [hl'] at h
            refine h.mono ?_ (by simp only [List.length_cons]; omega) ?_
            · rw [hrem]
              simp only [remInner, ProductIter.rest_new]
              rfl
            · simp only [weightInner]; omega

theorem collectLoop_spec (borrow0 : K0 → Q0) (borrow1 : K1 → Q1) (f : JoinFilter B0 B1 Q0 Q1)
    (htb : tb = fun x => f.testBounds x.1.bounds x.2.bounds)
    (htk : tk = fun x => f.testKey (borrow0 x.1.1) (borrow1 x.2.1)) (hp : p0 = 0 ∨ p1 = 0) (fuel n : Nat)
    {lf : ProductIter (K0 × V0) (K1 × V1)} {its : List (NodeIter B0 B1 K0 K1 V0 V1)} (hw : lf.Wf) (ht : Typed p0 p1 0 its)
    (hf : (lf.rest.length + weightInner 0 its) * (its.length + 2) + (its.length + 1) ≤ fuel)
    (hn : lf.rest.length + weightInner 0 its < n) :
    collectLoop borrow0 borrow1 f p0 p1 fuel n (newBox lf its) = .ok (lf.rest.filter tk ++ remInner tb tk 0 its) := by
  induction n generalizing lf its with
  | zero => omega
  | succ n ih =>
    obtain ⟨r, lf', its', h1, h2, h3, h4, h5⟩ := (nextLoop_spec borrow0 borrow1 f htb htk hp fuel).1 lf its hw ht hf
    unfold collectLoop
    rw [h1]
    cases r with
    | none => simp only [ok_bind]; rw [h5]; rfl
    | some e =>
      simp only [ok_bind]
      have hle : (lf'.rest.length + weightInner 0 its') * (its'.length + 2) ≤
          (lf.rest.length + weightInner 0 its) * (its.length + 2) := by
        rw [h2]; exact Nat.mul_le_mul_right _ (by have := h5.2; omega)
      rw [ih h3 h4 (by omega) (by have := h5.2; omega), h5.1]; rfl

theorem remInner_replicate (off k : Nat) (its : List (NodeIter B0 B1 K0 K1 V0 V1)) :
    remInner tb tk off (List.replicate k (ProductIter.new [] []) ++ its) = remInner tb tk (off + k) its := by
  have hd : Drained (List.replicate k (ProductIter.new [] [] : NodeIter B0 B1 K0 K1 V0 V1)) := by
    intro x hx
    obtain rfl := List.eq_of_mem_replicate hx
    exact ⟨ProductIter.wf_new _ _, rfl⟩
  rw [remInner_drained hd, List.length_replicate]

end JoinIter

open JoinIter IterStack in
theorem Tree.join_of_shape (borrow0 : K0 → Q0) (borrow1 : K1 → Q1) (f : JoinFilter B0 B1 Q0 Q1) {t0 : Tree B0 K0 V0}
    {t1 : Tree B1 K1 V1} (h0 : Shape t0.level t0.root) (h1 : Shape t1.level t1.root) :
    Tree.join borrow0 borrow1 f t0 t1 = .ok (if f.testBounds t0.root.bounds t1.root.bounds then
      joinMatching (fun x => f.testBounds x.1.bounds x.2.bounds) (fun x => f.testKey (borrow0 x.1.1) (borrow1 x.2.1))
        (max t0.level t1.level) (t0.root, t1.root) else []) := by
  unfold Tree.join JoinIter.new
  by_cases ht : f.testBounds t0.root.bounds t1.root.bounds = true
  · simp only [ht, Bool.not_true, Bool.false_eq_true, if_false, if_true]
    have hpad : max t0.level t1.level - t0.level = 0 ∨ max t0.level t1.level - t1.level = 0 := by omega
    have hl0 : t0.level = max t0.level t1.level - (max t0.level t1.level - t0.level) := by omega
    have hl1 : t1.level = max t0.level t1.level - (max t0.level t1.level - t1.level) := by omega
    generalize max t0.level t1.level - t0.level = p0 at hpad hl0
    generalize max t0.level t1.level - t1.level = p1 at hpad hl1
    unfold startJoin
    cases hm : max t0.level t1.level with
    | zero =>
      have e0 : t0.level = 0 := by omega
      have e1 : t1.level = 0 := by omega
      rw [e0] at h0
      rw [e1] at h1
      obtain ⟨b, es, hr0⟩ := h0.leaf
      obtain ⟨b', fs, hr1⟩ := h1.leaf
      simp only [hr0, hr1, Node.leafChildren, ok_bind, List.replicate_zero, setLeaf_newBox, pure_eq_ok]
      have hlr : (ProductIter.new es fs).rest.length = es.length * fs.length := by
        rw [ProductIter.rest_new, length_pairs]
      have hjw : joinWeight 0 (Node.leaf b es : Node B0 K0 V0) (Node.leaf b' fs : Node B1 K1 V1) =
        1 + es.length * fs.length := rfl
      rw [collectLoop_spec (p0 := p0) (p1 := p1) borrow0 borrow1 f rfl rfl hpad _ _ (its := []) (ProductIter.wf_new _ _) trivial]
      · simp [remInner, joinMatching, ProductIter.rest_new]
      · simp only [hlr, hjw, weightInner, List.length_nil]; omega
      · simp only [hlr, hjw, weightInner]; omega
    | succ l =>
      rw [hm] at hl0 hl1
      simp only [slice_ok h0, slice_ok h1, ok_bind, pure_eq_ok]
      have hset := setInner_newBox (ProductIter.new ([] : List (K0 × V0)) ([] : List (K1 × V1)))
        (List.replicate l (ProductIter.new [] [])) [] (ProductIter.new [] []) (ProductIter.new t0.root.kids t1.root.kids)
      rw [List.length_replicate] at hset
      rw [List.replicate_succ', hset]
      simp only [ok_bind]
      have hd : Drained (List.replicate l (ProductIter.new [] [] : NodeIter B0 B1 K0 K1 V0 V1)) := by
        intro x hx
        obtain rfl := List.eq_of_mem_replicate hx
        exact ⟨ProductIter.wf_new _ _, rfl⟩
      have hjw : joinWeight (l + 1) t0.root t1.root =
        1 + listWeight l (ProductIter.new t0.root.kids t1.root.kids).rest := by
        rw [ProductIter.rest_new, joinWeight, listWeight]
      have hlf : (ProductIter.new ([] : List (K0 × V0)) ([] : List (K1 × V1))).rest = [] := rfl
      rw [collectLoop_spec (p0 := p0) (p1 := p1) borrow0 borrow1 f rfl rfl hpad _ _ (ProductIter.wf_new _ _)]
      · rw [remInner_drained hd, hlf]
        simp only [List.filter_nil, List.nil_append, remInner, List.append_nil, List.length_replicate, Nat.zero_add,
          ProductIter.rest_new, joinMatching]
        rfl
      · rw [typed_drained hd, List.length_replicate, Nat.zero_add]
        refine ⟨ProductIter.wf_new _ _, ?_, trivial⟩
        intro x hx
        rw [ProductIter.rest_new, mem_pairs] at hx
        rw [hl0] at h0
        rw [hl1] at h1
        exact ⟨shape_kids h0 _ hx.1, shape_kids h1 _ hx.2⟩
      · rw [weightInner_drained hd, hlf, hjw]
        simp only [weightInner, List.length_append, List.length_replicate, List.length_cons, List.length_nil, Nat.zero_add,
          Nat.add_zero]
        have : ∀ w : Nat, w * (l + 1 + 2) + (l + 1 + 1) ≤ (1 + w + 1) * (l + 1 + 2) := by
          intro w; rw [Nat.add_mul, Nat.add_mul]; omega
        exact this _
      · rw [weightInner_drained hd, hlf, hjw]
        simp only [weightInner, List.length_replicate, List.length_nil, Nat.zero_add, Nat.add_zero]; omega
  · simp only [Bool.not_eq_true] at ht
    have hn : ∀ fuel, nextLoop borrow0 borrow1 f 0 0 fuel 0 ([] : JoinIterStack B0 B1 K0 K1 V0 V1) = .ok (none, []) := by
      intro fuel; unfold nextLoop; simp
    simp [ht, collectLoop, emptyBox, hn]

/-! ## All pairs -/

section Pairs

variable {α β γ δ : Type}

theorem pairs_append_right (as : List α) (bs cs : List β) : pairs as (bs ++ cs) = pairs as bs ++ pairs as cs := by
  simp [pairs]

theorem pairs_append_left (as cs : List α) (bs : List β) : (pairs (as ++ cs) bs).Perm (pairs as bs ++ pairs cs bs) := by
  induction bs with
  | nil => simp [pairs]
  | cons b bs ih =>
    have h : ∀ xs : List α, pairs xs (b :: bs) = xs.map (fun a => (a, b)) ++ pairs xs bs := fun _ => rfl
    rw [h, h, h, List.map_append]
    classical
    rw [List.perm_iff_count] at ih ⊢
    intro x
    have := ih x
    simp only [List.count_append] at this ⊢
    omega

theorem pairs_flatMap (f : γ → List α) (g : δ → List β) (cs : List γ) (ds : List δ) :
    (pairs (cs.flatMap f) (ds.flatMap g)).Perm ((pairs cs ds).flatMap fun y => pairs (f y.1) (g y.2)) := by
  induction ds with
  | nil => simp [pairs]
  | cons d ds ih =>
    have h : pairs cs (d :: ds) = cs.map (fun a => (a, d)) ++ pairs cs ds := rfl
    rw [h, List.flatMap_cons, pairs_append_right, List.flatMap_append]
    refine List.Perm.append ?_ ih
    clear ih h
    induction cs with
    | nil => simp [pairs, List.flatMap]
    | cons c cs ih =>
      rw [List.flatMap_cons, List.map_cons, List.flatMap_cons]
      exact (pairs_append_left _ _ _).trans (List.Perm.append_left _ ih)

theorem pairs_perm_product (as : List α) (bs : List β) : (pairs as bs).Perm (as.flatMap fun a => bs.map fun b => (a, b)) := by
  induction as with
  | nil => simp [pairs]
  | cons a as ih =>
    have := pairs_append_left [a] as bs
    rw [List.flatMap_cons]
    refine List.Perm.trans this (List.Perm.append ?_ ih)
    simp [pairs]
    exact (List.map_eq_flatMap).symm ▸ List.Perm.refl _

end Pairs

theorem Node.entries_kids {B K V : Type} (n : Node B K V) : n.entries = n.kids.flatMap Node.entries := by
  cases n with
  | leaf b es => simp [Node.kids, Node.entries]
  | inner b cs =>
    simp only [Node.kids, Node.entries]
    induction cs with
    | nil => rfl
    | cons c cs ih => rw [entriesList, ih, List.flatMap_cons]

/-- Soundness: for any filter. -/
theorem joinMatching_subset {tb : Node B0 K0 V0 × Node B1 K1 V1 → Bool} {tk : (K0 × V0) × (K1 × V1) → Bool} {l : Nat}
    {x : Node B0 K0 V0 × Node B1 K1 V1} :
    ∃ skipped, (joinMatching tb tk l x ++ skipped).Perm ((pairs x.1.entries x.2.entries).filter tk) := by
  induction l generalizing x with
  | zero =>
    obtain ⟨n0, n1⟩ := x
    cases n0 <;> cases n1 <;> simp only [joinMatching, Node.entries]
    · exact ⟨[], by rw [List.append_nil]⟩
    all_goals exact ⟨_, List.Perm.refl _⟩
  | succ l ih =>
    have hp : ((pairs x.1.entries x.2.entries).filter tk).Perm
        ((pairs x.1.kids x.2.kids).flatMap fun y => (pairs y.1.entries y.2.entries).filter tk) := by
      rw [Node.entries_kids x.1, Node.entries_kids x.2]
      refine ((pairs_flatMap _ _ _ _).filter tk).trans ?_
      rw [List.filter_flatMap]
    suffices h : ∀ ys : List (Node B0 K0 V0 × Node B1 K1 V1), ∃ skipped,
        ((ys.flatMap fun y => if tb y then joinMatching tb tk l y else []) ++ skipped).Perm
          (ys.flatMap fun y => (pairs y.1.entries y.2.entries).filter tk) by
      obtain ⟨s, hs⟩ := h (pairs x.1.kids x.2.kids)
      exact ⟨s, hs.trans hp.symm⟩
    intro ys
    induction ys with
    | nil => exact ⟨[], List.Perm.refl _⟩
    | cons y ys ihy =>
      obtain ⟨s, hs⟩ := ihy
      obtain ⟨s', hs'⟩ : ∃ skipped, ((if tb y then joinMatching tb tk l y else []) ++ skipped).Perm
          ((pairs y.1.entries y.2.entries).filter tk) := by
        split
        · exact ih
        · exact ⟨_, List.Perm.refl _⟩
      refine ⟨s' ++ s, ?_⟩
      simp only [List.flatMap_cons]
      classical
      rw [List.perm_iff_count] at hs hs' ⊢
      intro z
      have a1 := hs z
      have a2 := hs' z
      simp only [List.count_append] at a1 a2 ⊢
      omega

theorem NodeInv.kids {B K V : Type} {ok : Nat → Node B K V → Prop} (hi : NodeInv ok) {l p : Nat} {n : Node B K V}
    (h : ok (l + 1 - p) n) : ∀ c ∈ n.kids, ok (l - p) c := by
  intro c hc
  by_cases hp : l + 1 ≤ p
  · rw [show l + 1 - p = 0 by omega] at h
    have h' := h
    obtain ⟨b, es, rfl⟩ := hi.leaf h
    simp only [Node.kids, List.mem_singleton] at hc
    subst hc
    rw [show l - p = 0 by omega]
    exact h'
  · rw [show l + 1 - p = (l - p) + 1 by omega] at h
    obtain ⟨b, cs, rfl, hcs⟩ := hi.inner h
    exact hcs c hc

/-- Pruning loses no pair if every pair of nodes with a matching pair of entries passes the bounds test. -/
theorem NodeInv.joinMatching {ok0 : Nat → Node B0 K0 V0 → Prop} {ok1 : Nat → Node B1 K1 V1 → Prop} (hi0 : NodeInv ok0)
    (hi1 : NodeInv ok1) {tb : Node B0 K0 V0 × Node B1 K1 V1 → Bool} {tk : (K0 × V0) × (K1 × V1) → Bool}
    (htb : ∀ l l' n0 n1, ok0 l n0 → ok1 l' n1 → ∀ e0 ∈ n0.entries, ∀ e1 ∈ n1.entries, tk (e0, e1) = true →
      tb (n0, n1) = true)
    {l p0 p1 : Nat} {x : Node B0 K0 V0 × Node B1 K1 V1} (h0 : ok0 (l - p0) x.1)
    (h1 : ok1 (l - p1) x.2) :
    (if tb x then RTree.joinMatching tb tk l x else []).Perm ((pairs x.1.entries x.2.entries).filter tk) := by
  have aux : ∀ (l l' : Nat) (x : Node B0 K0 V0 × Node B1 K1 V1), ok0 l x.1 → ok1 l' x.2 → tb x = false →
      (pairs x.1.entries x.2.entries).filter tk = [] := by
    intro l l' x hr0 hr1 ht
    rw [List.filter_eq_nil_iff]
    intro e he hk
    rw [mem_pairs] at he
    simp [htb _ _ _ _ hr0 hr1 e.1 he.1 e.2 he.2 hk] at ht
  suffices hm : (RTree.joinMatching tb tk l x).Perm ((pairs x.1.entries x.2.entries).filter tk) by
    split
    · exact hm
    · rename_i hb
      rw [aux _ _ x h0 h1 (by simpa using hb)]
  induction l generalizing x with
  | zero =>
    obtain ⟨n0, n1⟩ := x
    simp only [Nat.zero_sub] at h0 h1
    obtain ⟨b, es, rfl⟩ := hi0.leaf h0
    obtain ⟨b', fs, rfl⟩ := hi1.leaf h1
    exact List.Perm.refl _
  | succ l ih =>
    have hpp : ((pairs x.1.entries x.2.entries).filter tk).Perm
        ((pairs x.1.kids x.2.kids).flatMap fun y => (pairs y.1.entries y.2.entries).filter tk) := by
      rw [Node.entries_kids x.1, Node.entries_kids x.2]
      refine ((pairs_flatMap _ _ _ _).filter tk).trans ?_
      rw [List.filter_flatMap]
    refine List.Perm.trans ?_ hpp.symm
    have hall : ∀ y ∈ pairs x.1.kids x.2.kids, ok0 (l - p0) y.1 ∧ ok1 (l - p1) y.2 := by
      intro y hy
      rw [mem_pairs] at hy
      exact ⟨hi0.kids h0 _ hy.1, hi1.kids h1 _ hy.2⟩
    rw [RTree.joinMatching]
    generalize pairs x.1.kids x.2.kids = ys at hall
    induction ys with
    | nil => exact List.Perm.refl _
    | cons y ys ihy =>
      rw [List.flatMap_cons, List.flatMap_cons]
      have hy := hall y List.mem_cons_self
      refine List.Perm.append ?_ (ihy fun z hz => hall z (List.mem_cons_of_mem _ hz))
      split
      · exact ih hy.1 hy.2
      · rename_i hb
        rw [aux _ _ y hy.1 hy.2 (by simpa using hb)]

end RTree
