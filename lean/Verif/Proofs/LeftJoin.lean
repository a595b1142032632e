import Verif.Model.LeftJoin
import Verif.Proofs.NodeInv
/-! What a left join yields. -/

namespace RTree

namespace RewindIter

variable {α : Type}

/-- The elements not yet yielded. -/
def rem (it : RewindIter α) : List α := it.slice.drop it.i

theorem findLoop_spec (p : α → Bool) (n : Nat) {it : RewindIter α} (hi : it.i ≤ it.slice.length)
    (hn : it.slice.length - it.i < n) :
    ∃ it', findLoop p n it = .ok ((findNext p it.rem).1, it') ∧ it'.rem = (findNext p it.rem).2 ∧
      it'.i ≤ it'.slice.length ∧ it'.slice = it.slice := by
  induction n generalizing it with
  | zero => omega
  | succ n ih =>
    obtain ⟨s, i⟩ := it
    simp only [rem] at *
    unfold findLoop next
    by_cases h : i < s.length
    · have hd : s.drop i = s[i] :: s.drop (i + 1) := List.drop_eq_getElem_cons h
      simp only [h, dif_pos, hd, findNext]
      by_cases hx : p s[i] = true
      · simp only [hx, if_true]
        exact ⟨_, rfl, rfl, h, rfl⟩
      · simp only [hx, if_false, Bool.false_eq_true]
        exact ih (it := ⟨s, i + 1⟩) h (by simp only; omega)
    · simp only [h, dif_neg, not_false_eq_true]
      have hd : s.drop i = [] := List.drop_eq_nil_of_le (by omega)
      exact ⟨⟨s, i⟩, by simp [hd, findNext], by simp [hd, findNext], hi, rfl⟩

theorem find_spec (p : α → Bool) {it : RewindIter α} (hi : it.i ≤ it.slice.length) :
    ∃ it', find p it = .ok ((findNext p it.rem).1, it') ∧ it'.rem = (findNext p it.rem).2 ∧
      it'.i ≤ it'.slice.length ∧ it'.slice = it.slice :=
  findLoop_spec p _ hi (by omega)

theorem remainder_eq {it : RewindIter α} (hi : it.i ≤ it.slice.length) : it.remainder = .ok it.rem := by
  simp [remainder, hi, rem]

end RewindIter

/-! ## Ranges of inner iterators -/

namespace InnerIterStack

open IterStack

variable {L I T : Type} {B K V : Type}

/-- What `findLoop` relies on. -/
structure StepOk (ok : Nat → Node B K V → Prop) (rem : I → List (Node B K V)) (IOk : Nat → I → Prop) (tag : I → T)
    (p : Node B K V → Bool) (step : I → Res (Option (Node B K V) × I)) (mk : List (Node B K V) → I) : Prop where
  step : ∀ {l it}, IOk l it → ∃ it', step it = .ok ((findNext p (rem it)).1, it') ∧ rem it' = (findNext p (rem it)).2 ∧
    IOk l it' ∧ tag it' = tag it
  make : ∀ {l cs}, (∀ c ∈ cs, ok l c) → IOk l (mk cs) ∧ rem (mk cs) = cs
  mem : ∀ {l it}, IOk l it → ∀ c ∈ rem it, ok l c

/-- The iterators at levels `off`, `off + 1`, ... are in order. -/
def AllOk (IOk : Nat → I → Prop) : Nat → List I → Prop
  | _, [] => True
  | off, it :: its => IOk off it ∧ AllOk IOk (off + 1) its

theorem allOk_append {IOk : Nat → I → Prop} {off : Nat} {as bs : List I} :
    AllOk IOk off (as ++ bs) ↔ AllOk IOk off as ∧ AllOk IOk (off + as.length) bs := by
  induction as generalizing off with
  | nil => simp [AllOk]
  | cons a as ih =>
    simp only [List.cons_append, AllOk, ih, List.length_cons, and_assoc]
    rw [show off + 1 + as.length = off + (as.length + 1) by omega]

/-- The entries the iterators can still reach. -/
def remE (rem : I → List (Node B K V)) (its : List I) : List (K × V) := its.flatMap fun it => entriesList (rem it)

/-- The number of nodes and entries the iterators can still reach. -/
def wt (rem : I → List (Node B K V)) (its : List I) : Nat := (its.map fun it => weightList (rem it)).sum

theorem remE_append (rem : I → List (Node B K V)) (as bs : List I) :
    remE rem (as ++ bs) = remE rem as ++ remE rem bs := by simp [remE]

theorem wt_append (rem : I → List (Node B K V)) (as bs : List I) : wt rem (as ++ bs) = wt rem as + wt rem bs := by
  simp [wt]

/-- Outcome of a search. -/
def FindPost (ok : Nat → Node B K V → Prop) (rem : I → List (Node B K V)) (IOk : Nat → I → Prop) (tag : I → T)
    (G : List (K × V) → Prop) (tail : List (K × V)) (lf : L) (lo mid hi : List I)
    (x : Res (Option (Node B K V) × IterStack L I)) : Prop :=
  ∃ found mid', x = .ok (found, newBox lf (lo ++ mid' ++ hi)) ∧ mid'.length = mid.length ∧ AllOk IOk lo.length mid' ∧
    mid'.getLast?.map tag = mid.getLast?.map tag ∧
    match found with
    | none => (∀ it ∈ mid', rem it = []) ∧ (G (remE rem mid ++ tail) → G tail)
    | some n => ok lo.length n ∧ (G (remE rem mid ++ tail) → G (n.entries ++ (remE rem mid' ++ tail))) ∧
        n.weight + wt rem mid' ≤ wt rem mid

variable {ok : Nat → Node B K V → Prop} {rem : I → List (Node B K V)} {IOk : Nat → I → Prop} {tag : I → T}
  {p : Node B K V → Bool} {step : I → Res (Option (Node B K V) × I)} {mk : List (Node B K V) → I}

theorem drop_all {G : List (K × V) → Prop} {l : Nat} (hG : ∀ l n ys, ok l n → p n = false → G (n.entries ++ ys) → G ys)
    {cs : List (Node B K V)} (hcs : ∀ c ∈ cs, ok l c ∧ p c = false) {ys : List (K × V)} (h : G (entriesList cs ++ ys)) :
    G ys := by
  induction cs with
  | nil => exact h
  | cons c cs ih =>
    have hc := hcs c List.mem_cons_self
    refine ih (fun x hx => hcs x (List.mem_cons_of_mem _ hx)) (hG l c _ hc.1 hc.2 ?_)
    simpa [entriesList] using h

theorem findLoop_spec (hi' : NodeInv ok) (hs : StepOk ok rem IOk tag p step mk) {G : List (K × V) → Prop}
    (hG : ∀ l n ys, ok l n → p n = false → G (n.entries ++ ys) → G ys) (tail : List (K × V)) (lf : L) (lo hi : List I)
    {stop : Nat} (fuel : Nat) :
    ∀ (dl mid : List I), stop = lo.length + 1 + (dl.length + mid.length) → AllOk IOk lo.length (dl ++ mid) →
      (∀ it ∈ dl, rem it = []) → wt rem mid * (dl.length + mid.length + 1) + mid.length ≤ fuel →
      FindPost ok rem IOk tag G tail lf lo (dl ++ mid) hi
        (findLoop step mk lo.length stop fuel dl.length (newBox lf (lo ++ (dl ++ mid) ++ hi))) := by
  have hdrained : ∀ (dl : List I), (∀ it ∈ dl, rem it = []) → remE rem dl = [] ∧ wt rem dl = 0 := by
    intro dl h
    constructor
    · simp only [remE, List.flatMap_eq_nil_iff]
      intro it hit
      rw [h it hit]; rfl
    · induction dl with
      | nil => rfl
      | cons a as ih =>
        have := ih fun x hx => h x (List.mem_cons_of_mem _ hx)
        simp only [wt] at this
        simp [wt, h a List.mem_cons_self, weightList, this]
  induction fuel with
  | zero =>
    intro dl mid hst hall hdl hf
    have hm : mid = [] := List.length_eq_zero_iff.1 (by omega)
    subst hm
    refine ⟨none, dl ++ [], ?_, rfl, hall, rfl, by simpa using hdl, ?_⟩
    · unfold findLoop
      rw [if_neg (by simp at hst; omega)]
    · rw [List.append_nil, (hdrained dl hdl).1, List.nil_append]; exact id
  | succ fuel ih =>
    intro dl mid hst hall hdl hf
    cases mid with
    | nil =>
      refine ⟨none, dl ++ [], ?_, rfl, hall, rfl, by simpa using hdl, ?_⟩
      · unfold findLoop
        rw [if_neg (by simp at hst; omega)]
      · rw [List.append_nil, (hdrained dl hdl).1, List.nil_append]; exact id
    | cons it mid =>
      have hall' := hall
      rw [allOk_append] at hall
      obtain ⟨hd1, hd2, hd3⟩ := hall
      unfold findLoop
      rw [if_pos (by simp at hst; omega)]
      have hget := getInner_newBox lf (lo ++ dl) (mid ++ hi) it
      have heq0 : lo ++ (dl ++ it :: mid) ++ hi = (lo ++ dl) ++ it :: (mid ++ hi) := by simp
      rw [List.length_append] at hget
      rw [heq0]
      simp only [hget, ok_bind]
      obtain ⟨it', h1, h2, h3, h4⟩ := hs.step hd2
      have hset := setInner_newBox lf (lo ++ dl) (mid ++ hi) it it'
      rw [List.length_append] at hset
      simp only [h1, ok_bind, hset]
      simp only [wt, List.map_cons, List.sum_cons, List.length_cons] at hf
      rcases findNext_spec p (rem it) with ⟨h5, h6⟩ | ⟨pre, a, post, h5, h6, h7, h8⟩
      · rw [h5] at h2
        simp only [h5]
        have heq : (lo ++ dl) ++ it' :: (mid ++ hi) = lo ++ ((dl ++ [it']) ++ mid) ++ hi := by simp
        have hlen : (dl ++ [it']).length = dl.length + 1 := by simp
        have h := ih (dl ++ [it']) mid (by rw [hlen, hst, List.length_cons]; omega) (by
            rw [List.append_assoc, List.singleton_append, allOk_append]
            exact ⟨hd1, h3, hd3⟩) (by
            intro x hx
            rcases List.mem_append.1 hx with hx | hx
            · exact hdl x hx
            · obtain rfl := List.mem_singleton.1 hx
              exact h2) (by
            rw [hlen]
            rw [Nat.add_mul] at hf
            simp only [wt]
            rw [show dl.length + 1 + mid.length + 1 = dl.length + (mid.length + 1) + 1 by omega]
            omega)
        rw [hlen] at h
        rw [heq]
        obtain ⟨found, mid', k1, k2, k3, k4, k5⟩ := h
        have hGd : G (remE rem (dl ++ it :: mid) ++ tail) → G (remE rem (dl ++ [it'] ++ mid) ++ tail) := by
          intro hg
          simp only [remE_append, (hdrained dl hdl).1, List.nil_append] at hg ⊢
          have e1 : remE rem (it :: mid) = entriesList (rem it) ++ remE rem mid := by simp [remE]
          have e2 : remE rem [it'] = [] := by simp [remE, h2, entriesList]
          rw [e1, List.append_assoc] at hg
          rw [e2, List.nil_append]
          exact drop_all hG (fun c hc => ⟨hs.mem hd2 c hc, h6 c hc⟩) hg
        have hwd : wt rem (dl ++ [it'] ++ mid) ≤ wt rem (dl ++ it :: mid) := by
          have e1 : wt rem (it :: mid) = weightList (rem it) + wt rem mid := by simp [wt]
          have e2 : wt rem [it'] = 0 := by simp [wt, h2, weightList]
          simp only [wt_append, e1, e2]; omega
        refine ⟨found, mid', k1, by rw [k2]; simp, k3, ?_, ?_⟩
        · rw [k4]
          cases mid with
          | nil => simp [h4]
          | cons x xs => simp [List.getLast?_cons]
        · cases found with
          | none => exact ⟨k5.1, fun hg => k5.2 (hGd hg)⟩
          | some n => exact ⟨k5.1, fun hg => k5.2.1 (hGd hg), by have := k5.2.2; omega⟩
      · rw [h8] at h2
        simp only [h8]
        have hok : ok (lo.length + dl.length) a := hs.mem hd2 a (by simp [h5])
        have hpre : ∀ c ∈ pre, ok (lo.length + dl.length) c ∧ p c = false :=
          fun c hc => ⟨hs.mem hd2 c (by simp [h5, hc]), h6 c hc⟩
        have hwt : weightList (rem it) = weightList pre + (a.weight + weightList (rem it')) := by
          rw [h5, h2, weightList_append, weightList]
        have hent : entriesList (rem it) = entriesList pre ++ (a.entries ++ entriesList (rem it')) := by
          rw [h5, h2, entriesList_append, entriesList]
        have hlastmid : (it' :: mid).getLast?.map tag = (it :: mid).getLast?.map tag := by
          cases mid with
          | nil => simp [h4]
          | cons x xs => simp [List.getLast?_cons]
        cases hdll : dl.length with
        | zero =>
          have hd0 : dl = [] := List.length_eq_zero_iff.1 hdll
          subst hd0
          refine ⟨some a, it' :: mid, by simp, by simp, ⟨h3, hd3⟩, by simpa using hlastmid, by simpa using hok, ?_, ?_⟩
          · intro hg
            have e1 : remE rem (it :: mid) = entriesList (rem it) ++ remE rem mid := by simp [remE]
            have e2 : remE rem (it' :: mid) = entriesList (rem it') ++ remE rem mid := by simp [remE]
            rw [List.nil_append, e1, hent] at hg
            rw [e2]
            simp only [List.append_assoc] at hg ⊢
            exact drop_all hG hpre hg
          · have e1 : wt rem (it :: mid) = weightList (rem it) + wt rem mid := by simp [wt]
            have e2 : wt rem (it' :: mid) = weightList (rem it') + wt rem mid := by simp [wt]
            rw [List.nil_append, e1, e2]; omega
        | succ i' =>
          obtain ⟨dl', last, rfl⟩ : ∃ dl' last, dl = dl' ++ [last] :=
            ⟨dl.dropLast, dl.getLast (by intro h; simp [h] at hdll), (List.dropLast_concat_getLast _).symm⟩
          have hl' : dl'.length = i' := by simpa using hdll
          rw [hdll, show lo.length + (i' + 1) = (lo.length + i') + 1 by omega] at hok
          obtain ⟨b, cs, rfl, hcs⟩ := hi'.inner hok
          simp only [Node.innerChildren, ok_bind]
          have hset2 := setInner_newBox lf (lo ++ dl') (it' :: (mid ++ hi)) last (mk cs)
          rw [List.length_append, hl'] at hset2
          have heq2 : lo ++ (dl' ++ [last]) ++ it' :: (mid ++ hi) = (lo ++ dl') ++ last :: it' :: (mid ++ hi) := by simp
          rw [heq2, hset2]
          simp only [ok_bind]
          have hmk := hs.make hcs
          have heq3 : (lo ++ dl') ++ mk cs :: it' :: (mid ++ hi) = lo ++ (dl' ++ (mk cs :: it' :: mid)) ++ hi := by simp
          rw [heq3]
          rw [allOk_append] at hd1
          have hdl' : ∀ x ∈ dl', rem x = [] := fun x hx => hdl x (List.mem_append_left _ hx)
          have hcw : (Node.inner b cs : Node B K V).weight = 1 + weightList cs := by simp [Node.weight]
          have h := ih dl' (mk cs :: it' :: mid) (by rw [hst]; simp; omega) (by
              rw [allOk_append]
              refine ⟨hd1.1, ?_, ?_, ?_⟩
              · rw [hl']; exact hmk.1
              · rw [hl']; rw [hdll] at h3; exact h3
              · rw [hl']; rw [hdll] at hd3; exact hd3) hdl' (by
              simp only [wt, List.map_cons, List.sum_cons, hmk.2, List.length_cons, hl']
              rw [hdll] at hf
              have e : weightList cs + (weightList (rem it') + (mid.map fun it => weightList (rem it)).sum) + 1 ≤
                weightList (rem it) + (mid.map fun it => weightList (rem it)).sum := by omega
              have e2 := Nat.mul_le_mul_right (i' + (mid.length + 1 + 1) + 1) e
              rw [Nat.add_mul _ 1] at e2
              rw [show i' + 1 + (mid.length + 1) + 1 = i' + (mid.length + 1 + 1) + 1 by omega] at hf
              omega)
          rw [hl'] at h
          obtain ⟨found, mid', k1, k2, k3, k4, k5⟩ := h
          have hGd : G (remE rem (dl' ++ [last] ++ it :: mid) ++ tail) →
              G (remE rem (dl' ++ (mk cs :: it' :: mid)) ++ tail) := by
            intro hg
            simp only [remE_append, (hdrained dl' hdl').1, List.nil_append] at hg ⊢
            have e0 : remE rem [last] = [] := by
              simp [remE, hdl last (by simp), entriesList]
            have e1 : remE rem (it :: mid) = entriesList (rem it) ++ remE rem mid := by simp [remE]
            have e2 : remE rem (mk cs :: it' :: mid) = entriesList cs ++ (entriesList (rem it') ++ remE rem mid) := by
              simp [remE, hmk.2]
            rw [e0, List.nil_append, e1, hent] at hg
            rw [e2]
            simp only [List.append_assoc] at hg ⊢
            exact drop_all hG hpre (by simpa [Node.entries] using hg)
          have hwd : wt rem (dl' ++ (mk cs :: it' :: mid)) ≤ wt rem (dl' ++ [last] ++ it :: mid) := by
            have e1 : wt rem (it :: mid) = weightList (rem it) + wt rem mid := by simp [wt]
            have e2 : wt rem (mk cs :: it' :: mid) = weightList cs + (weightList (rem it') + wt rem mid) := by
              simp [wt, hmk.2]
            simp only [wt_append, e1, e2]; omega
          refine ⟨found, mid', k1, by rw [k2]; simp, k3, ?_, ?_⟩
          · rw [k4]
            simpa [List.getLast?_append, List.getLast?_cons] using hlastmid
          · cases found with
            | none => exact ⟨k5.1, fun hg => k5.2 (hGd hg)⟩
            | some n => exact ⟨k5.1, fun hg => k5.2.1 (hGd hg), by have := k5.2.2; omega⟩

end InnerIterStack

/-! ## The join loop -/

namespace LeftJoinIter

open IterStack InnerIterStack

variable {BL BR KL KR VL VR QL QR : Type}

/-- A right iterator at a level. -/
def RightOk (okR : Nat → Node BR KR VR → Prop) (l : Nat) (it : RewindIter (Node BR KR VR)) : Prop :=
  it.i ≤ it.slice.length ∧ ∀ c ∈ it.slice, okR l c

/-- A left iterator at a level. -/
def LeftOk (okL : Nat → Node BL KL VL → Prop) (l : Nat) (cs : List (Node BL KL VL)) : Prop := ∀ c ∈ cs, okL l c

/-- The entries the left iterators can still reach. -/
abbrev leftE (css : List (List (Node BL KL VL))) : List (KL × VL) := remE id css

/-- The entries the right iterators can still reach. -/
abbrev rightE (its : List (RewindIter (Node BR KR VR))) : List (KR × VR) := remE RewindIter.rem its

theorem leftE_append (as bs : List (List (Node BL KL VL))) : leftE (as ++ bs) = leftE as ++ leftE bs := remE_append _ _ _

theorem rightE_append (as bs : List (RewindIter (Node BR KR VR))) : rightE (as ++ bs) = rightE as ++ rightE bs :=
  remE_append _ _ _

theorem left_stepOk (okL : Nat → Node BL KL VL → Prop) :
    StepOk okL id (LeftOk okL) (fun _ => ()) (fun _ => true) sliceNext id where
  step := by
    intro l it h
    cases it with
    | nil => exact ⟨[], rfl, rfl, h, rfl⟩
    | cons a as => exact ⟨as, by simp [sliceNext, findNext], by simp [findNext], fun c hc => h c (List.mem_cons_of_mem _ hc), rfl⟩
  make := fun h => ⟨h, rfl⟩
  mem := fun h => h

theorem right_stepOk (okR : Nat → Node BR KR VR → Prop) (p : Node BR KR VR → Bool) :
    StepOk okR RewindIter.rem (RightOk okR) RewindIter.slice p (RewindIter.find p) RewindIter.new where
  step := by
    intro l it h
    obtain ⟨it', h1, h2, h3, h4⟩ := RewindIter.find_spec p h.1
    exact ⟨it', h1, h2, ⟨h3, by rw [h4]; exact h.2⟩, h4⟩
  make := fun h => ⟨⟨Nat.zero_le _, h⟩, rfl⟩
  mem := fun h c hc => h.2 c (List.mem_of_mem_drop hc)

/-- For the levels from the current one up: every left entry still to come at a level is related to what the right
    iterators reach when that level is rewound. -/
inductive LInv (Rel : KL × VL → List (KR × VR) → Prop) :
    List (List (Node BL KL VL)) → List (RewindIter (Node BR KR VR)) → Prop
  | top {css its it} : css ≠ [] → (css.length = 1 ∨ its.length = 1) → its.getLast? = some it →
      (∀ e ∈ leftE css, Rel e (entriesList it.slice)) → LInv Rel css its
  | up {c css it its} : (∀ e ∈ entriesList c, Rel e (entriesList it.slice ++ rightE its)) → LInv Rel css its →
      LInv Rel (c :: css) (it :: its)

theorem LInv.ne {Rel : KL × VL → List (KR × VR) → Prop} {css : List (List (Node BL KL VL))}
    {its : List (RewindIter (Node BR KR VR))} (h : LInv Rel css its) : css ≠ [] ∧ its ≠ [] := by
  cases h with
  | top h1 _ h2 _ => exact ⟨h1, by rintro rfl; simp at h2⟩
  | up _ _ => exact ⟨by simp, by simp⟩

/-- The decomposition of the stacks at a level into the ranges the code iterates and the levels above. -/
structure Split (Rel : KL × VL → List (KR × VR) → Prop) (midL hiL : List (List (Node BL KL VL)))
    (midR hiR : List (RewindIter (Node BR KR VR))) (last : RewindIter (Node BR KR VR)) : Prop where
  isLast : midR.getLast? = some last
  rel : ∀ e ∈ leftE midL, Rel e (entriesList last.slice ++ rightE hiR)
  ne : midL ≠ []
  levels : (hiL = [] ∧ hiR = [] ∧ (midL.length = 1 ∨ midR.length = 1)) ∨
    (midL.length = 1 ∧ midR.length = 1 ∧ LInv Rel hiL hiR)

theorem LInv.split {Rel : KL × VL → List (KR × VR) → Prop} {css : List (List (Node BL KL VL))}
    {its : List (RewindIter (Node BR KR VR))} (h : LInv Rel css its) :
    ∃ midL hiL midR hiR last, css = midL ++ hiL ∧ its = midR ++ hiR ∧ Split Rel midL hiL midR hiR last := by
  cases h with
  | @top _ _ it h1 h2 h3 h4 =>
    exact ⟨css, [], its, [], it, by simp, by simp, h3, by simpa [remE] using h4, h1, .inl ⟨rfl, rfl, h2⟩⟩
  | @up c css it its h1 h2 =>
    exact ⟨[c], css, [it], its, it, rfl, rfl, rfl, by simpa [remE] using h1, by simp, .inr ⟨rfl, rfl, h2⟩⟩

theorem Split.linv {Rel : KL × VL → List (KR × VR) → Prop} {midL hiL : List (List (Node BL KL VL))}
    {midR hiR : List (RewindIter (Node BR KR VR))} {last : RewindIter (Node BR KR VR)}
    (h : Split Rel midL hiL midR hiR last) : LInv Rel (midL ++ hiL) (midR ++ hiR) := by
  rcases h.levels with ⟨rfl, rfl, h3⟩ | ⟨h1, h2, h3⟩
  · rw [List.append_nil, List.append_nil]
    exact .top h.ne h3 h.isLast (by simpa [remE] using h.rel)
  · obtain ⟨c, rfl⟩ := List.length_eq_one_iff.1 h1
    obtain ⟨it, rfl⟩ := List.length_eq_one_iff.1 h2
    have hl := h.isLast
    simp only [List.getLast?_singleton, Option.some.injEq] at hl
    subst hl
    exact .up (by simpa [remE] using h.rel) h3

theorem Split.stops {Rel : KL × VL → List (KR × VR) → Prop} {midL hiL : List (List (Node BL KL VL))}
    {midR hiR : List (RewindIter (Node BR KR VR))} {last : RewindIter (Node BR KR VR)}
    (h : Split Rel midL hiL midR hiR last) {left : TreeIter BL KL VL} {right : RewindTreeIter BR KR VR} {l : Nat}
    (hl : left.length = l + 1 + midL.length + hiL.length) (hr : right.length = l + 1 + midR.length + hiR.length) :
    leftStop ⟨left, right⟩ l = l + 1 + midL.length ∧ rightStop ⟨left, right⟩ l = l + 1 + midR.length := by
  have h1 : 1 ≤ midL.length := List.length_pos_iff.2 h.ne
  have h2 : 1 ≤ midR.length := List.length_pos_iff.2 (by intro hm; have := h.isLast; simp [hm] at this)
  simp only [leftStop, rightStop, hl, hr]
  rcases h.levels with ⟨rfl, rfl, h3⟩ | ⟨h4, h5, h3⟩
  · simp only [List.length_nil]
    constructor <;> split <;> omega
  · have h6 : 1 ≤ hiL.length := List.length_pos_iff.2 h3.ne.1
    have h7 : 1 ≤ hiR.length := List.length_pos_iff.2 h3.ne.2
    constructor <;> split <;> omega

/-- The state in which a level is entered from below. -/
def Rewound {Rel : KL × VL → List (KR × VR) → Prop} {midL hiL : List (List (Node BL KL VL))}
    {midR hiR : List (RewindIter (Node BR KR VR))} {last : RewindIter (Node BR KR VR)}
    (_ : Split Rel midL hiL midR hiR last) : Prop := rightE midR = entriesList last.slice

theorem rewindLoop_spec {okR : Nat → Node BR KR VR → Prop} (rl : RewindIter (KR × VR))
    (hi : List (RewindIter (Node BR KR VR))) :
    ∀ (mid lo : List (RewindIter (Node BR KR VR))) (last : RewindIter (Node BR KR VR)), mid.getLast? = some last →
      AllOk (RightOk okR) lo.length mid →
      ∃ mid', rewindLoop (lo.length + mid.length) mid.length lo.length (newBox rl (lo ++ mid ++ hi)) =
          .ok (newBox rl (lo ++ mid' ++ hi)) ∧ mid'.length = mid.length ∧ AllOk (RightOk okR) lo.length mid' ∧
        rightE mid' = entriesList last.slice ∧ ∃ last', mid'.getLast? = some last' ∧ last'.slice = last.slice := by
  intro mid
  induction mid with
  | nil => intro lo last h; simp at h
  | cons it mid ih =>
    intro lo last hlast hall
    have heq : lo ++ it :: mid ++ hi = lo ++ it :: (mid ++ hi) := by simp
    cases mid with
    | nil =>
      simp only [List.getLast?_singleton, Option.some.injEq] at hlast
      subst hlast
      refine ⟨[it.rewind], ?_, rfl, ⟨⟨Nat.zero_le _, hall.1.2⟩, trivial⟩, ?_, it.rewind, rfl, rfl⟩
      · simp only [List.length_cons, List.length_nil, rewindLoop, if_pos, heq, List.nil_append]
        rw [getInner_newBox]
        simp only [ok_bind]
        rw [setInner_newBox]
        simp
      · simp [remE, RewindIter.rewind, RewindIter.rem]
    | cons it2 mid =>
      have hlen : (lo ++ [RewindIter.new []]).length = lo.length + 1 := by simp
      have h := ih (lo ++ [RewindIter.new []]) last (by simpa [List.getLast?_cons] using hlast) (by rw [hlen]; exact hall.2)
      obtain ⟨mid', h1, h2, h3, h4, h5⟩ := h
      rw [hlen] at h1 h3
      refine ⟨RewindIter.new [] :: mid', ?_, by simpa using h2, ⟨⟨Nat.zero_le _, by intro c hc; cases hc⟩, h3⟩, ?_, ?_⟩
      · rw [show (it :: it2 :: mid).length = (it2 :: mid).length + 1 from rfl, rewindLoop, if_neg (by simp only [List.length_cons]; omega), heq, setInner_newBox]
        simp only [ok_bind]
        have e1 : lo ++ RewindIter.new [] :: (it2 :: mid ++ hi) = lo ++ [RewindIter.new []] ++ it2 :: mid ++ hi := by simp
        have e2 : lo.length + ((it2 :: mid).length + 1) = lo.length + 1 + (it2 :: mid).length := by simp; omega
        rw [e1, e2, h1]
        simp
      · simpa [remE, RewindIter.new, RewindIter.rem, entriesList] using h4
      · obtain ⟨last', h6, h7⟩ := h5
        refine ⟨last', ?_, h7⟩
        rw [List.getLast?_cons, h6]; rfl

theorem remainderLoop_spec {okR : Nat → Node BR KR VR → Prop} (rl : RewindIter (KR × VR)) :
    ∀ (its lo : List (RewindIter (Node BR KR VR))), AllOk (RightOk okR) lo.length its →
      remainderLoop (newBox rl (lo ++ its)) its.length lo.length = .ok (its.map RewindIter.rem) := by
  intro its
  induction its with
  | nil => intro lo _; rfl
  | cons it its ih =>
    intro lo hall
    have h := ih (lo ++ [it]) (by simpa using hall.2)
    simp only [List.length_append, List.length_cons, List.length_nil, List.append_assoc, List.singleton_append] at h
    simp only [List.length_cons, remainderLoop, getInner_newBox, ok_bind, RewindIter.remainder_eq hall.1.1]
    rw [Nat.zero_add] at h
    rw [h]
    rfl

theorem remainders_spec {okR : Nat → Node BR KR VR → Prop} {rl : RewindIter (KR × VR)}
    {its : List (RewindIter (Node BR KR VR))} (hrl : rl.i ≤ rl.slice.length) (hall : AllOk (RightOk okR) 0 its) :
    remainders (newBox rl its) = .ok (newBox rl.rem (its.map RewindIter.rem)) := by
  have h := remainderLoop_spec rl its [] hall
  simp only [List.nil_append, List.length_nil] at h
  simp [remainders, RewindIter.remainder_eq hrl, h]

/-- The invariant between calls of `next`. -/
structure Inv (okL : Nat → Node BL KL VL → Prop) (okR : Nat → Node BR KR VR → Prop)
    (Rel : KL × VL → List (KR × VR) → Prop) (es : List (KL × VL)) (css : List (List (Node BL KL VL)))
    (rl : RewindIter (KR × VR)) (its : List (RewindIter (Node BR KR VR))) : Prop where
  leaf : rl.i = 0
  entry : ∀ e ∈ es, Rel e (rl.slice ++ rightE its)
  left : AllOk (LeftOk okL) 0 css
  right : AllOk (RightOk okR) 0 its
  linv : LInv Rel css its

/-- Outcome of `next`. -/
def NextPost (okL : Nat → Node BL KL VL → Prop) (okR : Nat → Node BR KR VR → Prop)
    (Rel : KL × VL → List (KR × VR) → Prop) (rem : List (KL × VL)) (lenL lenR weight : Nat)
    (x : Res (Option ((KL × VL) × TreeIter BR KR VR) × LeftJoinIter BL BR KL KR VL VR)) : Prop :=
  ∃ r it, x = .ok (r, it) ∧
    match r with
    | none => rem = [] ∧ ∃ css rl its, it = ⟨newBox [] css, newBox rl its⟩ ∧ Inv okL okR Rel [] css rl its ∧
        css.length = lenL ∧ its.length = lenR ∧ leftE css = []
    | some (e, stack) => ∃ es css rl its, it = ⟨newBox es css, newBox rl its⟩ ∧ Inv okL okR Rel es css rl its ∧
        css.length = lenL ∧ its.length = lenR ∧ rem = e :: (es ++ leftE css) ∧
        stack = newBox rl.rem (its.map RewindIter.rem) ∧ Rel e (rl.slice ++ rightE its) ∧
        es.length + wt id css < weight

/-- Once no left entries are left, nothing is required of the levels. -/
theorem LInv.drained {Rel : KL × VL → List (KR × VR) → Prop} : ∀ {css : List (List (Node BL KL VL))}
    {its : List (RewindIter (Node BR KR VR))}, css ≠ [] → its ≠ [] → leftE css = [] → LInv Rel css its
  | [], _, h, _, _ => absurd rfl h
  | _, [], _, h, _ => absurd rfl h
  | [c], it :: its, _, _, h =>
    .top (by simp) (.inl rfl) (it := (it :: its).getLast (by simp)) (List.getLast?_eq_some_getLast (by simp))
      (by intro e he; rw [h] at he; cases he)
  | c :: c' :: css, [it], _, _, h =>
    .top (by simp) (.inr rfl) (it := it) rfl (by intro e he; rw [h] at he; cases he)
  | c :: c' :: css, it :: it' :: its, _, _, h => by
    have h1 : leftE (c :: c' :: css) = entriesList c ++ leftE (c' :: css) := by simp [remE]
    rw [h1, List.append_eq_nil_iff] at h
    exact .up (by intro e he; rw [h.1] at he; cases he) (LInv.drained (by simp) (by simp) h.2)

theorem NextPost.mono {okL : Nat → Node BL KL VL → Prop} {okR : Nat → Node BR KR VR → Prop}
    {Rel : KL × VL → List (KR × VR) → Prop} {rem rem' : List (KL × VL)} {lenL lenR lenL' lenR' weight weight' : Nat}
    {x : Res (Option ((KL × VL) × TreeIter BR KR VR) × LeftJoinIter BL BR KL KR VL VR)}
    (h : NextPost okL okR Rel rem lenL lenR weight x) (hr : rem = rem') (hl : lenL = lenL') (hr' : lenR = lenR')
    (hw : weight ≤ weight') : NextPost okL okR Rel rem' lenL' lenR' weight' x := by
  subst hr hl hr'
  obtain ⟨r, it, h1, h2⟩ := h
  refine ⟨r, it, h1, ?_⟩
  match r, h2 with
  | none, h2 => exact h2
  | some (e, stack), h2 =>
    obtain ⟨es, css, rl, its, k1, k2, k3, k4, k5, k6, k7, k8⟩ := h2
    exact ⟨es, css, rl, its, k1, k2, k3, k4, k5, k6, k7, by omega⟩

/-- What is needed of the relation: an entry dropped because its node failed the bounds test is irrelevant. -/
def Drops (f : JoinFilter BL BR QL QR) (okL : Nat → Node BL KL VL → Prop) (okR : Nat → Node BR KR VR → Prop)
    (Rel : KL × VL → List (KR × VR) → Prop) : Prop :=
  ∀ l l' nl nr e ys, okL l nl → okR l' nr → e ∈ nl.entries → f.testBounds nl.bounds nr.bounds = false →
    Rel e (nr.entries ++ ys) → Rel e ys

/-- The drained low levels of the left stack. -/
theorem wt_nil_left {css : List (List (Node BL KL VL))} (h : ∀ cs ∈ css, cs = []) : wt id css = 0 ∧ leftE css = [] := by
  constructor
  · induction css with
    | nil => rfl
    | cons c css ih =>
      have := ih fun x hx => h x (List.mem_cons_of_mem _ hx)
      simp only [wt] at this
      obtain rfl := h c List.mem_cons_self
      simpa [wt, weightList] using this
  · simp only [remE, List.flatMap_eq_nil_iff]
    intro c hc
    rw [h c hc]; rfl

theorem weight_left (es : List (KL × VL)) (css : List (List (Node BL KL VL))) :
    TreeIter.weight (newBox es css) = es.length + wt id css := by
  rw [TreeIter.weight_newBox]; rfl

theorem weight_right (rl : RewindIter (KR × VR)) (its : List (RewindIter (Node BR KR VR))) :
    RewindTreeIter.weight (newBox rl its) = wt RewindIter.rem its := by
  simp only [RewindTreeIter.weight, newBox, List.map_cons, List.map_map, List.sum_cons, Nat.zero_add]
  rfl

theorem nextLoop_spec (f : JoinFilter BL BR QL QR) {okL : Nat → Node BL KL VL → Prop} {okR : Nat → Node BR KR VR → Prop}
    (hL : NodeInv okL) (hR : NodeInv okR) {Rel : KL × VL → List (KR × VR) → Prop} (hdrop : Drops f okL okR Rel)
    (fuel : Nat) :
    (∀ (es : List (KL × VL)) (css : List (List (Node BL KL VL))) (rl : RewindIter (KR × VR))
      (its : List (RewindIter (Node BR KR VR))), Inv okL okR Rel es css rl its →
      (es.length + wt id css) * (css.length + 2) + (css.length + 1) ≤ fuel →
      NextPost okL okR Rel (es ++ leftE css) css.length its.length (es.length + wt id css)
        (nextLoop f (min (css.length + 1) (its.length + 1)) fuel 0 ⟨newBox es css, newBox rl its⟩)) ∧
    (∀ (lo midL hiL : List (List (Node BL KL VL))) (rl : RewindIter (KR × VR))
      (rlo midR hiR : List (RewindIter (Node BR KR VR))) (last : RewindIter (Node BR KR VR)), (∀ cs ∈ lo, cs = []) →
      rlo.length = lo.length → AllOk (LeftOk okL) lo.length (midL ++ hiL) → AllOk (RightOk okR) 0 (rlo ++ (midR ++ hiR)) →
      Split Rel midL hiL midR hiR last → rightE midR = entriesList last.slice → rl.i = 0 →
      wt id (midL ++ hiL) * (lo.length + (midL ++ hiL).length + 2) + (midL ++ hiL).length ≤ fuel →
      NextPost okL okR Rel (leftE (midL ++ hiL)) (lo.length + (midL ++ hiL).length) (lo.length + (midR ++ hiR).length)
        (wt id (midL ++ hiL))
        (nextLoop f (min (lo.length + (midL ++ hiL).length + 1) (lo.length + (midR ++ hiR).length + 1)) fuel (lo.length + 1)
          ⟨newBox [] (lo ++ (midL ++ hiL)), newBox rl (rlo ++ (midR ++ hiR))⟩)) := by
  induction fuel with
  | zero =>
    constructor
    · intro es css rl its _ h; omega
    · intro lo midL hiL rl rlo midR hiR last _ _ _ _ hs _ _ h
      have : 1 ≤ midL.length := List.length_pos_iff.2 hs.ne
      rw [List.length_append] at h
      omega
  | succ fuel ih =>
    obtain ⟨ih0, ih1⟩ := ih
    -- ascending
    have asc : ∀ (lo css : List (List (Node BL KL VL))) (rl : RewindIter (KR × VR))
        (rlo its : List (RewindIter (Node BR KR VR))), (∀ cs ∈ lo, cs = []) → rlo.length = lo.length →
        AllOk (LeftOk okL) lo.length css → AllOk (RightOk okR) 0 (rlo ++ its) → LInv Rel css its → rl.i = 0 →
        wt id css * (lo.length + css.length + 2) + css.length ≤ fuel →
        NextPost okL okR Rel (leftE css) (lo.length + css.length) (lo.length + its.length) (wt id css)
          (do
            let stop := rightStop (⟨newBox [] (lo ++ css), newBox rl (rlo ++ its)⟩ : LeftJoinIter BL BR KL KR VL VR) lo.length
            checkRange (newBox rl (rlo ++ its)) (lo.length + 1) stop
            let right ← rewindLoop (stop - 1) (stop - (lo.length + 1)) lo.length (newBox rl (rlo ++ its))
            nextLoop f (min (lo.length + css.length + 1) (lo.length + its.length + 1)) fuel (lo.length + 1)
              ⟨newBox [] (lo ++ css), right⟩) := by
      intro lo css rl rlo its hlo hrlo hokL hokR hinv hrl hf
      obtain ⟨midL, hiL, midR, hiR, last, rfl, rfl, hs⟩ := hinv.split
      have hstops := hs.stops (left := newBox ([] : List (KL × VL)) (lo ++ (midL ++ hiL)))
        (right := newBox rl (rlo ++ (midR ++ hiR))) (l := lo.length) (by simp; omega) (by simp; omega)
      simp only [hstops.2]
      have hmr : 1 ≤ midR.length := List.length_pos_iff.2 (by intro hm; have := hs.isLast; simp [hm] at this)
      rw [checkRange, if_pos (by simp; omega)]
      simp only [ok_bind]
      rw [allOk_append, Nat.zero_add, hrlo] at hokR
      have hokR2 := hokR.2
      rw [allOk_append] at hokR2
      obtain ⟨midR', k1, k2, k3, k4, last', k5, k6⟩ := rewindLoop_spec (okR := okR) rl hiR midR rlo last hs.isLast
        (by rw [hrlo]; exact hokR2.1)
      rw [hrlo] at k1 k3
      rw [show lo.length + 1 + midR.length - 1 = lo.length + midR.length by omega,
        show lo.length + 1 + midR.length - (lo.length + 1) = midR.length by omega, ← List.append_assoc, k1]
      simp only [ok_bind]
      have hs' : Split Rel midL hiL midR' hiR last' :=
        ⟨k5, by rw [k6]; exact hs.rel, hs.ne, by rw [k2]; exact hs.levels⟩
      have h := ih1 lo midL hiL rl rlo midR' hiR last' hlo hrlo hokL (by
          rw [allOk_append, Nat.zero_add, hrlo, allOk_append]
          exact ⟨hokR.1, k3, by rw [k2]; exact hokR2.2⟩) hs' (by rw [k4, k6]) hrl hf
      rw [List.append_assoc]
      rw [show (midR' ++ hiR).length = (midR ++ hiR).length by simp [k2]] at h
      exact h
    constructor
    · intro es css rl its hinv hf
      unfold nextLoop
      simp only [getLeaf_newBox, ok_bind]
      have hne := hinv.linv.ne
      have hc1 : 1 ≤ css.length := List.length_pos_iff.2 hne.1
      have hc2 : 1 ≤ its.length := List.length_pos_iff.2 hne.2
      cases es with
      | nil =>
        simp only
        rw [if_neg (by omega)]
        have h := asc [] css rl [] its (by intro c hc; cases hc) rfl hinv.left hinv.right hinv.linv hinv.leaf (by
          simp only [List.length_nil, Nat.zero_add] at hf ⊢; omega)
        simp only [List.length_nil, Nat.zero_add, List.nil_append] at h ⊢
        exact h
      | cons e es =>
        simp only [setLeaf_newBox, ok_bind]
        rw [remainders_spec (by rw [hinv.leaf]; exact Nat.zero_le _) hinv.right]
        simp only [ok_bind, pure_eq_ok]
        refine ⟨_, _, rfl, es, css, rl, its, rfl, ?_, rfl, rfl, rfl, rfl, hinv.entry e List.mem_cons_self, ?_⟩
        · exact ⟨hinv.leaf, fun x hx => hinv.entry x (List.mem_cons_of_mem _ hx), hinv.left, hinv.right, hinv.linv⟩
        · simp
    · intro lo midL hiL rl rlo midR hiR last hlo hrlo hokL hokR hs hrew hrl hf
      have hml : 1 ≤ midL.length := List.length_pos_iff.2 hs.ne
      have hmr : 1 ≤ midR.length := List.length_pos_iff.2 (by intro hm; have := hs.isLast; simp [hm] at this)
      have hstops := hs.stops (left := newBox ([] : List (KL × VL)) (lo ++ (midL ++ hiL)))
        (right := newBox rl (rlo ++ (midR ++ hiR))) (l := lo.length) (by simp; omega) (by simp; omega)
      have hokL' := hokL
      rw [allOk_append] at hokL'
      unfold nextLoop
      simp only [hstops.1]
      rw [checkRange, if_pos (by simp; omega)]
      simp only [ok_bind, weight_left, length_newBox, List.length_nil]
      have hwlo := wt_nil_left hlo
      have hfind := findLoop_spec hL (left_stepOk okL) (G := fun xs => leftE midL = xs)
        (by intro l n ys _ hp; simp at hp) [] ([] : List (KL × VL)) lo hiL (stop := lo.length + 1 + midL.length)
        (([] : List (KL × VL)).length + wt id (lo ++ (midL ++ hiL)) + 1 |>.mul ((lo ++ (midL ++ hiL)).length + 1 + 1))
        [] midL (by simp) (by simpa using hokL'.1) (by intro x hx; cases hx) (by
          simp only [List.length_nil, Nat.zero_add, wt_append, List.length_append, hwlo.1, Nat.mul_eq]
          have e : wt id midL ≤ wt id midL + wt id hiL := by omega
          have e2 := Nat.mul_le_mul e (show midL.length + 1 ≤ lo.length + (midL.length + hiL.length) + 1 + 1 by omega)
          rw [Nat.add_mul _ 1]
          omega)
      simp only [List.nil_append, List.length_nil, Nat.mul_eq, List.append_assoc] at hfind
      obtain ⟨found, midL', k1, k2, k3, _, k5⟩ := hfind
      rw [List.append_assoc lo midL' hiL] at k1
      rw [k1]
      simp only [ok_bind]
      have hlenL : (midL' ++ hiL).length = (midL ++ hiL).length := by simp [k2]
      cases found with
      | none =>
        simp only at k5
        have hG := k5.2 (by simp)
        have hml' : ∀ cs ∈ midL', cs = [] := k5.1
        simp only
        rcases hs.levels with ⟨rfl, rfl, h3⟩ | ⟨h4, h5, h3⟩
        · rw [if_pos (by simp; omega)]
          have hdr : leftE (lo ++ (midL' ++ [])) = [] := by
            rw [List.append_nil, leftE_append, (wt_nil_left hlo).2, (wt_nil_left hml').2]; rfl
          refine ⟨_, _, rfl, by rw [List.append_nil]; exact hG, _, _, _, rfl, ⟨hrl, (by intro e he; cases he), ?_, hokR, ?_⟩, ?_, ?_, hdr⟩
          · rw [List.append_nil, allOk_append, Nat.zero_add]
            refine ⟨?_, k3⟩
            have hlok : ∀ (off : Nat) (lo : List (List (Node BL KL VL))), (∀ cs ∈ lo, cs = []) → AllOk (LeftOk okL) off lo := by
              intro off lo h
              induction lo generalizing off with
              | nil => trivial
              | cons c lo ih =>
                refine ⟨?_, ih _ fun x hx => h x (List.mem_cons_of_mem _ hx)⟩
                intro x hx
                rw [h c List.mem_cons_self] at hx; cases hx
            exact hlok 0 lo hlo
          · refine LInv.drained ?_ ?_ hdr
            · intro h; rw [List.append_nil, List.append_eq_nil_iff] at h; rw [h.2] at k2; simp at k2; omega
            · intro h; rw [List.append_nil, List.append_eq_nil_iff] at h; rw [h.2] at hmr; simp at hmr
          · simp [k2]
          · simp [hrlo]
        · have h6 : 1 ≤ hiL.length := List.length_pos_iff.2 h3.ne.1
          have h7 : 1 ≤ hiR.length := List.length_pos_iff.2 h3.ne.2
          rw [if_neg (by simp; omega)]
          have e1 : (lo ++ midL').length = lo.length + 1 := by simp [k2, h4]
          have e2 : (rlo ++ midR).length = lo.length + 1 := by simp [hrlo, h5]
          have h := asc (lo ++ midL') hiL rl (rlo ++ midR) hiR (by
              intro c hc
              rcases List.mem_append.1 hc with hc | hc
              · exact hlo c hc
              · exact hml' c hc) (by rw [e1, e2]) (by rw [e1]; rw [h4] at hokL'; exact hokL'.2)
            (by rw [List.append_assoc]; exact hokR) h3 hrl (by
              rw [e1]
              simp only [List.length_append, h4, wt_append] at hf
              rw [show lo.length + (1 + hiL.length) + 2 = lo.length + 1 + hiL.length + 2 by omega, Nat.add_mul] at hf
              omega)
          rw [e1] at h
          simp only [List.append_assoc] at h
          have e3 : lo.length + (midL ++ hiL).length = lo.length + 1 + hiL.length := by simp [h4]; omega
          have e4 : lo.length + (midR ++ hiR).length = lo.length + 1 + hiR.length := by simp [h5]; omega
          rw [e3, e4]
          have hww : wt id hiL ≤ wt id (midL ++ hiL) := by rw [wt_append]; omega
          refine h.mono ?_ rfl rfl hww
          rw [leftE_append, hG, List.nil_append]
      | some nl =>
        simp only at k5
        obtain ⟨hnl, hG, hw⟩ := k5
        have hG := hG (by simp)
        simp only [List.append_nil] at hG
        have hstops2 := hs.stops (left := newBox ([] : List (KL × VL)) (lo ++ (midL' ++ hiL)))
          (right := newBox rl (rlo ++ (midR ++ hiR))) (l := lo.length) (by simp; omega) (by simp; omega)
        simp only [hstops2.2]
        rw [checkRange, if_pos (by simp; omega)]
        simp only [ok_bind, weight_right, length_newBox]
        have hokR' := hokR
        rw [allOk_append, Nat.zero_add, allOk_append] at hokR'
        have hfind := findLoop_spec hR (right_stepOk okR fun n => f.testBounds nl.bounds n.bounds)
          (G := fun xs => ∀ e ∈ nl.entries, Rel e xs)
          (by intro l n ys hn hp hg e he; exact hdrop _ _ nl n e ys hnl hn he hp (hg e he)) (rightE hiR) rl rlo hiR
          (stop := lo.length + 1 + midR.length)
          ((wt RewindIter.rem (rlo ++ (midR ++ hiR)) + 1) * ((rlo ++ (midR ++ hiR)).length + 1 + 1))
          [] midR (by simp [hrlo]) hokR'.2.1 (by intro x hx; cases hx) (by
            simp only [List.length_nil, Nat.zero_add, wt_append, List.length_append]
            have e : wt RewindIter.rem midR ≤ wt RewindIter.rem rlo + (wt RewindIter.rem midR + wt RewindIter.rem hiR) := by
              omega
            have e2 := Nat.mul_le_mul e (show midR.length + 1 ≤ rlo.length + (midR.length + hiR.length) + 1 + 1 by omega)
            rw [Nat.add_mul _ 1]
            omega)
        rw [hrlo] at hfind
        simp only [List.nil_append, List.length_nil, List.append_assoc] at hfind
        obtain ⟨foundR, midR', m1, m2, m3, m4, m5⟩ := hfind
        rw [hrlo] at m3
        rw [List.append_assoc rlo midR' hiR] at m1
        rw [m1]
        simp only [ok_bind]
        have hlenR : (midR' ++ hiR).length = (midR ++ hiR).length := by simp [m2]
        obtain ⟨last', hl1, hl2⟩ : ∃ last', midR'.getLast? = some last' ∧ last'.slice = last.slice := by
          rw [hs.isLast] at m4
          cases h : midR'.getLast? with
          | none => rw [h] at m4; simp at m4
          | some x => rw [h] at m4; exact ⟨x, rfl, by simpa using m4⟩
        have hs' : Split Rel midL' hiL midR' hiR last' := by
          refine ⟨hl1, ?_, by intro h; simp [h] at k2; omega, by rw [k2, m2]; exact hs.levels⟩
          intro e he
          rw [hl2]
          refine hs.rel e ?_
          rw [hG]
          exact List.mem_append_right _ he
        have hokL2 : AllOk (LeftOk okL) lo.length (midL' ++ hiL) := by
          rw [allOk_append]; exact ⟨k3, by rw [k2]; exact hokL'.2⟩
        have hokR2 : AllOk (RightOk okR) rlo.length (midR' ++ hiR) := by
          rw [allOk_append, hrlo]; exact ⟨m3, by rw [m2]; rw [hrlo] at hokR'; exact hokR'.2.2⟩
        -- the entries below the right node found
        have hstart : ∀ e ∈ nl.entries, Rel e (rightE midR ++ rightE hiR) := by
          intro e he
          rw [hrew]
          exact hs.rel e (by rw [hG]; exact List.mem_append_left _ he)
        have hrem : leftE (midL ++ hiL) = nl.entries ++ leftE (midL' ++ hiL) := by
          rw [leftE_append, hG, leftE_append, List.append_assoc]
        have hwt : nl.weight + wt id (midL' ++ hiL) ≤ wt id (midL ++ hiL) := by
          rw [wt_append, wt_append]; omega
        have hfound : ∃ re, (∀ e ∈ nl.entries, Rel e (re ++ rightE (midR' ++ hiR))) ∧
            (lo.length = 0 → iterateRightChildren (newBox rl (rlo ++ (midR' ++ hiR))) foundR 0 =
              .ok (newBox (.new re) (rlo ++ (midR' ++ hiR)))) ∧
            (∀ l' rlo' x, rlo = rlo' ++ [x] → rlo'.length = l' → ∃ cs, (∀ c ∈ cs, okR l' c) ∧ entriesList cs = re ∧
              iterateRightChildren (newBox rl (rlo ++ (midR' ++ hiR))) foundR (l' + 1) =
                .ok (newBox rl (rlo' ++ .new cs :: (midR' ++ hiR)))) := by
          cases foundR with
          | none =>
            simp only at m5
            have hz : rightE midR' = [] := by
              simp only [remE, List.flatMap_eq_nil_iff]
              intro x hx
              rw [m5.1 x hx]; rfl
            refine ⟨[], ?_, ?_, ?_⟩
            · rw [rightE_append, hz]
              exact m5.2 hstart
            · intro _; rfl
            · intro l' rlo' x h1 h2
              refine ⟨[], (by intro c hc; cases hc), rfl, ?_⟩
              subst h1
              simp only [iterateRightChildren, List.append_assoc, List.singleton_append]
              rw [← h2, setInner_newBox]
          | some nr =>
            simp only at m5
            rw [hrlo] at m5
            refine ⟨nr.entries, ?_, ?_, ?_⟩
            · rw [rightE_append]
              exact m5.2.1 hstart
            · intro h0
              have hnr := m5.1
              rw [h0] at hnr
              obtain ⟨b, fs, rfl⟩ := hR.leaf hnr
              rfl
            · intro l' rlo' x h1 h2
              subst h1
              have hnr := m5.1
              have hl : lo.length = l' + 1 := by rw [← hrlo]; simp [h2]
              rw [hl] at hnr
              obtain ⟨b, cs, rfl, hcs⟩ := hR.inner hnr
              refine ⟨cs, hcs, by simp [Node.entries], ?_⟩
              simp only [iterateRightChildren, Node.innerChildren, ok_bind, List.append_assoc, List.singleton_append]
              rw [← h2, setInner_newBox]
        obtain ⟨re, hre, hit0, hit1⟩ := hfound
        have hN : lo.length + (midL' ++ hiL).length + 2 = lo.length + (midL ++ hiL).length + 2 := by rw [hlenL]
        cases hlol : lo.length with
        | zero =>
          have hlo0 : lo = [] := List.length_eq_zero_iff.1 hlol
          have hrlo0 : rlo = [] := List.length_eq_zero_iff.1 (by omega)
          rw [hit0 hlol]
          subst hlo0 hrlo0
          rw [List.length_nil] at hnl
          obtain ⟨b, es, rfl⟩ := hL.leaf hnl
          simp only [iterateLeftChildren, Node.leafChildren, ok_bind, setLeaf_newBox, List.nil_append]
          have hcw : (Node.leaf b es : Node BL KL VL).weight = 1 + es.length := by simp [Node.weight]
          have hent : (Node.leaf b es : Node BL KL VL).entries = es := by simp [Node.entries]
          rw [hent] at hre hrem
          have h := ih0 es (midL' ++ hiL) (.new re) (midR' ++ hiR)
            ⟨rfl, hre, hokL2, hokR2, hs'.linv⟩ (by
              rw [hlenL]
              have e : (es.length + wt id (midL' ++ hiL)) + 1 ≤ wt id (midL ++ hiL) := by omega
              have e2 := Nat.mul_le_mul_right ((midL ++ hiL).length + 2) e
              rw [Nat.add_mul _ 1] at e2
              simp only [List.length_nil, Nat.zero_add] at hf
              omega)
          rw [hlenL, hlenR] at h
          simp only [Nat.zero_add]
          exact h.mono hrem.symm rfl rfl (by omega)
        | succ l' =>
          obtain ⟨lo', x, rfl⟩ : ∃ lo' x, lo = lo' ++ [x] :=
            ⟨lo.dropLast, lo.getLast (by intro h; simp [h] at hlol), (List.dropLast_concat_getLast _).symm⟩
          obtain ⟨rlo', y, rfl⟩ : ∃ lo' x, rlo = lo' ++ [x] :=
            ⟨rlo.dropLast, rlo.getLast (by intro h; simp [h] at hrlo), (List.dropLast_concat_getLast _).symm⟩
          have hl' : lo'.length = l' := by simpa using hlol
          have hrl' : rlo'.length = l' := by rw [hlol] at hrlo; simpa using hrlo
          obtain ⟨ds, hds, hde, hdi⟩ := hit1 l' rlo' y rfl hrl'
          rw [hdi]
          rw [hlol] at hnl
          obtain ⟨b, cs, rfl, hcs⟩ := hL.inner hnl
          have hset := setInner_newBox ([] : List (KL × VL)) lo' (midL' ++ hiL) x cs
          rw [hl'] at hset
          simp only [iterateLeftChildren, Node.innerChildren, ok_bind, List.append_assoc, List.singleton_append] at hset ⊢
          rw [hset]
          simp only [ok_bind]
          have hcw : (Node.inner b cs : Node BL KL VL).weight = 1 + weightList cs := by simp [Node.weight]
          have hent : (Node.inner b cs : Node BL KL VL).entries = entriesList cs := by simp [Node.entries]
          have hs2 : Split Rel [cs] (midL' ++ hiL) [RewindIter.new ds] (midR' ++ hiR) (RewindIter.new ds) := by
            refine ⟨rfl, ?_, by simp, .inr ⟨rfl, rfl, hs'.linv⟩⟩
            intro e he
            simp only [remE, List.flatMap_cons, List.flatMap_nil, List.append_nil, id] at he
            have := hre e (by rw [hent]; exact he)
            rw [← hde] at this
            exact this
          have h := ih1 lo' [cs] (midL' ++ hiL) rl rlo' [RewindIter.new ds] (midR' ++ hiR) (RewindIter.new ds)
            (fun c hc => hlo c (List.mem_append_left _ hc)) (by omega)
            ⟨by rw [hl']; exact hcs, by rw [hl', ← hlol]; exact hokL2⟩
            (by
              rw [allOk_append]
              refine ⟨?_, ⟨Nat.zero_le _, by rw [hrl', Nat.zero_add]; exact hds⟩, ?_⟩
              · have := hokR'.1
                rw [allOk_append] at this
                exact this.1
              · rw [hrl', Nat.zero_add]
                rw [hrlo, hlol] at hokR2
                exact hokR2)
            hs2 (by simp [remE, RewindIter.new, RewindIter.rem]) hrl (by
              have ew : wt id ([cs] ++ (midL' ++ hiL)) = weightList cs + wt id (midL' ++ hiL) := by simp [wt]
              have el : ([cs] ++ (midL' ++ hiL)).length = (midL ++ hiL).length + 1 := by
                rw [List.length_append, hlenL, List.length_singleton]; omega
              rw [ew, el, hl']
              rw [hlol] at hf
              have e : (weightList cs + wt id (midL' ++ hiL)) + 1 ≤ wt id (midL ++ hiL) := by omega
              have e2 := Nat.mul_le_mul_right (l' + 1 + (midL ++ hiL).length + 2) e
              rw [Nat.add_mul _ 1] at e2
              rw [show l' + ((midL ++ hiL).length + 1) + 2 = l' + 1 + (midL ++ hiL).length + 2 by omega]
              omega)
          have el : ([cs] ++ (midL' ++ hiL)).length = 1 + (midL ++ hiL).length := by
            rw [List.length_append, hlenL]; rfl
          have er : ([RewindIter.new ds] ++ (midR' ++ hiR)).length = 1 + (midR ++ hiR).length := by
            rw [List.length_append, hlenR]; rfl
          rw [el, er, hl', ← Nat.add_assoc, ← Nat.add_assoc] at h
          refine h.mono ?_ rfl rfl ?_
          · rw [hrem, hent]
            simp [remE]
          · have ew : wt id ([cs] ++ (midL' ++ hiL)) = weightList cs + wt id (midL' ++ hiL) := by simp [wt]
            rw [ew]; omega

theorem collectLoop_spec [Bounded QL BL] (borrowL : KL → QL) (borrowR : KR → QR) (f : JoinFilter BL BR QL QR)
    {okL : Nat → Node BL KL VL → Prop} {okR : Nat → Node BR KR VR → Prop} (hL : NodeInv okL) (hR : NodeInv okR)
    {Rel M : KL × VL → List (KR × VR) → Prop} (hdrop : Drops f okL okR Rel)
    (hM : ∀ (e : KL × VL) (rl : RewindIter (KR × VR)) (its : List (RewindIter (Node BR KR VR))), rl.i = 0 → AllOk (RightOk okR) 0 its → Rel e (rl.slice ++ rightE its) →
      ∃ ms, TreeIter.collect borrowR (joiningFilter (borrowL e.1) f) (newBox rl.rem (its.map RewindIter.rem)) = .ok ms ∧ M e ms)
    (n : Nat) : ∀ {es : List (KL × VL)} {css : List (List (Node BL KL VL))} {rl : RewindIter (KR × VR)}
      {its : List (RewindIter (Node BR KR VR))}, Inv okL okR Rel es css rl its → es.length + wt id css < n →
    ∃ out, collectLoop borrowL borrowR f n ⟨newBox es css, newBox rl its⟩ = .ok out ∧ out.map Prod.fst = es ++ leftE css ∧
      ∀ x ∈ out, M x.1 x.2 := by
  induction n with
  | zero => intro es css rl its _ h; omega
  | succ n ih =>
    intro es css rl its hinv hn
    have h := (nextLoop_spec f hL hR hdrop ((es.length + wt id css + 1) * (css.length + 1 + 1))).1 es css rl its hinv (by
      rw [Nat.add_mul _ 1, show css.length + 1 + 1 = css.length + 2 from rfl]; omega)
    unfold collectLoop next
    simp only [length_newBox, weight_left]
    rw [if_neg (by omega)]
    obtain ⟨r, it, h1, h2⟩ := h
    rw [h1]
    match r, h2 with
    | none, h2 => exact ⟨[], rfl, by rw [h2.1]; rfl, by intro x hx; cases hx⟩
    | some (e, stack), h2 =>
      obtain ⟨es', css', rl', its', rfl, k2, k3, k4, k5, rfl, k7, k8⟩ := h2
      obtain ⟨ms, m1, m2⟩ := hM e rl' its' k2.leaf k2.right k7
      obtain ⟨out, o1, o2, o3⟩ := ih k2 (by omega)
      refine ⟨(e, ms) :: out, ?_, ?_, ?_⟩
      · simp only [ok_bind, m1, o1, pure_eq_ok]
      · rw [k5, List.map_cons, o2]
      · intro x hx
        rcases List.mem_cons.1 hx with rfl | hx
        · exact m2
        · exact o3 x hx

theorem AllOk.replicate {I : Type} {IOk : Nat → I → Prop} {x : I} (h : ∀ l, IOk l x) (k : Nat) (rest : List I) {off : Nat}
    (hr : AllOk IOk (off + k) rest) : AllOk IOk off (List.replicate k x ++ rest) := by
  induction k generalizing off with
  | zero => exact hr
  | succ k ih =>
    rw [List.replicate_succ, List.cons_append]
    exact ⟨h off, ih (by rw [show off + 1 + k = off + (k + 1) by omega]; exact hr)⟩

theorem LInv.init {Rel : KL × VL → List (KR × VR) → Prop} {rootL : Node BL KL VL} {rootR : Node BR KR VR}
    (h : ∀ e ∈ rootL.entries, Rel e rootR.entries) :
    ∀ (m k : Nat), LInv Rel (List.replicate m [] ++ [[rootL]]) (List.replicate k (.new []) ++ [.new [rootR]]) := by
  intro m
  induction m with
  | zero =>
    intro k
    exact .top (by simp) (.inl rfl) (it := .new [rootR]) (by simp) (by
      intro e he
      simp only [RewindIter.new, entriesList, List.append_nil]
      exact h e (by simpa [remE, entriesList] using he))
  | succ m ih =>
    intro k
    cases k with
    | zero =>
      refine .top (by simp) (.inr rfl) (it := .new [rootR]) (by simp) ?_
      intro e he
      simp only [RewindIter.new, entriesList, List.append_nil]
      refine h e ?_
      simp only [remE, List.mem_flatMap, List.mem_append, List.mem_replicate, List.mem_singleton, id] at he
      obtain ⟨cs, hcs, he⟩ := he
      rcases hcs with ⟨_, rfl⟩ | rfl
      · simp [entriesList] at he
      · simpa [entriesList] using he
    | succ k =>
      rw [List.replicate_succ, List.replicate_succ, List.cons_append, List.cons_append]
      exact .up (by intro e he; simp [entriesList] at he) (ih k)

end LeftJoinIter

open LeftJoinIter IterStack InnerIterStack in
theorem Tree.leftJoin_spec {BL BR KL KR VL VR QL QR : Type} [Bounded QL BL] (borrowL : KL → QL) (borrowR : KR → QR)
    (f : JoinFilter BL BR QL QR) {okL : Nat → Node BL KL VL → Prop} {okR : Nat → Node BR KR VR → Prop} (hL : NodeInv okL)
    (hR : NodeInv okR) {Rel M : KL × VL → List (KR × VR) → Prop} (hdrop : Drops f okL okR Rel)
    (hM : ∀ (e : KL × VL) (rl : RewindIter (KR × VR)) (its : List (RewindIter (Node BR KR VR))), rl.i = 0 → AllOk (RightOk okR) 0 its → Rel e (rl.slice ++ rightE its) →
      ∃ ms, TreeIter.collect borrowR (joiningFilter (borrowL e.1) f) (newBox rl.rem (its.map RewindIter.rem)) = .ok ms ∧ M e ms)
    {tl : Tree BL KL VL} {tr : Tree BR KR VR} (hl : okL tl.level tl.root) (hr : okR tr.level tr.root)
    (h : ∀ e ∈ tl.entries, Rel e tr.entries) :
    ∃ out, tl.leftJoin borrowL borrowR f tr = .ok out ∧ out.map Prod.fst = tl.entries ∧ ∀ x ∈ out, M x.1 x.2 := by
  have hsl := setInner_newBox ([] : List (KL × VL)) (List.replicate tl.level []) [] [] [tl.root]
  have hsr := setInner_newBox (RewindIter.new ([] : List (KR × VR))) (List.replicate tr.level (RewindIter.new [])) []
    (RewindIter.new []) (RewindIter.new [tr.root])
  rw [List.length_replicate, ← List.replicate_succ'] at hsl hsr
  simp only [Tree.leftJoin, LeftJoinIter.new, hsl, hsr, ok_bind, pure_eq_ok]
  have hent : leftE (List.replicate tl.level [] ++ [[tl.root]]) = tl.entries := by
    simp [remE, entriesList, Tree.entries]
  have := collectLoop_spec borrowL borrowR f hL hR hdrop hM
    (TreeIter.weight (newBox ([] : List (KL × VL)) (List.replicate tl.level [] ++ [[tl.root]])) + 1)
    (es := []) (css := List.replicate tl.level [] ++ [[tl.root]]) (rl := .new [])
    (its := List.replicate tr.level (.new []) ++ [.new [tr.root]])
    ⟨rfl, (by intro e he; cases he), ?_, ?_, LInv.init h _ _⟩ (by rw [weight_left]; omega)
  · rw [List.nil_append, hent] at this
    exact this
  · refine AllOk.replicate (fun l c hc => by cases hc) _ _ ⟨?_, trivial⟩
    intro c hc
    obtain rfl := List.mem_singleton.1 hc
    simpa using hl
  · refine AllOk.replicate (fun l => ⟨Nat.zero_le _, fun c hc => by cases hc⟩) _ _ ⟨⟨Nat.zero_le _, ?_⟩, trivial⟩
    intro c hc
    obtain rfl := List.mem_singleton.1 hc
    simpa using hr

/-! ## What the right-hand iterators yield -/

namespace LeftJoinIter

open IterStack InnerIterStack

variable {BR KR VR QR : Type}

theorem allOk_typed {okR : Nat → Node BR KR VR → Prop} (hR : NodeInv okR) {off : Nat}
    {its : List (RewindIter (Node BR KR VR))} (h : AllOk (RightOk okR) off its) :
    TreeIter.Typed off (its.map RewindIter.rem) := by
  induction its generalizing off with
  | nil => trivial
  | cons it its ih =>
    exact ⟨fun c hc => hR.shape (h.1.2 c (List.mem_of_mem_drop hc)), ih h.2⟩

theorem collect_exact (borrowR : KR → QR) (f : SpatialFilter BR QR) {okR : Nat → Node BR KR VR → Prop} (hR : NodeInv okR)
    (hp : ∀ l n, okR l n → ∀ e ∈ n.entries, f.testKey (borrowR e.1) = true → f.testBounds n.bounds = true)
    {rl : RewindIter (KR × VR)} {its : List (RewindIter (Node BR KR VR))} (hi : rl.i = 0)
    (h : AllOk (RightOk okR) 0 its) :
    TreeIter.collect borrowR f (newBox rl.rem (its.map RewindIter.rem)) =
      .ok ((rl.slice ++ rightE its).filter fun e => f.testKey (borrowR e.1)) := by
  rw [TreeIter.collect_spec borrowR f (allOk_typed hR h)]
  simp only [TreeIter.rem, List.filter_append]
  congr 2
  · simp [RewindIter.rem, hi]
  · suffices hs : ∀ off, AllOk (RightOk okR) off its →
        (its.map RewindIter.rem).flatMap (matchingList f.testBounds fun e => f.testKey (borrowR e.1)) =
          (rightE its).filter fun e => f.testKey (borrowR e.1) from hs 0 h
    clear h
    intro off h
    induction its generalizing off with
    | nil => rfl
    | cons it its ih =>
      rw [List.map_cons, List.flatMap_cons, ih _ h.2]
      simp only [remE, List.flatMap_cons, List.filter_append]
      congr 1
      cases hrem : it.rem with
      | nil => rfl
      | cons c cs =>
        have hall : ∀ x ∈ c :: cs, okR off x := by
          intro x hx
          rw [← hrem] at hx
          exact h.1.2 x (List.mem_of_mem_drop hx)
        exact (hR.matching hp (hall c List.mem_cons_self)).2 _ hall

theorem collect_sound (borrowR : KR → QR) (f : SpatialFilter BR QR) {okR : Nat → Node BR KR VR → Prop} (hR : NodeInv okR)
    {rl : RewindIter (KR × VR)} {its : List (RewindIter (Node BR KR VR))} (hi : rl.i = 0)
    (h : AllOk (RightOk okR) 0 its) :
    ∃ ms, TreeIter.collect borrowR f (newBox rl.rem (its.map RewindIter.rem)) = .ok ms ∧
      ms.Sublist ((rl.slice ++ rightE its).filter fun e => f.testKey (borrowR e.1)) := by
  refine ⟨_, TreeIter.collect_spec borrowR f (allOk_typed hR h), ?_⟩
  simp only [TreeIter.rem, List.filter_append]
  refine List.Sublist.append (by simp [RewindIter.rem, hi]) ?_
  clear h
  induction its with
  | nil => simp [remE]
  | cons it its ih =>
    rw [List.map_cons, List.flatMap_cons]
    simp only [remE, List.flatMap_cons, List.filter_append]
    exact List.Sublist.append (matchingList_sublist _ _ _) ih

end LeftJoinIter

end RTree
