import Verif.CallsLeftSpec
import Verif.Proofs.CallsJoin
import Verif.Proofs.LeftJoin
/-! Left joins with user code that panics or answers inconsistently. -/

namespace RTree.Calls

open IterStack RTree.InnerIterStack RTree.LeftJoinIter

section Find

variable {S F L B K V : Type}

theorem rewind_next {α : Type} (it : RewindIter α) (hw : it.i ≤ it.slice.length) :
    (it.rem = [] ∧ it.next = (none, it)) ∨ ∃ x it', it.next = (some x, it') ∧ it.rem = x :: it'.rem ∧ it'.i ≤ it'.slice.length ∧ it'.slice = it.slice := by
  obtain ⟨s, i⟩ := it
  unfold RewindIter.next RewindIter.rem
  by_cases h : i < s.length
  · right
    dsimp only
    rw [dif_pos h]
    exact ⟨_, _, rfl, List.drop_eq_getElem_cons h, h, rfl⟩
  · left
    dsimp only
    rw [dif_neg h]
    exact ⟨List.drop_eq_nil_of_le (by omega), rfl⟩

theorem searchBy_rewind {α : Type} (code : Nat → Option F) (test : F → α → Bool) (it : RewindIter α) (hw : it.i ≤ it.slice.length) (s : S) (n : Nat) :
    ∃ r it' n', searchBy code test RewindIter.next (it.slice.length + 1) it s n = (.ok (r, it'), s, n') ∧ it'.i ≤ it'.slice.length ∧ it'.slice = it.slice ∧
      Found code test n it.rem r it'.rem n' := by
  have h := searchBy_spec (S := S) code test RewindIter.next RewindIter.rem (fun x => x.i ≤ x.slice.length ∧ x.slice = it.slice) (by
    intro x hx
    rcases rewind_next x hx.1 with h | ⟨a, x', h1, h2, h3, h4⟩
    · exact .inl h
    · exact .inr ⟨a, x', h1, h2, h3, by rw [h4, hx.2]⟩) (it.slice.length + 1) (it := it) ⟨hw, rfl⟩ (by simp only [RewindIter.rem, List.length_drop]; omega) s n
  obtain ⟨r, it', n', h1, ⟨h2, h3⟩, h4⟩ := h
  exact ⟨r, it', n', h1, h2, h3, h4⟩

/-- Outcome of a search in a range of iterators. -/
def FindPost (code : Nat → Option F) (ok : Nat → Node B K V → Prop) (G : Nat → List (K × V) → Prop) (tail : List (K × V)) (lf : L)
    (lo mid hi : List (RewindIter (Node B K V))) (s : S) (n : Nat)
    (x : Except Stop (Except Stop (Option (Node B K V)) × IterStack L (RewindIter (Node B K V))) × S × Nat) : Prop :=
  ∃ found mid' n', x = (.ok (found, newBox lf (lo ++ mid' ++ hi)), s, n') ∧ mid'.length = mid.length ∧ AllOk (RightOk ok) lo.length mid' ∧
    mid'.getLast?.map RewindIter.slice = mid.getLast?.map RewindIter.slice ∧ n ≤ n' ∧
    match found with
    | .ok none => (∀ it ∈ mid', it.rem = []) ∧ (G n (rightE mid ++ tail) → G n' tail)
    | .ok (some nd) => ok lo.length nd ∧ (G n (rightE mid ++ tail) → G n' (nd.entries ++ (rightE mid' ++ tail)))
    | .error .user => n < n' ∧ code (n' - 1) = none
    | .error (.own _) => False

variable {ok : Nat → Node B K V → Prop} {code : Nat → Option F} {test : F → Node B K V → Bool}

theorem drop_pre {G : Nat → List (K × V) → Prop} {l : Nat}
    (hG : ∀ l nd ys m f n, ok l nd → m < n → code m = some f → test f nd = false → G n (nd.entries ++ ys) → G n ys) {n n' : Nat}
    {cs : List (Node B K V)} (hcs : ∀ c ∈ cs, ok l c ∧ ∃ m f, n ≤ m ∧ m < n' ∧ code m = some f ∧ test f c = false) {ys : List (K × V)}
    (h : G n' (entriesList cs ++ ys)) : G n' ys := by
  induction cs with
  | nil => exact h
  | cons c cs ih =>
    obtain ⟨hc, m, f, h1, h2, h3, h4⟩ := hcs c List.mem_cons_self
    refine ih (fun x hx => hcs x (List.mem_cons_of_mem _ hx)) (hG l c _ m f n' hc h2 h3 h4 ?_)
    rw [entriesList, List.append_assoc] at h
    exact h

theorem findLoop_spec (hi' : NodeInv ok) {G : Nat → List (K × V) → Prop} (hmono : ∀ n n' ys, n ≤ n' → G n ys → G n' ys)
    (hG : ∀ l nd ys m f n, ok l nd → m < n → code m = some f → test f nd = false → G n (nd.entries ++ ys) → G n ys)
    (tail : List (K × V)) (lf : L) (lo hi : List (RewindIter (Node B K V))) {stop : Nat} (s : S) (fuel : Nat) :
    ∀ (dl mid : List (RewindIter (Node B K V))) (n : Nat), stop = lo.length + 1 + (dl.length + mid.length) → AllOk (RightOk ok) lo.length (dl ++ mid) →
      (∀ it ∈ dl, it.rem = []) → wt RewindIter.rem mid * (dl.length + mid.length + 1) + mid.length ≤ fuel →
      FindPost code ok G tail lf lo (dl ++ mid) hi s n
        (findLoop code test lo.length stop fuel dl.length (newBox lf (lo ++ (dl ++ mid) ++ hi)) s n) := by
  have hdrained : ∀ (dl : List (RewindIter (Node B K V))), (∀ it ∈ dl, it.rem = []) → rightE dl = [] := by
    intro dl h
    simp only [remE, List.flatMap_eq_nil_iff]
    intro it hit
    rw [h it hit]; rfl
  have stopped : ∀ fuel (dl : List (RewindIter (Node B K V))) (n : Nat), stop = lo.length + 1 + (dl.length + 0) → AllOk (RightOk ok) lo.length (dl ++ []) →
      (∀ it ∈ dl, it.rem = []) → FindPost code ok G tail lf lo (dl ++ []) hi s n
        (findLoop code test lo.length stop fuel dl.length (newBox lf (lo ++ (dl ++ []) ++ hi)) s n) := by
    intro fuel dl n hst hall hdl
    refine ⟨.ok none, dl ++ [], n, ?_, rfl, hall, rfl, Nat.le_refl _, by simpa using hdl, ?_⟩
    · unfold findLoop
      rw [if_neg (by omega)]; rfl
    · rw [List.append_nil, hdrained dl hdl, List.nil_append]; exact id
  induction fuel with
  | zero =>
    intro dl mid n hst hall hdl hf
    have hm : mid = [] := List.length_eq_zero_iff.1 (by omega)
    subst hm
    exact stopped 0 dl n hst hall hdl
  | succ fuel ih =>
    intro dl mid n hst hall hdl hf
    cases mid with
    | nil => exact stopped _ dl n hst hall hdl
    | cons it mid =>
      rw [allOk_append] at hall
      obtain ⟨hd1, hd2, hd3⟩ := hall
      obtain ⟨r, it', n₁, h1, h2, h3, pre, h4, h5⟩ := searchBy_rewind (S := S) code test it hd2.1 s n
      have hsub := h5.sub
      have hit' : RightOk ok (lo.length + dl.length) it' := ⟨h2, by rw [h3]; exact hd2.2⟩
      have hokr : ∀ c ∈ it.rem, ok (lo.length + dl.length) c := fun c hc => hd2.2 c (List.mem_of_mem_drop hc)
      have hpre : ∀ c ∈ pre, ok (lo.length + dl.length) c ∧ ∃ m f, n ≤ m ∧ m < n₁ ∧ code m = some f ∧ test f c = false :=
        fun c hc => ⟨hokr c (hsub.1 c hc), h4 c hc⟩
      unfold findLoop
      rw [if_pos (by simp at hst; omega)]
      have hget := getInner_newBox lf (lo ++ dl) (mid ++ hi) it
      have heq0 : lo ++ (dl ++ it :: mid) ++ hi = (lo ++ dl) ++ it :: (mid ++ hi) := by simp
      rw [List.length_append] at hget
      have hset := setInner_newBox lf (lo ++ dl) (mid ++ hi) it it'
      rw [List.length_append] at hset
      dsimp only
      rw [heq0, hget, own_bind, bind_ok' h1]
      dsimp only
      rw [hset, own_bind]
      simp only [wt, List.map_cons, List.sum_cons, List.length_cons] at hf
      have hlastmid : ∀ xs : List (RewindIter (Node B K V)), (xs ++ it' :: mid).getLast?.map RewindIter.slice = (dl ++ it :: mid).getLast?.map RewindIter.slice := by
        intro xs
        cases mid with
        | nil => simp [h3]
        | cons x xs => simp [List.getLast?_append, List.getLast?_cons]
      match r, h5 with
      | .error .user, ⟨g1, g2, a, g3⟩ =>
        refine ⟨.error .user, dl ++ it' :: mid, n₁, ?_, by simp, ?_, hlastmid dl, Nat.le_of_lt g1, g1, g2⟩
        · rw [show lo ++ (dl ++ it' :: mid) ++ hi = (lo ++ dl) ++ it' :: (mid ++ hi) by simp]; rfl
        · rw [allOk_append]; exact ⟨hd1, hit', hd3⟩
      | .ok none, ⟨g1, g2, g3⟩ =>
        have heq : (lo ++ dl) ++ it' :: (mid ++ hi) = lo ++ ((dl ++ [it']) ++ mid) ++ hi := by simp
        have hlen : (dl ++ [it']).length = dl.length + 1 := by simp
        have h := ih (dl ++ [it']) mid n₁ (by rw [hlen, hst, List.length_cons]; omega) (by
            rw [List.append_assoc, List.singleton_append, allOk_append]
            exact ⟨hd1, hit', hd3⟩) (by
            intro x hx
            rcases List.mem_append.1 hx with hx | hx
            · exact hdl x hx
            · obtain rfl := List.mem_singleton.1 hx
              exact g3) (by
            rw [hlen]
            rw [Nat.add_mul] at hf
            simp only [wt]
            rw [show dl.length + 1 + mid.length + 1 = dl.length + (mid.length + 1) + 1 by omega]
            omega)
        rw [hlen] at h
        rw [heq]
        obtain ⟨found, mid', n', k1, k2, k3, k4, k5, k6⟩ := h
        have hGd : G n (rightE (dl ++ it :: mid) ++ tail) → G n₁ (rightE (dl ++ [it'] ++ mid) ++ tail) := by
          intro hg
          have hg := hmono _ _ _ g1 hg
          have e1 : rightE (it :: mid) = entriesList it.rem ++ rightE mid := by simp [remE]
          have e2 : rightE [it'] = [] := by simp [remE, g3, entriesList]
          rw [rightE_append, hdrained dl hdl, List.nil_append, e1, List.append_assoc, g2] at hg
          rw [rightE_append, rightE_append, hdrained dl hdl, List.nil_append, e2, List.nil_append]
          exact drop_pre hG hpre hg
        refine ⟨found, mid', n', k1, by rw [k2]; simp, k3, ?_, by omega, ?_⟩
        · rw [k4]
          have := hlastmid dl
          rw [show dl ++ it' :: mid = dl ++ [it'] ++ mid by simp] at this
          exact this
        · match found, k6 with
          | .ok none, k6 => exact ⟨k6.1, fun hg => k6.2 (hGd hg)⟩
          | .ok (some nd), k6 => exact ⟨k6.1, fun hg => k6.2 (hGd hg)⟩
          | .error .user, k6 => exact ⟨by omega, k6.2⟩
      | .ok (some a), ⟨g1, g2, g3⟩ =>
        have hok : ok (lo.length + dl.length) a := hokr a (by rw [g2]; simp)
        have hwt : weightList it.rem = weightList pre + (a.weight + weightList it'.rem) := by
          rw [g2, weightList_append, weightList]
        have hent : entriesList it.rem = entriesList pre ++ (a.entries ++ entriesList it'.rem) := by
          rw [g2, RTree.entriesList_append, entriesList]
        have hn : n ≤ n₁ := Nat.le_of_lt g1
        dsimp only
        cases hdll : dl.length with
        | zero =>
          have hd0 : dl = [] := List.length_eq_zero_iff.1 hdll
          subst hd0
          refine ⟨.ok (some a), it' :: mid, n₁, ?_, by simp, ⟨hit', hd3⟩, hlastmid [], hn, by simpa using hok, ?_⟩
          · simp [pure_apply]
          · intro hg
            have hg := hmono _ _ _ hn hg
            have e1 : rightE (it :: mid) = entriesList it.rem ++ rightE mid := by simp [remE]
            have e2 : rightE (it' :: mid) = entriesList it'.rem ++ rightE mid := by simp [remE]
            rw [List.nil_append, e1, hent] at hg
            rw [e2]
            simp only [List.append_assoc] at hg ⊢
            exact drop_pre hG hpre hg
        | succ i' =>
          obtain ⟨dl', last, rfl⟩ : ∃ dl' last, dl = dl' ++ [last] :=
            ⟨dl.dropLast, dl.getLast (by intro h; simp [h] at hdll), (List.dropLast_concat_getLast _).symm⟩
          have hl' : dl'.length = i' := by simpa using hdll
          rw [hdll, show lo.length + (i' + 1) = (lo.length + i') + 1 by omega] at hok
          obtain ⟨b, cs, rfl, hcs⟩ := hi'.inner hok
          dsimp only
          rw [Node.innerChildren, own_bind]
          have hset2 := setInner_newBox lf (lo ++ dl') (it' :: (mid ++ hi)) last (RewindIter.new cs)
          rw [List.length_append, hl'] at hset2
          have heq2 : lo ++ (dl' ++ [last]) ++ it' :: (mid ++ hi) = (lo ++ dl') ++ last :: it' :: (mid ++ hi) := by simp
          rw [heq2, hset2, own_bind]
          have heq3 : (lo ++ dl') ++ RewindIter.new cs :: it' :: (mid ++ hi) = lo ++ (dl' ++ (RewindIter.new cs :: it' :: mid)) ++ hi := by simp
          rw [heq3]
          rw [allOk_append] at hd1
          have hdl' : ∀ x ∈ dl', x.rem = [] := fun x hx => hdl x (List.mem_append_left _ hx)
          have hcw : (Node.inner b cs : Node B K V).weight = 1 + weightList cs := by simp [Node.weight]
          have hrn : (RewindIter.new cs).rem = cs := rfl
          have h := ih dl' (RewindIter.new cs :: it' :: mid) n₁ (by rw [hst]; simp; omega) (by
              rw [allOk_append]
              refine ⟨hd1.1, ⟨Nat.zero_le _, by rw [hl']; exact hcs⟩, ?_, ?_⟩
              · rw [hl']; rw [hdll] at hit'; exact hit'
              · rw [hl']; rw [hdll] at hd3; exact hd3) hdl' (by
              simp only [wt, List.map_cons, List.sum_cons, hrn, List.length_cons, hl']
              rw [hdll] at hf
              have e : weightList cs + (weightList it'.rem + (mid.map fun it => weightList it.rem).sum) + 1 ≤
                weightList it.rem + (mid.map fun it => weightList it.rem).sum := by omega
              have e2 := Nat.mul_le_mul_right (i' + (mid.length + 1 + 1) + 1) e
              rw [Nat.add_mul _ 1] at e2
              rw [show i' + 1 + (mid.length + 1) + 1 = i' + (mid.length + 1 + 1) + 1 by omega] at hf
              omega)
          rw [hl'] at h
          obtain ⟨found, mid', n', k1, k2, k3, k4, k5, k6⟩ := h
          have hGd : G n (rightE (dl' ++ [last] ++ it :: mid) ++ tail) → G n₁ (rightE (dl' ++ (RewindIter.new cs :: it' :: mid)) ++ tail) := by
            intro hg
            have hg := hmono _ _ _ hn hg
            have e0 : rightE [last] = [] := by
              simp [remE, hdl last (by simp), entriesList]
            have e1 : rightE (it :: mid) = entriesList it.rem ++ rightE mid := by simp [remE]
            have e2 : rightE (RewindIter.new cs :: it' :: mid) = entriesList cs ++ (entriesList it'.rem ++ rightE mid) := by
              simp [remE, hrn]
            rw [rightE_append, rightE_append, hdrained dl' hdl', List.nil_append, e0, List.nil_append, e1, hent] at hg
            rw [rightE_append, hdrained dl' hdl', List.nil_append, e2]
            simp only [List.append_assoc] at hg ⊢
            exact drop_pre hG hpre (by simpa [Node.entries] using hg)
          refine ⟨found, mid', n', k1, by rw [k2]; simp, k3, ?_, by omega, ?_⟩
          · rw [k4]
            have := hlastmid (dl' ++ [RewindIter.new cs])
            rw [List.append_assoc, List.singleton_append] at this
            exact this
          · match found, k6 with
            | .ok none, k6 => exact ⟨k6.1, fun hg => k6.2 (hGd hg)⟩
            | .ok (some nd), k6 => exact ⟨k6.1, fun hg => k6.2 (hGd hg)⟩
            | .error .user, k6 => exact ⟨by omega, k6.2⟩

end Find


variable {BL BR KL KR VL VR QL QR : Type}

theorem linv_mono {Rel Rel' : KL × VL → List (KR × VR) → Prop} (hm : ∀ e ys, Rel e ys → Rel' e ys) {css : List (List (Node BL KL VL))}
    {its : List (RewindIter (Node BR KR VR))} (h : LInv Rel css its) : LInv Rel' css its := by
  induction h with
  | top h1 h2 h3 h4 => exact .top h1 h2 h3 fun e he => hm _ _ (h4 e he)
  | up h1 _ ih => exact .up (fun e he => hm _ _ (h1 e he)) ih

theorem split_mono {Rel Rel' : KL × VL → List (KR × VR) → Prop} (hm : ∀ e ys, Rel e ys → Rel' e ys) {midL hiL : List (List (Node BL KL VL))}
    {midR hiR : List (RewindIter (Node BR KR VR))} {last : RewindIter (Node BR KR VR)} (h : Split Rel midL hiL midR hiR last) : Split Rel' midL hiL midR hiR last :=
  ⟨h.isLast, fun e he => hm _ _ (h.rel e he), h.ne, h.levels.imp id fun ⟨a, b, c⟩ => ⟨a, b, linv_mono hm c⟩⟩

theorem inv_mono {okL : Nat → Node BL KL VL → Prop} {okR : Nat → Node BR KR VR → Prop} {Rel Rel' : KL × VL → List (KR × VR) → Prop} (hm : ∀ e ys, Rel e ys → Rel' e ys)
    {es : List (KL × VL)} {css : List (List (Node BL KL VL))} {rl : RewindIter (KR × VR)} {its : List (RewindIter (Node BR KR VR))}
    (h : Inv okL okR Rel es css rl its) : Inv okL okR Rel' es css rl its :=
  ⟨h.leaf, fun e he => hm _ _ (h.entry e he), h.left, h.right, linv_mono hm h.linv⟩

/-- Drained levels below. -/
theorem linv_prepend {Rel : KL × VL → List (KR × VR) → Prop} {css : List (List (Node BL KL VL))} {its : List (RewindIter (Node BR KR VR))} (h : LInv Rel css its) :
    ∀ (lo : List (List (Node BL KL VL))) (rlo : List (RewindIter (Node BR KR VR))), (∀ cs ∈ lo, cs = []) → rlo.length = lo.length → LInv Rel (lo ++ css) (rlo ++ its)
  | [], [], _, _ => h
  | c :: lo, r :: rlo, h1, h2 => by
    refine .up ?_ (linv_prepend h lo rlo (fun cs hc => h1 cs (List.mem_cons_of_mem _ hc)) (by simpa using h2))
    intro e he
    rw [h1 c List.mem_cons_self] at he
    cases he
  | [], _ :: _, _, h2 => by simp at h2
  | _ :: _, [], _, h2 => by simp at h2

theorem allOk_nil {okL : Nat → Node BL KL VL → Prop} : ∀ (off : Nat) (lo : List (List (Node BL KL VL))), (∀ cs ∈ lo, cs = []) → AllOk (LeftOk okL) off lo
  | _, [], _ => trivial
  | off, c :: lo, h => ⟨(fun x hx => by rw [h c List.mem_cons_self] at hx; cases hx), allOk_nil (off + 1) lo fun x hx => h x (List.mem_cons_of_mem _ hx)⟩

namespace LeftJoinIter

/-- Outcome of `next`. -/
def NextPost (code : Nat → Option (JoinCode BL BR QL QR)) (borrowL : KL → QL) (okL : Nat → Node BL KL VL → Prop) (okR : Nat → Node BR KR VR → Prop)
    (Rel : Nat → KL × VL → List (KR × VR) → Prop) (n : Nat) (rem : List (KL × VL)) (lenL lenR : Nat)
    (x : Except Stop (Option ((KL × VL) × BL × TreeIter BR KR VR)) × LeftJoinIter BL BR KL KR VL VR × Nat) : Prop :=
  ∃ es css rl its, x.2.1 = ⟨newBox es css, newBox rl its⟩ ∧ Inv okL okR (Rel x.2.2) es css rl its ∧ css.length = lenL ∧ its.length = lenR ∧ n ≤ x.2.2 ∧
    match x.1 with
    | .ok none => rem = [] ∧ es ++ leftE css = []
    | .ok (some (e, b, stack)) => n < x.2.2 ∧ rem = e :: (es ++ leftE css) ∧ stack = newBox rl.rem (its.map RewindIter.rem) ∧ Rel x.2.2 e (rl.slice ++ rightE its) ∧
        ∃ f, code (x.2.2 - 1) = some f ∧ b = f.bounds (borrowL e.1)
    | .error .user => n < x.2.2 ∧ code (x.2.2 - 1) = none ∧ ∃ lost, rem = lost ++ (es ++ leftE css) ∧ ((∃ e, lost = [e]) ∨ ∃ l node, okL l node ∧ lost = node.entries)
    | .error (.own _) => False

variable {code : Nat → Option (JoinCode BL BR QL QR)} {borrowL : KL → QL} {okL : Nat → Node BL KL VL → Prop} {okR : Nat → Node BR KR VR → Prop}
  {Rel : Nat → KL × VL → List (KR × VR) → Prop}

theorem NextPost.mono {n n' : Nat} {rem rem' : List (KL × VL)} {lenL lenR lenL' lenR' : Nat} {x} (h : NextPost code borrowL okL okR Rel n rem lenL lenR x)
    (hn : n' ≤ n) (hr : rem = rem') (hl : lenL = lenL') (hr' : lenR = lenR') : NextPost code borrowL okL okR Rel n' rem' lenL' lenR' x := by
  subst hr hl hr'
  obtain ⟨es, css, rl, its, h1, h2, h3, h4, h5, h6⟩ := h
  refine ⟨es, css, rl, its, h1, h2, h3, h4, by omega, ?_⟩
  obtain ⟨o, s, m⟩ := x
  match o, h6 with
  | .ok none, h6 => exact h6
  | .ok (some (e, b, stack)), h6 => exact ⟨by have := h6.1; dsimp only at *; omega, h6.2⟩
  | .error .user, h6 => exact ⟨by have := h6.1; dsimp only at *; omega, h6.2⟩

theorem nextLoop_spec (hL : NodeInv okL) (hR : NodeInv okR) (hmono : ∀ n n' e ys, n ≤ n' → Rel n e ys → Rel n' e ys)
    (hdrop : ∀ l l' nl nr e ys m f n, okL l nl → okR l' nr → e ∈ nl.entries → m < n → code m = some f → f.testBounds nl.bounds nr.bounds = false →
      Rel n e (nr.entries ++ ys) → Rel n e ys) (fuel : Nat) :
    (∀ (es : List (KL × VL)) (css : List (List (Node BL KL VL))) (rl : RewindIter (KR × VR)) (its : List (RewindIter (Node BR KR VR))) (n : Nat),
      Inv okL okR (Rel n) es css rl its → (es.length + wt id css) * (css.length + 2) + (css.length + 1) ≤ fuel →
      NextPost code borrowL okL okR Rel n (es ++ leftE css) css.length its.length
        (nextLoop code borrowL (min (css.length + 1) (its.length + 1)) fuel 0 ⟨newBox es css, newBox rl its⟩ n)) ∧
    (∀ (lo midL hiL : List (List (Node BL KL VL))) (rl : RewindIter (KR × VR))
      (rlo midR hiR : List (RewindIter (Node BR KR VR))) (last : RewindIter (Node BR KR VR)) (n : Nat), (∀ cs ∈ lo, cs = []) →
      rlo.length = lo.length → AllOk (LeftOk okL) lo.length (midL ++ hiL) → AllOk (RightOk okR) 0 (rlo ++ (midR ++ hiR)) →
      Split (Rel n) midL hiL midR hiR last → rightE midR = entriesList last.slice → rl.i = 0 →
      wt id (midL ++ hiL) * (lo.length + (midL ++ hiL).length + 2) + (midL ++ hiL).length ≤ fuel →
      NextPost code borrowL okL okR Rel n (leftE (midL ++ hiL)) (lo.length + (midL ++ hiL).length) (lo.length + (midR ++ hiR).length)
        (nextLoop code borrowL (min (lo.length + (midL ++ hiL).length + 1) (lo.length + (midR ++ hiR).length + 1)) fuel (lo.length + 1)
          ⟨newBox [] (lo ++ (midL ++ hiL)), newBox rl (rlo ++ (midR ++ hiR))⟩ n)) := by
  induction fuel with
  | zero =>
    refine ⟨?_, ?_⟩
    · intro es css rl its n _ h; omega
    · intro lo midL hiL rl rlo midR hiR last n _ _ _ _ hs _ _ h
      have : 1 ≤ midL.length := List.length_pos_iff.2 hs.ne
      rw [List.length_append] at h
      omega
  | succ fuel ih =>
    obtain ⟨ih0, ih1⟩ := ih
    -- ascending
    have asc : ∀ (lo css : List (List (Node BL KL VL))) (rl : RewindIter (KR × VR))
        (rlo its : List (RewindIter (Node BR KR VR))) (n : Nat), (∀ cs ∈ lo, cs = []) → rlo.length = lo.length →
        AllOk (LeftOk okL) lo.length css → AllOk (RightOk okR) 0 (rlo ++ its) → LInv (Rel n) css its → rl.i = 0 →
        wt id css * (lo.length + css.length + 2) + css.length ≤ fuel →
        NextPost code borrowL okL okR Rel n (leftE css) (lo.length + css.length) (lo.length + its.length)
          (ascend (min (lo.length + css.length + 1) (lo.length + its.length + 1)) lo.length
            (nextLoop code borrowL (min (lo.length + css.length + 1) (lo.length + its.length + 1)) fuel (lo.length + 1))
            ⟨newBox [] (lo ++ css), newBox rl (rlo ++ its)⟩ n) := by
      intro lo css rl rlo its n hlo hrlo hokL hokR hinv hrl hf
      have hne := hinv.ne
      have hc1 : 1 ≤ css.length := List.length_pos_iff.2 hne.1
      have hc2 : 1 ≤ its.length := List.length_pos_iff.2 hne.2
      obtain ⟨midL, hiL, midR, hiR, last, rfl, rfl, hs⟩ := hinv.split
      have hstops := hs.stops (left := newBox ([] : List (KL × VL)) (lo ++ (midL ++ hiL)))
        (right := newBox rl (rlo ++ (midR ++ hiR))) (l := lo.length) (by simp; omega) (by simp; omega)
      have hmr : 1 ≤ midR.length := List.length_pos_iff.2 (by intro hm; have := hs.isLast; simp [hm] at this)
      rw [allOk_append, Nat.zero_add, hrlo] at hokR
      have hokR2 := hokR.2
      rw [allOk_append] at hokR2
      obtain ⟨midR', k1, k2, k3, k4, last', k5, k6⟩ := rewindLoop_spec (okR := okR) rl hiR midR rlo last hs.isLast
        (by rw [hrlo]; exact hokR2.1)
      rw [hrlo] at k1 k3
      unfold ascend
      rw [if_neg (by omega), self_bind]
      dsimp only
      rw [hstops.2, checkRange, if_pos (by simp; omega), own_bind,
        show lo.length + 1 + midR.length - 1 = lo.length + midR.length by omega,
        show lo.length + 1 + midR.length - (lo.length + 1) = midR.length by omega, ← List.append_assoc rlo, k1, own_bind, put_bind]
      have hs' : Split (Rel n) midL hiL midR' hiR last' :=
        ⟨k5, by rw [k6]; exact hs.rel, hs.ne, by rw [k2]; exact hs.levels⟩
      have h := ih1 lo midL hiL rl rlo midR' hiR last' n hlo hrlo hokL (by
          rw [allOk_append, Nat.zero_add, hrlo, allOk_append]
          exact ⟨hokR.1, k3, by rw [k2]; exact hokR2.2⟩) hs' (by rw [k4, k6]) hrl hf
      rw [List.append_assoc rlo]
      rw [show (midR' ++ hiR).length = (midR ++ hiR).length by simp [k2]] at h
      exact h
    refine ⟨?_, ?_⟩
    · intro es css rl its n hinv hf
      unfold nextLoop
      rw [self_bind]
      dsimp only
      rw [getLeaf_newBox, own_bind]
      cases es with
      | nil =>
        have h := asc [] css rl [] its n (by intro c hc; cases hc) rfl hinv.left hinv.right hinv.linv hinv.leaf (by
          simp only [List.length_nil, Nat.zero_add] at hf ⊢; omega)
        simp only [List.length_nil, Nat.zero_add, List.nil_append] at h ⊢
        exact h
      | cons e es =>
        dsimp only
        rw [setLeaf_newBox, own_bind, put_bind, remainders_spec (by rw [hinv.leaf]; exact Nat.zero_le _) hinv.right, own_bind]
        have hinv' : Inv okL okR (Rel n) es css rl its := ⟨hinv.leaf, fun x hx => hinv.entry x (List.mem_cons_of_mem _ hx), hinv.left, hinv.right, hinv.linv⟩
        cases hc1 : code n with
        | none =>
          have ha : ask code (⟨newBox es css, newBox rl its⟩ : LeftJoinIter BL BR KL KR VL VR) n = (.error .user, ⟨newBox es css, newBox rl its⟩, n + 1) := by rw [ask, hc1]
          rw [bind_error' ha]
          exact ⟨es, css, rl, its, rfl, inv_mono (fun _ _ => hmono _ _ _ _ (by simp)) hinv', rfl, rfl, Nat.le_succ n, Nat.lt_succ_self n, hc1, [e], rfl, .inl ⟨e, rfl⟩⟩
        | some f₀ =>
          have ha : ask code (⟨newBox es css, newBox rl its⟩ : LeftJoinIter BL BR KL KR VL VR) n = (.ok f₀, ⟨newBox es css, newBox rl its⟩, n + 1) := by rw [ask, hc1]
          rw [bind_ok' ha]
          cases hc2 : code (n + 1) with
          | none =>
            have ha : ask code (⟨newBox es css, newBox rl its⟩ : LeftJoinIter BL BR KL KR VL VR) (n + 1) = (.error .user, ⟨newBox es css, newBox rl its⟩, n + 2) := by rw [ask, hc2]
            rw [bind_error' ha]
            exact ⟨es, css, rl, its, rfl, inv_mono (fun _ _ => hmono _ _ _ _ (by simp)) hinv', rfl, rfl, by simp, by simp, hc2, [e], rfl, .inl ⟨e, rfl⟩⟩
          | some f =>
            have ha : ask code (⟨newBox es css, newBox rl its⟩ : LeftJoinIter BL BR KL KR VL VR) (n + 1) = (.ok f, ⟨newBox es css, newBox rl its⟩, n + 2) := by rw [ask, hc2]
            rw [bind_ok' ha]
            exact ⟨es, css, rl, its, rfl, inv_mono (fun _ _ => hmono _ _ _ _ (by simp [pure_apply])) hinv', rfl, rfl, by simp [pure_apply], by simp [pure_apply], rfl, rfl,
              hmono _ _ _ _ (by simp [pure_apply]) (hinv.entry e List.mem_cons_self), f, hc2, rfl⟩
    · intro lo midL hiL rl rlo midR hiR last n hlo hrlo hokL hokR hs hrew hrl hf
      have hml : 1 ≤ midL.length := List.length_pos_iff.2 hs.ne
      have hmr : 1 ≤ midR.length := List.length_pos_iff.2 (by intro hm; have := hs.isLast; simp [hm] at this)
      have hstops := hs.stops (left := newBox ([] : List (KL × VL)) (lo ++ (midL ++ hiL)))
        (right := newBox rl (rlo ++ (midR ++ hiR))) (l := lo.length) (by simp; omega) (by simp; omega)
      have hokL' := hokL
      rw [allOk_append] at hokL'
      unfold nextLoop
      rw [self_bind]
      dsimp only
      rw [hstops.1, checkRange, if_pos (by simp; omega), own_bind]
      have hwlo := wt_nil_left hlo
      have hfind := InnerIterStack.findLoop_spec hL (left_stepOk okL) (G := fun xs => leftE midL = xs)
        (by intro l n ys _ hp; simp at hp) [] ([] : List (KL × VL)) lo hiL (stop := lo.length + 1 + midL.length)
        (([] : List (KL × VL)).length + wt id (lo ++ (midL ++ hiL)) + 1 |>.mul ((lo ++ (midL ++ hiL)).length + 1 + 1))
        [] midL (by simp) (by simpa using hokL'.1) (by intro x hx; cases hx) (by
          simp only [List.length_nil, Nat.zero_add, wt_append, List.length_append, hwlo.1, Nat.mul_eq]
          have e : wt id midL ≤ wt id midL + wt id hiL := by omega
          have e2 := Nat.mul_le_mul e (show midL.length + 1 ≤ lo.length + (midL.length + hiL.length) + 1 + 1 by omega)
          rw [Nat.add_mul _ 1]
          omega)
      simp only [List.nil_append, List.length_nil, Nat.mul_eq, List.append_assoc] at hfind
      obtain ⟨found, midL', k1, k2, k3, _, k5⟩ := hfind
      rw [List.append_assoc lo midL' hiL] at k1
      rw [weight_left, length_newBox, List.length_nil, k1, own_bind]
      dsimp only
      rw [put_bind]
      have hlenL : (midL' ++ hiL).length = (midL ++ hiL).length := by simp [k2]
      cases found with
      | none =>
        simp only at k5
        have hG := k5.2 (by simp)
        have hml' : ∀ cs ∈ midL', cs = [] := k5.1
        dsimp only
        rcases hs.levels with ⟨rfl, rfl, h3⟩ | ⟨h4, h5, h3⟩
        · unfold ascend
          rw [if_pos (by simp; omega)]
          have hdr : leftE (lo ++ (midL' ++ [])) = [] := by
            rw [List.append_nil, leftE_append, (wt_nil_left hlo).2, (wt_nil_left hml').2]; rfl
          refine ⟨[], lo ++ (midL' ++ []), rl, rlo ++ (midR ++ []), rfl, ⟨hrl, (by intro e he; cases he), ?_, hokR, ?_⟩, by simp [k2], by simp [hrlo], Nat.le_refl _,
            by rw [List.append_nil]; exact hG, by rw [List.nil_append]; exact hdr⟩
          · rw [List.append_nil, allOk_append, Nat.zero_add]
            exact ⟨allOk_nil 0 lo hlo, k3⟩
          · refine LInv.drained ?_ ?_ hdr
            · intro h; rw [List.append_nil, List.append_eq_nil_iff] at h; rw [h.2] at k2; simp at k2; omega
            · intro h; rw [List.append_nil, List.append_eq_nil_iff] at h; rw [h.2] at hmr; simp at hmr
        · have e1 : (lo ++ midL').length = lo.length + 1 := by simp [k2, h4]
          have e2 : (rlo ++ midR).length = lo.length + 1 := by simp [hrlo, h5]
          have h := asc (lo ++ midL') hiL rl (rlo ++ midR) hiR n (by
              intro c hc
              rcases List.mem_append.1 hc with hc | hc
              · exact hlo c hc
              · exact hml' c hc) (by rw [e1, e2]) (by rw [e1]; rw [h4] at hokL'; exact hokL'.2)
            (by rw [List.append_assoc]; exact hokR) h3 hrl (by
              rw [e1]
              simp only [List.length_append, h4, wt_append] at hf
              rw [show lo.length + (1 + hiL.length) + 2 = lo.length + 1 + hiL.length + 2 by omega, Nat.add_mul] at hf
              omega)
          rw [e1] at h
          simp only [List.append_assoc] at h
          have e3 : lo.length + (midL ++ hiL).length = lo.length + 1 + hiL.length := by simp [h4]; omega
          have e4 : lo.length + (midR ++ hiR).length = lo.length + 1 + hiR.length := by simp [h5]; omega
          rw [e3, e4]
          refine h.mono (Nat.le_refl _) ?_ rfl rfl
          rw [leftE_append, hG, List.nil_append]
      | some nl =>
        simp only at k5
        obtain ⟨hnl, hG, hw⟩ := k5
        have hG := hG (by simp)
        simp only [List.append_nil] at hG
        have hstops2 := hs.stops (left := newBox ([] : List (KL × VL)) (lo ++ (midL' ++ hiL)))
          (right := newBox rl (rlo ++ (midR ++ hiR))) (l := lo.length) (by simp; omega) (by simp; omega)
        dsimp only
        rw [hstops2.2, checkRange, if_pos (by simp; omega), own_bind]
        have hokR' := hokR
        rw [allOk_append, Nat.zero_add, allOk_append] at hokR'
        have hfind := findLoop_spec (code := code) (test := fun f (nd : Node BR KR VR) => f.testBounds nl.bounds nd.bounds) hR
          (G := fun n xs => ∀ e ∈ nl.entries, Rel n e xs)
          (by intro n n' ys hn hg e he; exact hmono _ _ _ _ hn (hg e he))
          (by intro l nd ys m f n hn hm hc hp hg e he; exact hdrop _ _ nl nd e ys m f n hnl hn he hm hc hp (hg e he)) (rightE hiR) rl rlo hiR
          (stop := lo.length + 1 + midR.length) (⟨newBox [] (lo ++ (midL' ++ hiL)), newBox rl (rlo ++ (midR ++ hiR))⟩ : LeftJoinIter BL BR KL KR VL VR)
          ((wt RewindIter.rem (rlo ++ (midR ++ hiR)) + 1) * ((rlo ++ (midR ++ hiR)).length + 1 + 1))
          [] midR n (by simp [hrlo]) hokR'.2.1 (by intro x hx; cases hx) (by
            simp only [List.length_nil, Nat.zero_add, wt_append, List.length_append]
            have e : wt RewindIter.rem midR ≤ wt RewindIter.rem rlo + (wt RewindIter.rem midR + wt RewindIter.rem hiR) := by
              omega
            have e2 := Nat.mul_le_mul e (show midR.length + 1 ≤ rlo.length + (midR.length + hiR.length) + 1 + 1 by omega)
            rw [Nat.add_mul _ 1]
            omega)
        rw [hrlo] at hfind
        simp only [List.nil_append, List.length_nil, List.append_assoc] at hfind
        obtain ⟨foundR, midR', n₁, m1, m2, m3, m4, mn, m5⟩ := hfind
        rw [hrlo] at m3
        rw [List.append_assoc rlo midR' hiR] at m1
        rw [weight_right, length_newBox, bind_ok' m1]
        dsimp only
        rw [put_bind]
        have hlenR : (midR' ++ hiR).length = (midR ++ hiR).length := by simp [m2]
        obtain ⟨last', hl1, hl2⟩ : ∃ last', midR'.getLast? = some last' ∧ last'.slice = last.slice := by
          rw [hs.isLast] at m4
          cases h : midR'.getLast? with
          | none => rw [h] at m4; simp at m4
          | some x => rw [h] at m4; exact ⟨x, rfl, by simpa using m4⟩
        have hs₁ := split_mono (Rel' := Rel n₁) (fun _ _ => hmono _ _ _ _ mn) hs
        have hs' : Split (Rel n₁) midL' hiL midR' hiR last' := by
          refine ⟨hl1, ?_, by intro h; simp [h] at k2; omega, by rw [k2, m2]; exact hs₁.levels⟩
          intro e he
          rw [hl2]
          refine hs₁.rel e ?_
          rw [hG]
          exact List.mem_append_right _ he
        have hokL2 : AllOk (LeftOk okL) lo.length (midL' ++ hiL) := by
          rw [allOk_append]; exact ⟨k3, by rw [k2]; exact hokL'.2⟩
        have hokR2 : AllOk (RightOk okR) rlo.length (midR' ++ hiR) := by
          rw [allOk_append, hrlo]; exact ⟨m3, by rw [m2]; rw [hrlo] at hokR'; exact hokR'.2.2⟩
        have hokR3 : AllOk (RightOk okR) 0 (rlo ++ (midR' ++ hiR)) := by
          rw [allOk_append, Nat.zero_add]; exact ⟨hokR'.1, hokR2⟩
        -- the entries below the right node found
        have hstart : ∀ e ∈ nl.entries, Rel n e (rightE midR ++ rightE hiR) := by
          intro e he
          rw [hrew]
          exact hs.rel e (by rw [hG]; exact List.mem_append_left _ he)
        have hrem : leftE (midL ++ hiL) = nl.entries ++ leftE (midL' ++ hiL) := by
          rw [leftE_append, hG, leftE_append, List.append_assoc]
        have hwt : nl.weight + wt id (midL' ++ hiL) ≤ wt id (midL ++ hiL) := by
          rw [wt_append, wt_append]; omega
        match foundR, m5 with
        | .error .user, m5 =>
          rw [raise_error_bind]
          refine ⟨[], lo ++ (midL' ++ hiL), rl, rlo ++ (midR' ++ hiR), rfl, ⟨hrl, (by intro e he; cases he), ?_, hokR3, ?_⟩, by simp [k2], by simp [m2, hrlo], mn, m5.1, m5.2, nl.entries, ?_,
            .inr ⟨_, nl, hnl, rfl⟩⟩
          · rw [allOk_append, Nat.zero_add]
            exact ⟨allOk_nil 0 lo hlo, hokL2⟩
          · exact linv_prepend hs'.linv lo rlo hlo hrlo
          · rw [hrem, List.nil_append, leftE_append lo, hwlo.2, List.nil_append]
        | .ok foundR, m5 =>
        rw [raise_ok_bind]
        have hfound : ∃ re, (∀ e ∈ nl.entries, Rel n₁ e (re ++ rightE (midR' ++ hiR))) ∧
            (lo.length = 0 → iterateRightChildren (newBox rl (rlo ++ (midR' ++ hiR))) foundR 0 =
              .ok (newBox (.new re) (rlo ++ (midR' ++ hiR)))) ∧
            (∀ l' rlo' x, rlo = rlo' ++ [x] → rlo'.length = l' → ∃ cs, (∀ c ∈ cs, okR l' c) ∧ entriesList cs = re ∧
              iterateRightChildren (newBox rl (rlo ++ (midR' ++ hiR))) foundR (l' + 1) =
                .ok (newBox rl (rlo' ++ .new cs :: (midR' ++ hiR)))) := by
          cases foundR with
          | none =>
            simp only at m5
            have hz : rightE midR' = [] := by
              simp only [remE, List.flatMap_eq_nil_iff]
              intro x hx
              rw [m5.1 x hx]; rfl
            refine ⟨[], ?_, ?_, ?_⟩
            · rw [rightE_append, hz]
              exact m5.2 hstart
            · intro _; rfl
            · intro l' rlo' x h1 h2
              refine ⟨[], (by intro c hc; cases hc), rfl, ?_⟩
              subst h1
              simp only [iterateRightChildren, List.append_assoc, List.singleton_append]
              rw [← h2, setInner_newBox]
          | some nr =>
            simp only at m5
            rw [hrlo] at m5
            obtain ⟨hnr, hrr⟩ := m5
            refine ⟨nr.entries, ?_, ?_, ?_⟩
            · rw [rightE_append]
              exact hrr hstart
            · intro h0
              rw [h0] at hnr
              obtain ⟨b, fs, rfl⟩ := hR.leaf hnr
              rfl
            · intro l' rlo' x h1 h2
              subst h1
              have hl : lo.length = l' + 1 := by rw [← hrlo]; simp [h2]
              rw [hl] at hnr
              obtain ⟨b, cs, rfl, hcs⟩ := hR.inner hnr
              refine ⟨cs, hcs, by simp [Node.entries], ?_⟩
              simp only [iterateRightChildren, Node.innerChildren, ok_bind, List.append_assoc, List.singleton_append]
              rw [← h2, setInner_newBox]
        obtain ⟨re, hre, hit0, hit1⟩ := hfound
        cases hlol : lo.length with
        | zero =>
          have hlo0 : lo = [] := List.length_eq_zero_iff.1 hlol
          have hrlo0 : rlo = [] := List.length_eq_zero_iff.1 (by omega)
          subst hlo0 hrlo0
          rw [List.length_nil] at hnl
          obtain ⟨b, es, rfl⟩ := hL.leaf hnl
          have hil : iterateLeftChildren (newBox ([] : List (KL × VL)) ([] ++ (midL' ++ hiL))) (.leaf b es) 0 = .ok (newBox es (midL' ++ hiL)) := by
            simp only [iterateLeftChildren, Node.leafChildren, ok_bind, setLeaf_newBox, List.nil_append]
          rw [hil, own_bind, hit0 hlol, own_bind, put_bind]
          have hent : (Node.leaf b es : Node BL KL VL).entries = es := by simp [Node.entries]
          rw [hent] at hre hrem
          have hcw : (Node.leaf b es : Node BL KL VL).weight = 1 + es.length := by simp [Node.weight]
          have h := ih0 es (midL' ++ hiL) (.new re) (midR' ++ hiR) n₁
            ⟨rfl, hre, hokL2, hokR2, hs'.linv⟩ (by
              rw [hlenL]
              have e : (es.length + wt id (midL' ++ hiL)) + 1 ≤ wt id (midL ++ hiL) := by omega
              have e2 := Nat.mul_le_mul_right ((midL ++ hiL).length + 2) e
              rw [Nat.add_mul _ 1] at e2
              simp only [List.length_nil, Nat.zero_add] at hf
              omega)
          rw [hlenL, hlenR] at h
          simp only [Nat.zero_add, List.nil_append] at h ⊢
          exact h.mono mn hrem.symm rfl rfl
        | succ l' =>
          obtain ⟨lo', x, rfl⟩ : ∃ lo' x, lo = lo' ++ [x] :=
            ⟨lo.dropLast, lo.getLast (by intro h; simp [h] at hlol), (List.dropLast_concat_getLast _).symm⟩
          obtain ⟨rlo', y, rfl⟩ : ∃ lo' x, rlo = lo' ++ [x] :=
            ⟨rlo.dropLast, rlo.getLast (by intro h; simp [h] at hrlo), (List.dropLast_concat_getLast _).symm⟩
          have hl' : lo'.length = l' := by simpa using hlol
          have hrl' : rlo'.length = l' := by rw [hlol] at hrlo; simpa using hrlo
          obtain ⟨ds, hds, hde, hdi⟩ := hit1 l' rlo' y rfl hrl'
          rw [hlol] at hnl
          obtain ⟨b, cs, rfl, hcs⟩ := hL.inner hnl
          have hset := setInner_newBox ([] : List (KL × VL)) lo' (midL' ++ hiL) x cs
          rw [hl'] at hset
          have hil : iterateLeftChildren (newBox ([] : List (KL × VL)) (lo' ++ [x] ++ (midL' ++ hiL))) (.inner b cs) (l' + 1) = .ok (newBox [] (lo' ++ cs :: (midL' ++ hiL))) := by
            simp only [iterateLeftChildren, Node.innerChildren, ok_bind, List.append_assoc, List.singleton_append] at hset ⊢
            rw [hset]
          rw [hil, own_bind, hdi, own_bind, put_bind]
          have hcw : (Node.inner b cs : Node BL KL VL).weight = 1 + weightList cs := by simp [Node.weight]
          have hent : (Node.inner b cs : Node BL KL VL).entries = entriesList cs := by simp [Node.entries]
          have hs2 : Split (Rel n₁) [cs] (midL' ++ hiL) [RewindIter.new ds] (midR' ++ hiR) (RewindIter.new ds) := by
            refine ⟨rfl, ?_, by simp, .inr ⟨rfl, rfl, hs'.linv⟩⟩
            intro e he
            simp only [remE, List.flatMap_cons, List.flatMap_nil, List.append_nil, id] at he
            have := hre e (by rw [hent]; exact he)
            rw [← hde] at this
            exact this
          have h := ih1 lo' [cs] (midL' ++ hiL) rl rlo' [RewindIter.new ds] (midR' ++ hiR) (RewindIter.new ds) n₁
            (fun c hc => hlo c (List.mem_append_left _ hc)) (by omega)
            ⟨by rw [hl']; exact hcs, by rw [hl', ← hlol]; exact hokL2⟩
            (by
              rw [allOk_append]
              refine ⟨?_, ⟨Nat.zero_le _, by rw [hrl', Nat.zero_add]; exact hds⟩, ?_⟩
              · have := hokR'.1
                rw [allOk_append] at this
                exact this.1
              · rw [hrl', Nat.zero_add]
                rw [hrlo, hlol] at hokR2
                exact hokR2)
            hs2 (by simp [remE, RewindIter.new, RewindIter.rem]) hrl (by
              have ew : wt id ([cs] ++ (midL' ++ hiL)) = weightList cs + wt id (midL' ++ hiL) := by simp [wt]
              have el : ([cs] ++ (midL' ++ hiL)).length = (midL ++ hiL).length + 1 := by
                rw [List.length_append, hlenL, List.length_singleton]; omega
              rw [ew, el, hl']
              rw [hlol] at hf
              have e : (weightList cs + wt id (midL' ++ hiL)) + 1 ≤ wt id (midL ++ hiL) := by omega
              have e2 := Nat.mul_le_mul_right (l' + 1 + (midL ++ hiL).length + 2) e
              rw [Nat.add_mul _ 1] at e2
              rw [show l' + ((midL ++ hiL).length + 1) + 2 = l' + 1 + (midL ++ hiL).length + 2 by omega]
              omega)
          have el : ([cs] ++ (midL' ++ hiL)).length = 1 + (midL ++ hiL).length := by
            rw [List.length_append, hlenL]; rfl
          have er : ([RewindIter.new ds] ++ (midR' ++ hiR)).length = 1 + (midR ++ hiR).length := by
            rw [List.length_append, hlenR]; rfl
          rw [el, er, hl', ← Nat.add_assoc, ← Nat.add_assoc] at h
          refine h.mono mn ?_ rfl rfl
          rw [hrem, hent]
          simp [remE]

end LeftJoinIter


/-! ## Sessions -/

namespace Skips

variable {α : Type} {P P' : α → Prop} {xs ys zs : List α}

theorem refl (P : α → Prop) : ∀ xs : List α, Skips P xs xs
  | [] => .nil
  | _ :: xs => .keep (refl P xs)

theorem mono (hm : ∀ x, P x → P' x) (h : Skips P xs ys) : Skips P' xs ys := by
  induction h with
  | nil => exact .nil
  | keep _ ih => exact .keep ih
  | skip h1 _ ih => exact .skip (hm _ h1) ih

theorem drop (h : Skips P xs (zs ++ ys)) (hz : ∀ z ∈ zs, P z) : Skips P xs ys := by
  induction zs with
  | nil => exact h
  | cons z zs ih =>
    refine ih ?_ fun x hx => hz x (List.mem_cons_of_mem _ hx)
    clear ih
    generalize hw : (z :: zs) ++ ys = ws at h
    induction h with
    | nil => cases hw
    | keep h1 _ =>
      simp only [List.cons_append, List.cons.injEq] at hw
      rw [hw.2]
      rw [← hw.1]
      exact .skip (hz z List.mem_cons_self) h1
    | skip h1 _ ih => exact .skip h1 (ih hw)

theorem sublist (h : Skips P xs ys) : ys.Sublist xs := by
  induction h with
  | nil => exact List.Sublist.refl _
  | keep _ ih => exact ih.cons_cons _
  | skip _ _ ih => exact ih.cons _

end Skips

/-- Nodes of a tree by level. -/
def Of {B K V : Type} (N : List (Node B K V)) (l : Nat) (nd : Node B K V) : Prop := Shape l nd ∧ nd ∈ N

theorem of_nodeInv {B K V : Type} {N : List (Node B K V)} (hN : Closed N) : NodeInv (Of N) where
  leaf := fun ⟨h, _⟩ => h.leaf
  inner := fun {l n} ⟨h, hm⟩ => by
    match n, h with
    | .inner b cs, h => exact ⟨b, cs, rfl, fun c hc => ⟨h c hc, hN b cs hm c hc⟩⟩

/-- What a stack can still yield. -/
def stackTodo {B K V : Type} (s : TreeIter B K V) : List (K × V) := s.flatMap fun
  | .leaf es => es
  | .inner cs => entriesList cs

theorem stackTodo_newBox {B K V : Type} (es : List (K × V)) (css : List (List (Node B K V))) : stackTodo (newBox es css) = todo es css := by
  simp [stackTodo, newBox, todo, List.flatMap_map]

/-- A right-hand iterator as the client sees it. -/
def RightIter.abs (it : RightIter BL BR KL KR VL VR) : RightTodo BL KL KR VL VR := ⟨it.entry, it.bounds, stackTodo it.stack⟩

/-- The stack of a right-hand iterator. -/
def RightIter.Wf (N : List (Node BR KR VR)) (it : RightIter BL BR KL KR VL VR) : Prop :=
  ∃ es css, it.stack = newBox es css ∧ TreeIter.Typed 0 css ∧ ∀ cs ∈ css, ∀ c ∈ cs, c ∈ N

theorem allOk_todo {N : List (Node BR KR VR)} (rl : RewindIter (KR × VR)) {its : List (RewindIter (Node BR KR VR))} (hi : rl.i = 0) :
    todo rl.rem (its.map RewindIter.rem) = rl.slice ++ rightE its := by
  simp [todo, RewindIter.rem, hi, remE, List.flatMap_map]

theorem allOk_in {N : List (Node BR KR VR)} {its : List (RewindIter (Node BR KR VR))} {off : Nat} (h : AllOk (RightOk (Of N)) off its) :
    ∀ cs ∈ its.map RewindIter.rem, ∀ c ∈ cs, c ∈ N := by
  induction its generalizing off with
  | nil => intro cs h; cases h
  | cons it its ih =>
    intro cs hcs c hc
    rw [List.map_cons] at hcs
    rcases List.mem_cons.1 hcs with rfl | hcs
    · exact (h.1.2 c (List.mem_of_mem_drop hc)).2
    · exact ih h.2 cs hcs c hc

variable {code : Nat → Option (JoinCode BL BR QL QR)} {borrowL : KL → QL} {borrowR : KR → QR} {NL : List (Node BL KL VL)} {NR : List (Node BR KR VR)} {all : List (KR × VR)}

/-- What holds between calls. -/
def SessionInv (code : Nat → Option (JoinCode BL BR QL QR)) (NL : List (Node BL KL VL)) (NR : List (Node BR KR VR)) (all : List (KR × VR)) (n : Nat)
    (todo : List (KL × VL)) (s : LeftSession BL BR KL KR VL VR) : Prop :=
  (∃ es css rl its, s.join = ⟨newBox es css, newBox rl its⟩ ∧
    Inv (Of NL) (Of NR) (fun e ys => Skips (PairTurnedDown code NL NR n e) all ys) es css rl its ∧ todo = es ++ leftE css) ∧
  ∀ it ∈ s.rights, it.Wf NR

theorem PairTurnedDown.mono {n n' : Nat} (h : n ≤ n') {e : KL × VL} {r : KR × VR} (hp : PairTurnedDown code NL NR n e r) : PairTurnedDown code NL NR n' e r := by
  obtain ⟨m, f, h1, h2⟩ := hp
  exact ⟨m, f, by omega, h2⟩

theorem SessionInv.mono {n n' : Nat} (h : n ≤ n') {todo : List (KL × VL)} {s : LeftSession BL BR KL KR VL VR} (hs : SessionInv code NL NR all n todo s) :
    SessionInv code NL NR all n' todo s := by
  obtain ⟨⟨es, css, rl, its, h1, h2, h3⟩, h4⟩ := hs
  exact ⟨⟨es, css, rl, its, h1, inv_mono (fun _ _ hk => hk.mono fun _ => PairTurnedDown.mono h) h2, h3⟩, h4⟩

theorem calls_cons {cmd : LeftCmd} {cmds : List LeftCmd} {n n' : Nat} {s s' : LeftSession BL BR KL KR VL VR} {o : LeftOut KL KR VL VR}
    (h : LeftSession.call code borrowL borrowR s n cmd = (o, s', n')) :
    LeftSession.calls code borrowL borrowR (cmd :: cmds) s n =
      (o :: (LeftSession.calls code borrowL borrowR cmds s' n').1, (LeftSession.calls code borrowL borrowR cmds s' n').2) := by
  rw [LeftSession.calls]
  simp only [h]

theorem call_right {i n n' : Nat} {s : LeftSession BL BR KL KR VL VR} {it : RightIter BL BR KL KR VL VR} (hi : s.rights[i]? = some it) {r st}
    (h : TreeIter.next (joiningCode code it.bounds (borrowL it.entry.1)) borrowR it.stack n = (r, st, n')) :
    LeftSession.call code borrowL borrowR s n (.right i) = (.right r, ⟨s.join, s.rights.set i { it with stack := st }⟩, n') := by
  rw [LeftSession.call]
  simp only [hi, h]

theorem calls_spec (hNL : Closed NL) (hNR : Closed NR) (cmds : List LeftCmd) {n : Nat} {todo : List (KL × VL)} {s : LeftSession BL BR KL KR VL VR}
    (hs : SessionInv code NL NR all n todo s) :
    LeftStory code borrowL borrowR NL NR all n todo (s.rights.map RightIter.abs) cmds (LeftSession.calls code borrowL borrowR cmds s n).1 := by
  induction cmds generalizing n todo s with
  | nil => trivial
  | cons cmd cmds ih =>
    cases cmd with
    | next =>
      obtain ⟨⟨es, css, rl, its, h1, h2, h3⟩, h4⟩ := hs
      have hx := (LeftJoinIter.nextLoop_spec (code := code) (borrowL := borrowL) (of_nodeInv hNL) (of_nodeInv hNR)
        (Rel := fun n e ys => Skips (PairTurnedDown code NL NR n e) all ys) (fun n n' e ys hle hk => hk.mono fun _ => PairTurnedDown.mono hle) (by
          intro l l' nl nr e ys m f n hl hr he hm hc hf hk
          exact hk.drop fun r hr' => ⟨m, f, hm, hc, nl, hl.2, nr, hr.2, he, hr', hf⟩) ((es.length + wt id css + 1) * (css.length + 1 + 1))).1 es css rl its n h2 (by
          rw [Nat.add_mul _ 1, show css.length + 1 + 1 = css.length + 2 from rfl]; omega)
      have hnext : LeftJoinIter.next code borrowL s.join n =
          LeftJoinIter.nextLoop code borrowL (min (css.length + 1) (its.length + 1)) ((es.length + wt id css + 1) * (css.length + 1 + 1)) 0 ⟨newBox es css, newBox rl its⟩ n := by
        rw [h1]
        unfold LeftJoinIter.next
        rw [self_bind]
        dsimp only
        rw [length_newBox, length_newBox, if_neg (by omega), weight_left]
      rw [← hnext] at hx
      rcases hr : LeftJoinIter.next code borrowL s.join n with ⟨o, j, n'⟩
      rw [hr] at hx
      obtain ⟨es', css', rl', its', g1, g2, g3, g4, g5, g6⟩ := hx
      dsimp only at g1 g2 g5 g6
      subst g1
      match o, g6 with
      | .ok none, g6 =>
        have hcall : LeftSession.call code borrowL borrowR s n .next = (.next (.ok none), ⟨⟨newBox es' css', newBox rl' its'⟩, s.rights⟩, n') := by
          rw [LeftSession.call, hr]
        rw [calls_cons hcall]
        refine ⟨n', [], _, ⟨g5, by rw [h3]; exact g6.1, rfl, rfl⟩, ?_⟩
        exact ih (s := ⟨⟨newBox es' css', newBox rl' its'⟩, s.rights⟩) ⟨⟨es', css', rl', its', rfl, g2, g6.2.symm⟩, h4⟩
      | .ok (some (e, b, stack)), ⟨k1, k2, k3, k4, f, k5, k6⟩ =>
        have hcall : LeftSession.call code borrowL borrowR s n .next = (.next (.ok (some e)), ⟨⟨newBox es' css', newBox rl' its'⟩, s.rights ++ [⟨e, b, stack⟩]⟩, n') := by
          rw [LeftSession.call, hr]
        rw [calls_cons hcall]
        have habs : RightIter.abs (⟨e, b, stack⟩ : RightIter BL BR KL KR VL VR) = ⟨e, f.bounds (borrowL e.1), rl'.slice ++ rightE its'⟩ := by
          rw [RightIter.abs]
          dsimp only
          rw [k3, stackTodo_newBox, allOk_todo (N := NR) rl' g2.leaf, k6]
        refine ⟨n', es' ++ leftE css', _, ⟨k1, by rw [h3]; exact k2, f, _, k5, rfl, k4⟩, ?_⟩
        rw [← habs]
        have := ih (n := n') (todo := es' ++ leftE css') (s := ⟨⟨newBox es' css', newBox rl' its'⟩, s.rights ++ [⟨e, b, stack⟩]⟩) ⟨⟨es', css', rl', its', rfl, g2, rfl⟩, ?_⟩
        · rw [List.map_append] at this
          exact this
        · intro it hit
          rcases List.mem_append.1 hit with hit | hit
          · exact h4 it hit
          · rw [List.mem_singleton.1 hit]
            exact ⟨_, _, k3, allOk_typed (of_nodeInv hNR) g2.right, allOk_in g2.right⟩
      | .error .user, ⟨k1, k2, lost, k3, k4⟩ =>
        have hcall : LeftSession.call code borrowL borrowR s n .next = (.next (.error .user), ⟨⟨newBox es' css', newBox rl' its'⟩, s.rights⟩, n') := by
          rw [LeftSession.call, hr]
        rw [calls_cons hcall]
        refine ⟨n', es' ++ leftE css', _, ⟨k1, k2, rfl, lost, by rw [h3]; exact k3, k4.imp id fun ⟨_, nd, hn, hl⟩ => ⟨nd, hn.2, hl⟩⟩, ?_⟩
        exact ih (s := ⟨⟨newBox es' css', newBox rl' its'⟩, s.rights⟩) ⟨⟨es', css', rl', its', rfl, g2, rfl⟩, h4⟩
    | right i =>
      cases hi : s.rights[i]? with
      | none =>
        have hcall : LeftSession.call code borrowL borrowR s n (.right i) = (.nothing, s, n) := by
          rw [LeftSession.call, hi]
        rw [calls_cons hcall]
        rw [List.getElem?_eq_none_iff] at hi
        exact ⟨by rw [List.length_map]; exact hi, ih hs⟩
      | some it =>
        have hmem : it ∈ s.rights := List.mem_of_getElem? hi
        obtain ⟨es, css, h1, h2, h3⟩ := hs.2 it hmem
        have hx := TreeIter.next_spec (code := joiningCode code it.bounds (borrowL it.entry.1)) (borrow := borrowR) hNR (es := es) h2 h3 n
        rw [← h1] at hx
        rcases hr : TreeIter.next (joiningCode code it.bounds (borrowL it.entry.1)) borrowR it.stack n with ⟨o, st, n'⟩
        rw [hr] at hx
        obtain ⟨es', css', g1, g2, g3, g4, g5⟩ := hx
        dsimp only at g1 g5
        subst g1
        rw [calls_cons (call_right hi hr)]
        refine ⟨it.abs, n', Calls.todo es' css', by rw [List.getElem?_map, hi]; rfl, ?_, ?_⟩
        · show Step _ (joiningCode code it.bounds (borrowL it.entry.1)) _ _ _ _ _
          rw [show it.abs.todo = Calls.todo es css by show stackTodo it.stack = _; rw [h1, stackTodo_newBox]]
          exact g5
        · have hle := g5.le
          have := ih (n := n') (todo := todo) (s := ⟨s.join, s.rights.set i { it with stack := newBox es' css' }⟩) ⟨(hs.mono hle).1, ?_⟩
          · rw [List.map_set] at this
            have e : RightIter.abs { it with stack := newBox es' css' } = { it.abs with todo := Calls.todo es' css' } := by
              rw [RightIter.abs, stackTodo_newBox]; rfl
            rw [e] at this
            exact this
          · intro x hx
            rcases List.mem_or_eq_of_mem_set hx with hx | rfl
            · exact hs.2 x hx
            · exact ⟨es', css', rfl, g3, g4⟩

/-- A new left join. -/
theorem session_of_shape {tl : Tree BL KL VL} {tr : Tree BR KR VR} (hl : Shape tl.level tl.root) (hr : Shape tr.level tr.root) (code : Nat → Option (JoinCode BL BR QL QR)) :
    ∃ it, RTree.LeftJoinIter.new tl.root tl.level tr.root tr.level = .ok it ∧ SessionInv code tl.nodes tr.nodes tr.entries 0 tl.entries ⟨it, []⟩ := by
  have hsl := setInner_newBox ([] : List (KL × VL)) (List.replicate tl.level []) [] [] [tl.root]
  have hsr := setInner_newBox (RewindIter.new ([] : List (KR × VR))) (List.replicate tr.level (RewindIter.new [])) []
    (RewindIter.new []) (RewindIter.new [tr.root])
  rw [List.length_replicate, ← List.replicate_succ'] at hsl hsr
  refine ⟨_, by simp only [RTree.LeftJoinIter.new, hsl, hsr, ok_bind, pure_eq_ok]; rfl, ⟨_, _, _, _, rfl, ?_, ?_⟩, (fun _ h => by cases h)⟩
  · refine ⟨rfl, (by intro e he; cases he), ?_, ?_, LInv.init (fun e he => Skips.refl _ _) _ _⟩
    · refine AllOk.replicate (fun l c hc => by cases hc) _ _ ⟨?_, trivial⟩
      intro c hc
      obtain rfl := List.mem_singleton.1 hc
      exact ⟨by simpa using hl, List.mem_cons_self⟩
    · refine AllOk.replicate (fun l => ⟨Nat.zero_le _, fun c hc => by cases hc⟩) _ _ ⟨⟨Nat.zero_le _, ?_⟩, trivial⟩
      intro c hc
      obtain rfl := List.mem_singleton.1 hc
      exact ⟨by simpa using hr, List.mem_cons_self⟩
  · simp [remE, entriesList, Tree.entries]

/-! ## What a story implies -/

theorem LeftStory.left_sublist {cmds : List LeftCmd} {outs : List (LeftOut KL KR VL VR)} {n : Nat} {todo : List (KL × VL)} {rights : List (RightTodo BL KL KR VL VR)}
    (h : LeftStory code borrowL borrowR NL NR all n todo rights cmds outs) : (leftYields outs).Sublist todo := by
  induction cmds generalizing outs n todo rights with
  | nil =>
    match outs, h with
    | [], _ => exact List.nil_sublist _
  | cons cmd cmds ih =>
    match cmd, outs, h with
    | .next, .next out :: outs, ⟨n', todo', rights', h1, h2⟩ =>
      have := ih h2
      match out, h1 with
      | .ok none, h1 =>
        rw [h1.2.2.1] at this
        exact this.trans (List.nil_sublist _)
      | .ok (some e), h1 =>
        rw [h1.2.1]
        exact this.cons_cons e
      | .error .user, ⟨_, _, _, lost, h3, _⟩ =>
        rw [h3]
        exact this.trans (List.sublist_append_right _ _)
    | .right i, .right out :: outs, ⟨it, n', ys, h1, h2, h3⟩ => exact ih (outs := outs) h3
    | .right i, .nothing :: outs, h => exact ih (outs := outs) h.2

theorem LeftStory.left_take (hcode : ∀ n, code n ≠ none) {cmds : List LeftCmd} {outs : List (LeftOut KL KR VL VR)} {n : Nat} {todo : List (KL × VL)}
    {rights : List (RightTodo BL KL KR VL VR)} (h : LeftStory code borrowL borrowR NL NR all n todo rights cmds outs) :
    leftYields outs = todo.take (cmds.countP fun c => c matches .next) := by
  induction cmds generalizing outs n todo rights with
  | nil =>
    match outs, h with
    | [], _ => simp [leftYields]
  | cons cmd cmds ih =>
    match cmd, outs, h with
    | .next, .next out :: outs, ⟨n', todo', rights', h1, h2⟩ =>
      have := ih h2
      match out, h1 with
      | .ok none, h1 =>
        rw [h1.2.2.1, List.take_nil] at this
        rw [h1.2.1, List.take_nil]
        exact this
      | .ok (some e), h1 =>
        rw [h1.2.1, List.countP_cons_of_pos rfl, List.take_succ_cons, ← this]
        rfl
      | .error .user, h1 => exact absurd h1.2.1 (hcode _)
    | .right i, .right out :: outs, ⟨it, n', ys, h1, h2, h3⟩ =>
      rw [List.countP_cons_of_neg (by simp)]
      exact ih (outs := outs) h3
    | .right i, .nothing :: outs, h =>
      rw [List.countP_cons_of_neg (by simp)]
      exact ih (outs := outs) h.2

theorem LeftStory.no_own {cmds : List LeftCmd} {outs : List (LeftOut KL KR VL VR)} {n : Nat} {todo : List (KL × VL)} {rights : List (RightTodo BL KL KR VL VR)}
    (h : LeftStory code borrowL borrowR NL NR all n todo rights cmds outs) (p : Panic) : .next (.error (.own p)) ∉ outs ∧ .right (.error (.own p)) ∉ outs := by
  induction cmds generalizing outs n todo rights with
  | nil =>
    match outs, h with
    | [], _ => exact ⟨(fun h => by cases h), (fun h => by cases h)⟩
  | cons cmd cmds ih =>
    match cmd, outs, h with
    | .next, .next out :: outs, ⟨n', todo', rights', h1, h2⟩ =>
      refine ⟨?_, ?_⟩
      · intro hm
        rcases List.mem_cons.1 hm with hm | hm
        · cases hm; exact h1
        · exact (ih h2).1 hm
      · intro hm
        rcases List.mem_cons.1 hm with hm | hm
        · cases hm
        · exact (ih h2).2 hm
    | .right i, .right out :: outs, ⟨it, n', ys, h1, h2, h3⟩ =>
      refine ⟨?_, ?_⟩
      · intro hm
        rcases List.mem_cons.1 hm with hm | hm
        · cases hm
        · exact (ih h3).1 hm
      · intro hm
        rcases List.mem_cons.1 hm with hm | hm
        · cases hm; exact h2
        · exact (ih h3).2 hm
    | .right i, .nothing :: outs, h =>
      refine ⟨?_, ?_⟩
      · intro hm
        rcases List.mem_cons.1 hm with hm | hm
        · cases hm
        · exact (ih h.2).1 hm
      · intro hm
        rcases List.mem_cons.1 hm with hm | hm
        · cases hm
        · exact (ih h.2).2 hm

theorem LeftStory.right_sublist {cmds : List LeftCmd} {outs : List (LeftOut KL KR VL VR)} {n : Nat} {todo : List (KL × VL)} {rights : List (RightTodo BL KL KR VL VR)}
    (h : LeftStory code borrowL borrowR NL NR all n todo rights cmds outs) (i : Nat) :
    match rights[i]? with
    | some it => (rightYields i cmds outs).Sublist it.todo
    | none => (rightYields i cmds outs).Sublist all := by
  induction cmds generalizing outs n todo rights with
  | nil =>
    match outs, h with
    | [], _ => split <;> exact List.nil_sublist _
  | cons cmd cmds ih =>
    match cmd, outs, h with
    | .next, .next out :: outs, ⟨n', todo', rights', h1, h2⟩ =>
      have := ih h2
      have e : rightYields i (.next :: cmds) (.next out :: outs) = rightYields i cmds outs := rfl
      rw [e]
      match out, h1 with
      | .ok none, h1 => rw [h1.2.2.2] at this; exact this
      | .error .user, h1 => rw [h1.2.2.1] at this; exact this
      | .ok (some e), ⟨_, _, f, ys, _, h3, h4⟩ =>
        rw [h3] at this
        rcases Nat.lt_trichotomy i rights.length with hi | hi | hi
        · rw [List.getElem?_append_left hi] at this; exact this
        · rw [List.getElem?_append_right (by omega), hi, Nat.sub_self] at this
          rw [hi, List.getElem?_eq_none (Nat.le_refl _)]
          exact List.Sublist.trans this h4.sublist
        · rw [List.getElem?_eq_none (by simp; omega)] at this
          rw [List.getElem?_eq_none (by omega)]
          exact this
    | .right j, .right out :: outs, ⟨it, n', ys, h1, h2, h3⟩ =>
      have := ih h3
      by_cases hj : j = i
      · subst hj
        have hlt : j < rights.length := (List.getElem?_eq_some_iff.1 h1).1
        rw [List.getElem?_set_self hlt] at this
        rw [h1]
        dsimp only at this ⊢
        match out, h2 with
        | .ok none, h2 =>
          have e : rightYields j (.right j :: cmds) (.right (.ok none) :: outs) = rightYields j cmds outs := by simp [rightYields]
          rw [e]
          rw [h2.2.2] at this; exact List.Sublist.trans this (List.nil_sublist _)
        | .ok (some r), ⟨_, sk, f, h4, _⟩ =>
          have e : rightYields j (.right j :: cmds) (.right (.ok (some r)) :: outs) = r :: rightYields j cmds outs := by simp [rightYields]
          rw [e, h4]
          exact (List.Sublist.cons_cons r this).trans (List.sublist_append_right _ _)
        | .error .user, ⟨_, _, sk, lost, h4, _⟩ =>
          have e : rightYields j (.right j :: cmds) (.right (.error .user) :: outs) = rightYields j cmds outs := by simp [rightYields]
          rw [e, h4]
          exact List.Sublist.trans this (List.sublist_append_right _ _)
      · rw [List.getElem?_set_ne hj] at this
        have e : rightYields i (.right j :: cmds) (.right out :: outs) = rightYields i cmds outs := by
          match out with
          | .ok (some r) => simp [rightYields, hj]
          | .ok none => simp [rightYields]
          | .error _ => simp [rightYields]
        rw [e]
        exact this
    | .right j, .nothing :: outs, h => exact ih h.2

/-! ## A filter that always answers the same -/

theorem rewind_findLoop_const {S α F : Type} (f : F) (test : F → α → Bool) (k : Nat) {it it' : RewindIter α} {r} (s : S) (n : Nat)
    (h : RewindIter.findLoop (test f) k it = .ok (r, it')) : ∃ n', searchBy (fun _ => some f) test RewindIter.next k it s n = (.ok (.ok r, it'), s, n') := by
  induction k generalizing it n with
  | zero => cases h
  | succ k ih =>
    rw [RewindIter.findLoop] at h
    rw [searchBy]
    rcases hx : it.next with ⟨o, it₁⟩
    rw [hx] at h
    cases o with
    | none => cases h; exact ⟨n, rfl⟩
    | some a =>
      dsimp only at h ⊢
      have h1 : catching (ask fun _ => some f) s n = (.ok (.ok f), s, n + 1) := rfl
      rw [bind_ok' h1]
      show ∃ n', (if test f a = true then _ else _ : M S _) s (n + 1) = _
      split at h
      · next ht => rw [if_pos ht]; cases h; exact ⟨n + 1, rfl⟩
      · next ht => rw [if_neg ht]; exact ih (n + 1) h

theorem findLoop_const {S F L B K V : Type} (f : F) (test : F → Node B K V → Bool) (start0 stop : Nat) (s : S) (fuel i : Nat)
    {st st' : IterStack L (RewindIter (Node B K V))} {r} (n : Nat)
    (h : InnerIterStack.findLoop (RewindIter.find (test f)) RewindIter.new start0 stop fuel i st = .ok (r, st')) :
    ∃ n', findLoop (fun _ => some f) test start0 stop fuel i st s n = (.ok (.ok r, st'), s, n') := by
  induction fuel generalizing i st n with
  | zero =>
    unfold InnerIterStack.findLoop at h
    unfold findLoop
    split at h
    · cases h
    · next hlt => rw [if_neg hlt]; cases h; exact ⟨n, rfl⟩
  | succ fuel ih =>
    unfold InnerIterStack.findLoop at h
    unfold findLoop
    split at h
    · next hlt =>
      rw [if_pos hlt]
      obtain ⟨it, h1, h⟩ := bind_eq_ok.1 h
      obtain ⟨⟨o, it'⟩, h2, h⟩ := bind_eq_ok.1 h
      obtain ⟨st₁, h3, h⟩ := bind_eq_ok.1 h
      obtain ⟨n', h4⟩ := rewind_findLoop_const f test _ s n h2
      dsimp only
      rw [h1, own_bind, bind_ok' h4]
      dsimp only
      rw [h3, own_bind]
      match o, i with
      | none, i => exact ih _ _ h
      | some c, 0 => cases h; exact ⟨n', rfl⟩
      | some c, i' + 1 =>
        obtain ⟨cs, h5, h⟩ := bind_eq_ok.1 h
        obtain ⟨st₂, h6, h⟩ := bind_eq_ok.1 h
        dsimp only
        rw [h5, own_bind, h6, own_bind]
        exact ih _ _ h
    · next hlt => rw [if_neg hlt]; cases h; exact ⟨n, rfl⟩

namespace LeftJoinIter

theorem nextLoop_const (f : JoinCode BL BR QL QR) (borrowL : KL → QL) (mh fuel level : Nat) {it it' : LeftJoinIter BL BR KL KR VL VR} {r} (n : Nat)
    (h : RTree.LeftJoinIter.nextLoop f.toJoinFilter mh fuel level it = .ok (r, it')) :
    ∃ n', nextLoop (fun _ => some f) borrowL mh fuel level it n = (.ok (r.map fun x => (x.1, f.bounds (borrowL x.1.1), x.2)), it', n') := by
  induction fuel generalizing level it n with
  | zero => cases h
  | succ fuel ih =>
    have asc : ∀ (level : Nat) (it : LeftJoinIter BL BR KL KR VL VR) (n : Nat),
        (if level + 1 = mh then (.ok (none, it) : Res _) else do
          let stop := it.rightStop level
          InnerIterStack.checkRange it.right (level + 1) stop
          let right ← rewindLoop (stop - 1) (stop - (level + 1)) level it.right
          RTree.LeftJoinIter.nextLoop f.toJoinFilter mh fuel (level + 1) ⟨it.left, right⟩) = .ok (r, it') →
        ∃ n', ascend mh level (nextLoop (fun _ => some f) borrowL mh fuel (level + 1)) it n = (.ok (r.map fun x => (x.1, f.bounds (borrowL x.1.1), x.2)), it', n') := by
      intro level it n h
      unfold ascend
      split at h
      · next he => rw [if_pos he]; cases h; exact ⟨n, rfl⟩
      · next he =>
        rw [if_neg he]
        dsimp only at h
        obtain ⟨_, h1, h⟩ := bind_eq_ok.1 h
        obtain ⟨right, h2, h⟩ := bind_eq_ok.1 h
        have e : (self >>= fun it : LeftJoinIter BL BR KL KR VL VR => own (InnerIterStack.checkRange it.right (level + 1) (it.rightStop level)) >>= fun _ =>
            own (rewindLoop (it.rightStop level - 1) (it.rightStop level - (level + 1)) level it.right) >>= fun right => put ⟨it.left, right⟩ >>= fun _ =>
              nextLoop (fun _ => some f) borrowL mh fuel (level + 1)) it n = nextLoop (fun _ => some f) borrowL mh fuel (level + 1) ⟨it.left, right⟩ n := by
          rw [self_bind, h1, own_bind, h2, own_bind, put_bind]
        obtain ⟨n', h3⟩ := ih _ n h
        exact ⟨n', e.trans h3⟩
    unfold RTree.LeftJoinIter.nextLoop at h
    unfold nextLoop
    rw [self_bind]
    match level with
    | 0 =>
      dsimp only at h ⊢
      obtain ⟨es, h1, h⟩ := bind_eq_ok.1 h
      rw [h1, own_bind]
      match es with
      | [] => exact asc 0 it n h
      | e :: rest =>
        dsimp only at h ⊢
        obtain ⟨left, h2, h⟩ := bind_eq_ok.1 h
        obtain ⟨stack, h3, h⟩ := bind_eq_ok.1 h
        rw [h2, own_bind, put_bind, h3, own_bind]
        cases h
        exact ⟨n + 2, rfl⟩
    | l + 1 =>
      dsimp only at h ⊢
      obtain ⟨_, h1, h⟩ := bind_eq_ok.1 h
      obtain ⟨⟨nl, left⟩, h2, h⟩ := bind_eq_ok.1 h
      rw [h1, own_bind, h2, own_bind]
      dsimp only at h ⊢
      rw [put_bind]
      match nl with
      | none => exact asc (l + 1) ⟨left, it.right⟩ n h
      | some nl =>
        dsimp only at h ⊢
        obtain ⟨_, h3, h⟩ := bind_eq_ok.1 h
        obtain ⟨⟨nr, right⟩, h4, h⟩ := bind_eq_ok.1 h
        obtain ⟨left', h5, h⟩ := bind_eq_ok.1 h
        obtain ⟨right', h6, h⟩ := bind_eq_ok.1 h
        obtain ⟨n', h7⟩ := findLoop_const f (fun f (x : Node BR KR VR) => f.testBounds nl.bounds x.bounds) l _
          (⟨left, it.right⟩ : LeftJoinIter BL BR KL KR VL VR) _ 0 n h4
        rw [h3, own_bind, bind_ok' h7]
        dsimp only at h5 h6 h ⊢
        rw [put_bind, raise_ok_bind, h5, own_bind, h6, own_bind, put_bind]
        exact ih _ _ h

theorem next_const (f : JoinCode BL BR QL QR) (borrowL : KL → QL) {it it' : LeftJoinIter BL BR KL KR VL VR} {r} (n : Nat)
    (h : RTree.LeftJoinIter.next f.toJoinFilter it = .ok (r, it')) :
    ∃ n', next (fun _ => some f) borrowL it n = (.ok (r.map fun x => (x.1, f.bounds (borrowL x.1.1), x.2)), it', n') := by
  unfold RTree.LeftJoinIter.next at h
  unfold next
  rw [self_bind]
  dsimp only at h ⊢
  split at h
  · next h0 => rw [if_pos h0]; cases h; exact ⟨n, rfl⟩
  · next h0 => rw [if_neg h0]; exact nextLoop_const f borrowL _ _ _ n h

end LeftJoinIter

theorem calls_append (as bs : List LeftCmd) (s : LeftSession BL BR KL KR VL VR) (n : Nat) :
    LeftSession.calls code borrowL borrowR (as ++ bs) s n =
      let x := LeftSession.calls code borrowL borrowR as s n
      let y := LeftSession.calls code borrowL borrowR bs x.2.1 x.2.2
      (x.1 ++ y.1, y.2) := by
  induction as generalizing s n with
  | nil => rfl
  | cons a as ih =>
    rw [List.cons_append, LeftSession.calls, LeftSession.calls]
    dsimp only
    rw [ih]
    rfl

theorem calls_right (k : Nat) {i n n' : Nat} {s : LeftSession BL BR KL KR VL VR} {it : RightIter BL BR KL KR VL VR} (hi : s.rights[i]? = some it) {outs st}
    (h : TreeIter.nexts (joiningCode code it.bounds (borrowL it.entry.1)) borrowR k it.stack n = (.ok outs, st, n')) :
    LeftSession.calls code borrowL borrowR (List.replicate k (.right i)) s n = (outs.map .right, ⟨s.join, s.rights.set i { it with stack := st }⟩, n') := by
  induction k generalizing s it n outs with
  | zero =>
    cases h
    have : s.rights.set i { it with stack := it.stack } = s.rights := by
      obtain ⟨hlt, he⟩ := List.getElem?_eq_some_iff.1 hi
      rw [← he]; exact List.set_getElem_self hlt
    rw [this]; rfl
  | succ k ih =>
    rw [TreeIter.nexts] at h
    rcases hx : TreeIter.next (joiningCode code it.bounds (borrowL it.entry.1)) borrowR it.stack n with ⟨o, st₁, n₁⟩
    rw [bind_ok' (catching_apply hx)] at h
    have hlt : i < s.rights.length := (List.getElem?_eq_some_iff.1 hi).1
    rcases hy : TreeIter.nexts (joiningCode code it.bounds (borrowL it.entry.1)) borrowR k st₁ n₁ with ⟨o₂, st₂, n₂⟩
    match o₂, hy with
    | .error e, hy => rw [bind_error' hy] at h; cases h
    | .ok outs', hy =>
      rw [bind_ok' hy] at h
      cases h
      rw [List.replicate_succ, calls_cons (call_right hi hx)]
      have h1 : (s.rights.set i { it with stack := st₁ })[i]? = some { it with stack := st₁ } := List.getElem?_set_self hlt
      rw [ih (s := ⟨s.join, s.rights.set i { it with stack := st₁ }⟩) h1 hy]
      simp

theorem calls_const [Bounded QL BL] (f : JoinFilter BL BR QL QR) (borrowL : KL → QL) (borrowR : KR → QR) (k : Nat) {it : LeftJoinIter BL BR KL KR VL VR}
    {out : List ((KL × VL) × List (KR × VR))} (rights : List (RightIter BL BR KL KR VL VR)) (n : Nat)
    (h : RTree.LeftJoinIter.collectLoop borrowL borrowR f k it = .ok out) :
    (LeftSession.calls (fun _ => some ⟨f, Bounded.bounds⟩) borrowL borrowR (drainCmds rights.length out) ⟨it, rights⟩ n).1 = drainOuts out := by
  induction k generalizing it out rights n with
  | zero => cases h
  | succ k ih =>
    rw [RTree.LeftJoinIter.collectLoop] at h
    obtain ⟨⟨r, it'⟩, h1, h⟩ := bind_eq_ok.1 h
    obtain ⟨n', h2⟩ := LeftJoinIter.next_const (⟨f, Bounded.bounds⟩ : JoinCode BL BR QL QR) borrowL n h1
    match r, h, h2 with
    | none, h, h2 =>
      cases h
      have hcall : LeftSession.call (fun _ => some ⟨f, Bounded.bounds⟩) borrowL borrowR ⟨it, rights⟩ n .next = (.next (.ok none), ⟨it', rights⟩, n') := by
        rw [LeftSession.call]; dsimp only; rw [h2]; rfl
      rw [drainCmds, calls_cons hcall]
      rfl
    | some (e, stack), h, h2 =>
      obtain ⟨ms, h3, h⟩ := bind_eq_ok.1 h
      obtain ⟨out', h4, h⟩ := bind_eq_ok.1 h
      cases h
      have hcall : LeftSession.call (fun _ => some ⟨f, Bounded.bounds⟩) borrowL borrowR ⟨it, rights⟩ n .next =
          (.next (.ok (some e)), ⟨it', rights ++ [⟨e, Bounded.bounds (borrowL e.1), stack⟩]⟩, n') := by
        rw [LeftSession.call]; dsimp only; rw [h2]; rfl
      rw [drainCmds, calls_cons hcall, drainOuts]
      dsimp only
      obtain ⟨st, n₂, h5⟩ := TreeIter.nexts_const (joiningFilter (borrowL e.1) f) borrowR _ n' h3
      have hi : (rights ++ [(⟨e, Bounded.bounds (borrowL e.1), stack⟩ : RightIter BL BR KL KR VL VR)])[rights.length]? =
          some ⟨e, Bounded.bounds (borrowL e.1), stack⟩ := by simp
      have h5' : TreeIter.nexts (joiningCode (fun _ => some (⟨f, Bounded.bounds⟩ : JoinCode BL BR QL QR)) (Bounded.bounds (borrowL e.1)) (borrowL e.1))
          borrowR (ms.length + 1) stack n' = (.ok (ms.map (fun e => .ok (some e)) ++ [.ok none]), st, n₂) := h5
      have h6 := calls_right (code := fun _ => some ⟨f, Bounded.bounds⟩) (borrowL := borrowL) (borrowR := borrowR) (ms.length + 1)
        (s := ⟨it', rights ++ [⟨e, Bounded.bounds (borrowL e.1), stack⟩]⟩) (it := ⟨e, Bounded.bounds (borrowL e.1), stack⟩) hi h5'
      rw [calls_append]
      dsimp only
      rw [h6]
      dsimp only
      have h7 := ih ((rights ++ [(⟨e, Bounded.bounds (borrowL e.1), stack⟩ : RightIter BL BR KL KR VL VR)]).set rights.length
        ⟨e, Bounded.bounds (borrowL e.1), st⟩) n₂ h4
      rw [List.length_set, List.length_append, List.length_singleton] at h7
      rw [h7]
      simp

end RTree.Calls
