import Verif.Proofs.Fused
import Verif.Proofs.CallsLeft
/-! A left join that has answered `None` answers `None` ever after, and asks no user code any more; so do its right-hand iterators. -/

namespace RTree.Calls

variable {S α β F : Type} {B K V Q : Type}
variable {BL BR KL KR VL VR QL QR : Type}

namespace LeftJoinIter

open RTree.LeftJoinIter

/-- Exhaustion of one entry of the left stack. -/
abbrev DoneAt (s : TreeIter B K V) (j : Nat) : Prop := SpentAt (fun es : List (K × V) => es = []) (fun cs : List (Node B K V) => cs = []) s j

theorem doneAt_set {s : TreeIter B K V} {i j : Nat} (h : DoneAt s j) (hi : i ≠ j) (x) : DoneAt (s.set i x) j := by
  cases j with
  | zero => simpa [DoneAt, SpentAt, List.getElem?_set_ne hi] using h
  | succ j => simpa [DoneAt, SpentAt, List.getElem?_set_ne hi] using h

/-- A range of left iterators: what is found, and what the stack is then. -/
theorem find_left {start0 stop : Nat} (fuel : Nat) : ∀ {i : Nat} {s s' : TreeIter B K V} {r},
    (∀ j, start0 + 1 ≤ j → j < start0 + 1 + i → DoneAt s j) → InnerIterStack.findLoop sliceNext id start0 stop fuel i s = .ok (r, s') →
    s'.length = s.length ∧ (∀ j, j ≤ start0 → DoneAt s j → DoneAt s' j) ∧ (r = none → ∀ j, start0 + 1 ≤ j → j < stop → DoneAt s' j) := by
  induction fuel with
  | zero =>
    intro i s s' r hd h
    rw [InnerIterStack.findLoop] at h
    split at h
    · cases h
    · cases h; exact ⟨rfl, fun _ _ h => h, fun _ j h1 h2 => hd j h1 (by omega)⟩
  | succ fuel ih =>
    intro i s s' r hd h
    rw [InnerIterStack.findLoop] at h
    split at h
    · obtain ⟨it, h1, h⟩ := bind_eq_ok.1 h
      obtain ⟨⟨found, it'⟩, h2, h⟩ := bind_eq_ok.1 h
      obtain ⟨s1, h3, h⟩ := bind_eq_ok.1 h
      obtain ⟨e1, hlt⟩ := setInner_inv h3
      have hlen : s1.length = s.length := by rw [e1]; simp
      have hlow : ∀ j, j ≤ start0 → DoneAt s j → DoneAt s1 j := fun j hj hd => by rw [e1]; exact doneAt_set hd (by omega) _
      have hd1 : ∀ j, start0 + 1 ≤ j → j < start0 + 1 + i → DoneAt s1 j := fun j h1 h2 => by rw [e1]; exact doneAt_set (hd j h1 h2) (by omega) _
      match found, i with
      | some child, 0 => cases h; exact ⟨hlen, hlow, fun h => by cases h⟩
      | some child, i' + 1 =>
        dsimp only at h
        obtain ⟨cs, h4, h⟩ := bind_eq_ok.1 h
        obtain ⟨s2, h5, h⟩ := bind_eq_ok.1 h
        obtain ⟨e2, hlt2⟩ := setInner_inv h5
        obtain ⟨k1, k2, k3⟩ := ih (i := i') (s := s2) (fun j h1 h2 => by rw [e2]; exact doneAt_set (hd1 j h1 (by omega)) (by omega) _) h
        refine ⟨by rw [k1, e2, List.length_set, hlen], fun j hj hd => k2 j hj ?_, k3⟩
        rw [e2]; exact doneAt_set (hlow j hj hd) (by omega) _
      | none, i =>
        have hit : it' = [] := by
          cases it with
          | nil => cases h2; rfl
          | cons a as => cases h2
        obtain ⟨k1, k2, k3⟩ := ih (i := i + 1) (s := s1) (fun j h1 h2 => by
          by_cases hj : j = start0 + 1 + i
          · subst hj
            rw [e1, show start0 + 1 + i = (start0 + i) + 1 by omega]
            exact ⟨it', by rw [List.getElem?_set_self (by omega)], hit⟩
          · exact hd1 j h1 (by omega)) h
        exact ⟨by rw [k1, hlen], fun j hj hd => k2 j hj (hlow j hj hd), k3⟩
    · cases h; exact ⟨rfl, fun _ _ h => h, fun _ j h1 h2 => hd j h1 (by omega)⟩

/-- In an exhausted stack nothing is found. -/
theorem find_done {start0 stop : Nat} {s : TreeIter B K V} (hd : TreeIter.Done s s.length) (hst : stop ≤ s.length) (fuel : Nat) : ∀ {i : Nat} {s' : TreeIter B K V} {r},
    InnerIterStack.findLoop sliceNext id start0 stop fuel i s = .ok (r, s') → r = none ∧ s' = s := by
  induction fuel with
  | zero =>
    intro i s' r h
    rw [InnerIterStack.findLoop] at h
    split at h
    · cases h
    · cases h; exact ⟨rfl, rfl⟩
  | succ fuel ih =>
    intro i s' r h
    rw [InnerIterStack.findLoop] at h
    split at h
    · next hlt =>
      obtain ⟨it, h1, h2, rfl⟩ := (hd.mono (show start0 + i + 2 ≤ _ by omega)).get_inner
      rw [h1, ok_bind] at h
      simp only [sliceNext, ok_bind] at h
      rw [h2, ok_bind] at h
      exact ih h
    · cases h; exact ⟨rfl, rfl⟩

theorem rewind_length {stop : Nat} (n : Nat) : ∀ {i : Nat} {s s' : RewindTreeIter B K V}, rewindLoop stop n i s = .ok s' → s'.length = s.length := by
  induction n with
  | zero => intro i s s' h; cases h; rfl
  | succ n ih =>
    intro i s s' h
    rw [rewindLoop] at h
    split at h
    · obtain ⟨it, h1, h⟩ := bind_eq_ok.1 h
      obtain ⟨s1, h2, h⟩ := bind_eq_ok.1 h
      rw [ih h, (setInner_inv h2).1, List.length_set]
    · obtain ⟨s1, h2, h⟩ := bind_eq_ok.1 h
      rw [ih h, (setInner_inv h2).1, List.length_set]

theorem iterateRight_length {s s' : RewindTreeIter B K V} {node : Option (Node B K V)} {l : Nat} (h : iterateRightChildren s node l = .ok s') : s'.length = s.length := by
  match l, node with
  | l + 1, some nd =>
    rw [iterateRightChildren] at h
    obtain ⟨cs, h1, h⟩ := bind_eq_ok.1 h
    rw [(setInner_inv h).1, List.length_set]
  | l + 1, none => rw [(setInner_inv h).1, List.length_set]
  | 0, some nd =>
    rw [iterateRightChildren] at h
    obtain ⟨cs, h1, h⟩ := bind_eq_ok.1 h
    rw [(setLeaf_inv h).1, List.length_set]
  | 0, none => rw [(setLeaf_inv h).1, List.length_set]

theorem iterateLeft_inv {s s' : TreeIter B K V} {node : Node B K V} {l : Nat} (h : iterateLeftChildren s node l = .ok s') : ∃ x, s' = s.set l x := by
  match l with
  | l + 1 =>
    rw [iterateLeftChildren] at h
    obtain ⟨cs, h1, h⟩ := bind_eq_ok.1 h
    exact ⟨_, (setInner_inv h).1⟩
  | 0 =>
    rw [iterateLeftChildren] at h
    obtain ⟨cs, h1, h⟩ := bind_eq_ok.1 h
    exact ⟨_, (setLeaf_inv h).1⟩

theorem find_right_length {L : Type} {code : Nat → Option F} {test : F → Node B K V → Bool} {start0 stop : Nat} (fuel : Nat) :
    ∀ {i : Nat} {s s' : IterStack L (RewindIter (Node B K V))} {r} {x x' : S} {n n' : Nat}, findLoop code test start0 stop fuel i s x n = (.ok (r, s'), x', n') →
    s'.length = s.length := by
  induction fuel with
  | zero =>
    intro i s s' r x x' n n' h
    rw [findLoop] at h
    split at h
    · cases h
    · cases h; rfl
  | succ fuel ih =>
    intro i s s' r x x' n n' h
    rw [findLoop] at h
    split at h
    · obtain ⟨it, h1, h⟩ := own_bind_inv h
      obtain ⟨⟨found, it'⟩, x1, n1, h2, h⟩ := bind_inv h
      obtain ⟨s1, h3, h⟩ := own_bind_inv h
      have hlen : s1.length = s.length := by rw [(setInner_inv h3).1, List.length_set]
      match found, i with
      | .error e, i => cases h; exact hlen
      | .ok (some child), 0 => cases h; exact hlen
      | .ok (some child), i' + 1 =>
        dsimp only at h
        obtain ⟨cs, h4, h⟩ := own_bind_inv h
        obtain ⟨s2, h5, h⟩ := own_bind_inv h
        rw [ih h, (setInner_inv h5).1, List.length_set, hlen]
      | .ok none, i => rw [ih h, hlen]
    · cases h; rfl

theorem doneAt_iff {s : TreeIter B K V} {level : Nat} : TreeIter.Done s level ↔ ∀ j < level, DoneAt s j := Iff.rfl

variable {code : Nat → Option (JoinCode BL BR QL QR)} {borrowL : KL → QL}

theorem ascend_none {mh level : Nat} {loop : M (LeftJoinIter BL BR KL KR VL VR) (Option ((KL × VL) × BL × TreeIter BR KR VR))} {it it' : LeftJoinIter BL BR KL KR VL VR}
    {n n' : Nat} (h : ascend mh level loop it n = (.ok none, it', n')) :
    (level + 1 = mh ∧ it' = it) ∨ (level + 1 ≠ mh ∧ ∃ right, right.length = it.right.length ∧ loop ⟨it.left, right⟩ n = (.ok none, it', n')) := by
  rw [ascend] at h
  split at h
  · next hm => cases h; exact .inl ⟨hm, rfl⟩
  · next hm =>
    rw [self_bind] at h
    obtain ⟨u, h1, h⟩ := own_bind_inv h
    obtain ⟨right, h2, h⟩ := own_bind_inv h
    rw [put_bind] at h
    exact .inr ⟨hm, right, rewind_length _ h2, h⟩

/-- After `None` the left stack is exhausted. -/
theorem done_of_none (fuel : Nat) : ∀ {level : Nat} {it it' : LeftJoinIter BL BR KL KR VL VR} {n n' : Nat},
    2 ≤ it.right.length → level < min it.left.length it.right.length → TreeIter.Done it.left level →
    nextLoop code borrowL (min it.left.length it.right.length) fuel level it n = (.ok none, it', n') → TreeIter.Done it'.left it'.left.length := by
  induction fuel with
  | zero => intro level it it' n n' _ _ _ h; cases h
  | succ fuel ih =>
    intro level it it' n n' h2 hl hd h
    rw [nextLoop, self_bind] at h
    match level with
    | l + 1 =>
      dsimp only at h
      obtain ⟨u, hc, h⟩ := own_bind_inv h
      obtain ⟨⟨nodeLeft, left⟩, hf, h⟩ := own_bind_inv h
      obtain ⟨k1, k2, k3⟩ := find_left _ (fun j h1 h2 => by omega) hf
      rw [put_bind] at h
      have hleft : TreeIter.Done left (l + 1) := fun j hj => k2 j (by omega) (hd j hj)
      match nodeLeft with
      | some nodeLeft =>
        dsimp only at h
        obtain ⟨u, hc', h⟩ := own_bind_inv h
        obtain ⟨⟨found, right⟩, x1, n1, hfr, h⟩ := bind_inv h
        rw [put_bind] at h
        have hrl : right.length = it.right.length := find_right_length _ hfr
        obtain ⟨nodeRight, x2, n2, hr, h⟩ := bind_inv h
        obtain ⟨left', hil, h⟩ := own_bind_inv h
        obtain ⟨right', hir, h⟩ := own_bind_inv h
        rw [put_bind] at h
        obtain ⟨x, rfl⟩ := iterateLeft_inv hil
        have e1 : (left.set l x).length = it.left.length := by rw [List.length_set, k1]
        have e2 : right'.length = it.right.length := by rw [iterateRight_length hir, hrl]
        rw [← e1, ← e2] at h
        refine ih (it := ⟨left.set l x, right'⟩) (by rw [e2]; exact h2) (by dsimp only; rw [e1, e2]; omega) ?_ h
        exact (hleft.mono (by omega)).set (Nat.le_refl _) _
      | none =>
        dsimp only at h
        have hleft2 : TreeIter.Done left (l + 2) ∧ (l + 2 = it.right.length → TreeIter.Done left left.length) := by
          refine ⟨fun j hj => ?_, fun he j hj => ?_⟩
          · by_cases hjl : j ≤ l
            · exact hleft j (by omega)
            · refine k3 rfl j (by omega) ?_
              unfold RTree.LeftJoinIter.leftStop
              split <;> omega
          · by_cases hjl : j ≤ l
            · exact hleft j (by omega)
            · refine k3 rfl j (by omega) ?_
              unfold RTree.LeftJoinIter.leftStop
              rw [if_pos he]; omega
        rcases ascend_none h with ⟨hm, rfl⟩ | ⟨hm, right, hrl, h⟩
        · show TreeIter.Done left left.length
          by_cases he : l + 2 = it.right.length
          · exact hleft2.2 he
          · exact hleft2.1.mono (by omega)
        · dsimp only at hrl h
          rw [← k1, ← hrl] at h
          exact ih (it := ⟨left, right⟩) (by rw [hrl]; exact h2) (by dsimp only; rw [k1, hrl]; omega) hleft2.1 h
    | 0 =>
      dsimp only at h
      obtain ⟨es, hg, h⟩ := own_bind_inv h
      match es with
      | e :: rest =>
        dsimp only at h
        obtain ⟨left, h3, h⟩ := own_bind_inv h
        rw [put_bind] at h
        obtain ⟨stack, h4, h⟩ := own_bind_inv h
        obtain ⟨f, x1, n1, h5, h⟩ := bind_inv h
        obtain ⟨f, x1, n1, h6, h⟩ := bind_inv h
        cases h
      | [] =>
        dsimp only at h
        have hd1 : TreeIter.Done it.left 1 := fun j hj => by
          obtain rfl : j = 0 := by omega
          exact ⟨[], getLeaf_inv hg, rfl⟩
        rcases ascend_none h with ⟨hm, rfl⟩ | ⟨hm, right, hrl, h⟩
        · exact hd1.mono (by omega)
        · rw [← hrl] at h
          exact ih (it := ⟨it.left, right⟩) (by rw [hrl]; exact h2) (by dsimp only; rw [hrl]; omega) hd1 h

/-- With an exhausted left stack the loop answers `None`, if it does not fail by itself. -/
theorem nextLoop_done {mh : Nat} (fuel : Nat) : ∀ {level : Nat} {it it' : LeftJoinIter BL BR KL KR VL VR} {n n' : Nat} {r}, TreeIter.Done it.left it.left.length →
    nextLoop code borrowL mh fuel level it n = (r, it', n') → it'.left = it.left ∧ n' = n ∧ (∀ e, r ≠ .ok (some e)) ∧ r ≠ .error .user := by
  induction fuel with
  | zero => intro level it it' n n' r _ h; cases h; exact ⟨rfl, rfl, (fun e h => by cases h), fun h => by cases h⟩
  | succ fuel ih =>
    have asc : ∀ {level : Nat} {it it' : LeftJoinIter BL BR KL KR VL VR} {n n' : Nat} {r}, TreeIter.Done it.left it.left.length →
        ascend mh level (nextLoop code borrowL mh fuel (level + 1)) it n = (r, it', n') → it'.left = it.left ∧ n' = n ∧ (∀ e, r ≠ .ok (some e)) ∧ r ≠ .error .user := by
      intro level it it' n n' r hd h
      rw [ascend] at h
      split at h
      · cases h; exact ⟨rfl, rfl, (fun e h => by cases h), fun h => by cases h⟩
      · rw [self_bind] at h
        cases h1 : InnerIterStack.checkRange it.right (level + 1) (it.rightStop level) with
        | error p =>
          rw [h1, bind_error' (show own (.error p) it n = (.error (.own p), it, n) from rfl)] at h
          cases h; exact ⟨rfl, rfl, (fun e h => by cases h), fun h => by cases h⟩
        | ok u =>
        rw [h1, own_bind] at h
        cases h2 : rewindLoop (it.rightStop level - 1) (it.rightStop level - (level + 1)) level it.right with
        | error p =>
          rw [h2, bind_error' (show own (.error p) it n = (.error (.own p), it, n) from rfl)] at h
          cases h; exact ⟨rfl, rfl, (fun e h => by cases h), fun h => by cases h⟩
        | ok right =>
        rw [h2, own_bind, put_bind] at h
        exact ih (it := ⟨it.left, right⟩) hd h
    intro level it it' n n' r hd h
    rw [nextLoop, self_bind] at h
    match level with
    | l + 1 =>
      dsimp only at h
      cases h1 : InnerIterStack.checkRange it.left (l + 1) (it.leftStop l) with
      | error p =>
        rw [h1, bind_error' (show own (.error p) it n = (.error (.own p), it, n) from rfl)] at h
        cases h; exact ⟨rfl, rfl, (fun e h => by cases h), fun h => by cases h⟩
      | ok u =>
      have hst : it.leftStop l ≤ it.left.length := by
        unfold InnerIterStack.checkRange at h1
        split at h1
        · next hh => exact hh.2
        · cases h1
      rw [h1, own_bind] at h
      cases h2 : InnerIterStack.findLoop sliceNext id l (it.leftStop l) ((it.left.weight + 1) * (it.left.length + 1)) 0 it.left with
      | error p =>
        rw [h2, bind_error' (show own (.error p) it n = (.error (.own p), it, n) from rfl)] at h
        cases h; exact ⟨rfl, rfl, (fun e h => by cases h), fun h => by cases h⟩
      | ok y =>
      obtain ⟨nodeLeft, left⟩ := y
      obtain ⟨rfl, rfl⟩ := find_done hd hst _ h2
      rw [h2, own_bind] at h
      dsimp only at h
      rw [put_bind] at h
      exact asc (it := ⟨it.left, it.right⟩) hd h
    | 0 =>
      dsimp only at h
      by_cases hl : 0 < it.left.length
      · obtain ⟨es, h1, -, rfl⟩ := (hd.mono (show 1 ≤ _ by omega)).get_leaf
        rw [h1, own_bind] at h
        exact asc hd h
      · have h1 : it.left.getLeaf = .error .indexOutOfBounds := by
          have : it.left = [] := List.length_eq_zero_iff.1 (by omega)
          rw [this]; rfl
        rw [h1, bind_error' (show own (.error _) it n = (.error (.own _), it, n) from rfl)] at h
        cases h; exact ⟨rfl, rfl, (fun e h => by cases h), fun h => by cases h⟩

end LeftJoinIter

namespace LeftSession

open IterStack RTree.InnerIterStack RTree.LeftJoinIter

variable {code : Nat → Option (JoinCode BL BR QL QR)} {borrowL : KL → QL} {borrowR : KR → QR} {NL : List (Node BL KL VL)} {NR : List (Node BR KR VR)}

/-- The stacks of the left join between calls. -/
def Fit (NL : List (Node BL KL VL)) (NR : List (Node BR KR VR)) (s : LeftSession BL BR KL KR VL VR) : Prop :=
  ∃ es css rl its, s.join = ⟨newBox es css, newBox rl its⟩ ∧ Inv (Of NL) (Of NR) (fun _ _ => True) es css rl its

theorem next_of_fit (hNL : Closed NL) (hNR : Closed NR) {s : LeftSession BL BR KL KR VL VR} (hs : Fit NL NR s) (n : Nat) :
    (∃ es css rl its, (LeftJoinIter.next code borrowL s.join n).2.1 = ⟨newBox es css, newBox rl its⟩ ∧ Inv (Of NL) (Of NR) (fun _ _ => True) es css rl its) ∧
    (∀ p, (LeftJoinIter.next code borrowL s.join n).1 ≠ .error (.own p)) ∧ 2 ≤ s.join.right.length ∧ 0 < min s.join.left.length s.join.right.length := by
  obtain ⟨es, css, rl, its, h1, h2⟩ := hs
  have hx := (LeftJoinIter.nextLoop_spec (code := code) (borrowL := borrowL) (of_nodeInv hNL) (of_nodeInv hNR)
    (Rel := fun _ _ _ => True) (fun _ _ _ _ _ _ => trivial) (fun _ _ _ _ _ _ _ _ _ _ _ _ _ _ _ _ => trivial)
    ((es.length + wt id css + 1) * (css.length + 1 + 1))).1 es css rl its n h2 (by
      rw [Nat.add_mul _ 1, show css.length + 1 + 1 = css.length + 2 from rfl]; omega)
  have hnext : LeftJoinIter.next code borrowL s.join n =
      LeftJoinIter.nextLoop code borrowL (min (css.length + 1) (its.length + 1)) ((es.length + wt id css + 1) * (css.length + 1 + 1)) 0 ⟨newBox es css, newBox rl its⟩ n := by
    rw [h1]
    unfold LeftJoinIter.next
    rw [self_bind]
    dsimp only
    rw [length_newBox, length_newBox, if_neg (by omega), weight_left]
  rw [← hnext] at hx
  obtain ⟨es', css', rl', its', g1, g2, -, -, -, g6⟩ := hx
  refine ⟨⟨es', css', rl', its', g1, g2⟩, ?_, ?_, ?_⟩
  · intro p hp
    rw [hp] at g6
    exact g6
  · have := List.length_pos_iff.2 h2.linv.ne.2
    rw [h1]; dsimp only; rw [length_newBox]; omega
  · rw [h1]; dsimp only; rw [length_newBox, length_newBox]; omega

theorem call_next_join (s : LeftSession BL BR KL KR VL VR) (n : Nat) :
    (call code borrowL borrowR s n .next).2.1.join = (LeftJoinIter.next code borrowL s.join n).2.1 := by
  rw [call]
  rcases hr : LeftJoinIter.next code borrowL s.join n with ⟨o, j, n'⟩
  match o with
  | .ok none => rfl
  | .ok (some (e, b, stack)) => rfl
  | .error e => rfl

theorem call_right_join (s : LeftSession BL BR KL KR VL VR) (n i : Nat) : (call code borrowL borrowR s n (.right i)).2.1.join = s.join := by
  rw [call]
  cases hi : s.rights[i]? <;> rfl

theorem Fit.call (hNL : Closed NL) (hNR : Closed NR) {s : LeftSession BL BR KL KR VL VR} (hs : Fit NL NR s) (n : Nat) (cmd : LeftCmd) :
    Fit NL NR (call code borrowL borrowR s n cmd).2.1 := by
  cases cmd with
  | next =>
    obtain ⟨es, css, rl, its, h1, h2⟩ := (next_of_fit (code := code) (borrowL := borrowL) hNL hNR hs n).1
    exact ⟨es, css, rl, its, by rw [call_next_join]; exact h1, h2⟩
  | right i =>
    obtain ⟨es, css, rl, its, h1, h2⟩ := hs
    exact ⟨es, css, rl, its, by rw [call_right_join]; exact h1, h2⟩

theorem Fit.calls (hNL : Closed NL) (hNR : Closed NR) (cmds : List LeftCmd) : ∀ {s : LeftSession BL BR KL KR VL VR}, Fit NL NR s → ∀ n : Nat,
    Fit NL NR (calls code borrowL borrowR cmds s n).2.1 := by
  induction cmds with
  | nil => intro s hs n; exact hs
  | cons cmd cmds ih =>
    intro s hs n
    rw [LeftSession.calls]
    exact ih (hs.call hNL hNR n cmd) _

theorem fit_new {tl : Tree BL KL VL} {tr : Tree BR KR VR} (hl : Shape tl.level tl.root) (hr : Shape tr.level tr.root) {it : LeftJoinIter BL BR KL KR VL VR}
    (h : RTree.LeftJoinIter.new tl.root tl.level tr.root tr.level = .ok it) : Fit tl.nodes tr.nodes ⟨it, []⟩ := by
  obtain ⟨it', h1, ⟨es, css, rl, its, h2, h3, -⟩, -⟩ := session_of_shape hl hr (QL := Unit) (QR := Unit) fun _ => none
  rw [h] at h1
  cases h1
  exact ⟨es, css, rl, its, h2, inv_mono (fun _ _ _ => trivial) h3⟩

theorem next_done (hNL : Closed NL) (hNR : Closed NR) {s : LeftSession BL BR KL KR VL VR} (hs : Fit NL NR s) (hd : TreeIter.Done s.join.left s.join.left.length) (n : Nat) :
    ∃ right, LeftJoinIter.next code borrowL s.join n = (.ok none, ⟨s.join.left, right⟩, n) := by
  obtain ⟨-, h2, h3, h4⟩ := next_of_fit (code := code) (borrowL := borrowL) hNL hNR hs n
  rcases hr : LeftJoinIter.next code borrowL s.join n with ⟨o, j, n'⟩
  rw [hr] at h2
  unfold LeftJoinIter.next at hr
  rw [self_bind] at hr
  rw [if_neg (by omega)] at hr
  obtain ⟨k1, rfl, k3⟩ := LeftJoinIter.nextLoop_done _ hd hr
  obtain ⟨jl, jr⟩ := j
  dsimp only at k1
  subst k1
  match o with
  | .ok none => exact ⟨jr, rfl⟩
  | .ok (some e) => exact absurd rfl (k3.1 e)
  | .error (.own p) => exact absurd rfl (h2 p)
  | .error .user => exact absurd rfl k3.2

theorem call_next_done (hNL : Closed NL) (hNR : Closed NR) {s : LeftSession BL BR KL KR VL VR} (hs : Fit NL NR s) (hd : TreeIter.Done s.join.left s.join.left.length) (n : Nat) :
    ∃ right, call code borrowL borrowR s n .next = (.next (.ok none), ⟨⟨s.join.left, right⟩, s.rights⟩, n) := by
  obtain ⟨right, h⟩ := next_done (code := code) (borrowL := borrowL) hNL hNR hs hd n
  refine ⟨right, ?_⟩
  rw [call, h]

theorem calls_done (hNL : Closed NL) (hNR : Closed NR) (cmds : List LeftCmd) : ∀ {s : LeftSession BL BR KL KR VL VR}, Fit NL NR s →
    TreeIter.Done s.join.left s.join.left.length → ∀ n : Nat,
    TreeIter.Done (calls code borrowL borrowR cmds s n).2.1.join.left (calls code borrowL borrowR cmds s n).2.1.join.left.length := by
  induction cmds with
  | nil => intro s hs hd n; exact hd
  | cons cmd cmds ih =>
    intro s hs hd n
    rw [LeftSession.calls]
    refine ih (hs.call hNL hNR n cmd) ?_ _
    cases cmd with
    | next =>
      obtain ⟨right, h⟩ := call_next_done (code := code) (borrowL := borrowL) (borrowR := borrowR) hNL hNR hs hd n
      rw [h]; exact hd
    | right i => rw [call_right_join]; exact hd

theorem done_of_call (hNL : Closed NL) (hNR : Closed NR) {s s' : LeftSession BL BR KL KR VL VR} (hs : Fit NL NR s) {n n' : Nat}
    (h : call code borrowL borrowR s n .next = (.next (.ok none), s', n')) : TreeIter.Done s'.join.left s'.join.left.length := by
  obtain ⟨-, -, h3, h4⟩ := next_of_fit (code := code) (borrowL := borrowL) hNL hNR hs n
  have hj := call_next_join (code := code) (borrowL := borrowL) (borrowR := borrowR) s n
  rw [h] at hj
  dsimp only at hj
  rcases hr : LeftJoinIter.next code borrowL s.join n with ⟨o, j, n1⟩
  rw [hr] at hj
  dsimp only at hj
  rw [hj]
  have ho : o = .ok none := by
    rw [call, hr] at h
    match o with
    | .ok none => rfl
    | .ok (some (e, b, stack)) => cases h
    | .error e => cases h
  subst ho
  unfold LeftJoinIter.next at hr
  rw [self_bind] at hr
  rw [if_neg (by omega)] at hr
  exact LeftJoinIter.done_of_none _ h3 h4 (Spent.zero _) hr

theorem call_right_done {s : LeftSession BL BR KL KR VL VR} {i : Nat} {it : RightIter BL BR KL KR VL VR} (hi : s.rights[i]? = some it)
    (hd : TreeIter.Done it.stack it.stack.length) (n : Nat) : call code borrowL borrowR s n (.right i) = (.right (.ok none), s, n) := by
  rw [call_right hi (TreeIter.next_done hd n)]
  obtain ⟨j, rs⟩ := s
  have hset : rs.set i it = rs := List.ext_getElem? fun k => by
    by_cases hk : i = k
    · subst hk
      rw [List.getElem?_set_self (List.getElem?_eq_some_iff.1 hi).1]; exact hi.symm
    · rw [List.getElem?_set_ne hk]
  show (_, (⟨j, rs.set i it⟩ : LeftSession BL BR KL KR VL VR), n) = _
  rw [hset]

theorem call_keeps_right {s : LeftSession BL BR KL KR VL VR} {i : Nat} {it : RightIter BL BR KL KR VL VR} (hi : s.rights[i]? = some it)
    (hd : TreeIter.Done it.stack it.stack.length) (n : Nat) (cmd : LeftCmd) : (call code borrowL borrowR s n cmd).2.1.rights[i]? = some it := by
  cases cmd with
  | next =>
    rw [call]
    rcases hr : LeftJoinIter.next code borrowL s.join n with ⟨o, j, n'⟩
    match o with
    | .ok none => exact hi
    | .ok (some (e, b, stack)) =>
      show (s.rights ++ [_])[i]? = _
      rw [List.getElem?_append_left (List.getElem?_eq_some_iff.1 hi).1]; exact hi
    | .error e => exact hi
  | right k =>
    by_cases hk : k = i
    · subst hk
      rw [call_right_done hi hd]; exact hi
    · rw [call]
      cases hr : s.rights[k]? with
      | none => exact hi
      | some x =>
        show (s.rights.set k _)[i]? = _
        rw [List.getElem?_set_ne hk]; exact hi

theorem calls_keep_right (cmds : List LeftCmd) : ∀ {s : LeftSession BL BR KL KR VL VR} {i : Nat} {it : RightIter BL BR KL KR VL VR}, s.rights[i]? = some it →
    TreeIter.Done it.stack it.stack.length → ∀ n : Nat, (calls code borrowL borrowR cmds s n).2.1.rights[i]? = some it := by
  induction cmds with
  | nil => intro s i it hi hd n; exact hi
  | cons cmd cmds ih =>
    intro s i it hi hd n
    rw [LeftSession.calls]
    exact ih (call_keeps_right hi hd n cmd) hd _

theorem done_of_right {s s' : LeftSession BL BR KL KR VL VR} {i n n' : Nat} (h : call code borrowL borrowR s n (.right i) = (.right (.ok none), s', n')) :
    ∃ it, s'.rights[i]? = some it ∧ TreeIter.Done it.stack it.stack.length := by
  cases hi : s.rights[i]? with
  | none => rw [call, hi] at h; cases h
  | some it =>
    rcases hr : TreeIter.next (joiningCode code it.bounds (borrowL it.entry.1)) borrowR it.stack n with ⟨o, st, n1⟩
    rw [call_right hi hr] at h
    cases h
    exact ⟨_, by show (s.rights.set i _)[i]? = _; rw [List.getElem?_set_self (List.getElem?_eq_some_iff.1 hi).1], TreeIter.done_of_next hr⟩

end LeftSession

end RTree.Calls
