import Verif.Proofs.RcMut
/-!
# Left joins with their allocation
-/

namespace RTree.LeftJoinIter

open IterStack InnerIterStack

variable {BL BR KL KR VL VR QL QR : Type}

theorem shapeInv {B K V : Type} : NodeInv (Shape (B := B) (K := K) (V := V)) := ⟨fun h => h.leaf, fun h => h.inner⟩

theorem next_spec (f : JoinFilter BL BR QL QR) {okL : Nat → Node BL KL VL → Prop} {okR : Nat → Node BR KR VR → Prop}
    (hL : NodeInv okL) (hR : NodeInv okR) {Rel : KL × VL → List (KR × VR) → Prop} (hdrop : Drops f okL okR Rel)
    {es : List (KL × VL)} {css : List (List (Node BL KL VL))} {rl : RewindIter (KR × VR)}
    {its : List (RewindIter (Node BR KR VR))} (hinv : Inv okL okR Rel es css rl its) :
    NextPost okL okR Rel (es ++ leftE css) css.length its.length (es.length + wt id css)
      (next f ⟨newBox es css, newBox rl its⟩) := by
  have h := (nextLoop_spec f hL hR hdrop ((es.length + wt id css + 1) * (css.length + 1 + 1))).1 es css rl its hinv (by
    rw [Nat.add_mul _ 1, show css.length + 1 + 1 = css.length + 2 from rfl]; omega)
  unfold next
  simp only [length_newBox, weight_left]
  rw [if_neg (by omega)]
  exact h

/-- The state of the join between two calls of `next`: it will yield `out`, on stacks of height `len`. -/
def Going [Bounded QL BL] (borrowL : KL → QL) (borrowR : KR → QR) (f : JoinFilter BL BR QL QR) (len : Nat)
    (it : LeftJoinIter BL BR KL KR VL VR) (out : List ((KL × VL) × List (KR × VR))) : Prop :=
  (∃ es css rl its, it = ⟨newBox es css, newBox rl its⟩ ∧
    Inv (Shape (B := BL)) (Shape (B := BR)) (fun _ _ => True) es css rl its ∧ its.length + 1 = len) ∧
  ∃ n, collectLoop borrowL borrowR f n it = .ok out

/-- The state of a right-hand iterator: it will yield `out`. -/
def RightGoing (borrowR : KR → QR) (g : SpatialFilter BR QR) (s : TreeIter BR KR VR) (out : List (KR × VR)) : Prop :=
  ∃ es css, s = newBox es css ∧ TreeIter.Typed 0 css ∧ TreeIter.rem g.testBounds (fun e => g.testKey (borrowR e.1)) es css = out

theorem RightGoing.next {borrowR : KR → QR} {g : SpatialFilter BR QR} {s : TreeIter BR KR VR} {out : List (KR × VR)}
    (h : RightGoing borrowR g s out) :
    ∃ s', s.next borrowR g = .ok (out.head?, s') ∧ RightGoing borrowR g s' out.tail := by
  obtain ⟨es, css, rfl, ht, rfl⟩ := h
  obtain ⟨r, es', css', h1, h2, h3, h4⟩ := TreeIter.next_spec borrowR g (es := es) ht
  cases r with
  | none =>
    rw [h4.1]
    exact ⟨_, h1, es', css', rfl, h3, h4.2⟩
  | some e =>
    rw [h4.1]
    exact ⟨_, h1, es', css', rfl, h3, rfl⟩

theorem Going.done [Bounded QL BL] {borrowL : KL → QL} {borrowR : KR → QR} {f : JoinFilter BL BR QL QR} {len : Nat}
    {it : LeftJoinIter BL BR KL KR VL VR} (h : Going borrowL borrowR f len it []) :
    ∃ it', it.next f = .ok (none, it') ∧ Going borrowL borrowR f len it' [] := by
  obtain ⟨⟨es, css, rl, its, rfl, hinv, hlen⟩, n, hn⟩ := h
  obtain ⟨r, it', h1, h2⟩ := next_spec f shapeInv shapeInv (fun _ _ _ _ _ _ _ _ _ _ _ => trivial) hinv
  cases n with
  | zero => cases hn
  | succ n =>
    rw [collectLoop, h1] at hn
    match r, h2 with
    | some (e, stack), h2 =>
      simp only [ok_bind] at hn
      obtain ⟨_, _, hn⟩ := bind_eq_ok.1 hn
      obtain ⟨_, _, hn⟩ := bind_eq_ok.1 hn
      cases hn
    | none, h2 =>
      obtain ⟨_, css', rl', its', rfl, k2, k3, k4, k5⟩ := h2
      refine ⟨_, h1, ⟨_, _, _, _, rfl, k2, by omega⟩, 1, ?_⟩
      obtain ⟨r', it'', g1, g2⟩ := next_spec f shapeInv shapeInv (fun _ _ _ _ _ _ _ _ _ _ _ => trivial) k2
      rw [collectLoop, g1]
      match r', g2 with
      | none, _ => rfl
      | some (e, stack), g2 =>
        obtain ⟨_, _, _, _, _, _, _, _, g2, _⟩ := g2
        rw [k5] at g2; cases g2

theorem Going.item [Bounded QL BL] {borrowL : KL → QL} {borrowR : KR → QR} {f : JoinFilter BL BR QL QR} {len : Nat}
    {it : LeftJoinIter BL BR KL KR VL VR} {e : KL × VL} {ms : List (KR × VR)} {out : List ((KL × VL) × List (KR × VR))}
    (h : Going borrowL borrowR f len it ((e, ms) :: out)) :
    ∃ stack it', it.next f = .ok (some (e, stack), it') ∧ Going borrowL borrowR f len it' out ∧ stack.length = len ∧
      RightGoing borrowR (joiningFilter (borrowL e.1) f) stack ms := by
  obtain ⟨⟨es, css, rl, its, rfl, hinv, hlen⟩, n, hn⟩ := h
  obtain ⟨r, it', h1, h2⟩ := next_spec f shapeInv shapeInv (fun _ _ _ _ _ _ _ _ _ _ _ => trivial) hinv
  cases n with
  | zero => cases hn
  | succ n =>
    rw [collectLoop, h1] at hn
    match r, h2 with
    | none, h2 => cases hn
    | some (e', stack), h2 =>
      simp only [ok_bind] at hn
      obtain ⟨ms', hms, hn⟩ := bind_eq_ok.1 hn
      obtain ⟨out', ho, hn⟩ := bind_eq_ok.1 hn
      injection hn with hn; injection hn with hn1 hn2; injection hn1 with hn1 hn3
      subst hn1 hn2 hn3
      obtain ⟨es', css', rl', its', rfl, k2, k3, k4, k5, rfl, _, _⟩ := h2
      have hty := allOk_typed shapeInv k2.right
      refine ⟨_, _, h1, ⟨⟨_, _, _, _, rfl, k2, by omega⟩, n, ho⟩, by simp; omega, _, _, rfl, hty, ?_⟩
      have := TreeIter.collect_spec borrowR (joiningFilter (borrowL e'.1) f) (es := rl'.rem) hty
      rw [hms] at this
      injection this with this
      exact this.symm

theorem Going.start [Bounded QL BL] (borrowL : KL → QL) (borrowR : KR → QR) (f : JoinFilter BL BR QL QR)
    {tl : Tree BL KL VL} {tr : Tree BR KR VR} (hl : Shape tl.level tl.root) (hr : Shape tr.level tr.root)
    {out : List ((KL × VL) × List (KR × VR))} (h : tl.leftJoin borrowL borrowR f tr = .ok out) :
    ∃ it, LeftJoinIter.new tl.root tl.level tr.root tr.level = .ok it ∧ Going borrowL borrowR f (tr.level + 2) it out := by
  obtain ⟨it, h1, h2⟩ := bind_eq_ok.1 h
  refine ⟨it, h1, ?_, _, h2⟩
  have hsl := setInner_newBox ([] : List (KL × VL)) (List.replicate tl.level []) [] [] [tl.root]
  have hsr := setInner_newBox (RewindIter.new ([] : List (KR × VR))) (List.replicate tr.level (RewindIter.new [])) []
    (RewindIter.new []) (RewindIter.new [tr.root])
  rw [List.length_replicate, ← List.replicate_succ'] at hsl hsr
  simp only [LeftJoinIter.new, hsl, hsr, ok_bind, pure_eq_ok] at h1
  injection h1 with h1
  subst h1
  refine ⟨[], _, .new [], _, rfl, ⟨rfl, (by intro e he; cases he), ?_, ?_, LInv.init (fun _ _ => trivial) _ _⟩, by simp⟩
  · refine AllOk.replicate (fun l c hc => by cases hc) _ _ ⟨?_, trivial⟩
    intro c hc
    obtain rfl := List.mem_singleton.1 hc
    simpa using hl
  · refine AllOk.replicate (fun l => ⟨Nat.zero_le _, fun c hc => by cases hc⟩) _ _ ⟨⟨Nat.zero_le _, ?_⟩, trivial⟩
    intro c hc
    obtain rfl := List.mem_singleton.1 hc
    simpa using hr

end RTree.LeftJoinIter
