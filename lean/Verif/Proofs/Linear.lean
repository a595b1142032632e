import Verif.Proofs.Volume
import Verif.Proofs.Tree
import Verif.History
/-!
# Trees that degenerate (C79)

Points inserted in order, with `min_children = max_children = 2`: every split leaves one child on the left, and the tree
becomes a list.
-/

namespace RTree.Linear

open XRat

/-- The coordinate `n`, for `n < 2 ^ 31`. -/
def coord (n : ℕ) : I32 := ⟨Min.min (n : ℤ) 2147483647, by omega, by omega⟩

/-- The point `n` on the line. -/
def point (n : ℕ) : SVec I32 1 := ⟨fun _ => coord n⟩

/-- The interval from `a` to `b`. -/
def seg (a b : ℕ) : AABB I32 1 := ⟨point a, point b⟩

/-- A volume. -/
abbrev vol (n : ℕ) : XRat := rat ((n : ℤ) : ℚ)

theorem union_seg (a b c d : ℕ) : Bounds.union (seg a b) (seg c d) = seg (Min.min a c) (Max.max b d) := by
  show AABB.union (seg a b) (seg c d) = _
  unfold AABB.union seg
  congr 1
  · refine SVec.ext (funext fun _ => Subtype.ext ?_)
    show (Min.min (coord a) (coord c)).1 = (coord (Min.min a c)).1
    rcases le_total a c with h | h
    · rw [min_eq_left (show coord a ≤ coord c from by show (coord a).1 ≤ (coord c).1; simp only [coord]; omega), min_eq_left h]
    · rw [min_eq_right (show coord c ≤ coord a from by show (coord c).1 ≤ (coord a).1; simp only [coord]; omega), min_eq_right h]
  · refine SVec.ext (funext fun _ => Subtype.ext ?_)
    show (Max.max (coord b) (coord d)).1 = (coord (Max.max b d)).1
    rcases le_total b d with h | h
    · rw [max_eq_right (show coord b ≤ coord d from by show (coord b).1 ≤ (coord d).1; simp only [coord]; omega), max_eq_right h]
    · rw [max_eq_left (show coord d ≤ coord b from by show (coord d).1 ≤ (coord b).1; simp only [coord]; omega), max_eq_left h]

theorem volume_seg {a b : ℕ} (h : a ≤ b) (hb : b < 2147483648) :
    (Volume.volume (seg a b) : Option XRat) = some (vol (b - a)) := by
  show AABB.volume (seg a b) = _
  have hl : (seg a b).lengths = some [vol (b - a)] := by
    unfold AABB.lengths
    have : List.finRange 1 = [(0 : Fin 1)] := rfl
    rw [this]
    have hs : (Scalar.sub ((seg a b).max.get 0) ((seg a b).min.get 0) : Option I32) =
        some ⟨((b - a : ℕ) : ℤ), by omega, by omega⟩ := by
      show I32.check ((coord b).1 - (coord a).1) = _
      have e : (coord b).1 - (coord a).1 = ((b - a : ℕ) : ℤ) := by simp only [coord]; omega
      rw [e]
      unfold I32.check
      rw [dif_pos ⟨by omega, by omega⟩]
    simp [hs]
    rfl
  unfold AABB.volume
  rw [hl]
  rfl

theorem sub_vol {a b : ℕ} (h : b ≤ a) (ha : a < 2147483648) :
    (Volume.sub (B := AABB I32 1) (vol a) (vol b) : Option XRat) = some (vol (a - b)) := by
  show N64.sub .binary64 (vol a) (vol b) = _
  unfold N64.sub
  rw [F64.sub_rat]
  have e : ((a : ℤ) : ℚ) - ((b : ℤ) : ℚ) = (((a - b : ℕ) : ℤ) : ℚ) := by
    rw [← Int.cast_sub]; congr 1; omega
  rw [e, binary64_intCast (by rw [abs_of_nonneg (by omega)]; omega)]

theorem lt_vol (a b : ℕ) : Volume.lt (B := AABB I32 1) (vol a) (vol b) = decide (a < b) := by
  show decide (vol a < vol b) = decide (a < b)
  congr 1
  rw [rat_lt]
  simp

theorem bot_lt_vol (b : ℕ) : Volume.lt (B := AABB I32 1) (Volume.negInf (B := AABB I32 1)) (vol b) = true := by
  show decide ((⊥ : XRat) < vol b) = true
  exact decide_eq_true (WithBot.bot_lt_coe _)

theorem cmp_vol (a b : ℕ) : Volume.cmp (B := AABB I32 1) (vol a) (vol b) = compare a b := by
  show N64.cmp (vol a) (vol b) = _
  unfold N64.cmp
  rcases Nat.lt_trichotomy a b with h | h | h
  · rw [if_pos (rat_lt.2 (by exact_mod_cast h)), (Nat.compare_eq_lt).2 h]
  · subst h; rw [if_neg (lt_irrefl _), if_pos rfl, Nat.compare_eq_eq.2 rfl]
  · rw [if_neg (fun hh => by have := rat_lt.1 hh; have : a < b := by exact_mod_cast this
                             omega),
      if_neg (fun hh => by have := rat_inj.1 hh; have : a = b := by exact_mod_cast this
                           omega), Nat.compare_eq_gt.2 h]

theorem union_to {a b c d e f : ℕ} (h1 : Min.min a c = e) (h2 : Max.max b d = f) :
    Bounds.union (seg a b) (seg c d) = seg e f := by rw [union_seg, h1, h2]

theorem arith_seg {a b n : ℕ} (h : a ≤ b) (hb : b < 2147483648) (hn : b - a = n) :
    arith (Volume.volume (seg a b)) = .ok (vol n : Volume.Vol (AABB I32 1)) := by
  subst hn; rw [arith_eq_ok]; exact volume_seg h hb

theorem arith_union {a b c d n : ℕ} (h : Min.min a c ≤ Max.max b d) (hb : Max.max b d < 2147483648)
    (hn : Max.max b d - Min.min a c = n) :
    arith (Volume.volume (Bounds.union (seg a b) (seg c d))) = .ok (vol n : Volume.Vol (AABB I32 1)) := by
  rw [union_seg]; exact arith_seg h hb hn

theorem arith_sub {a b n : ℕ} (h : b ≤ a) (ha : a < 2147483648) (hn : a - b = n) :
    arith (Volume.sub (B := AABB I32 1) (vol a) (vol b)) = .ok (vol n : Volume.Vol (AABB I32 1)) := by
  subst hn; rw [arith_eq_ok]; exact sub_vol h ha

section Split

variable {α : Type} {bf : α → AABB I32 1} {v0 v1 o : α}

/-- The seeds, if the second value is farther from the overflowing one. -/
theorem worst_far {y w : ℕ} (h0 : bf v0 = seg (y + 1) (y + 1)) (h1 : bf v1 = seg y y) (ho : bf o = seg (y + 2) w) (hy : y + 2 ≤ w)
    (hw : w < 2147483648) : worstCombination bf [v0, v1] o = .ok (1, 2) := by
  have e1 : arith (Volume.volume (Bounds.union (bf v0) (bf o))) = .ok (vol (w - (y + 1)) : Volume.Vol (AABB I32 1)) := by
    rw [h0, ho]; exact arith_union (by omega) (by omega) (by omega)
  have e2 : arith (Volume.volume (Bounds.union (bf v1) (bf o))) = .ok (vol (w - y) : Volume.Vol (AABB I32 1)) := by
    rw [h1, ho]; exact arith_union (by omega) (by omega) (by omega)
  have e3 : arith (Volume.volume (Bounds.union (bf v0) (Bounds.union (bf v1) (bf o)))) = .ok (vol (w - y) : Volume.Vol (AABB I32 1)) := by
    rw [h0, h1, ho, union_to (e := y) (f := w) (by omega) (by omega)]
    exact arith_union (by omega) (by omega) (by omega)
  have l1 : Volume.lt (B := AABB I32 1) (vol (w - (y + 1))) (vol (w - y)) = true := by
    rw [lt_vol]; exact decide_eq_true (by omega)
  have l2 : Volume.lt (B := AABB I32 1) (vol (w - y)) (vol (w - y)) = false := by
    rw [lt_vol]; exact decide_eq_false (by omega)
  have hp : pairIndices [v0, v1].length = [(0, 1)] := rfl
  unfold worstCombination
  rw [hp]
  simp [worstWithOverflow, worstPair, e1, e2, e3, l1, l2, bot_lt_vol, index, List.zipIdx]

/-- The seeds, if the first value is farther from the overflowing one. -/
theorem worst_near {y w : ℕ} (h0 : bf v0 = seg y y) (h1 : bf v1 = seg (y + 1) (y + 1)) (ho : bf o = seg (y + 2) w) (hy : y + 2 ≤ w)
    (hw : w < 2147483648) : worstCombination bf [v0, v1] o = .ok (0, 2) := by
  have e1 : arith (Volume.volume (Bounds.union (bf v0) (bf o))) = .ok (vol (w - y) : Volume.Vol (AABB I32 1)) := by
    rw [h0, ho]; exact arith_union (by omega) (by omega) (by omega)
  have e2 : arith (Volume.volume (Bounds.union (bf v1) (bf o))) = .ok (vol (w - (y + 1)) : Volume.Vol (AABB I32 1)) := by
    rw [h1, ho]; exact arith_union (by omega) (by omega) (by omega)
  have e3 : arith (Volume.volume (Bounds.union (bf v0) (Bounds.union (bf v1) (bf o)))) = .ok (vol (w - y) : Volume.Vol (AABB I32 1)) := by
    rw [h0, h1, ho, union_to (e := y + 1) (f := w) (by omega) (by omega)]
    exact arith_union (by omega) (by omega) (by omega)
  have l1 : Volume.lt (B := AABB I32 1) (vol (w - y)) (vol (w - (y + 1))) = false := by
    rw [lt_vol]; exact decide_eq_false (by omega)
  have l2 : Volume.lt (B := AABB I32 1) (vol (w - y)) (vol (w - y)) = false := by
    rw [lt_vol]; exact decide_eq_false (by omega)
  have hp : pairIndices [v0, v1].length = [(0, 1)] := rfl
  unfold worstCombination
  rw [hp]
  simp [worstWithOverflow, worstPair, e1, e2, e3, l1, l2, bot_lt_vol, index, List.zipIdx]

/-- The rest of a split: the value next to the second seed joins it. -/
theorem loop_two {y w : ℕ} {far near : α} (h0 : bf far = seg y y) (h1 : bf near = seg (y + 1) (y + 1)) (ho : bf o = seg (y + 2) w)
    (hy : y + 2 ≤ w) (hw : w < 2147483648) :
    splitLoop bf 2 2 2 { values := [far, near], group1Len := 1, bounds1 := bf far, bounds2 := bf o, group2 := [o] } =
      .ok { values := [far], group1Len := 1, bounds1 := seg y y, bounds2 := seg (y + 1) w, group2 := [o, near] } := by
  have c1 : bestCandidate bf [near] (seg y y) = .ok (some (0, vol 1)) := by
    unfold bestCandidate
    rw [arith_seg (n := 0) (by omega) (by omega) (by omega)]
    have e : arith (Volume.volume (Bounds.union (bf near) (seg y y))) = .ok (vol 1 : Volume.Vol (AABB I32 1)) := by
      rw [h1]; exact arith_union (by omega) (by omega) (by omega)
    simp [e, arith_sub (a := 1) (b := 0) (n := 1) (by omega) (by omega) (by omega), minBy, List.zipIdx]
  have c2 : bestCandidate bf [near] (seg (y + 2) w) = .ok (some (0, vol 1)) := by
    unfold bestCandidate
    rw [arith_seg (n := w - (y + 2)) (by omega) (by omega) (by omega)]
    have e : arith (Volume.volume (Bounds.union (bf near) (seg (y + 2) w))) = .ok (vol (w - (y + 1)) : Volume.Vol (AABB I32 1)) := by
      rw [h1]; exact arith_union (by omega) (by omega) (by omega)
    simp [e, arith_sub (a := w - (y + 1)) (b := w - (y + 2)) (n := 1) (by omega) (by omega) (by omega), minBy, List.zipIdx]
  have l : Volume.lt (B := AABB I32 1) (vol 1) (vol 1) = false := by rw [lt_vol]; rfl
  have hu : Bounds.union (seg (y + 2) w) (bf near) = seg (y + 1) w := by rw [h1]; exact union_to (by omega) (by omega)
  have hstep : splitStep bf 2 2 { values := [far, near], group1Len := 1, bounds1 := bf far, bounds2 := bf o, group2 := [o] } =
      .ok { values := [far], group1Len := 1, bounds1 := seg y y, bounds2 := seg (y + 1) w, group2 := [o, near] } := by
    unfold splitStep
    rw [h0, ho]
    simp [c1, c2, l, unwrap, index, Vec.swapRemove, Vec.push, hu]
  unfold splitLoop
  rw [if_pos (by simp)]
  dsimp only
  rw [hstep]
  simp only [ok_bind]
  unfold splitLoop
  rw [if_neg (by simp)]

theorem split_far {y w : ℕ} (h0 : bf v0 = seg (y + 1) (y + 1)) (h1 : bf v1 = seg y y) (ho : bf o = seg (y + 2) w) (hy : y + 2 ≤ w)
    (hw : w < 2147483648) :
    split bf 2 2 [v0, v1] o = .ok { bounds1 := seg y y, group1 := [v1], bounds2 := seg (y + 1) w, group2 := [o, v0] } := by
  unfold split seedSplitGroups
  rw [worst_far h0 h1 ho hy hw]
  have := loop_two h1 h0 ho hy hw
  simp [Vec.swap, Vec.push, index, this]

theorem split_near {y w : ℕ} (h0 : bf v0 = seg y y) (h1 : bf v1 = seg (y + 1) (y + 1)) (ho : bf o = seg (y + 2) w) (hy : y + 2 ≤ w)
    (hw : w < 2147483648) :
    split bf 2 2 [v0, v1] o = .ok { bounds1 := seg y y, group1 := [v0], bounds2 := seg (y + 1) w, group2 := [o, v1] } := by
  unfold split seedSplitGroups
  rw [worst_near h0 h1 ho hy hw]
  have := loop_two h0 h1 ho hy hw
  simp [Vec.swap, Vec.push, index, this]

end Split

variable {V : Type} (v : V)

/-- Nodes with one child each, down to the point `x`. -/
def chain (x : ℕ) : ℕ → Node (AABB I32 1) (SVec I32 1) V
  | 0 => .leaf (seg x x) [(point x, v)]
  | l + 1 => .inner (seg x x) [chain x l]

/-- The points from `q` to `q + l + 1`, with the least of them in a chain of its own at every level. -/
def comb : ℕ → ℕ → Node (AABB I32 1) (SVec I32 1) V
  | 0, q => .leaf (seg q (q + 1)) [(point (q + 1), v), (point q, v)]
  | l + 1, q => .inner (seg q (q + l + 2)) [comb l (q + 1), chain v q l]

theorem chain_bounds (x l : ℕ) : (chain v x l).bounds = seg x x := by cases l <;> rfl

theorem comb_bounds (l q : ℕ) : (comb v l q).bounds = seg q (q + l + 1) := by cases l <;> rfl

/-- Which of two children a new point is inserted into. -/
theorem select_first {a b x w : ℕ} (hab : a ≤ b) (hbw : b < w) (hx : x < a) (hw : w < 2147483648) :
    select [seg a b, seg x x] (seg w w) = .ok (some 0) := by
  have i1 : volumeIncrease (seg a b) (seg w w) = .ok (vol (w - b) : Volume.Vol (AABB I32 1)) := by
    unfold volumeIncrease
    rw [arith_union (n := w - a) (by omega) (by omega) (by omega), arith_seg (n := b - a) (by omega) (by omega) rfl]
    exact arith_sub (by omega) (by omega) (by omega)
  have i2 : volumeIncrease (seg x x) (seg w w) = .ok (vol (w - x) : Volume.Vol (AABB I32 1)) := by
    unfold volumeIncrease
    rw [arith_union (n := w - x) (by omega) (by omega) (by omega), arith_seg (n := 0) (by omega) (by omega) (by omega)]
    exact arith_sub (by omega) (by omega) (by omega)
  have hc : Volume.cmp (B := AABB I32 1) (vol (w - b)) (vol (w - x)) = .lt := by
    rw [cmp_vol]; exact Nat.compare_eq_lt.2 (by omega)
  have hs : selectCmp (seg w w) (seg a b) (seg x x) = .ok .lt := by
    unfold selectCmp
    simp [i1, i2, hc]
  unfold select
  simp [minBy, List.zipIdx, hs]

theorem select_second {a b x w : ℕ} (hab : a ≤ b) (hbw : b < w) (hx : x < a) (hw : w < 2147483648) :
    select [seg x x, seg a b] (seg w w) = .ok (some 1) := by
  have i1 : volumeIncrease (seg a b) (seg w w) = .ok (vol (w - b) : Volume.Vol (AABB I32 1)) := by
    unfold volumeIncrease
    rw [arith_union (n := w - a) (by omega) (by omega) (by omega), arith_seg (n := b - a) (by omega) (by omega) rfl]
    exact arith_sub (by omega) (by omega) (by omega)
  have i2 : volumeIncrease (seg x x) (seg w w) = .ok (vol (w - x) : Volume.Vol (AABB I32 1)) := by
    unfold volumeIncrease
    rw [arith_union (n := w - x) (by omega) (by omega) (by omega), arith_seg (n := 0) (by omega) (by omega) (by omega)]
    exact arith_sub (by omega) (by omega) (by omega)
  have hc : Volume.cmp (B := AABB I32 1) (vol (w - x)) (vol (w - b)) = .gt := by
    rw [cmp_vol]; exact Nat.compare_eq_gt.2 (by omega)
  have hs : selectCmp (seg w w) (seg x x) (seg a b) = .ok .gt := by
    unfold selectCmp
    simp [i1, i2, hc]
  unfold select
  simp [minBy, List.zipIdx, hs]

section Overflow

variable {B K W : Type} [Bounds B] [Volume B] [Bounded K B]

/-- An insertion that splits a node: the new entry. -/
theorem leaf_overflow {a : Alloc} {b : B} {es : List (K × W)} {k : K} {w : W} {r : SplitResult B (K × W)} (hm : es.length = a.maxChildren)
    (hs : split entryBounds a.minChildren a.maxChildren es (k, w) = .ok r) :
    insertNode a 0 (.leaf b es : Node B K W) (.leaf k w) = .ok (.leaf r.bounds1 r.group1, some (0, .leaf r.bounds2 r.group2)) := by
  unfold insertNode
  rw [if_neg (by simp [NodeEntry.targetLevel])]
  simp [selfInsert, Node.leafChildren, Vec.tryPush, hm, hs]

/-- An insertion that splits a node: a child was split. -/
theorem inner_overflow {a : Alloc} {l i : ℕ} {b : B} {cs : List (Node B K W)} {k : K} {w : W} {c c' s : Node B K W}
    {r : SplitResult B (Node B K W)} (hsel : select (cs.map Node.bounds) (Bounded.bounds k) = .ok (some i)) (hi : index cs i = .ok c)
    (hc : insertNode a l c (.leaf k w) = .ok (c', some (l, s))) (hm : cs.length = a.maxChildren)
    (hs : split Node.bounds a.minChildren a.maxChildren (cs.set i c') s = .ok r) :
    insertNode a (l + 1) (.inner b cs : Node B K W) (.leaf k w) =
      .ok (.inner r.bounds1 r.group1, some (l + 1, .inner r.bounds2 r.group2)) := by
  unfold insertNode
  rw [if_pos (by simp [NodeEntry.targetLevel])]
  have : (NodeEntry.leaf k w : NodeEntry B K W).bounds = Bounded.bounds k := rfl
  simp only [Node.innerChildren, ok_bind, this, hsel, unwrap]
  simp [hi, hc, selfInsert, Node.innerChildren, Vec.tryPush, hm, hs]

/-- An insertion that splits the root. -/
theorem tree_overflow {a : Alloc} {l : ℕ} {n n' s : Node B K W} {k : K} {w : W}
    (hn : insertNode a l n (.leaf k w) = .ok (n', some (l, s))) (hm : 2 ≤ a.maxChildren) :
    Tree.insert ⟨a, l, n⟩ k w = .ok ⟨a, l + 1, .inner (Bounds.union n'.bounds s.bounds) [n', s]⟩ := by
  unfold Tree.insert Tree.insertEntry
  dsimp only
  rw [hn]
  simp [Tree.branch, Vec.push, show ¬ (0 = a.maxChildren) by omega, show ¬ (1 = a.maxChildren) by omega]

end Overflow

theorem entryBounds_point (x : ℕ) : (entryBounds (point x, v) : AABB I32 1) = seg x x := rfl

theorem point_bounds (x : ℕ) : (Bounded.bounds (point x) : AABB I32 1) = seg x x := rfl

/-- Inserting the next point into a comb splits off its least point. -/
theorem insert_comb (l q w : ℕ) (hw : w = q + l + 2) (hq : w < 2147483648) :
    insertNode ⟨2, 2⟩ l (comb v l q) (.leaf (point w) v) = .ok (chain v q l, some (l, comb v l (q + 1))) := by
  induction l generalizing q with
  | zero =>
    subst hw
    have hs := split_far (bf := entryBounds (K := SVec I32 1) (V := V) (B := AABB I32 1)) (v0 := (point (q + 1), v)) (v1 := (point q, v))
      (o := (point (q + 2), v)) (y := q) (w := q + 2) (entryBounds_point ..) (entryBounds_point ..) (entryBounds_point ..) (by omega)
      (by omega)
    exact leaf_overflow (a := ⟨2, 2⟩) rfl hs
  | succ l ih =>
    have hsel : select ([comb v l (q + 1), chain v q l].map Node.bounds) (Bounded.bounds (point w)) = .ok (some 0) := by
      rw [point_bounds]
      simp only [List.map_cons, List.map_nil, comb_bounds, chain_bounds]
      exact select_first (by omega) (by omega) (by omega) hq
    have hins := ih (q + 1) (by omega)
    have hs := split_far (bf := Node.bounds (B := AABB I32 1) (K := SVec I32 1) (V := V)) (v0 := chain v (q + 1) l) (v1 := chain v q l)
      (o := comb v l (q + 1 + 1)) (y := q) (w := q + 1 + l + 2) (chain_bounds ..) (chain_bounds ..)
      (by rw [comb_bounds, show q + 1 + 1 + l + 1 = q + 1 + l + 2 by omega]) (by omega) (by omega)
    exact inner_overflow (a := ⟨2, 2⟩) hsel rfl hins rfl hs

/-- The tree of the points from `0` to `l + 2`. -/
def list (l : ℕ) : Tree (AABB I32 1) (SVec I32 1) V := ⟨⟨2, 2⟩, l + 1, .inner (seg 0 (l + 2)) [chain v 0 l, comb v l 1]⟩

theorem insert_list (l : ℕ) (hl : l + 3 < 2147483648) : (list v l).insert (point (l + 3)) v = .ok (list v (l + 1)) := by
  have hsel : select ([chain v 0 l, comb v l 1].map Node.bounds) (Bounded.bounds (point (l + 3))) = .ok (some 1) := by
    rw [point_bounds]
    simp only [List.map_cons, List.map_nil, comb_bounds, chain_bounds]
    exact select_second (by omega) (by omega) (by omega) (by omega)
  have hins := insert_comb v l 1 (l + 3) (by omega) (by omega)
  have hs := split_near (bf := Node.bounds (B := AABB I32 1) (K := SVec I32 1) (V := V)) (v0 := chain v 0 l) (v1 := chain v 1 l)
    (o := comb v l 2) (y := 0) (w := 1 + l + 2) (chain_bounds ..) (chain_bounds ..)
    (by rw [comb_bounds, show 2 + l + 1 = 1 + l + 2 by omega]) (by omega) (by omega)
  have hn := inner_overflow (a := ⟨2, 2⟩) (b := seg 0 (l + 2)) hsel rfl hins rfl hs
  refine (tree_overflow hn (by decide)).trans ?_
  have hu : Bounds.union (Node.inner (seg 0 0) [chain v 0 l]).bounds (Node.inner (seg (0 + 1) (1 + l + 2)) [comb v l 2, chain v 1 l]).bounds =
      seg 0 (l + 1 + 2) := union_to (by omega) (by omega)
  simp only [hu]
  rfl

theorem insert_leaf {B K W : Type} [Bounds B] [Volume B] [Bounded K B] {a : Alloc} {b : B} {es : List (K × W)} (k : K) (w : W)
    (hm : es.length ≠ a.maxChildren) :
    Tree.insert ⟨a, 0, .leaf b es⟩ k w = .ok ⟨a, 0, .leaf (Bounds.union b (Bounded.bounds k)) (es ++ [(k, w)])⟩ := by
  unfold Tree.insert Tree.insertEntry insertNode
  dsimp only
  rw [if_neg (by simp [NodeEntry.targetLevel])]
  simp [selfInsert, Node.leafChildren, Vec.tryPush, hm, Node.bounds, NodeEntry.bounds]

/-- The points `0`, `1`, ... inserted in order. -/
def points (n : ℕ) : List (Op (AABB I32 1) (SVec I32 1) V) := (List.range n).map fun i => .insert (point i) v

theorem points_succ (n : ℕ) : points v (n + 1) = points v n ++ [.insert (point n) v] := by
  simp [points, List.range_succ]

theorem run_points_succ {n : ℕ} {t t' : Tree (AABB I32 1) (SVec I32 1) V} (h : run (Tree.new ⟨2, 2⟩) (points v n) = .ok t)
    (ht : t.insert (point n) v = .ok t') : run (Tree.new ⟨2, 2⟩) (points v (n + 1)) = .ok t' := by
  unfold run at h ⊢
  rw [points_succ, List.foldlM_append, h]
  simp [Op.step, ht]

theorem run_points (l : ℕ) (hl : l + 3 ≤ 2147483648) : run (Tree.new ⟨2, 2⟩) (points v (l + 3)) = .ok (list v l) := by
  induction l with
  | zero =>
    have h0 : run (Tree.new ⟨2, 2⟩) (points v 0) = .ok (Tree.new ⟨2, 2⟩) := rfl
    have h1 := run_points_succ v h0 (insert_leaf (a := ⟨2, 2⟩) (point 0) v (by simp))
    have h2 := run_points_succ v h1 (insert_leaf (a := ⟨2, 2⟩) (point 1) v (by simp))
    refine run_points_succ v h2 ?_
    have hs := split_near (bf := entryBounds (K := SVec I32 1) (V := V) (B := AABB I32 1)) (v0 := (point 0, v)) (v1 := (point 1, v))
      (o := (point 2, v)) (y := 0) (w := 2) (entryBounds_point ..) (entryBounds_point ..) (entryBounds_point ..) (by omega) (by omega)
    have hn := leaf_overflow (a := ⟨2, 2⟩) (b := (Bounds.union (Bounds.union Bounds.empty (Bounded.bounds (point 0))) (Bounded.bounds (point 1))))
      rfl hs
    refine (tree_overflow hn (by decide)).trans ?_
    have hu : Bounds.union (Node.leaf (seg 0 0) [(point 0, v)]).bounds (Node.leaf (seg (0 + 1) 2) [(point 2, v), (point 1, v)]).bounds =
        seg 0 (0 + 2) := union_to (by omega) (by omega)
    simp only [hu]
    rfl
  | succ l ih => exact run_points_succ v (ih (by omega)) (insert_list v l (by omega))

end RTree.Linear
