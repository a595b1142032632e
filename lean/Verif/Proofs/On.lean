import Verif.Proofs.Join
import Verif.Proofs.LeftJoin
/-! Exactness of filtered iteration and joins, for filters that honour their contract on the bounds of the trees at hand. -/

namespace RTree

/-- `Covered`, and the bounds of all nodes satisfy `R`. -/
def CoveredOn {B K V : Type} [Bounds B] [Enclosure B] [Bounded K B] (P : K → Prop) (R : B → Prop) (l : Nat)
    (n : Node B K V) : Prop := Covered P l n ∧ ∀ m ∈ n :: n.descendants, R m.bounds

section

variable {B K V Q : Type} [Bounds B] [Enclosure B] [Bounded K B] {P : K → Prop} {R : B → Prop}

theorem CoveredOn.nodeInv : NodeInv (CoveredOn (V := V) P R) where
  leaf h := Covered.nodeInv.leaf h.1
  inner {l n} h := by
    obtain ⟨b, cs, rfl, hcs⟩ := Covered.nodeInv.inner h.1
    refine ⟨b, cs, rfl, fun c hc => ⟨hcs c hc, fun m hm => h.2 m ?_⟩⟩
    refine List.mem_cons_of_mem _ ?_
    rw [Node.descendants, mem_descendantsList]
    exact ⟨c, hc, List.mem_cons.1 hm⟩

theorem CoveredOn.bounds {l : Nat} {n : Node B K V} (h : CoveredOn P R l n) : R n.bounds := h.2 n List.mem_cons_self

theorem Reachable.coveredOn [Volume B] [BEq K] {c : Config} {t : Tree B K V} {P' : K → Prop} (h : Reachable c P' t)
    (hP : ∀ e ∈ t.entries, P e.1) (hR : ∀ n ∈ t.nodes, R n.bounds) : CoveredOn P R t.level t.root := by
  let _ : VolumeLaws B := trivialVolumeLaws
  exact ⟨h.treeOk_covers.ok.covered hP, hR⟩

theorem Reachable.filterIter_on [Volume B] [BEq K] {c : Config} {t : Tree B K V} {P' : K → Prop} (h : Reachable c P' t)
    (hP : ∀ e ∈ t.entries, P e.1) (hR : ∀ n ∈ t.nodes, R n.bounds) {borrow : K → Q} {f : SpatialFilter B Q}
    (hf : ∀ (k : K) (b : B), P k → R b → f.testKey (borrow k) = true → Enclosure.le (Bounded.bounds k) b →
      f.testBounds b = true) :
    t.filterIter borrow f = .ok (t.entries.filter fun e => f.testKey (borrow e.1)) := by
  rw [Tree.filterIter_of_shape borrow f h.shape]
  rw [(NodeInv.matching CoveredOn.nodeInv (tb := f.testBounds) (tk := fun e => f.testKey (borrow e.1))
    (fun l n hn e he hk => hf e.1 n.bounds (hn.1.entry e he).1 hn.bounds hk (hn.1.entry e he).2) (h.coveredOn hP hR)).1]
  congr 1
  split
  · rfl
  · rename_i hb
    symm
    rw [List.filter_eq_nil_iff]
    intro e he hk
    have hc := h.coveredOn hP hR
    exact hb (hf e.1 _ (hc.1.entry e he).1 hc.bounds hk (hc.1.entry e he).2)

end

variable {B0 B1 K0 K1 V0 V1 Q0 Q1 : Type} [Bounds B0] [Volume B0] [Bounded K0 B0] [BEq K0] [Bounds B1] [Volume B1]
  [Bounded K1 B1] [BEq K1]
variable {c0 c1 : Config} {P0 : K0 → Prop} {P1 : K1 → Prop} {P0' : K0 → Prop} {P1' : K1 → Prop} {R0 : B0 → Prop} {R1 : B1 → Prop} {t0 : Tree B0 K0 V0}
  {t1 : Tree B1 K1 V1}

theorem Reachable.join_on [Enclosure B0] [Enclosure B1] (h0 : Reachable c0 P0' t0) (h1 : Reachable c1 P1' t1)
    (hP0 : ∀ e ∈ t0.entries, P0 e.1) (hP1 : ∀ e ∈ t1.entries, P1 e.1) (hR0 : ∀ n ∈ t0.nodes, R0 n.bounds) (hR1 : ∀ n ∈ t1.nodes, R1 n.bounds)
    {borrow0 : K0 → Q0} {borrow1 : K1 → Q1} {f : JoinFilter B0 B1 Q0 Q1}
    (hf : ∀ (k0 : K0) (k1 : K1) (b0 : B0) (b1 : B1), P0 k0 → P1 k1 → R0 b0 → R1 b1 →
      f.testKey (borrow0 k0) (borrow1 k1) = true →
      Enclosure.le (Bounded.bounds k0) b0 → Enclosure.le (Bounded.bounds k1) b1 → f.testBounds b0 b1 = true) :
    ∃ out, t0.join borrow0 borrow1 f t1 = .ok out ∧
      out.Perm ((t0.entries.flatMap fun a => t1.entries.map fun b => (a, b)).filter fun x =>
        f.testKey (borrow0 x.1.1) (borrow1 x.2.1)) := by
  refine ⟨_, Tree.join_of_shape borrow0 borrow1 f h0.shape h1.shape, ?_⟩
  refine List.Perm.trans ?_ ((pairs_perm_product _ _).filter _)
  refine NodeInv.joinMatching (CoveredOn.nodeInv (P := P0) (R := R0)) (CoveredOn.nodeInv (P := P1) (R := R1))
    (tb := fun x => f.testBounds x.1.bounds x.2.bounds) (x := (t0.root, t1.root)) ?_
    (p0 := max t0.level t1.level - t0.level) (p1 := max t0.level t1.level - t1.level) ?_ ?_
  · intro l l' n0 n1 hn0 hn1 e0 he0 e1 he1 hk
    exact hf e0.1 e1.1 _ _ (hn0.1.entry e0 he0).1 (hn1.1.entry e1 he1).1 hn0.bounds hn1.bounds hk
      (hn0.1.entry e0 he0).2 (hn1.1.entry e1 he1).2
  · rw [show max t0.level t1.level - (max t0.level t1.level - t0.level) = t0.level by omega]
    exact h0.coveredOn hP0 hR0
  · rw [show max t0.level t1.level - (max t0.level t1.level - t1.level) = t1.level by omega]
    exact h1.coveredOn hP1 hR1

theorem Reachable.leftJoin_on [Enclosure B0] [Enclosure B1] [Bounded Q0 B0] (h0 : Reachable c0 P0' t0)
    (h1 : Reachable c1 P1' t1) (hP0 : ∀ e ∈ t0.entries, P0 e.1) (hP1 : ∀ e ∈ t1.entries, P1 e.1) (hR0 : ∀ n ∈ t0.nodes, R0 n.bounds) (hR1 : ∀ n ∈ t1.nodes, R1 n.bounds)
    (hRk : ∀ k, P0 k → R0 (Bounded.bounds k)) {borrow0 : K0 → Q0} {borrow1 : K1 → Q1} (hb : LawfulBorrow borrow0)
    {f : JoinFilter B0 B1 Q0 Q1}
    (hf : ∀ (k0 : K0) (k1 : K1) (b0 : B0) (b1 : B1), P0 k0 → P1 k1 → R0 b0 → R1 b1 →
      f.testKey (borrow0 k0) (borrow1 k1) = true →
      Enclosure.le (Bounded.bounds k0) b0 → Enclosure.le (Bounded.bounds k1) b1 → f.testBounds b0 b1 = true) :
    t0.leftJoin borrow0 borrow1 f t1 =
      .ok (t0.entries.map fun a => (a, t1.entries.filter fun b => f.testKey (borrow0 a.1) (borrow1 b.1))) := by
  obtain ⟨out, o1, o2, o3⟩ := Tree.leftJoin_spec borrow0 borrow1 f (CoveredOn.nodeInv (P := P0) (R := R0))
    (CoveredOn.nodeInv (P := P1) (R := R1))
    (Rel := fun e xs => P0 e.1 ∧ xs.filter (fun b => f.testKey (borrow0 e.1) (borrow1 b.1)) =
      t1.entries.filter fun b => f.testKey (borrow0 e.1) (borrow1 b.1))
    (M := fun e ms => ms = t1.entries.filter fun b => f.testKey (borrow0 e.1) (borrow1 b.1)) (tl := t0) (tr := t1)
    (by
      intro l l' nl nr e ys hnl hnr he ht hr
      refine ⟨hr.1, ?_⟩
      have hz : nr.entries.filter (fun b => f.testKey (borrow0 e.1) (borrow1 b.1)) = [] := by
        rw [List.filter_eq_nil_iff]
        intro b hb' hk
        rw [hf e.1 b.1 _ _ hr.1 (hnr.1.entry b hb').1 hnl.bounds hnr.bounds hk (hnl.1.entry e he).2
          (hnr.1.entry b hb').2] at ht
        cases ht
      have := hr.2
      rw [List.filter_append, hz, List.nil_append] at this
      exact this)
    (by
      intro e rl its hi hall hr
      refine ⟨_, LeftJoinIter.collect_exact borrow1 _ CoveredOn.nodeInv ?_ hi hall, ?_⟩
      · intro l n hn b hb' hk
        refine hf e.1 b.1 _ _ hr.1 (hn.1.entry b hb').1 ?_ hn.bounds hk ?_ (hn.1.entry b hb').2
        · rw [hb]; exact hRk _ hr.1
        · rw [hb]; exact Enclosure.le_refl _
      · exact hr.2)
    (h0.coveredOn hP0 hR0) (h1.coveredOn hP1 hR1) (fun e he => ⟨hP0 e he, rfl⟩)
  rw [o1]
  congr 1
  rw [← o2, List.map_map]
  conv => lhs; rw [← List.map_id out]
  refine List.map_congr_left fun x hx => ?_
  exact Prod.ext rfl (o3 x hx)

end RTree
