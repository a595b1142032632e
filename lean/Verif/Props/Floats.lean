import Verif.Proofs.FloatError
import Verif.Proofs.FloatSegments
import Verif.Proofs.FloatRays
import Verif.Proofs.FiniteRange
/-!
# Floating point coordinates (C61, C62, and C40 - C44 for `N32` and `N64`)

`N32` and `N64` are the `NoisyFloat`s: infinities are values of them, NaN panics. Rounding, overflow and underflow are those
of IEEE 754. `none` is a panic.
-/

namespace RTree

open AABB (Mem)

/-- An `N64` literal. -/
def n64 (q : ℚ) (h : (XRat.rat q).isOf .binary64 = true := by decide +kernel) : N64 := ⟨XRat.rat q, h⟩

/-- An `N32` literal. -/
def n32 (q : ℚ) (h : (XRat.rat q).isOf .binary32 = true := by decide +kernel) : N32 := ⟨XRat.rat q, h⟩

/-- The infinity of `N64`. -/
def inf64 : N64 := ⟨XRat.top, rfl⟩

/-- A point in the plane. -/
def fpt (x y : N64) : SVec N64 2 := ⟨![x, y]⟩

theorem NoisyFloat.finite_iff {F : Format} {a : NoisyFloat F} : Scalar.Finite a ↔ a.1 ≠ ⊥ ∧ a.1 ≠ XRat.top := by
  rcases a.1.cases with h | h | ⟨q, h⟩
  · exact ⟨fun ⟨q, hq⟩ => absurd (h.symm.trans hq) nofun, fun hn => absurd h hn.1⟩
  · exact ⟨fun ⟨q, hq⟩ => absurd (h.symm.trans hq) nofun, fun hn => absurd h hn.2⟩
  · exact ⟨fun _ => by rw [h]; exact ⟨nofun, nofun⟩, fun _ => ⟨q, h⟩⟩

instance {F : Format} (a : NoisyFloat F) : Decidable (Scalar.Finite a) := decidable_of_iff _ NoisyFloat.finite_iff.symm

variable {F : Format} {D : Nat} {V : Type} {c : Config}

/-! ## C61: nearest neighbours -/

section Nearest

variable {P : SVec (NoisyFloat F) D → Prop} {t : Tree (AABB (NoisyFloat F) D) (SVec (NoisyFloat F) D) V}
  {p : SVec (NoisyFloat F) D} {PB : AABB (NoisyFloat F) D → Prop}
  {tb : Tree (AABB (NoisyFloat F) D) (AABB (NoisyFloat F) D) V}

/-- C61: no distance to a finite point is NaN, on any tree of points (also an empty one, and if coordinates of keys are
    infinite). -/
theorem C61_points_defined (hD : 0 < D) (hp : ∀ i, Scalar.Finite (p.get i)) : (euclidPoints p).DefinedOn t := by
  refine ⟨fun n _ => ?_, fun e _ => ?_⟩
  · obtain ⟨m, hm⟩ := NoisyFloat.distSq_isSome hD ((p.cmax n.bounds.min).cmin n.bounds.max) hp
    exact ⟨m, arith_eq_ok.2 hm⟩
  · obtain ⟨m, hm⟩ := NoisyFloat.distSq_isSome hD e.1 hp
    exact ⟨m, arith_eq_ok.2 hm⟩

/-- C61: the same for trees of boxes. -/
theorem C61_boxes_defined (hD : 0 < D) (hp : ∀ i, Scalar.Finite (p.get i)) : (euclidBoxes p).DefinedOn tb := by
  refine ⟨fun n _ => ?_, fun e _ => ?_⟩
  · obtain ⟨m, hm⟩ := NoisyFloat.distSq_isSome hD ((p.cmax n.bounds.min).cmin n.bounds.max) hp
    exact ⟨m, arith_eq_ok.2 hm⟩
  · obtain ⟨m, hm⟩ := NoisyFloat.distSq_isSome hD ((p.cmax e.1.min).cmin e.1.max) hp
    exact ⟨m, arith_eq_ok.2 hm⟩

/-- C61: `iter_asc_by` yields every entry once by non-decreasing calculated distance, and `min_by` returns an entry of least
    calculated distance (`None` iff the tree is empty), for a finite point and any tree of points. -/
theorem C61_nearest_points (hD : 0 < D) (h : Reachable c P t) (hh : IterHeap (AABB (NoisyFloat F) D) (SVec (NoisyFloat F) D) V (NoisyFloat F))
    (hp : ∀ i, Scalar.Finite (p.get i)) {es : List (SVec (NoisyFloat F) D × V)} (hes : t.iter = .ok es) :
    (∃ out, t.iterAscBy hh (euclidPoints p) = .ok out ∧ out.Perm es ∧
      out.Pairwise fun a b => ∃ m n, a.1.distSq p = some m ∧ b.1.distSq p = some n ∧ m ≤ n) ∧
    ∃ o, t.minBy hh (euclidPoints p) = .ok o ∧ (o = none ↔ es = []) ∧
      ∀ e, o = some e → e ∈ es ∧ ∀ e' ∈ es, ∃ m n, e.1.distSq p = some m ∧ e'.1.distSq p = some n ∧ m ≤ n := by
  have key : ∀ a b : SVec (NoisyFloat F) D × V,
      (∀ m n, (euclidPoints p).rankKey a.1 = .ok m → (euclidPoints p).rankKey b.1 = .ok n → m ≤ n) →
      ∃ m n, a.1.distSq p = some m ∧ b.1.distSq p = some n ∧ m ≤ n := by
    intro a b hab
    obtain ⟨m, hm⟩ := NoisyFloat.distSq_isSome hD a.1 hp
    obtain ⟨n, hn⟩ := NoisyFloat.distSq_isSome hD b.1 hp
    exact ⟨m, n, hm, hn, hab m n (arith_eq_ok.2 hm) (arith_eq_ok.2 hn)⟩
  constructor
  · obtain ⟨out, h1, h2, h3⟩ := C12_iter_asc_by h hh (C38_honours_points p P) (C61_points_defined hD hp) hes
    exact ⟨out, h1, h2, h3.imp fun hab => key _ _ hab⟩
  · obtain ⟨o, h1, h2, h3⟩ := C13_min_by h hh (C38_honours_points p P) (C61_points_defined hD hp) hes
    exact ⟨o, h1, h2, fun e he => ⟨(h3 e he).1, fun e' he' => key e e' ((h3 e he).2 e' he')⟩⟩

/-- C61: the same for boxes that are not inverted. -/
theorem C61_nearest_boxes (hD : 0 < D) (hP : ∀ k, PB k → k.Valid) (h : Reachable c PB tb)
    (hh : IterHeap (AABB (NoisyFloat F) D) (AABB (NoisyFloat F) D) V (NoisyFloat F))
    (hp : ∀ i, Scalar.Finite (p.get i)) {es : List (AABB (NoisyFloat F) D × V)} (hes : tb.iter = .ok es) :
    (∃ out, tb.iterAscBy hh (euclidBoxes p) = .ok out ∧ out.Perm es ∧
      out.Pairwise fun a b => ∃ m n, a.1.distSq p = some m ∧ b.1.distSq p = some n ∧ m ≤ n) ∧
    ∃ o, tb.minBy hh (euclidBoxes p) = .ok o ∧ (o = none ↔ es = []) ∧
      ∀ e, o = some e → e ∈ es ∧ ∀ e' ∈ es, ∃ m n, e.1.distSq p = some m ∧ e'.1.distSq p = some n ∧ m ≤ n := by
  have key : ∀ a b : AABB (NoisyFloat F) D × V,
      (∀ m n, (euclidBoxes p).rankKey a.1 = .ok m → (euclidBoxes p).rankKey b.1 = .ok n → m ≤ n) →
      ∃ m n, a.1.distSq p = some m ∧ b.1.distSq p = some n ∧ m ≤ n := by
    intro a b hab
    obtain ⟨m, hm⟩ := NoisyFloat.distSq_isSome hD ((p.cmax a.1.min).cmin a.1.max) hp
    obtain ⟨n, hn⟩ := NoisyFloat.distSq_isSome hD ((p.cmax b.1.min).cmin b.1.max) hp
    exact ⟨m, n, hm, hn, hab m n (arith_eq_ok.2 hm) (arith_eq_ok.2 hn)⟩
  constructor
  · obtain ⟨out, h1, h2, h3⟩ := C12_iter_asc_by h hh (C38_honours_boxes p hP) (C61_boxes_defined hD hp) hes
    exact ⟨out, h1, h2, h3.imp fun hab => key _ _ hab⟩
  · obtain ⟨o, h1, h2, h3⟩ := C13_min_by h hh (C38_honours_boxes p hP) (C61_boxes_defined hD hp) hes
    exact ⟨o, h1, h2, fun e he => ⟨(h3 e he).1, fun e' he' => key e e' ((h3 e he).2 e' he')⟩⟩

/-- C61: a calculated distance that does not overflow is the squared euclidean distance up to a relative error of about
    `(D + 2) * unit`, and an absolute one of about `D * tiny` from underflow. -/
theorem C61_point_rank {k : SVec (NoisyFloat F) D} {m : NoisyFloat F} (h : k.distSq p = some m) (hm : Scalar.Finite m) :
    (1 - F.unit) ^ (D + 2) * sqDist k p - D * F.tiny ≤ Scalar.toRat m ∧
      Scalar.toRat m ≤ (1 + F.unit) ^ (D + 2) * (sqDist k p + D * F.tiny) := by
  obtain ⟨q, hq⟩ := hm
  have hq : m.1 = XRat.rat q := hq
  have : Scalar.toRat m = q := by show m.1.toRat = q; rw [hq]; rfl
  rw [this]
  exact NoisyFloat.distSq_near h hq

/-- C61: the same for the distance of a finite box that is not inverted. -/
theorem C61_box_rank {k : AABB (NoisyFloat F) D} (hk : k.Valid)
    (hf : ∀ i, Scalar.Finite (k.min.get i) ∧ Scalar.Finite (k.max.get i)) (hp : ∀ i, Scalar.Finite (p.get i))
    {m : NoisyFloat F} (h : k.distSq p = some m) (hm : Scalar.Finite m) :
    ∃ d, k.HasDist p d ∧ (1 - F.unit) ^ (D + 2) * d - D * F.tiny ≤ Scalar.toRat m ∧
      Scalar.toRat m ≤ (1 + F.unit) ^ (D + 2) * (d + D * F.tiny) :=
  ⟨sqDist (k.closest p) p, ⟨⟨_, AABB.closest_mem hk p, rfl⟩, fun _ hq => NoisyFloat.closest_le hp hf hq⟩, C61_point_rank h hm⟩

/-- C61: `min_by` returns a nearest point, up to rounding errors: no entry whose distance does not overflow is nearer by more
    than the rounding errors of both. -/
theorem C61_min_by_near (hD : 0 < D) (h : Reachable c P t)
    (hh : IterHeap (AABB (NoisyFloat F) D) (SVec (NoisyFloat F) D) V (NoisyFloat F))
    (hp : ∀ i, Scalar.Finite (p.get i)) {es : List (SVec (NoisyFloat F) D × V)} (hes : t.iter = .ok es)
    {e e' : SVec (NoisyFloat F) D × V} (ho : t.minBy hh (euclidPoints p) = .ok (some e)) (he' : e' ∈ es) {n : NoisyFloat F}
    (hn : e'.1.distSq p = some n) (hf : Scalar.Finite n) :
    (1 - F.unit) ^ (D + 2) * sqDist e.1 p - D * F.tiny ≤ (1 + F.unit) ^ (D + 2) * (sqDist e'.1 p + D * F.tiny) := by
  obtain ⟨-, o, h1, -, h3⟩ := C61_nearest_points hD h hh hp hes
  rw [ho] at h1
  injection h1 with h1
  obtain ⟨-, h4⟩ := h3 e h1.symm
  obtain ⟨m, n', hm, hn', hle⟩ := h4 e' he'
  rw [hn] at hn'
  injection hn' with hn'
  subst hn'
  have hmf : Scalar.Finite m := by
    have h0 := NoisyFloat.distSq_nonneg hm
    refine NoisyFloat.finite_iff.2 ⟨fun hb => ?_, fun ht => ?_⟩
    · rw [hb] at h0; exact absurd h0 (XRat.not_le_bot _)
    · obtain ⟨q, hq⟩ := hf
      have hq : n.1 = XRat.rat q := hq
      have : m.1 ≤ n.1 := hle
      rw [ht, hq] at this
      exact absurd this (XRat.not_top_le _)
  exact (C61_point_rank hm hmf).1.trans ((NoisyFloat.toRat_le hmf hf hle).trans (C61_point_rank hn hf).2)

end Nearest

/-- Two points whose distances to the origin differ by less than the rounding errors. -/
def nearOps : List (Op (AABB N64 2) (SVec N64 2) Nat) :=
  [.insert (fpt (n64 (1 + 110123755 / 2 ^ 52)) (n64 (1 + 110074435 / 2 ^ 52))) 0,
   .insert (fpt (n64 (1 + 105180425 / 2 ^ 52)) (n64 (1 + 115017765 / 2 ^ 52))) 1]

/-- The tree of the two points. -/
def nearTree : Tree (AABB N64 2) (SVec N64 2) Nat := (run (Tree.new cfg42) nearOps).getD (Tree.new cfg42)

theorem near_run : run (Tree.new cfg42) nearOps = .ok nearTree := Res.ok_getD _ (by decide +kernel)

theorem near_reachable : Reachable cfg42 (fun _ => True) nearTree := Reachable.run .new (fun _ _ _ _ => trivial) near_run

theorem near_iter : nearTree.iter =
    .ok [(fpt (n64 (1 + 110123755 / 2 ^ 52)) (n64 (1 + 110074435 / 2 ^ 52)), 0),
      (fpt (n64 (1 + 105180425 / 2 ^ 52)) (n64 (1 + 115017765 / 2 ^ 52)), 1)] := by
  refine (Res.ok_getD [] (by decide +kernel)).trans ?_
  congr 1

/-- C61: the rounding errors matter: `min_by` may return an entry that is not nearest. -/
theorem C61_not_exact (hh : IterHeap (AABB N64 2) (SVec N64 2) Nat N64) : ∃ e e',
    e' ∈ [(fpt (n64 (1 + 110123755 / 2 ^ 52)) (n64 (1 + 110074435 / 2 ^ 52)), 0),
      (fpt (n64 (1 + 105180425 / 2 ^ 52)) (n64 (1 + 115017765 / 2 ^ 52)), 1)] ∧
    nearTree.minBy hh (euclidPoints (fpt (n64 0) (n64 0))) = .ok (some e) ∧
    sqDist e'.1 (fpt (n64 0) (n64 0)) < sqDist e.1 (fpt (n64 0) (n64 0)) := by
  obtain ⟨-, o, h1, h2, h3⟩ := C61_nearest_points (by decide) near_reachable hh (p := fpt (n64 0) (n64 0))
    (by decide +kernel) near_iter
  obtain ⟨e, rfl⟩ : ∃ e, o = some e := by
    cases o with
    | none => exact absurd (h2.1 rfl) (by simp)
    | some e => exact ⟨e, rfl⟩
  obtain ⟨h4, h5⟩ := h3 e rfl
  obtain ⟨m, n, hm, hn, hle⟩ := h5 _ (List.mem_cons_of_mem _ (List.mem_cons_self))
  refine ⟨e, _, List.mem_cons_self, h1, ?_⟩
  rcases List.mem_cons.1 h4 with rfl | h4
  · exfalso
    have key : (match (fpt (n64 (1 + 110123755 / 2 ^ 52)) (n64 (1 + 110074435 / 2 ^ 52))).distSq (fpt (n64 0) (n64 0)),
        (fpt (n64 (1 + 105180425 / 2 ^ 52)) (n64 (1 + 115017765 / 2 ^ 52))).distSq (fpt (n64 0) (n64 0)) with
      | some m, some n => decide (¬ m ≤ n)
      | _, _ => false) = true := by decide +kernel
    simp only at hm hn
    rw [hm, hn] at key
    exact of_decide_eq_true key hle
  · obtain rfl := List.mem_singleton.1 h4
    simp only [sqDist]
    decide +kernel

/-- `C61_min_by_near` applies to it: all distances are finite. -/
example (hh : IterHeap (AABB N64 2) (SVec N64 2) Nat N64) : ∃ e, nearTree.minBy hh (euclidPoints (fpt (n64 0) (n64 0))) = .ok (some e) ∧
    (1 - 1 / 2 ^ 53) ^ 4 * sqDist e.1 (fpt (n64 0) (n64 0)) - 2 * (1 / 2 ^ 1074) ≤
      (1 + 1 / 2 ^ 53) ^ 4 * (sqDist (fpt (n64 (1 + 110123755 / 2 ^ 52)) (n64 (1 + 110074435 / 2 ^ 52))) (fpt (n64 0) (n64 0)) + 2 * (1 / 2 ^ 1074)) := by
  obtain ⟨e, _, _, ho, _⟩ := C61_not_exact hh
  refine ⟨e, ho, ?_⟩
  obtain ⟨m, hm⟩ := NoisyFloat.distSq_isSome (by decide) (fpt (n64 (1 + 110123755 / 2 ^ 52)) (n64 (1 + 110074435 / 2 ^ 52)))
    (p := fpt (n64 0) (n64 0)) (by decide +kernel)
  have hf : Scalar.Finite m := by
    have key : (match (fpt (n64 (1 + 110123755 / 2 ^ 52)) (n64 (1 + 110074435 / 2 ^ 52))).distSq (fpt (n64 0) (n64 0)) with
      | some m => decide (Scalar.Finite m)
      | _ => false) = true := by decide +kernel
    rw [hm] at key
    exact of_decide_eq_true key
  have := C61_min_by_near (by decide) near_reachable hh (p := fpt (n64 0) (n64 0)) (by decide +kernel) near_iter ho
    List.mem_cons_self hm hf
  have e1 : Format.unit .binary64 = 1 / 2 ^ 53 := by decide +kernel
  have e2 : Format.tiny .binary64 = 1 / 2 ^ 1074 := by decide +kernel
  rw [e1, e2] at this
  exact_mod_cast this

/-- A query point at infinity: the distance to a point at infinity is NaN. -/
example : (fpt inf64 (n64 0)).distSq (fpt inf64 (n64 1)) = none := by decide +kernel

/-! ## C62: insertion -/

/-- C62 is false of the code: inserting finite points may panic. The volume of the box around (0, 2 ^ 1023) and
    (0, -2 ^ 1023) is `0 * ∞`, NaN, and is calculated when a node is split. -/
theorem C62_insert_refuted : ∃ ops : List (Op (AABB N64 2) (SVec N64 2) Nat), cfg42.Sound ∧
    (∀ op ∈ ops, ∀ k, op.inserts = some k → ∀ i, Scalar.Finite (k.get i)) ∧ run (Tree.new cfg42) ops = .error .arithmetic := by
  refine ⟨[.insert (fpt (n64 0) (n64 (2 ^ 1023))) 0, .insert (fpt (n64 0) (n64 (-2 ^ 1023))) 1,
    .insert (fpt (n64 0) (n64 0)) 2, .insert (fpt (n64 0) (n64 1)) 3, .insert (fpt (n64 0) (n64 2)) 4], cfg42_sound, ?_, ?_⟩
  · intro op h k hk
    have : ∀ op ∈ ([.insert (fpt (n64 0) (n64 (2 ^ 1023))) 0, .insert (fpt (n64 0) (n64 (-2 ^ 1023))) 1,
      .insert (fpt (n64 0) (n64 0)) 2, .insert (fpt (n64 0) (n64 1)) 3, .insert (fpt (n64 0) (n64 2)) 4] :
        List (Op (AABB N64 2) (SVec N64 2) Nat)), ∀ k ∈ op.inserts, ∀ i, Scalar.Finite (k.get i) := by decide +kernel
    exact this op h k (by simp [hk])
  · have : (match run (Tree.new cfg42) ([.insert (fpt (n64 0) (n64 (2 ^ 1023))) 0,
      .insert (fpt (n64 0) (n64 (-2 ^ 1023))) 1, .insert (fpt (n64 0) (n64 0)) 2, .insert (fpt (n64 0) (n64 1)) 3,
      .insert (fpt (n64 0) (n64 2)) 4] : List (Op (AABB N64 2) (SVec N64 2) Nat)) with
      | .error .arithmetic => true
      | _ => false) = true := by decide +kernel
    split at this
    · assumption
    · cases this

/-- The cube `[0, z] ^ 34`. -/
def cube34 (z : ℤ) (h : -2147483648 ≤ z ∧ z ≤ 2147483647 := by decide) : AABB I32 34 :=
  ⟨⟨fun _ => i32 0⟩, ⟨fun _ => ⟨z, h⟩⟩⟩

/-- C62: also for `i32` coordinates: in 34 dimensions volumes overflow to infinity, and their difference is NaN. -/
theorem C62_high_dimension_refuted : ∃ ops : List (Op (AABB I32 34) (AABB I32 34) Nat), cfg42.Sound ∧
    (∀ op ∈ ops, ∀ k, op.inserts = some k → k.InWindow (i32 0) (i32 2147483647)) ∧
    run (Tree.new cfg42) ops = .error .arithmetic := by
  refine ⟨(List.range 5).map fun i => .insert (cube34 2147483647) i, cfg42_sound, ?_, ?_⟩
  · intro op h k hk
    obtain ⟨i, -, rfl⟩ := List.mem_map.1 h
    injection hk with hk
    subst hk
    exact fun j => ⟨⟨le_refl _, by show (0 : ℤ) ≤ 2147483647; decide⟩, ⟨by show (0 : ℤ) ≤ 2147483647; decide, le_refl _⟩⟩
  · have : (match run (Tree.new cfg42) ((List.range 5).map fun i => .insert (cube34 2147483647) i) with
      | .error .arithmetic => true
      | _ => false) = true := by decide +kernel
    split at this
    · assumption
    · cases this

theorem NoisyFloat.pow2_isOf {m : ℕ} (h1 : F.emin ≤ (m : ℤ)) (h2 : (m : ℤ) < F.emax) :
    (XRat.rat (pow2 m)).isOf F = true ∧ (XRat.rat (-pow2 m)).isOf F = true := by
  obtain ⟨e1, -⟩ := ieee_bound (F := F) h1 h2 (q := pow2 m) (by rw [abs_of_pos (pow2_pos _)])
  obtain ⟨e2, -⟩ := ieee_bound (F := F) h1 h2 (q := -pow2 m) (by rw [abs_neg, abs_of_pos (pow2_pos _)])
  rw [nearest_pow2 h1] at e1
  rw [nearest_neg, nearest_pow2 h1] at e2
  exact ⟨decide_eq_true e1, decide_eq_true e2⟩

theorem no_panic_float {K : Type} [Bounded K (AABB (NoisyFloat F) D)] [BEq K] (hD : 0 < D) (hs : c.Safe)
    {m : ℕ} (hF : F.emin ≤ 0) (hm : ((m + 1 : ℕ) : ℤ) < F.emax) (hv : (m + 1) * D ≤ 1023)
    (hmax : XRat.rat (pow2 (F.emax - 1)) ≤ (Scalar.maxVal : NoisyFloat F).1)
    (hmin : (Scalar.minVal : NoisyFloat F).1 ≤ XRat.rat (-pow2 (F.emax - 1)))
    {ops : List (Op (AABB (NoisyFloat F) D) K V)}
    (hP : ∀ op ∈ ops, ∀ k, op.inserts = some k → ∀ i,
      (XRat.rat (-pow2 m) ≤ ((Bounded.bounds k : AABB (NoisyFloat F) D).min.get i).1 ∧
        ((Bounded.bounds k : AABB (NoisyFloat F) D).min.get i).1 ≤ XRat.rat (pow2 m)) ∧
      XRat.rat (-pow2 m) ≤ ((Bounded.bounds k : AABB (NoisyFloat F) D).max.get i).1 ∧
        ((Bounded.bounds k : AABB (NoisyFloat F) D).max.get i).1 ≤ XRat.rat (pow2 m)) :
    ∃ t, run (Tree.new c) ops = .ok t := by
  obtain ⟨i1, i2⟩ := NoisyFloat.pow2_isOf (F := F) (m := m) (by omega) (by push_cast at hm; omega)
  have hle : pow2 m ≤ pow2 (F.emax - 1) := pow2_le.2 (by push_cast at hm; omega)
  let _ : VolumeLaws (AABB (NoisyFloat F) D) := AABB.windowVolumeLaws (⟨XRat.rat (-pow2 m), i2⟩ : NoisyFloat F)
    ⟨XRat.rat (pow2 m), i1⟩ (hmin.trans (XRat.rat_le.2 (neg_le_neg hle))) ((XRat.rat_le.2 hle).trans hmax) hD hv
    (NoisyFloat.smallDiff (by push_cast; omega) hm (le_refl _) (le_refl _))
  exact C02_no_panic hs fun op h k hk i => hP op h k hk i

/-- C62, what holds: coordinates of type `N64` of absolute value at most `2 ^ m`, where `(m + 1) * D ≤ 1023`: no history
    panics. Missing: greater coordinates. -/
theorem C62_no_panic_n64_partial (hD : 0 < D) (hs : c.Safe) {m : ℕ} (hv : (m + 1) * D ≤ 1023)
    {ops : List (Op (AABB N64 D) (AABB N64 D) V)}
    (hP : ∀ op ∈ ops, ∀ k, op.inserts = some k → ∀ i,
      (XRat.rat (-2 ^ m) ≤ Scalar.toX (k.min.get i) ∧ Scalar.toX (k.min.get i) ≤ XRat.rat (2 ^ m)) ∧
      XRat.rat (-2 ^ m) ≤ Scalar.toX (k.max.get i) ∧ Scalar.toX (k.max.get i) ≤ XRat.rat (2 ^ m)) :
    ∃ t, run (Tree.new c) ops = .ok t := by
  refine no_panic_float (F := .binary64) (m := m) hD hs (by decide) ?_ hv (by decide +kernel) (by decide +kernel)
    fun op h k hk i => ?_
  · show ((m + 1 : ℕ) : ℤ) < 1024
    have : m + 1 ≤ (m + 1) * D := Nat.le_mul_of_pos_right _ hD
    omega
  · rw [pow2_natCast]; push_cast; exact hP op h k hk i

/-- C62, what holds: the same for `N32`, where `m ≤ 126`: for all finite coordinates of absolute value at most `2 ^ 126` in up
    to 8 dimensions. -/
theorem C62_no_panic_n32_partial (hD : 0 < D) (hs : c.Safe) {m : ℕ} (hm : m ≤ 126) (hv : (m + 1) * D ≤ 1023)
    {ops : List (Op (AABB N32 D) (AABB N32 D) V)}
    (hP : ∀ op ∈ ops, ∀ k, op.inserts = some k → ∀ i,
      (XRat.rat (-2 ^ m) ≤ Scalar.toX (k.min.get i) ∧ Scalar.toX (k.min.get i) ≤ XRat.rat (2 ^ m)) ∧
      XRat.rat (-2 ^ m) ≤ Scalar.toX (k.max.get i) ∧ Scalar.toX (k.max.get i) ≤ XRat.rat (2 ^ m)) :
    ∃ t, run (Tree.new c) ops = .ok t := by
  refine no_panic_float (F := .binary32) (m := m) hD hs (by decide) ?_ hv (by decide +kernel) (by decide +kernel)
    fun op h k hk i => ?_
  · show ((m + 1 : ℕ) : ℤ) < 128
    omega
  · rw [pow2_natCast]; push_cast; exact hP op h k hk i

/-- C62, what holds: the same for points as keys, for either type. -/
theorem C62_no_panic_n64_points_partial (hD : 0 < D) (hs : c.Safe) {m : ℕ} (hv : (m + 1) * D ≤ 1023)
    {ops : List (Op (AABB N64 D) (SVec N64 D) V)}
    (hP : ∀ op ∈ ops, ∀ k, op.inserts = some k → ∀ i,
      XRat.rat (-2 ^ m) ≤ Scalar.toX (k.get i) ∧ Scalar.toX (k.get i) ≤ XRat.rat (2 ^ m)) :
    ∃ t, run (Tree.new c) ops = .ok t := by
  refine no_panic_float (F := .binary64) (m := m) hD hs (by decide) ?_ hv (by decide +kernel) (by decide +kernel)
    fun op h k hk i => ?_
  · show ((m + 1 : ℕ) : ℤ) < 1024
    have : m + 1 ≤ (m + 1) * D := Nat.le_mul_of_pos_right _ hD
    omega
  · rw [pow2_natCast]; push_cast; exact ⟨hP op h k hk i, hP op h k hk i⟩

example : ∀ op ∈ nearOps, ∀ k, op.inserts = some k → ∀ i,
    XRat.rat (-2 ^ 500) ≤ Scalar.toX (k.get i) ∧ Scalar.toX (k.get i) ≤ XRat.rat (2 ^ 500) := by
  have : ∀ op ∈ nearOps, ∀ k ∈ op.inserts, ∀ i,
    XRat.rat (-2 ^ 500) ≤ Scalar.toX (k.get i) ∧ Scalar.toX (k.get i) ≤ XRat.rat (2 ^ 500) := by decide +kernel
  intro op h k hk
  exact this op h k (by simp [hk])

/-- `empty()` has finite corners, and so is not neutral for `union` if there are infinite coordinates. -/
example : AABB.union (AABB.empty : AABB N64 1) ⟨⟨![inf64]⟩, ⟨![inf64]⟩⟩ ≠ ⟨⟨![inf64]⟩, ⟨![inf64]⟩⟩ := by decide +kernel

/-! ## C40: distance joins -/

theorem finite_empty (hmax : Scalar.Finite (Scalar.maxVal : NoisyFloat F)) (hmin : Scalar.Finite (Scalar.minVal : NoisyFloat F))
    {K V : Type} [Bounded K (AABB (NoisyFloat F) D)] [BEq K] [LawfulKey K (AABB (NoisyFloat F) D)] {P : K → Prop}
    {t : Tree (AABB (NoisyFloat F) D) K V} (h : Reachable c P t)
    (hP : ∀ k, P k → ∀ i, Scalar.Finite ((Bounded.bounds k : AABB (NoisyFloat F) D).min.get i) ∧
      Scalar.Finite ((Bounded.bounds k : AABB (NoisyFloat F) D).max.get i)) {n : Node (AABB (NoisyFloat F) D) K V}
    (hn : n ∈ t.nodes) (i : Fin D) : Scalar.Finite (n.bounds.min.get i) ∧ Scalar.Finite (n.bounds.max.get i) := by
  have hu : ∀ a b : AABB (NoisyFloat F) D,
      (∀ i, Scalar.Finite (a.min.get i) ∧ Scalar.Finite (a.max.get i)) →
      (∀ i, Scalar.Finite (b.min.get i) ∧ Scalar.Finite (b.max.get i)) →
      ∀ i, Scalar.Finite ((a.union b).min.get i) ∧ Scalar.Finite ((a.union b).max.get i) := by
    intro a b ha hb i
    simp only [AABB.union, SVec.cmin, SVec.cmax]
    refine ⟨?_, ?_⟩
    · rcases min_choice (a.min.get i) (b.min.get i) with h | h <;> rw [h]
      · exact (ha i).1
      · exact (hb i).1
    · rcases max_choice (a.max.get i) (b.max.get i) with h | h <;> rw [h]
      · exact (ha i).2
      · exact (hb i).2
  refine h.bounds_closed (Q := fun b => ∀ i, Scalar.Finite (b.min.get i) ∧ Scalar.Finite (b.max.get i))
    (fun i => ⟨hmax, hmin⟩) hu (fun bs hb => ?_) hP hn i
  have : ∀ (bs : List (AABB (NoisyFloat F) D)) (a : AABB (NoisyFloat F) D),
      (∀ i, Scalar.Finite (a.min.get i) ∧ Scalar.Finite (a.max.get i)) →
      (∀ b ∈ bs, ∀ i, Scalar.Finite (b.min.get i) ∧ Scalar.Finite (b.max.get i)) →
      ∀ i, Scalar.Finite ((bs.foldl AABB.union a).min.get i) ∧ Scalar.Finite ((bs.foldl AABB.union a).max.get i) := by
    intro bs
    induction bs with
    | nil => intro a ha _; exact ha
    | cons b bs ih => intro a ha hb; exact ih _ (hu _ _ ha (hb b (by simp))) fun x hx => hb x (by simp [hx])
  exact this bs AABB.empty (fun i => ⟨hmax, hmin⟩) hb

/-- C40 for `N64`: no test of a distance join of trees of finite points panics, whatever the radius, also on empty trees.
    With this `C40_distance_join` says that the join yields all pairs whose calculated distance is below the radius. -/
theorem C40_distance_join_defined_n64 (hD : 0 < D) {V' : Type} {c' : Config} {P P' : SVec N64 D → Prop}
    {t : Tree (AABB N64 D) (SVec N64 D) V} {t' : Tree (AABB N64 D) (SVec N64 D) V'} (h : Reachable c P t)
    (h' : Reachable c' P' t') (hP : ∀ k, P k → ∀ i, Scalar.Finite (k.get i)) (hP' : ∀ k, P' k → ∀ i, Scalar.Finite (k.get i))
    (r : XRat) : (distanceFilter .binary64 r).DefinedOn id id t t' := by
  obtain ⟨rr, hr, -⟩ := F64.mul_self_some Rounding.binary64_lawful r
  have hr' : N64.mul .binary64 r r = some rr := hr
  have occ : ∀ {V : Type} {c : Config} {P : SVec N64 D → Prop} {t : Tree (AABB N64 D) (SVec N64 D) V}, Reachable c P t →
      (∀ k, P k → ∀ i, Scalar.Finite (k.get i)) → ∀ b, t.Occurs b → ∀ i, Scalar.Finite (b.min.get i) ∧ Scalar.Finite (b.max.get i) := by
    rintro V c P t h hP b (⟨n, hn, rfl⟩ | ⟨e, he, rfl⟩)
    · exact finite_empty (by decide +kernel) (by decide +kernel) h (fun k hk i => ⟨hP k hk i, hP k hk i⟩) hn
    · exact fun i => ⟨hP _ (h.keys e he) i, hP _ (h.keys e he) i⟩
  refine ⟨fun b b' hb hb' => ?_, fun e he e' he' => ?_⟩
  · have f := occ h hP b hb
    have f' := occ h' hP' b' hb'
    obtain ⟨m, hm⟩ := Option.isSome_iff_exists.1 (AABB.sqDistTo_isSome_of hD Rounding.binary64_lawful (a := b) (b := b')
      (fun i => NoisyFloat.sub_isSome (f i).2) fun i => NoisyFloat.sub_isSome (f' i).2)
    simp [distanceFilter, hm, hr']
  · obtain ⟨m, hm⟩ := NoisyFloat.distSq_isSome hD e.1 (hP' _ (h'.keys e' he'))
    simp [distanceFilter, hm, hr']

example (d : Bool) : ∃ out, nearTree.join id id ((distanceFilter .binary64 (XRat.rat 2)).orElse d) nearTree = .ok out ∧
    out.length = 4 := by
  have hr : Reachable cfg42 (fun k => ∀ i, Scalar.Finite (k.get i)) nearTree := by
    refine Reachable.run .new (fun op h k hk => ?_) near_run
    have : ∀ op ∈ nearOps, ∀ k ∈ op.inserts, ∀ i, Scalar.Finite (k.get i) := by decide +kernel
    exact this op h k (by simp [hk])
  obtain ⟨out, h1, h2⟩ := (C40_distance_join hr hr (XRat.rat 2)
    (C40_distance_join_defined_n64 (by decide) hr hr (fun _ h => h) (fun _ h => h) _) near_iter near_iter d).1
  refine ⟨out, h1, ?_⟩
  rw [h2.length_eq]
  decide +kernel

/-- A point on the line. -/
def fpt1 (x : N32) : SVec N32 1 := ⟨![x]⟩

/-- The tree of one point. -/
def oneTree (x : N32) : Tree (AABB N32 1) (SVec N32 1) Nat :=
  (run (Tree.new cfg42) [.insert (fpt1 x) 0]).getD (Tree.new cfg42)

theorem one_run0 : run (Tree.new cfg42) [.insert (fpt1 (n32 0)) 0] = .ok (oneTree (n32 0)) :=
  Res.ok_getD _ (by decide +kernel)

theorem one_run1 : run (Tree.new cfg42) [.insert (fpt1 (n32 (1 + 1 / 2 ^ 23))) 0] = .ok (oneTree (n32 (1 + 1 / 2 ^ 23))) :=
  Res.ok_getD _ (by decide +kernel)

/-- C40 is false of the code for `N32`: distances of keys are calculated in `f32`, those of bounds in `f64`, so that a pair
    whose key test succeeds may be lost: here the only pair of two trees of one point each. -/
theorem C40_n32_join_refuted : ∃ (k k' : SVec N32 1) (t t' : Tree (AABB N32 1) (SVec N32 1) Nat) (r : XRat),
    Reachable cfg42 (fun _ => True) t ∧ Reachable cfg42 (fun _ => True) t' ∧ t.iter = .ok [(k, 0)] ∧ t'.iter = .ok [(k', 0)] ∧
    (distanceFilter .binary64 r).DefinedOn id id t t' ∧ (distanceFilter .binary64 r).testKey k k' = some true ∧
    ∀ d, t.join id id ((distanceFilter .binary64 r).orElse d) t' = .ok [] := by
  refine ⟨fpt1 (n32 0), fpt1 (n32 (1 + 1 / 2 ^ 23)), oneTree (n32 0), oneTree (n32 (1 + 1 / 2 ^ 23)),
    XRat.rat (1 + 1 / 2 ^ 23), Reachable.run .new (fun _ _ _ _ => trivial) one_run0,
    Reachable.run .new (fun _ _ _ _ => trivial) one_run1, ?_, ?_, ⟨?_, ?_⟩, by decide +kernel, fun d => ?_⟩
  · refine (Res.ok_getD [] (by decide +kernel)).trans ?_
    congr 1
  · refine (Res.ok_getD [] (by decide +kernel)).trans ?_
    congr 1
  · have key : ∀ b ∈ (oneTree (n32 0)).nodes.map Node.bounds ++ (oneTree (n32 0)).entries.map (fun e => Bounded.bounds e.1),
        ∀ b' ∈ (oneTree (n32 (1 + 1 / 2 ^ 23))).nodes.map Node.bounds ++
          (oneTree (n32 (1 + 1 / 2 ^ 23))).entries.map (fun e => Bounded.bounds e.1),
        ((distanceFilter (N := N32) (D := 1) .binary64 (XRat.rat (1 + 1 / 2 ^ 23))).testBounds b b').isSome = true := by
      decide +kernel
    have occ : ∀ {t : Tree (AABB N32 1) (SVec N32 1) Nat} {b : AABB N32 1}, t.Occurs b →
        b ∈ t.nodes.map Node.bounds ++ t.entries.map (fun e => Bounded.bounds e.1) := by
      rintro t b (⟨n, hn, rfl⟩ | ⟨e, he, rfl⟩)
      · exact List.mem_append_left _ (List.mem_map.2 ⟨n, hn, rfl⟩)
      · exact List.mem_append_right _ (List.mem_map.2 ⟨e, he, rfl⟩)
    exact fun b b' hb hb' => key b (occ hb) b' (occ hb')
  · decide +kernel
  · refine (Res.ok_getD [((fpt1 (n32 0), 0), (fpt1 (n32 0), 0))] (by revert d; decide +kernel)).trans ?_
    congr 1
    revert d
    decide +kernel

/-! ## C41, C42: segments and rays -/

section Lines

variable {P : AABB (NoisyFloat F) D → Prop} {t : Tree (AABB (NoisyFloat F) D) (AABB (NoisyFloat F) D) V}

/-- C41 for `N32` and `N64`: no test of a segment query panics if the first end of the segment is finite, on any tree of
    boxes (also an empty one, and if coordinates of boxes are infinite). With this `C41_line_query` says that the query yields
    all entries the segment is said to intersect. -/
theorem C41_line_query_defined_float {l : Line (NoisyFloat F) D} (h0 : ∀ i, Scalar.Finite (l.p0.get i))
    (negZero : Fin D → Bool) : (l.filter .binary64 negZero).DefinedOn id t :=
  ⟨fun _ _ => Line.intersectsBox_isSome' h0, fun _ _ => Line.intersectsBox_isSome' h0⟩

/-- C42 for `N32` and `N64`: the same for rays with a finite origin. -/
theorem C42_ray_query_defined_float (hD : 0 < D) {r : Ray (NoisyFloat F) D} (h0 : ∀ i, Scalar.Finite (r.origin.get i))
    (negZero : Fin D → Bool) : (r.filter .binary64 negZero).DefinedOn id t :=
  ⟨fun _ _ => Ray.intersectsBox_isSome' hD h0, fun _ _ => Ray.intersectsBox_isSome' hD h0⟩

/-- C41 is false of the code for `N64` even where rounding errors are irrelevant: the extent of a long segment overflows. The
    segment from (-2¹⁰²³, 0) to (2¹⁰²³, 2) passes through the middle of the box from (-1, 1/2) to (1, 3/2) and is not found to
    intersect it, and the segment from (-2¹⁰²³, 0) to (2¹⁰²³, 0) is found to intersect a box that begins behind its end. -/
theorem C41_long_segment_refuted :
    (∃ (l : Line N64 2) (b : AABB N64 2), (∀ i, Scalar.Finite (l.p0.get i) ∧ Scalar.Finite (l.p1.get i)) ∧ b.Valid ∧
      b.InsideLine (fun i => Scalar.toRat (l.p0.get i)) (fun i => Scalar.toRat (l.p1.get i) - Scalar.toRat (l.p0.get i)) (1 / 2) ∧
      ∀ negZero, l.intersectsBox .binary64 negZero b = some false) ∧
    ∃ (l : Line N64 2) (b : AABB N64 2), (∀ i, Scalar.Finite (l.p0.get i) ∧ Scalar.Finite (l.p1.get i)) ∧ b.Valid ∧
      Scalar.toRat (l.p0.get 0) < Scalar.toRat (b.min.get 0) ∧ Scalar.toRat (l.p1.get 0) < Scalar.toRat (b.min.get 0) ∧
      ∀ negZero, l.intersectsBox .binary64 negZero b = some true := by
  refine ⟨⟨⟨fpt (n64 (-2 ^ 1023)) (n64 0), fpt (n64 (2 ^ 1023)) (n64 2)⟩,
      ⟨fpt (n64 (-1)) (n64 (1 / 2)), fpt (n64 1) (n64 (3 / 2))⟩, ?_, ?_, ?_, fun nz => ?_⟩,
    ⟨fpt (n64 (-2 ^ 1023)) (n64 0), fpt (n64 (2 ^ 1023)) (n64 0)⟩,
      ⟨fpt (n64 (3 / 2 * 2 ^ 1023)) (n64 (-1)), fpt (n64 (7 / 4 * 2 ^ 1023)) (n64 1)⟩, ?_, ?_, ?_, ?_, fun nz => ?_⟩
  · decide +kernel
  · unfold AABB.Valid; decide +kernel
  · unfold AABB.InsideLine; decide +kernel
  · revert nz; decide +kernel
  · decide +kernel
  · unfold AABB.Valid; decide +kernel
  · decide +kernel
  · decide +kernel
  · revert nz; decide +kernel

theorem Format.binary64_between : Format.binary64.Between := ⟨by decide, by decide⟩

theorem Format.binary32_between : Format.binary32.Between := ⟨by decide, by decide⟩

/-- C41 for `N64`, what holds: a segment said to intersect a non-inverted box comes, in each dimension, as close to it as
    `2 ^ -50` times its extent in that dimension; a segment that gets into the box by so much is said to intersect it; and so
    is a segment parallel to an axis, or of length zero, some point of which lies in the closed box: for coordinates up to
    `2 ^ 500`, and ends equal or at least `2 ^ -500` apart in every dimension, whatever the signs of zero differences.
    Missing: segments that end in the boundary of the box (`C41_line_refuted`); very long ones
    (`C41_long_segment_refuted`). -/
theorem C41_line_n64_partial {l : Line N64 D} {b : AABB N64 D} (hb : b.Valid) (hm : l.Moderate 500 b)
    (negZero : Fin D → Bool) : ∃ r, l.intersectsBox .binary64 negZero b = some r ∧
      (r = true → l.MeetsWithin b (1 / 2 ^ 50)) ∧ (l.MeetsWithin b (-(1 / 2 ^ 50)) → r = true) ∧
      ((∀ i j, l.p0.get i ≠ l.p1.get i → l.p0.get j ≠ l.p1.get j → i = j) → l.Meets b → r = true) := by
  obtain ⟨r, hr⟩ := Option.isSome_iff_exists.1
    (Line.intersectsBox_isSome' (nz := negZero) (b := b) (fun i => (hm.p0 i).1))
  have hu : 8 * Format.unit .binary64 = 1 / 2 ^ 50 := by
    rw [Format.unit, show Format.binary64.bits = 52 from rfl, pow2_eq]; norm_num
  refine ⟨r, hr, ?_, ?_, ?_⟩
  · rintro rfl
    rw [← hu]
    exact Line.meetsWithin_of_intersectsBox_float Format.binary64_between (by decide) (by decide) (by norm_num) hm hb hr
  · rw [← hu]
    exact Line.intersectsBox_of_meetsWithin_float Format.binary64_between (by decide) (by decide) (by norm_num) hm hb hr
  · exact Line.intersectsBox_axis_float Format.binary64_between (by decide) (by decide) (by norm_num) hm hb hr

/-- C41 for `N32`, what holds: the same with `2 ^ -21` in place of `2 ^ -50`, for all coordinates up to `2 ^ 126`. -/
theorem C41_line_n32_partial {l : Line N32 D} {b : AABB N32 D} (hb : b.Valid)
    (hk : ∀ i, Scalar.Upto 126 (b.min.get i) ∧ Scalar.Upto 126 (b.max.get i) ∧ Scalar.Upto 126 (l.p0.get i) ∧
      Scalar.Upto 126 (l.p1.get i)) (negZero : Fin D → Bool) :
    ∃ r, l.intersectsBox .binary64 negZero b = some r ∧
      (r = true → l.MeetsWithin b (1 / 2 ^ 21)) ∧ (l.MeetsWithin b (-(1 / 2 ^ 21)) → r = true) ∧
      ((∀ i j, l.p0.get i ≠ l.p1.get i → l.p0.get j ≠ l.p1.get j → i = j) → l.Meets b → r = true) := by
  have hm : l.Moderate 126 b := ⟨fun i => (hk i).1, fun i => (hk i).2.1, fun i => (hk i).2.2.1, fun i => (hk i).2.2.2,
    fun i => NoisyFloat.apart (hk i).2.2.1.1 (hk i).2.2.2.1 (by decide)⟩
  obtain ⟨r, hr⟩ := Option.isSome_iff_exists.1
    (Line.intersectsBox_isSome' (nz := negZero) (b := b) (fun i => (hm.p0 i).1))
  have hu : 8 * Format.unit .binary32 = 1 / 2 ^ 21 := by
    rw [Format.unit, show Format.binary32.bits = 23 from rfl, pow2_eq]; norm_num
  refine ⟨r, hr, ?_, ?_, ?_⟩
  · rintro rfl
    rw [← hu]
    exact Line.meetsWithin_of_intersectsBox_float Format.binary32_between (by decide) (by decide) (by norm_num) hm hb hr
  · rw [← hu]
    exact Line.intersectsBox_of_meetsWithin_float Format.binary32_between (by decide) (by decide) (by norm_num) hm hb hr
  · exact Line.intersectsBox_axis_float Format.binary32_between (by decide) (by decide) (by norm_num) hm hb hr

instance {F : Format} (k : ℤ) (a : NoisyFloat F) : Decidable (Scalar.Upto k a) := inferInstanceAs (Decidable (_ ∧ _))

/-- The segment from (0.1, 0.2) to (0.7, 0.5) and the box from (0.3, 0.3) to (0.6, 0.6), as rounded to `N64`, are of moderate
    size, and the segment meets the box. -/
example : ∃ (l : Line N64 2) (b : AABB N64 2), b.Valid ∧ l.Moderate 500 b ∧ l.MeetsWithin b (-(1 / 2 ^ 50)) ∧
    ∀ negZero, l.intersectsBox .binary64 negZero b = some true := by
  refine ⟨⟨fpt (n64 (3602879701896397 / 2 ^ 55)) (n64 (3602879701896397 / 2 ^ 54)), fpt (n64 (6305039478318694 / 2 ^ 53)) (n64 (1 / 2))⟩,
    ⟨fpt (n64 (5404319552844595 / 2 ^ 54)) (n64 (5404319552844595 / 2 ^ 54)),
      fpt (n64 (5404319552844595 / 2 ^ 53)) (n64 (5404319552844595 / 2 ^ 53))⟩, ?_, ?_, ?_, fun nz => ?_⟩
  · unfold AABB.Valid; decide +kernel
  · refine ⟨?_, ?_, ?_, ?_, ?_⟩ <;> decide +kernel
  · refine ⟨1 / 2, by norm_num, by norm_num, ?_⟩
    decide +kernel
  · revert nz; decide +kernel

theorem n32_upto {a : N32} (h : Scalar.Finite a) : |Scalar.toRat a| ≤ pow2 500 := by
  obtain ⟨q, hq⟩ := h
  have hq' : a.1 = XRat.rat q := hq
  have ta : Scalar.toRat a = q := congrArg XRat.toRat hq'
  rw [ta]
  have := isOf_lt (F := .binary32) (q := q) (by rw [← hq']; exact a.2)
  exact this.le.trans (pow2_le.2 (by decide))

theorem Ray.Moderate.near {F : Format} {k : ℤ} (hF : F.Between) (h1 : F.emin ≤ k + 1) (h2 : k + 1 < F.emax) (hk : k ≤ 500)
    {r : Ray (NoisyFloat F) D} {b : AABB (NoisyFloat F) D} (hb : b.Valid) (hm : r.Moderate k b) (nz : Fin D → Bool) (i : Fin D)
    (s : F64 × F64) (h : slab .binary64 (nz i) (b.min.get i) (b.max.get i) (r.origin.get i) (r.n.get i) = some s) :
    SlabNear (4 * F.unit) s (Scalar.toRat (b.min.get i)) (Scalar.toRat (b.max.get i)) (Scalar.toRat (r.origin.get i))
      (Scalar.toRat (r.n.get i)) :=
  slabNear_float hF h1 h2 hk (hm.min i) (hm.max i) (hm.origin i) (hb i) (hm.n i) (hm.move i) (hm.fromMin i) (hm.fromMax i) h

/-- C42 for `N64`, what holds: if a ray is said to intersect a non-inverted box, its line runs, for a proper interval, through
    the box after each side is moved outwards by `2 ^ -51` times its distance from the origin; and if its line runs, for a
    proper interval, through the box after each side is moved inwards by so much, the ray is said to intersect the box, unless
    it runs along a side perpendicular to the first dimension: for numbers of moderate size, whatever the signs of zeros.
    Missing: boxes behind the origin are reported, boxes that are only touched may be or not (`C42_ray_refuted`). -/
theorem C42_ray_n64_partial {r : Ray N64 (D + 1)} {b : AABB N64 (D + 1)} (hb : b.Valid) (hm : r.Moderate 500 b)
    (negZero : Fin (D + 1) → Bool) : ∃ x, r.intersectsBox .binary64 negZero b = some x ∧
      (x = true → ∃ s t : ℚ, s < t ∧ r.InWithin b (1 / 2 ^ 51) s ∧ r.InWithin b (1 / 2 ^ 51) t) ∧
      (¬ r.AlongFirst b → ∀ s t : ℚ, s < t → r.InWithin b (-(1 / 2 ^ 51)) s → r.InWithin b (-(1 / 2 ^ 51)) t → x = true) := by
  obtain ⟨x, hx⟩ := Option.isSome_iff_exists.1
    (Ray.intersectsBox_isSome' (nz := negZero) (b := b) (by omega) (fun i => (hm.origin i).1))
  rw [show (1 : ℚ) / 2 ^ 51 = 4 * Format.unit .binary64 by
    rw [Format.unit, show Format.binary64.bits = 52 from rfl, pow2_eq]; norm_num]
  refine ⟨x, hx, ?_, fun hp s t hst hs ht => ?_⟩
  · rintro rfl
    exact Ray.within_of_intersectsBox (hm.near Format.binary64_between (by decide) (by decide) (by norm_num) hb negZero) hx
  · exact Ray.intersectsBox_of_within (hm.near Format.binary64_between (by decide) (by decide) (by norm_num) hb negZero)
      (fun s hs => proper_float Format.binary64_between (by decide) (by decide) (by norm_num) (hm.min 0) (hm.max 0) (hm.origin 0)
        (hm.n 0) (hm.move 0) hs hp) hst hs ht hx

/-- C42 for `N32`, what holds: the same with `2 ^ -22` in place of `2 ^ -51`, for all coordinates up to `2 ^ 126` and all finite
    directions. -/
theorem C42_ray_n32_partial {r : Ray N32 (D + 1)} {b : AABB N32 (D + 1)} (hb : b.Valid)
    (hk : ∀ i, Scalar.Upto 126 (b.min.get i) ∧ Scalar.Upto 126 (b.max.get i) ∧ Scalar.Upto 126 (r.origin.get i) ∧
      Scalar.Finite (r.n.get i)) (negZero : Fin (D + 1) → Bool) :
    ∃ x, r.intersectsBox .binary64 negZero b = some x ∧
      (x = true → ∃ s t : ℚ, s < t ∧ r.InWithin b (1 / 2 ^ 22) s ∧ r.InWithin b (1 / 2 ^ 22) t) ∧
      (¬ r.AlongFirst b → ∀ s t : ℚ, s < t → r.InWithin b (-(1 / 2 ^ 22)) s → r.InWithin b (-(1 / 2 ^ 22)) t → x = true) := by
  have far : ∀ a c : N32, Scalar.Finite a → Scalar.Finite c →
      Scalar.toRat c - Scalar.toRat a = 0 ∨ pow2 (-500) ≤ |Scalar.toRat c - Scalar.toRat a| := by
    intro a c ha hc
    rcases NoisyFloat.apart ha hc (by decide) with h | h
    · exact .inl (by rw [h, sub_self])
    · exact .inr h
  have hm : r.Moderate 126 b := by
    refine ⟨fun i => (hk i).1, fun i => (hk i).2.1, fun i => (hk i).2.2.1, fun i => ⟨(hk i).2.2.2, ?_⟩, fun i => ?_,
      fun i => far _ _ (hk i).2.2.1.1 (hk i).1.1, fun i => far _ _ (hk i).2.2.1.1 (hk i).2.1.1⟩
    · exact n32_upto (hk i).2.2.2
    · have h0 : Scalar.toRat (n32 0) = 0 := by decide +kernel
      have := far (n32 0) (r.n.get i) (by decide +kernel) (hk i).2.2.2
      rwa [h0, sub_zero] at this
  obtain ⟨x, hx⟩ := Option.isSome_iff_exists.1
    (Ray.intersectsBox_isSome' (nz := negZero) (b := b) (by omega) (fun i => (hm.origin i).1))
  rw [show (1 : ℚ) / 2 ^ 22 = 4 * Format.unit .binary32 by
    rw [Format.unit, show Format.binary32.bits = 23 from rfl, pow2_eq]; norm_num]
  refine ⟨x, hx, ?_, fun hp s t hst hs ht => ?_⟩
  · rintro rfl
    exact Ray.within_of_intersectsBox (hm.near Format.binary32_between (by decide) (by decide) (by norm_num) hb negZero) hx
  · exact Ray.intersectsBox_of_within (hm.near Format.binary32_between (by decide) (by decide) (by norm_num) hb negZero)
      (fun s hs => proper_float Format.binary32_between (by decide) (by decide) (by norm_num) (hm.min 0) (hm.max 0) (hm.origin 0)
        (hm.n 0) (hm.move 0) hs hp) hst hs ht hx

/-! ## C44: segments with bounds -/

/-- C44 for `N32` and `N64`, what holds: `filter_iter(BoundedIntersectsFilter::new_bounded(line))` does not panic if the first
    end of the segment is finite, yields entries whose box the segment is said to intersect in the order of `iter`, and among
    the boxes that intersect the bounds of the segment all of them.
    Missing: boxes next to the bounds of the segment, see `C44_bounded_refuted`. -/
theorem C44_line_bounded_float_partial (h : Reachable c P t) {l : Line (NoisyFloat F) D}
    (h0 : ∀ i, Scalar.Finite (l.p0.get i)) (negZero : Fin D → Bool) {es : List (AABB (NoisyFloat F) D × V)}
    (hes : t.iter = .ok es) (d : Bool) :
    (l.boundedFilter .binary64 negZero).DefinedOn id t ∧
    ∃ r, t.filterIter id ((l.boundedFilter .binary64 negZero).orElse d) = .ok r ∧ r.Sublist es ∧
      (∀ e ∈ r, l.intersectsBox .binary64 negZero e.1 = some true) ∧
      r.filter (fun e => Bounds.intersects (Bounded.bounds l : AABB (NoisyFloat F) D) e.1) =
        es.filter fun e => decide (l.intersectsBox .binary64 negZero e.1 = some true) &&
          Bounds.intersects (Bounded.bounds l : AABB (NoisyFloat F) D) e.1 := by
  have hd : ∀ b, (l.intersectsBox .binary64 negZero b).isSome := fun b => Line.intersectsBox_isSome' h0
  have hk : ∀ b : AABB (NoisyFloat F) D, ((l.boundedFilter .binary64 negZero).orElse d).testKey (id b) =
      decide (l.intersectsBox .binary64 negZero b = some true) := by
    intro b
    obtain ⟨x, hx⟩ := Option.isSome_iff_exists.1 (hd b)
    show (l.intersectsBox .binary64 negZero b).getD d = _
    rw [hx]
    cases x <;> simp
  refine ⟨⟨fun _ _ => rfl, fun _ _ => hd _⟩, ?_⟩
  obtain ⟨r, h1, h2, h3⟩ := C11_filter_iter_sound h id ((l.boundedFilter .binary64 negZero).orElse d) hes
  refine ⟨r, h1, h2, fun e he => ?_, ?_⟩
  · have := h3 e he
    rw [hk] at this
    exact of_decide_eq_true this
  · rw [C11_filter_iter_honest h (fun k => Bounds.intersects (Bounded.bounds l : AABB (NoisyFloat F) D) k)
      (fun k b hs _ hle => ?_) hes h1]
    · exact List.filter_congr fun e _ => by rw [hk]
    · exact C33_intersects_mono (AABB.Le.refl _) hle hs

end Lines

/-- A box on the line. -/
def fbox1 (a b : N64) : AABB N64 1 := ⟨⟨![a]⟩, ⟨![b]⟩⟩

/-- C44 is false of the code for `N64`: the segment from -1 to 2⁻⁶⁰ is said to intersect the box from 2⁻⁵⁹ to 1, but its
    bounds do not, and `filter_iter` with the bounded filter does not yield the box. -/
theorem C44_bounded_refuted : ∃ (k : AABB N64 1) (t : Tree (AABB N64 1) (AABB N64 1) Nat) (l : Line N64 1),
    k.Valid ∧ Reachable cfg42 (fun _ => True) t ∧ t.iter = .ok [(k, 0)] ∧
    ∀ negZero, l.intersectsBox .binary64 negZero k = some true ∧
      t.filterIter id ((l.filter .binary64 negZero).orElse false) = .ok [(k, 0)] ∧
      t.filterIter id ((l.boundedFilter .binary64 negZero).orElse true) = .ok [] := by
  refine ⟨fbox1 (n64 (1 / 2 ^ 59)) (n64 1),
    (run (Tree.new cfg42) [.insert (fbox1 (n64 (1 / 2 ^ 59)) (n64 1)) 0]).getD (Tree.new cfg42),
    ⟨⟨![n64 (-1)]⟩, ⟨![n64 (1 / 2 ^ 60)]⟩⟩, ?_,
    Reachable.run .new (fun _ _ _ _ => trivial) (Res.ok_getD (Tree.new cfg42) (by decide +kernel)), ?_, fun nz => ?_⟩
  · unfold AABB.Valid; decide +kernel
  · refine (Res.ok_getD [] (by decide +kernel)).trans ?_
    congr 1
  · obtain ⟨x, rfl⟩ : ∃ x, nz = fun _ => x := ⟨nz 0, funext fun i => by rw [Subsingleton.elim i 0]⟩
    refine ⟨by revert x; decide +kernel, ?_, ?_⟩
    · refine (Res.ok_getD [] (by revert x; decide +kernel)).trans ?_
      cases x <;> congr 1 <;> decide +kernel
    · refine (Res.ok_getD [(fbox1 (n64 0) (n64 0), 7)] (by revert x; decide +kernel)).trans ?_
      cases x <;> congr 1 <;> decide +kernel

/-! ## C43: spheres -/

section Spheres

variable {P : SVec (NoisyFloat F) D → Prop} {t : Tree (AABB (NoisyFloat F) D) (SVec (NoisyFloat F) D) V}

/-- C43 for `N32` and `N64`, what holds: a query for a sphere with a finite center does not panic, yields points the sphere is
    said to intersect in the order of `iter`, and among the points in the (calculated) bounds of the sphere all of them.
    Missing: points outside of the bounds, see `C43_float_refuted`. -/
theorem C43_sphere_float_partial (hD : 0 < D) (h : Reachable c P t) {s : Sphere (NoisyFloat F) D}
    (hc : ∀ i, Scalar.Finite (s.center.get i)) {es : List (SVec (NoisyFloat F) D × V)} (hes : t.iter = .ok es) (d : Bool) :
    ∃ f sb, s.boundedFilter .binary64 = some f ∧ s.bounds = some sb ∧ f.DefinedOn id t ∧
    ∃ r, t.filterIter id (f.orElse d) = .ok r ∧ r.Sublist es ∧
      (∀ e ∈ r, s.intersectsPoint .binary64 e.1 = some true) ∧
      r.filter (fun e => sb.intersectsPoint e.1) =
        es.filter fun e => decide (s.intersectsPoint .binary64 e.1 = some true) && sb.intersectsPoint e.1 := by
  have hd : ∀ p, (s.intersectsPoint .binary64 p).isSome := fun p => Sphere.intersectsPoint_isSome' hD hc
  obtain ⟨sb, hsb⟩ : ∃ sb, s.bounds = some sb := by
    unfold Sphere.bounds
    rw [dif_pos fun i => ⟨NoisyFloat.sub_isSome' (hc i), NoisyFloat.add_isSome (hc i)⟩]
    exact ⟨_, rfl⟩
  refine ⟨⟨fun b' => some (Bounds.intersects sb b'), s.intersectsPoint .binary64⟩, sb, ?_, hsb,
    ⟨fun _ _ => rfl, fun _ _ => hd _⟩, ?_⟩
  · unfold Sphere.boundedFilter; rw [hsb]; rfl
  generalize hf : (⟨fun b' => some (Bounds.intersects sb b'), s.intersectsPoint .binary64⟩ :
    PFilter (AABB (NoisyFloat F) D) (SVec (NoisyFloat F) D)).orElse d = f
  have hk : ∀ p, f.testKey (id p) = decide (s.intersectsPoint .binary64 p = some true) := by
    intro p
    obtain ⟨x, hx⟩ := Option.isSome_iff_exists.1 (hd p)
    rw [← hf]
    show (s.intersectsPoint .binary64 p).getD d = _
    rw [hx]
    cases x <;> simp
  obtain ⟨r, h1, h2, h3⟩ := C11_filter_iter_sound h id f hes
  refine ⟨r, h1, h2, fun e he => ?_, ?_⟩
  · have := h3 e he
    rw [hk] at this
    exact of_decide_eq_true this
  · rw [C11_filter_iter_honest h (fun k => sb.intersectsPoint k) (fun k b hs _ hle => ?_) hes h1]
    · exact List.filter_congr fun e _ => by rw [hk]
    · rw [← hf]
      exact C33_intersects_mono (AABB.Le.refl _) hle (b := ⟨k, k⟩) hs

end Spheres

/-- A point on the line. -/
def fpt64 (a : N64) : SVec N64 1 := ⟨![a]⟩

/-- C43 is false of the code for `N64`: the sphere of radius 1 around -1 is said to intersect the point 2⁻⁶⁰ (the difference
    is rounded to 1), but its bounds do not contain it, and the query does not yield it. -/
theorem C43_float_refuted : ∃ (k : SVec N64 1) (t : Tree (AABB N64 1) (SVec N64 1) Nat) (s : Sphere N64 1)
    (f : PFilter (AABB N64 1) (SVec N64 1)), Reachable cfg42 (fun _ => True) t ∧ t.iter = .ok [(k, 0)] ∧
    s.boundedFilter .binary64 = some f ∧ f.DefinedOn id t ∧ s.intersectsPoint .binary64 k = some true ∧
    t.filterIter id (f.orElse true) = .ok [] := by
  have hr : Reachable cfg42 (fun _ => True)
      ((run (Tree.new cfg42) [.insert (fpt64 (n64 (1 / 2 ^ 60))) 0]).getD (Tree.new cfg42) :
        Tree (AABB N64 1) (SVec N64 1) Nat) :=
    Reachable.run .new (fun _ _ _ _ => trivial) (Res.ok_getD (Tree.new cfg42) (by decide +kernel))
  have hes : ((run (Tree.new cfg42) [.insert (fpt64 (n64 (1 / 2 ^ 60))) 0]).getD (Tree.new cfg42) :
        Tree (AABB N64 1) (SVec N64 1) Nat).iter = .ok [(fpt64 (n64 (1 / 2 ^ 60)), 0)] := by
    refine (Res.ok_getD [] (by decide +kernel)).trans ?_
    congr 1
  obtain ⟨f, sb, hf, -, hd, -⟩ := C43_sphere_float_partial (by decide) hr (s := ⟨fpt64 (n64 (-1)), n64 1⟩)
    (by decide +kernel) hes true
  refine ⟨_, _, ⟨fpt64 (n64 (-1)), n64 1⟩, f, hr, hes, hf, hd, by decide +kernel, ?_⟩
  have : f = (Sphere.boundedFilter .binary64 (Sphere.mk (fpt64 (n64 (-1))) (n64 1))).getD ⟨fun _ => none, fun _ => none⟩ := by
    rw [hf]; rfl
  rw [this]
  refine (Res.ok_getD [(fpt64 (n64 0), 7)] (by decide +kernel)).trans ?_
  congr 1
  decide +kernel

end RTree
