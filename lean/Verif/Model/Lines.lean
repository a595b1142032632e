import Verif.Model.Geom
/-!
# Segments and rays against boxes (intersects.rs, geom/line.rs, geom/ray.rs)

`f64` arithmetic follows the IEEE rules for infinities and NaN; the rounding is a parameter (`Verif/Model/Float.lean`).
-/

namespace RTree

variable {N : Type} {D : Nat} [Scalar N]

/-- intersects.rs 41-43, 49-51, 72-74: `t1` and `t2` for one dimension; `none` if a subtraction overflows. -/
def slab (R : Rounding) (negZero : Bool) (bmin bmax origin delta : N) : Option (F64 × F64) := do
  let nInv := F64.recip R negZero (some (Scalar.toX delta))
  let t1 := F64.mul R (some (Scalar.toX (← Scalar.sub bmin origin))) nInv
  let t2 := F64.mul R (some (Scalar.toX (← Scalar.sub bmax origin))) nInv
  return (t1, t2)

/-- intersects.rs 53-54, 76-77: the update of `(tmin, tmax)` with `(t1, t2)`. -/
def slabStep (t s : F64 × F64) : F64 × F64 :=
  (F64.min (F64.max s.1 t.1) (F64.max s.2 t.1), F64.max (F64.min s.1 t.2) (F64.min s.2 t.2))

/-- intersects.rs 48-55, 71-78: the loop over the given dimensions. -/
def slabLoop (R : Rounding) (negZero : Fin D → Bool) (b : AABB N D) (origin delta : SVec N D) (dims : List (Fin D)) (t : F64 × F64) :
    Option (F64 × F64) :=
  dims.foldlM (fun t i => do
    return slabStep t (← slab R (negZero i) (b.min.get i) (b.max.get i) (origin.get i) (delta.get i))) t

/-- intersects.rs 60-81 (`line_bounds_intersect`); `negZero` tells the signs of the zeros of `delta`. -/
def lineBoundsIntersect (R : Rounding) (negZero : Fin D → Bool) (b : AABB N D) (origin delta : SVec N D) : Option Bool := do
  let t ← slabLoop R negZero b origin delta (List.finRange D) (F64.fin 0, F64.fin 1)
  return F64.le t.1 t.2

/-- intersects.rs 33-58 (`ray_bounds_intersect`); `delta[0]` panics for `D = 0`. -/
def rayBoundsIntersect (R : Rounding) (negZero : Fin D → Bool) (b : AABB N D) (origin delta : SVec N D) : Option Bool :=
  match List.finRange D with
  | [] => none
  | i :: dims => do
    let s ← slab R (negZero i) (b.min.get i) (b.max.get i) (origin.get i) (delta.get i)
    let t ← slabLoop R negZero b origin delta dims (F64.min s.1 s.2, F64.max s.1 s.2)
    return F64.lt t.1 t.2

/-- geom/line.rs 28-30 (`delta`). -/
def Line.delta (l : Line N D) : Option (SVec N D) := l.p1.sub l.p0

/-- geom/line.rs 46-53 (`Intersects<SAABB> for Line`), bounds.rs 193-200 (the mirrored implementation). -/
def Line.intersectsBox (R : Rounding) (negZero : Fin D → Bool) (l : Line N D) (b : AABB N D) : Option Bool := do
  lineBoundsIntersect R negZero b l.p0 (← l.delta)

/-- geom/line.rs 37-39 (`sq_len`); panics for `D = 0`. -/
def Line.sqLen (R : Rounding) (l : Line N D) : Option F64 := do (← l.delta).sqMagF64 R

/-- geom/line.rs 41-43 (`len`); panics for `D = 0`. -/
def Line.len (R : Rounding) (l : Line N D) : Option F64 := (l.sqLen R).map F64.sqrt

/-- geom/ray.rs 9-12. -/
structure Ray (N : Type) (D : Nat) where
  origin : SVec N D
  n : SVec N D

/-- geom/ray.rs 14-21 (`Intersects<SAABB> for Ray`), bounds.rs 184-191 (the mirrored implementation). -/
def Ray.intersectsBox (R : Rounding) (negZero : Fin D → Bool) (r : Ray N D) (b : AABB N D) : Option Bool :=
  rayBoundsIntersect R negZero b r.origin r.n

end RTree
