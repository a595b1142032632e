import Verif.Model.Geom
/-!
# Vectors: the rest of vector.rs, and boxes over user-defined vectors (vector.rs, bounds.rs 44-125)
-/

namespace RTree

namespace SVec

variable {N U σ : Type} {D : Nat}

/-- A loop over the first `n` indices in order that makes an array; `none` is a panic of one of the steps.
    `array::from_fn` and `<[T; D]>::map`, as used by vector.rs 73, 109, 131. -/
def build (f : σ → Nat → Option (U × σ)) : (n : Nat) → σ → Option ((Fin n → U) × σ)
  | 0, s => some (Fin.elim0, s)
  | n + 1, s => do
    let (g, s) ← build f n s
    let (u, s) ← f s n
    some (fun i => if h : i.1 < n then g ⟨i.1, h⟩ else u, s)

/-- vector.rs 88-94 (`Index`), 96-100 (`IndexMut`, as a place to read). -/
def index (a : SVec N D) (i : Nat) : Res N := if h : i < D then .ok (a.get ⟨i, h⟩) else .error .indexOutOfBounds

/-- vector.rs 96-100 (`IndexMut`), and then an assignment to the place. -/
def setIndex (a : SVec N D) (i : Nat) (x : N) : Res (SVec N D) :=
  if i < D then .ok ⟨fun j => if j.1 = i then x else a.get j⟩ else .error .indexOutOfBounds

/-- vector.rs 69-74 (`into_map`); the closure has a state and may panic. -/
def intoMap (f : σ → N → Option (U × σ)) (a : SVec N D) (s : σ) : Option (SVec U D × σ) := do
  let (g, s) ← build (fun s i => if h : i < D then f s (a.get ⟨i, h⟩) else none) D s
  some (⟨g⟩, s)

/-- vector.rs 65-67 (`zip`): the pairs it yields, in order. -/
def zip (a b : SVec N D) : List (N × N) := (List.finRange D).map fun i => (a.get i, b.get i)

variable [Scalar N]

/-- vector.rs 102-111 (`Add`). -/
def add (a b : SVec N D) : Option (SVec N D) := do
  let (g, _) ← build (fun _ i => if h : i < D then (Scalar.add (a.get ⟨i, h⟩) (b.get ⟨i, h⟩)).map fun x => (x, ()) else none) D ()
  some ⟨g⟩

/-- vector.rs 113-122 (`AddAssign`): the vector afterwards, and whether it returned; after a panic the vector is still there. -/
def addAssign (b : SVec N D) : List (Fin D) → SVec N D → SVec N D × Bool
  | [], a => (a, true)
  | i :: is, a =>
    match Scalar.add (a.get i) (b.get i) with
    | none => (a, false)
    | some x => addAssign b is ⟨fun j => if j = i then x else a.get j⟩

/-- vector.rs 30 (`derive(PartialOrd)`), on the arrays: lexicographic. -/
def cmpLex : List N → List N → Ordering
  | [], [] => .eq
  | [], _ :: _ => .lt
  | _ :: _, [] => .gt
  | x :: xs, y :: ys => if x < y then .lt else if y < x then .gt else cmpLex xs ys

/-- vector.rs 30 (`derive(PartialOrd)`): `a <= b`. -/
def lexLe (a b : SVec N D) : Bool := cmpLex a.toList b.toList != .gt

end SVec

/-- vector.rs 9-28 (`Vector`), implemented by the user. -/
class VectorOps (W : Type) where
  minValue : W
  maxValue : W
  allLe : W → W → Bool
  allGe : W → W → Bool
  cmin : W → W → W
  cmax : W → W → W

/-- bounds.rs 44-48 (`AABB<V>`) for any vectors. -/
@[ext] structure GBox (W : Type) where
  min : W
  max : W

namespace GBox

variable {W : Type} [VectorOps W]

/-- bounds.rs 52-59. -/
def containsPoint (b : GBox W) (p : W) : Bool := VectorOps.allGe b.min p && VectorOps.allLe b.max p

/-- bounds.rs 61-68. -/
def containsBox (a b : GBox W) : Bool := VectorOps.allLe a.min b.max && VectorOps.allGe a.max b.min

/-- bounds.rs 70-77. -/
def intersectsPoint (b : GBox W) (p : W) : Bool := VectorOps.allLe b.min p && VectorOps.allGe b.max p

/-- bounds.rs 79-86. -/
def intersectsBox (a b : GBox W) : Bool := VectorOps.allLe a.min b.max && VectorOps.allGe a.max b.min

/-- bounds.rs 92-97. -/
def empty : GBox W := ⟨VectorOps.maxValue, VectorOps.minValue⟩

/-- bounds.rs 99-104. -/
def union (a b : GBox W) : GBox W := ⟨VectorOps.cmin a.min b.min, VectorOps.cmax a.max b.max⟩

/-- bounds.rs 106-112. -/
def unionAll (bs : List (GBox W)) : GBox W := bs.foldl union empty

/-- bounds.rs 115-125 (`Bounded<AABB<V>> for V`). -/
def ofPoint (p : W) : GBox W := ⟨p, p⟩

end GBox

/-- vector.rs 38-62 (`Vector for SVec`). -/
instance {N : Type} {D : Nat} [Scalar N] : VectorOps (SVec N D) where
  minValue := SVec.minValue
  maxValue := SVec.maxValue
  allLe := SVec.allLe
  allGe := SVec.allGe
  cmin := SVec.cmin
  cmax := SVec.cmax

end RTree
