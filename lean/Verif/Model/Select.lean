import Verif.Model.Traits
/-!
# Child selection (select.rs)
-/

namespace RTree

/-- `Iterator::min_by` of `std`: `reduce` keeping the earlier element unless it compares `Greater`.
    (The comparison may panic, since it computes volumes.). select.rs 38. -/
def minBy {α : Type} (cmp : α → α → Res Ordering) : List α → Res (Option α)
  | [] => .ok none
  | x :: xs => do
    let r ← xs.foldlM (fun acc y => do
      match ← cmp acc y with
      | .gt => pure y
      | _ => pure acc) x
    pure (some r)

variable {B : Type} [Bounds B] [Volume B]

/-- select.rs 17-22 (`volume_increase_of_min_bounds`). -/
def volumeIncrease (lhs rhs : B) : Res (Volume.Vol B) := do
  let u ← arith (Volume.volume (Bounds.union lhs rhs))
  let v ← arith (Volume.volume lhs)
  arith (Volume.sub u v)

/-- select.rs 38-50: the comparison closure of `MinimalVolumeIncreaseSelector::select`. -/
def selectCmp (bounds : B) (lhs rhs : B) : Res Ordering := do
  let a ← volumeIncrease lhs bounds
  let b ← volumeIncrease rhs bounds
  let cmp := Volume.cmp (B := B) a b
  if cmp = .eq then
    let va ← arith (Volume.volume lhs)
    let vb ← arith (Volume.volume rhs)
    pure (Volume.cmp (B := B) va vb)
  else
    pure cmp

/-- select.rs 26-52 (`MinimalVolumeIncreaseSelector::select`), applied to the bounds of the children;
    returns the position of the selected child. -/
def select (children : List B) (bounds : B) : Res (Option Nat) := do
  let r ← minBy (fun x y => selectCmp bounds x.1 y.1) children.zipIdx
  pure (r.map (·.2))

end RTree
