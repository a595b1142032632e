import Verif.Props.Drop
/-!
# C46: trees whose pairs have size zero
-/

namespace RTree

open Raw

/-- A key of size zero: a unit struct with a box. Client code of bounds.rs 35-37 (`trait Bounded`). -/
structure Spot where
deriving DecidableEq

instance : Bounded Spot (AABB I32 2) := ⟨fun _ => box 1 2 3 4⟩

/-- Boxes in the plane and pairs of size zero; the allocator tolerates requests for zero bytes (see C53). -/
def zeroEnv : TEnv := { node := ⟨32, 9223372036854775807, false, fun _ => 0⟩, entry := ⟨0, 9223372036854775807, true, fun _ => 0⟩ }

/-- A tree with five pairs of size zero, of which one is removed. -/
def zeroProgram : List (Cmd Spot Unit Spot) :=
  [.new cfg42, .insert 0 ⟨⟩ (), .insert 0 ⟨⟩ (), .insert 0 ⟨⟩ (), .insert 0 ⟨⟩ (), .insert 0 ⟨⟩ (), .len 0, .remove 0 ⟨⟩, .len 0]

/-- The answers of `len`. -/
def lengths {V : Type} (rs : List (Reply V)) : List Nat :=
  rs.filterMap fun r => match r with | .count n => some n | _ => none

/-- What the program says about lengths on values, and in memory with the given sizes; and the number of keys dropped in memory. -/
def zeroLengths (E : TEnv) : List Nat × List Nat × Nat :=
  (lengths (((specProgram (B := AABB I32 2) id [] zeroProgram).getD ([], [])).2.map (·.1)),
    match program (B := AABB I32 2) E id [] zeroProgram [] with
    | .ok ((_, evs), _) => (lengths (evs.map Event.reply), (evs.flatMap Event.keys).length)
    | .error _ => ([], 0))

/-- C46 fails: of a tree with five pairs of size zero `remove` takes out two, one of which is neither returned nor dropped: of the five keys one has been dropped and three are
    left.  On values there are four left. -/
theorem C46_remove_loses_refuted : zeroLengths zeroEnv = ([5, 4], [5, 3], 1) := by decide +kernel

/-- C46, the part that holds for trees: if pairs have at least one byte the tree in memory gives the same answers as the one on values, whatever is done with it. -/
theorem C46_sized_trees_partial {B K V Q : Type} [Bounds B] [Volume B] [Bounded K B] [BEq K] [Bounded Q B] [BEq Q] {E : TEnv} {borrow : K → Q} {cmds : List (Cmd K V Q)}
    (hn : 0 < E.node.size) (he : 0 < E.entry.size)
    (hc : ∀ c, Cmd.new c ∈ cmds → 0 < c.maxChildren ∧ c.maxChildren * E.node.size ≤ E.node.maxBytes ∧ c.maxChildren * E.entry.size ≤ E.entry.maxBytes)
    {f' : List (Option (Tree B K V))} {outs : List (Reply V × List K × List V)} (hv : specProgram borrow [] cmds = .ok (f', outs)) :
    ∃ f evs h, program E borrow ([] : List (Option (Raw.RTree B))) cmds [] = .ok ((f, evs), h) ∧ evs.map Event.reply = outs.map (·.1) := by
  have key := C26_program_in_memory (B := B) (E := E) (borrow := borrow) cmds (fun c h => ⟨hn, he, (hc c h).2.1, (hc c h).2.2, (hc c h).1⟩)
  rw [hv] at key
  obtain ⟨f, evs, h, h1, h2, _⟩ := key
  exact ⟨f, evs, h, h1, h2⟩

/-- The same program, with a marker byte in the pairs: nothing is lost. -/
example : zeroLengths { zeroEnv with entry := ⟨1, 9223372036854775807, false, fun _ => 0⟩ } = ([5, 4], [5, 4], 1) := by decide +kernel

end RTree
