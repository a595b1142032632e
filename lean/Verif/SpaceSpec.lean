import Verif.Programs
/-!
# Vocabulary for the memory a program uses (C77)
-/

namespace RTree

variable {B K V Q : Type}

/-- How many bytes the children of a node need, with room for `cap` of them: entries are stored in leaf nodes, nodes in inner nodes.
    Modelling device: stands for no code of the crate. -/
def Node.bytes (E : Raw.TEnv) (cap : Nat) : Node B K V → Nat
  | .leaf _ _ => cap * E.entry.size
  | .inner _ _ => cap * E.node.size

/-- The bytes needed for all nodes of a tree. Modelling device: stands for no code of the crate. -/
def Tree.bytes (E : Raw.TEnv) (t : Tree B K V) : Nat := (t.nodes.map (Node.bytes E t.alloc.maxChildren)).sum

/-- How many of the variables hold a tree. Modelling device: stands for no code of the crate. -/
def liveTrees (f : List (Option (Tree B K V))) : Nat := (f.filter Option.isSome).length

/-- The key a command inserts. Modelling device: stands for no code of the crate. -/
def Cmd.inserts : Cmd K V Q → Option K
  | .insert _ k _ => some k
  | .insertUnique _ k _ => some k
  | _ => none

/-- The bytes allocated and not freed yet. Modelling device: stands for no code of the crate. -/
def Raw.liveBytes {α : Type} (h : Raw.Heap α) : Nat := (h.map fun o => o.elim 0 Raw.Block.bytes).sum

end RTree
