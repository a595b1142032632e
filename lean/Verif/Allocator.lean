import Verif.Threads
/-!
# Calls of the global allocator

What a program of single accesses to memory (`Verif/Model/Steps.lean`) asks of the allocator: every new buffer of a node is a call of
`alloc::alloc` (fc_vec.rs 129-139), every freed one a call of `alloc::dealloc` (fc_vec.rs 336-337, 545-548).  Nothing else in the functions
of `Verif/Model/Steps.lean` calls it, but for one array: `remove` from a tree of height at least 1 makes an array of slots
(node.rs 767-768) and frees it before it returns.  That array is not a buffer of a node, and its two calls are not counted here.
(Iterators allocate their own stacks and heaps; they are not counted either.)
-/

namespace RTree.Raw

/-- A call of the global allocator: a buffer of so many bytes is asked for, or a buffer is given back.
    Modelling device: stands for no code of the crate. -/
inductive AllocatorCall where
  | alloc (bytes : Nat)
  | dealloc (block : Nat)

/-- Asks for memory. Modelling device: stands for no code of the crate. -/
def AllocatorCall.isAlloc : AllocatorCall → Bool
  | .alloc _ => true
  | .dealloc _ => false

/-- The calls of the allocator a program makes from a heap on, in order, up to its end or to the point where it panics; `gap` are
    the allocator's choices. Modelling device: stands for no code of the crate. -/
def Prog.allocatorCalls {α β : Type} (gap : Nat → Nat) : Prog α β → Heap α → List AllocatorCall
  | .done _, _ => []
  | .fail _, _ => []
  | .look i k, h =>
    match h[i]? with
    | some (some b) => (k b).allocatorCalls gap h
    | _ => []
  | .put i x k, h =>
    match h[i]? with
    | some (some _) => (if x.isNone then [.dealloc i] else []) ++ k.allocatorCalls gap (h.set i x)
    | _ => []
  | .make b k, h =>
    .alloc b.bytes :: (k ⟨h.length + gap h.length, 0⟩).allocatorCalls gap (h ++ List.replicate (gap h.length) none ++ [some b])

/-- The number of buffers asked for. Modelling device: stands for no code of the crate. -/
def Prog.allocs {α β : Type} (gap : Nat → Nat) (p : Prog α β) (h : Heap α) : Nat :=
  ((p.allocatorCalls gap h).filter AllocatorCall.isAlloc).length

/-- The number of buffers given back. Modelling device: stands for no code of the crate. -/
def Prog.deallocs {α β : Type} (gap : Nat → Nat) (p : Prog α β) (h : Heap α) : Nat :=
  ((p.allocatorCalls gap h).filter fun c => !c.isAlloc).length

end RTree.Raw

namespace RTree

variable {B K V Q : Type}

/-- How often a call may go to the allocator for the buffers of nodes.  `f` are the variables before it, `f'` after it, `reply` is
    what the caller gets, `a` and `d` count the buffers asked for and given back.  The height of a tree is its `level`.  Modelling device: stands for no code of the
    crate. -/
def Cmd.MayCall (f f' : List (Option (Tree B K V))) (reply : Reply V) (a d : Nat) : Cmd K V Q → Prop
  | .new _ => a = 1 ∧ d = 0
  | .get _ _ | .replace _ _ _ | .len _ | .isEmpty _ => a = 0 ∧ d = 0
  | .insert i _ _ => d = 0 ∧ ∀ t t', f[i]? = some (some t) → f'[i]? = some (some t') →
      t'.level = t.level ∧ a ≤ t.level ∨ t'.level = t.level + 1 ∧ a = t.level + 2
  | .insertUnique i _ _ => d = 0 ∧ (∀ v, reply = .moved (some v) → a = 0) ∧ ∀ t t', f[i]? = some (some t) → f'[i]? = some (some t') →
      t'.level = t.level ∧ a ≤ t.level ∨ t'.level = t.level + 1 ∧ a = t.level + 2
  | .remove i _ => (reply = .moved none → a = 0 ∧ d = 0) ∧ ∀ t t', f[i]? = some (some t) → f'[i]? = some (some t') →
      t.level ≤ t'.level + 1 ∧ d ≤ t.level + 1 ∧ a ≤ t.level * (t.alloc.minChildren - 1) * (t'.level + 1)
  | .clone i => d = 0 ∧ ∀ t, f[i]? = some (some t) → a = t.nodes.length
  | .drop i => a = 0 ∧ ∀ t, f[i]? = some (some t) → d = t.nodes.length

end RTree
