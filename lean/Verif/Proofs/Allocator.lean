import Verif.Allocator
import Verif.Proofs.Threads
/-!
# Counting calls of the allocator
-/

set_option linter.unusedSectionVars false
set_option linter.unusedVariables false

namespace RTree.Raw

namespace Prog

variable {α β δ : Type} {γ : Nat → Nat}

theorem allocatorCalls_bind (p : Prog α β) (f : β → Prog α δ) (h : Heap α) :
    (p >>= f).allocatorCalls γ h = p.allocatorCalls γ h ++
      match p.run γ h with
      | .ok (b, h') => (f b).allocatorCalls γ h'
      | .error _ => [] := by
  show (p.bind f).allocatorCalls γ h = _
  induction p generalizing h with
  | done b => rfl
  | fail e => rfl
  | look i k ih =>
    simp only [Prog.bind, Prog.run, allocatorCalls]
    cases h[i]? with
    | none => rfl
    | some o => cases o with
      | none => rfl
      | some b => exact ih b h
  | put i x k ih =>
    simp only [Prog.bind, Prog.run, allocatorCalls]
    cases h[i]? with
    | none => rfl
    | some o => cases o with
      | none => rfl
      | some b => simp only [ih, List.append_assoc]
  | make b k ih => simp only [Prog.bind, Prog.run, allocatorCalls, ih, List.cons_append]

/-- Every run that comes to its end makes so many calls and ends in such a state. -/
def Cost (γ : Nat → Nat) (p : Prog α β) (h : Heap α) (Q : Nat → Nat → β → Prop) : Prop :=
  ∀ b h', p.run γ h = .ok (b, h') → Q (p.allocs γ h) (p.deallocs γ h) b

theorem Cost.mono {p : Prog α β} {h : Heap α} {Q Q' : Nat → Nat → β → Prop} (hc : Cost γ p h Q) (hq : ∀ a d b, Q a d b → Q' a d b) :
    Cost γ p h Q' := fun b h' e => hq _ _ _ (hc b h' e)

/-- One program after the other, with the heap in between. -/
theorem Cost.bind' {p : Prog α β} {f : β → Prog α δ} {h : Heap α} {R : Nat → Nat → β → Prop} {Q : Nat → Nat → δ → Prop}
    (hp : Cost γ p h R)
    (hf : ∀ a d b h', p.run γ h = .ok (b, h') → R a d b → Cost γ (f b) h' fun a' d' c => Q (a + a') (d + d') c) : Cost γ (p >>= f) h Q := by
  intro c h2 e
  rw [Steps.run_bind] at e
  have e : (match p.run γ h with | .ok (b, h') => (f b).run γ h' | .error e => .error e) = .ok (c, h2) := e
  cases hr : p.run γ h with
  | error x => rw [hr] at e; cases e
  | ok x =>
    obtain ⟨b, h1⟩ := x
    rw [hr] at e
    have := hf _ _ b h1 hr (hp b h1 hr) c h2 e
    simp only [allocs, deallocs] at this ⊢
    rw [allocatorCalls_bind, hr]
    simpa only [List.filter_append, List.length_append] using this

theorem Cost.bind {p : Prog α β} {f : β → Prog α δ} {h : Heap α} {R : Nat → Nat → β → Prop} {Q : Nat → Nat → δ → Prop}
    (hp : Cost γ p h R) (hf : ∀ a d b h', R a d b → Cost γ (f b) h' fun a' d' c => Q (a + a') (d + d') c) : Cost γ (p >>= f) h Q :=
  hp.bind' fun a d b h' _ => hf a d b h'

theorem Cost.pure {b : β} {h : Heap α} {Q : Nat → Nat → β → Prop} (hq : Q 0 0 b) : Cost γ (pure b : Prog α β) h Q := by
  intro b' h' e
  obtain ⟨rfl, rfl⟩ := Prod.mk.inj (Except.ok.inj e)
  exact hq

theorem Cost.fail {e : Panic} {h : Heap α} {Q : Nat → Nat → β → Prop} : Cost γ (.fail e : Prog α β) h Q := by
  intro b' h' e; cases e

/-- Makes no calls, whatever the heap. -/
def Quiet (γ : Nat → Nat) (p : Prog α β) : Prop := ∀ h, Cost γ p h fun a d _ => a = 0 ∧ d = 0

theorem Quiet.then {p : Prog α β} {f : β → Prog α δ} {h : Heap α} {Q : Nat → Nat → δ → Prop} (hp : Quiet γ p)
    (hf : ∀ b h', Cost γ (f b) h' Q) : Cost γ (p >>= f) h Q :=
  (hp h).bind fun a d b h' hr => by
    obtain ⟨rfl, rfl⟩ := hr
    exact (hf b h').mono fun a d c hq => by simpa using hq

theorem Quiet.bind {p : Prog α β} {f : β → Prog α δ} (hp : Quiet γ p) (hf : ∀ b, Quiet γ (f b)) : Quiet γ (p >>= f) :=
  fun _ => hp.then fun b h' => hf b h'

theorem Quiet.pure {b : β} : Quiet γ (pure b : Prog α β) := fun _ => .pure ⟨rfl, rfl⟩
theorem Quiet.fail {e : Panic} : Quiet γ (.fail e : Prog α β) := fun _ => .fail
theorem Quiet.ite {c : Prop} [Decidable c] {p q : Prog α β} (hp : Quiet γ p) (hq : Quiet γ q) : Quiet γ (if c then p else q) := by
  split <;> assumption

/-- Buffers are conserved: those at the end are those at the beginning and those asked for, without those given back. -/
theorem liveBlocks_run (p : Prog α β) {h h' : Heap α} {b : β} (e : p.run γ h = .ok (b, h')) :
    liveBlocks h' + p.deallocs γ h = liveBlocks h + p.allocs γ h := by
  induction p generalizing h with
  | done b =>
    obtain ⟨rfl, rfl⟩ := Prod.mk.inj (Except.ok.inj e)
    rfl
  | fail x => cases e
  | look i k ih =>
    simp only [run] at e
    simp only [allocs, deallocs, allocatorCalls]
    cases hi : h[i]? with
    | none => rw [hi] at e; cases e
    | some o => cases o with
      | none => rw [hi] at e; cases e
      | some x => rw [hi] at e; exact ih x e
  | put i x k ih =>
    simp only [run] at e
    simp only [allocs, deallocs, allocatorCalls]
    cases hi : h[i]? with
    | none => rw [hi] at e; cases e
    | some o => cases o with
      | none => rw [hi] at e; cases e
      | some y =>
        rw [hi] at e
        have := ih e
        simp only [allocs, deallocs] at this
        have key : liveBlocks h = liveBlocks (h.set i x) + (if x.isNone then 1 else 0) := by
          clear this e ih
          induction h generalizing i with
          | nil => cases hi
          | cons z h ih =>
            cases i with
            | zero =>
              obtain rfl : z = some y := by simpa using hi
              cases x <;> simp [liveBlocks]
            | succ i =>
              have := ih i (by simpa using hi)
              cases z <;> simp [liveBlocks] at this ⊢ <;> omega
        cases x with
        | none =>
          simp [AllocatorCall.isAlloc] at key this ⊢
          omega
        | some x =>
          simp at key this ⊢
          omega
  | make b k ih =>
    have := ih _ e
    simp only [allocs, deallocs, allocatorCalls] at this ⊢
    have key : liveBlocks (h ++ List.replicate (γ h.length) none ++ [some b]) = liveBlocks h + 1 := by
      simp [liveBlocks, List.filter_append]
    rw [key] at this
    have e1 : ∀ (n : Nat) l, ((AllocatorCall.alloc n :: l).filter AllocatorCall.isAlloc).length = (l.filter AllocatorCall.isAlloc).length + 1 :=
      fun _ _ => rfl
    have e2 : ∀ (n : Nat) l, (AllocatorCall.alloc n :: l).filter (fun c => !c.isAlloc) = l.filter fun c => !c.isAlloc := fun _ _ => rfl
    rw [e1, e2]
    omega

end Prog

namespace Steps

open Prog (Cost Quiet)

variable {α β δ : Type} {γ : Nat → Nat}

theorem quiet_panic {e : Panic} : Quiet γ (panic e : Prog α β) := Quiet.fail

theorem quiet_panicIf {c : Prop} [Decidable c] {e : Panic} : Quiet γ (panicIf c e : Prog α Unit) := by
  unfold panicIf
  exact .ite quiet_panic .pure

theorem quiet_lift {x : Res β} : Quiet γ (lift x : Prog α β) := by
  cases x
  · exact Quiet.fail
  · exact Quiet.pure

theorem quiet_layoutArray {E : Env} {n : Nat} : Quiet γ (layoutArray E n : Prog α Nat) := by
  unfold layoutArray
  exact .ite .pure quiet_panic

theorem quiet_block {p : Ptr} : Quiet γ (block p : Prog α (Block α)) := by
  intro h b h' e
  unfold block at e ⊢
  simp only [Prog.run] at e
  simp only [Prog.allocs, Prog.deallocs, Prog.allocatorCalls]
  cases hi : h[p.block]? with
  | none => exact ⟨rfl, rfl⟩
  | some o => cases o <;> exact ⟨rfl, rfl⟩

theorem quiet_putSome {i : Nat} {x : Block α} : Quiet γ (.put i (some x) (.done ()) : Prog α Unit) := by
  intro h b h' e
  simp only [Prog.allocs, Prog.deallocs, Prog.allocatorCalls]
  cases hi : h[i]? with
  | none => exact ⟨rfl, rfl⟩
  | some o => cases o <;> exact ⟨rfl, rfl⟩

theorem quiet_setSlots {p : Ptr} {l : List (Option α)} : Quiet γ (setSlots p l) := by
  unfold setSlots
  exact quiet_block.bind fun _ => quiet_putSome

theorem quiet_add {E : Env} {p : Ptr} {n : Nat} : Quiet γ (add E p n : Prog α Ptr) := by
  unfold add
  exact quiet_block.bind fun _ => .ite .pure quiet_panic

theorem quiet_read {E : Env} {p : Ptr} : Quiet γ (read E p : Prog α α) := by
  unfold read
  refine quiet_block.bind fun b => .ite ?_ quiet_panic
  split
  · exact .pure
  · exact quiet_panic

theorem quiet_write {E : Env} {p : Ptr} {a : α} : Quiet γ (write E p a) := by
  unfold write
  exact quiet_block.bind fun b => .ite quiet_setSlots quiet_panic

theorem quiet_copy {E : Env} {p q : Ptr} {n : Nat} : Quiet γ (copy E p q n : Prog α Unit) := by
  unfold copy
  exact quiet_block.bind fun b => quiet_panicIf.bind fun _ => .ite .pure quiet_setSlots

theorem quiet_swapPtr {E : Env} {p q : Ptr} : Quiet γ (swapPtr E p q : Prog α Unit) := by
  unfold swapPtr
  exact quiet_read.bind fun _ => quiet_read.bind fun _ => quiet_write.bind fun _ => quiet_write

/-- A new buffer: one call. -/
theorem cost_alloc {E : Env} {n : Nat} {h : Heap α} : Cost γ (alloc E n : Prog α Ptr) h fun a d _ => a = 1 ∧ d = 0 := by
  unfold alloc
  exact quiet_layoutArray.then fun _ _ => quiet_panicIf.then fun _ _ => fun b h' e => ⟨rfl, rfl⟩

/-- A buffer given back: one call. -/
theorem cost_dealloc {E : Env} {p : Ptr} {n : Nat} {h : Heap α} :
    Cost γ (dealloc E p n : Prog α Unit) h fun a d _ => a = 0 ∧ d = 1 := by
  unfold dealloc
  refine quiet_layoutArray.then fun _ _ => quiet_block.then fun _ _ => quiet_panicIf.then fun _ h => fun b h' e => ?_
  simp only [Prog.run] at e
  simp only [Prog.allocs, Prog.deallocs, Prog.allocatorCalls]
  cases hi : h[p.block]? with
  | none => rw [hi] at e; cases e
  | some o => cases o with
    | none => rw [hi] at e; cases e
    | some x => exact ⟨rfl, rfl⟩

namespace FCVec

theorem cost_new {E : Env} {cap : Nat} {h : Heap α} : Cost γ (new E cap : Prog α FCVec) h fun a d _ => a = 1 ∧ d = 0 := by
  unfold new
  exact cost_alloc.bind fun a d b h' hr => .pure (by simpa using hr)

theorem quiet_sliceLoop {E : Env} {v : FCVec} : ∀ n i, Quiet γ (sliceLoop E v n i : Prog α (List α))
  | 0, _ => Quiet.pure
  | n + 1, i => by
    unfold sliceLoop
    exact quiet_add.bind fun _ => quiet_read.bind fun _ => (quiet_sliceLoop n _).bind fun _ => .pure

theorem quiet_slice {E : Env} {v : FCVec} : Quiet γ (slice E v : Prog α (List α)) := quiet_sliceLoop _ _

theorem quiet_get {E : Env} {v : FCVec} {i : Nat} : Quiet γ (get E v i : Prog α α) := by
  unfold get
  exact .ite (quiet_add.bind fun _ => quiet_read) quiet_panic

theorem quiet_set {E : Env} {v : FCVec} {i : Nat} {a : α} : Quiet γ (set E v i a) := by
  unfold set
  exact .ite (quiet_add.bind fun _ => quiet_read.bind fun _ => quiet_write.bind fun _ => .pure) quiet_panic

theorem quiet_push {E : Env} {cap : Nat} {v : FCVec} {a : α} : Quiet γ (push E cap v a) := by
  unfold push
  exact quiet_panicIf.bind fun _ => quiet_add.bind fun _ => quiet_write.bind fun _ => .pure

theorem quiet_tryPush {E : Env} {cap : Nat} {v : FCVec} {a : α} : Quiet γ (tryPush E cap v a) := by
  unfold tryPush
  exact .ite .pure (quiet_add.bind fun _ => quiet_write.bind fun _ => .pure)

theorem cost_swapRemove {E : Env} {v : FCVec} {i : Nat} {h : Heap α} :
    Cost γ (swapRemove E v i : Prog α (FCVec × α)) h fun a d r => a = 0 ∧ d = 0 ∧ r.1.len = v.len - 1 := by
  unfold swapRemove
  exact quiet_panicIf.then fun _ _ => quiet_add.then fun _ _ => quiet_read.then fun _ _ => quiet_add.then fun _ _ =>
    quiet_add.then fun _ _ => quiet_copy.then fun _ _ => .pure ⟨rfl, rfl, rfl⟩

theorem quiet_swapRemove {E : Env} {v : FCVec} {i : Nat} : Quiet γ (swapRemove E v i : Prog α (FCVec × α)) :=
  fun _ => cost_swapRemove.mono fun _ _ _ h => ⟨h.1, h.2.1⟩

theorem quiet_swap {E : Env} {v : FCVec} {i j : Nat} : Quiet γ (swap E v i j : Prog α Unit) := by
  unfold swap
  exact quiet_panicIf.bind fun _ => quiet_add.bind fun _ => quiet_add.bind fun _ => quiet_swapPtr

theorem quiet_pop {E : Env} {v : FCVec} : Quiet γ (pop E v : Prog α (FCVec × Option α)) := by
  unfold pop
  exact .ite .pure (quiet_add.bind fun _ => quiet_read.bind fun _ => .pure)

theorem quiet_popLoop {E : Env} : ∀ n v, Quiet γ (popLoop E n v : Prog α (List α))
  | 0, _ => quiet_panic
  | n + 1, v => by
    unfold popLoop
    refine quiet_pop.bind fun r => ?_
    obtain ⟨v, o⟩ := r
    cases o with
    | none => exact .pure
    | some a => exact (quiet_popLoop n v).bind fun _ => .pure

theorem cost_drop {E : Env} {cap : Nat} {v : FCVec} {h : Heap α} :
    Cost γ (drop E cap v : Prog α (List α)) h fun a d _ => a = 0 ∧ d = 1 := by
  unfold drop
  exact (quiet_popLoop _ _).then fun _ _ => cost_dealloc.bind fun a d b h' hr => .pure (by simpa using hr)

theorem quiet_pushAll {E : Env} {cap : Nat} : ∀ (as : List α) v, Quiet γ (pushAll E cap v as)
  | [], _ => Quiet.pure
  | a :: as, v => by
    unfold pushAll
    exact quiet_push.bind fun _ => quiet_pushAll as _

theorem cost_clone {E : Env} {cap : Nat} {cl : α → α} {v : FCVec} {h : Heap α} :
    Cost γ (clone E cap cl v) h fun a d _ => a = 1 ∧ d = 0 := by
  unfold clone
  exact quiet_panicIf.then fun _ _ => cost_new.bind fun a d b h' hr => quiet_slice.then fun _ _ =>
    (quiet_pushAll _ _ _).mono fun a' d' _ hr' => by omega

end FCVec

namespace IntoIter

theorem quiet_new {E : Env} {cap : Nat} {v : FCVec} : Quiet γ (new E cap v : Prog α IntoIter) := by
  unfold new
  exact quiet_add.bind fun _ => .pure

theorem quiet_next {E : Env} {it : IntoIter} : Quiet γ (next E it : Prog α (IntoIter × Option α)) := by
  unfold next
  exact .ite .pure (quiet_read.bind fun _ => quiet_add.bind fun _ => .pure)

theorem quiet_drain {E : Env} : ∀ n it, Quiet γ (drain E n it : Prog α (List α))
  | 0, _ => quiet_panic
  | n + 1, it => by
    unfold drain
    refine quiet_next.bind fun r => ?_
    obtain ⟨it, o⟩ := r
    cases o with
    | none => exact .pure
    | some a => exact (quiet_drain n it).bind fun _ => .pure

theorem cost_drop {E : Env} {it : IntoIter} {h : Heap α} :
    Cost γ (drop E it : Prog α (List α)) h fun a d _ => a = 0 ∧ d = 1 := by
  unfold drop
  exact (quiet_drain _ _).then fun _ _ => cost_dealloc.bind fun a d b h' hr => .pure (by simpa using hr)

end IntoIter

section

variable {B K V Q : Type}

theorem quiet_nodes {E : TEnv} {v : FCVec} : Quiet γ (nodes E v : Prog (Cell B K V) _) := by
  unfold nodes
  exact FCVec.quiet_slice.bind fun _ => quiet_lift

theorem quiet_entries {E : TEnv} {v : FCVec} : Quiet γ (entries E v : Prog (Cell B K V) _) := by
  unfold entries
  exact FCVec.quiet_slice.bind fun _ => quiet_lift

theorem quiet_nodeAt {E : TEnv} {v : FCVec} {i : Nat} : Quiet γ (nodeAt E v i : Prog (Cell B K V) _) := by
  unfold nodeAt
  exact FCVec.quiet_get.bind fun _ => quiet_lift

theorem quiet_putNode {E : TEnv} {v : FCVec} {i : Nat} {n : RNode B} : Quiet γ (putNode E v i n : Prog (Cell B K V) _) := by
  unfold putNode
  exact FCVec.quiet_set.bind fun _ => .pure

section Split

variable [Bounds B] [Volume B]

theorem quiet_seedSplitGroups {e : Env} {bf : α → B} {v : FCVec} {o : α} : Quiet γ (seedSplitGroups e bf v o) := by
  unfold seedSplitGroups
  exact FCVec.quiet_slice.bind fun _ => quiet_lift.bind fun _ => FCVec.quiet_swap.bind fun _ => .ite FCVec.quiet_set .pure

theorem quiet_splitStep {e : Env} {bf : α → B} {m cap : Nat} {s : RSplit B} : Quiet γ (splitStep e bf m cap s) := by
  unfold splitStep
  refine FCVec.quiet_slice.bind fun _ => ?_
  refine quiet_lift.bind fun _ => quiet_lift.bind fun _ => .ite (FCVec.quiet_swap.bind fun _ => .pure) ?_
  exact FCVec.quiet_swapRemove.bind fun _ => FCVec.quiet_push.bind fun _ => .pure

theorem quiet_splitLoop {e : Env} {bf : α → B} {m cap : Nat} : ∀ n s, Quiet γ (splitLoop e bf m cap n s)
  | 0, s => by
    unfold splitLoop
    exact .ite quiet_panic .pure
  | n + 1, s => by
    unfold splitLoop
    exact .ite (quiet_splitStep.bind fun _ => quiet_splitLoop n _) .pure

/-- A split: one new buffer. -/
theorem cost_split {e : Env} {bf : α → B} {m cap : Nat} {v : FCVec} {o : α} {h : Heap α} :
    Cost γ (split e bf m cap v o) h fun a d _ => a = 1 ∧ d = 0 := by
  unfold split
  exact quiet_panicIf.then fun _ _ => FCVec.cost_new.bind fun a d _ _ hr => quiet_seedSplitGroups.then fun _ _ =>
    FCVec.quiet_push.then fun _ _ => FCVec.quiet_get.then fun _ _ => (quiet_splitLoop _ _ _).mono fun a' d' _ hr' => by omega

end Split

section Insert

variable [Bounds B] [Volume B] [Bounded K B]

/-- One new buffer if there is a sibling, otherwise none. -/
def perSibling {R : Type} (a d : Nat) (r : R × Option (Nat × RNode B)) : Prop := d = 0 ∧ a = if r.2.isSome then 1 else 0

theorem cost_pushNode {E : TEnv} {al : Alloc} {l : Nat} {node : RNode B} {b : B} {n : RNode B} {h : Heap (Cell B K V)} :
    Cost γ (pushNode E al l node b n) h perSibling := by
  unfold pushNode
  refine FCVec.quiet_tryPush.then fun r h => ?_
  obtain ⟨v, o⟩ := r
  cases o with
  | none => exact .pure ⟨rfl, rfl⟩
  | some o =>
    exact quiet_lift.then fun _ _ => cost_split.bind fun a d _ _ hr => .pure ⟨by omega, by simp; omega⟩

theorem cost_pushEntry {E : TEnv} {al : Alloc} {node : RNode B} {b : B} {e : K × V} {h : Heap (Cell B K V)} :
    Cost γ (pushEntry E al node b e) h perSibling := by
  unfold pushEntry
  refine FCVec.quiet_tryPush.then fun r h => ?_
  obtain ⟨v, o⟩ := r
  cases o with
  | none => exact .pure ⟨rfl, rfl⟩
  | some o => exact cost_split.bind fun a d _ _ hr => .pure ⟨by omega, by simp; omega⟩

theorem cost_selfInsert {E : TEnv} {al : Alloc} {l : Nat} {node : RNode B} {e : REntry B K V} {h : Heap (Cell B K V)} :
    Cost γ (selfInsert E al l node e) h perSibling := by
  unfold selfInsert
  split
  · exact quiet_panicIf.then fun _ _ => cost_pushNode
  · exact cost_pushEntry
  · exact Cost.fail

/-- A sibling at the level `l` for an entry that belongs on the level `k`: every node on the way was split. -/
def splitsTo {R : Type} (k l a d : Nat) (r : R × Option (Nat × RNode B)) : Prop :=
  k ≤ l ∧ d = 0 ∧ if r.2.isSome then a = l - k + 1 else a ≤ l - k

theorem cost_insertNode {E : TEnv} {al : Alloc} {e : REntry B K V} : ∀ (l : Nat) (node : RNode B) (h : Heap (Cell B K V)),
    Cost γ (insertNode E al e l node) h (splitsTo e.targetLevel l) := by
  intro l
  induction l with
  | zero =>
    intro node h
    unfold insertNode
    split
    · exact Cost.fail
    · rename_i hl
      have hl : e.targetLevel = 0 := by simpa using hl
      exact cost_selfInsert.mono fun a d r hr => ⟨by omega, hr.1, by have := hr.2; split <;> simp_all⟩
  | succ l ih =>
    intro node h
    unfold insertNode
    split
    · refine quiet_nodes.then fun _ _ => quiet_lift.then fun _ _ => quiet_nodeAt.then fun child h' => ?_
      refine (ih child h').bind fun a d r h2 hr => quiet_putNode.then fun _ _ => ?_
      obtain ⟨child, sib⟩ := r
      obtain ⟨hk, hd, ha⟩ := hr
      cases sib with
      | none =>
        simp only [Option.isSome_none, Bool.false_eq_true, if_false] at ha
        exact .pure ⟨by omega, by omega, by simp; omega⟩
      | some s =>
        simp only [Option.isSome_some, if_true] at ha
        refine quiet_nodes.then fun _ _ => cost_selfInsert.mono fun a' d' r hr => ⟨by omega, by have := hr.1; omega, ?_⟩
        have := hr.2
        split <;> simp_all <;> omega
    · rename_i hl
      have hl : e.targetLevel = l + 1 := by simpa using hl
      exact cost_selfInsert.mono fun a d r hr => ⟨by omega, hr.1, by have := hr.2; split <;> simp_all⟩

end Insert

section Get

variable [Bounds B] [Bounded Q B] [BEq Q]

theorem quiet_findChildren {q : Q} {rec : RNode B → Prog (Cell B K V) (Option (FCVec × Nat))} (hrec : ∀ c, Quiet γ (rec c)) :
    ∀ cs : List (RNode B), Quiet γ (findChildren q rec cs)
  | [] => Quiet.pure
  | c :: cs => by
    unfold findChildren
    refine .ite ((hrec c).bind fun o => ?_) (quiet_findChildren hrec cs)
    cases o with
    | none => exact quiet_findChildren hrec cs
    | some p => exact .pure

theorem quiet_find {E : TEnv} {borrow : K → Q} {q : Q} : ∀ l (node : RNode B),
    Quiet γ (find E borrow q l node : Prog (Cell B K V) _)
  | 0, node => by
    unfold find
    exact quiet_entries.bind fun _ => .pure
  | l + 1, node => by
    unfold find
    exact quiet_nodes.bind fun _ => quiet_findChildren (quiet_find l) _

theorem quiet_readEntry {E : TEnv} {p : FCVec × Nat} : Quiet γ (readEntry E p : Prog (Cell B K V) _) := by
  unfold readEntry
  exact FCVec.quiet_get.bind fun _ => quiet_lift

theorem quiet_replaceValue {E : TEnv} {p : FCVec × Nat} {v : V} : Quiet γ (replaceValue E p v : Prog (Cell B K V) _) := by
  unfold replaceValue
  exact quiet_readEntry.bind fun _ => FCVec.quiet_set.bind fun _ => .pure

end Get

section InsertUnique

variable [Bounds B] [Volume B] [Bounded K B] [BEq K]

/-- A value that is replaced costs nothing; otherwise it is as with `insert`. -/
def uniqueCost (l a d : Nat) (r : UniqueResult B V) : Prop :=
  d = 0 ∧ (r.2.1.isSome → a = 0 ∧ r.2.2 = none) ∧ if r.2.2.isSome then a = l + 1 else a ≤ l

theorem uniqueCost_insert {E : TEnv} {al : Alloc} {key : K} {value : V} {l : Nat} {node : RNode B} {h : Heap (Cell B K V)} :
    Cost γ (do
      let r ← insertNode E al (.leaf key value) l node
      pure (r.1, none, r.2) : Prog (Cell B K V) (UniqueResult B V)) h (uniqueCost l) :=
  (cost_insertNode (e := .leaf key value) l node h).bind fun a d r _ hr => .pure (by
    obtain ⟨h1, h2, h3⟩ := hr
    refine ⟨by omega, fun h => (by simp at h), ?_⟩
    have e : (REntry.leaf key value : REntry B K V).targetLevel = 0 := rfl
    rw [e] at h3
    simpa using h3)

theorem cost_insertUniqueNode {E : TEnv} {al : Alloc} {key : K} {value : V} : ∀ (l : Nat) (node : RNode B) (h : Heap (Cell B K V)),
    Cost γ (insertUniqueNode E al key value l node) h (uniqueCost l) := by
  intro l
  induction l with
  | zero =>
    intro node h
    unfold insertUniqueNode
    refine quiet_entries.then fun es h => ?_
    split
    · exact quiet_replaceValue.then fun _ _ => .pure ⟨rfl, fun _ => ⟨rfl, rfl⟩, Nat.zero_le _⟩
    · exact uniqueCost_insert
  | succ l ih =>
    intro node h
    unfold insertUniqueNode
    refine quiet_nodes.then fun cs h => ?_
    split
    · exact uniqueCost_insert
    · refine quiet_nodeAt.then fun child h => (ih child h).bind fun a d r h hr => ?_
      obtain ⟨child, old, sib⟩ := r
      obtain ⟨h1, h2, h3⟩ := hr
      refine quiet_putNode.then fun _ h => ?_
      cases sib with
      | none =>
        simp only [Option.isSome_none, Bool.false_eq_true, if_false] at h3
        exact .pure ⟨by omega, fun ho => ⟨by have := (h2 ho).1; omega, rfl⟩, by simp; omega⟩
      | some s =>
        simp only [Option.isSome_some, if_true] at h3
        have hold : ¬ old.isSome := fun ho => by cases (h2 ho).2
        refine quiet_nodes.then fun _ _ => cost_selfInsert.bind fun a' d' r _ hr => .pure ?_
        obtain ⟨h4, h5⟩ := hr
        refine ⟨by omega, fun ho => absurd ho hold, ?_⟩
        show if r.2.isSome then _ else _
        split <;> simp_all
    · refine (quiet_find _ _).then fun p h => ?_
      cases p with
      | none => exact uniqueCost_insert
      | some p => exact quiet_replaceValue.then fun _ _ => .pure ⟨rfl, fun _ => ⟨rfl, rfl⟩, Nat.zero_le _⟩

end InsertUnique

theorem quiet_lenNode {E : TEnv} : ∀ l (node : RNode B), Quiet γ (lenNode E l node : Prog (Cell B K V) _)
  | 0, _ => Quiet.pure
  | l + 1, node => by
    unfold lenNode
    refine quiet_nodes.bind fun cs => ?_
    generalize 0 = n
    induction cs generalizing n with
    | nil => exact .pure
    | cons c cs ih =>
      rw [List.foldlM_cons]
      exact ((quiet_lenNode l c).bind fun _ => .pure).bind ih

namespace RTree

theorem cost_new [Bounds B] {E : TEnv} {c : Config} {h : Heap (Cell B K V)} :
    Cost γ (new E c) h fun a d _ => a = 1 ∧ d = 0 := by
  unfold new
  exact FCVec.cost_new.bind fun a d b h' hr => .pure (by simpa using hr)

section

variable [Bounds B]

theorem cost_branch {E : TEnv} {t : RTree B} {s : Nat × RNode B} {h : Heap (Cell B K V)} :
    Cost γ (branch E t s) h fun a d t' => a = 1 ∧ d = 0 ∧ t'.level = t.level + 1 ∧ t'.alloc = t.alloc := by
  unfold branch
  exact quiet_panicIf.then fun _ _ => FCVec.cost_new.bind fun a d _ _ hr => FCVec.quiet_push.then fun _ _ =>
    FCVec.quiet_push.then fun _ _ => .pure ⟨by omega, by omega, rfl, rfl⟩

/-- Dropping a node without children. -/
theorem cost_dropEmpty {E : TEnv} {al : Alloc} {l : Nat} {node : RNode B} (hv : node.vec.len = 0) {h : Heap (Cell B K V)} :
    Cost γ (dropNode E al (l + 1) node) h fun a d _ => a = 0 ∧ d = 1 := by
  unfold dropNode nodes FCVec.slice
  rw [hv]
  show Cost γ (FCVec.drop E.node al.maxChildren node.vec >>= fun _ => pure []) h _
  exact FCVec.cost_drop.bind fun a d b h' hr => .pure (by simpa using hr)

theorem cost_tryUnbranch {E : TEnv} {t : RTree B} {h : Heap (Cell B K V)} :
    Cost γ (tryUnbranch E t) h fun a d r => a = 0 ∧ d + r.1.level = t.level ∧ d ≤ 1 ∧ r.1.alloc = t.alloc := by
  unfold tryUnbranch
  cases hl : t.level with
  | zero => exact .pure ⟨rfl, by simp [hl], by omega, rfl⟩
  | succ l =>
    dsimp only
    split
    · rename_i h1
      refine FCVec.cost_swapRemove.bind fun a d r h' hr => ?_
      obtain ⟨v, cell⟩ := r
      obtain ⟨h2, h3, h4⟩ := hr
      refine quiet_lift.then fun root h' => ?_
      have hv : v.len = 0 := by have : v.len = t.root.vec.len - 1 := h4; omega
      refine Cost.bind (R := fun a d _ => a = 0 ∧ d = 1) ?_ fun a' d' _ _ hr => .pure ⟨by omega, by simp; omega, by omega, rfl⟩
      unfold drop
      simp only [hl]
      exact cost_dropEmpty hv
    · exact .pure ⟨rfl, by simp [hl], by omega, rfl⟩

end

section

variable [Bounds B] [Volume B] [Bounded K B]

/-- An insertion: at most as many new buffers as there are levels of inner nodes, or exactly two more if the tree grows. -/
def grows (l a d : Nat) (t : RTree B) : Prop := d = 0 ∧ (t.level = l ∧ a ≤ l ∨ t.level = l + 1 ∧ a = l + 2)

theorem cost_insertEntry {E : TEnv} {t : RTree B} {e : REntry B K V} {h : Heap (Cell B K V)} :
    Cost γ (insertEntry E t e) h fun a d t' => d = 0 ∧ t'.alloc = t.alloc ∧
      (t'.level = t.level ∧ a ≤ t.level - e.targetLevel ∨ t'.level = t.level + 1 ∧ a = t.level - e.targetLevel + 2) := by
  unfold insertEntry
  refine (cost_insertNode _ _ _).bind fun a d r h hr => ?_
  obtain ⟨root, sib⟩ := r
  obtain ⟨h1, h2, h3⟩ := hr
  cases sib with
  | none =>
    simp only [Option.isSome_none, Bool.false_eq_true, if_false] at h3
    exact .pure ⟨by omega, rfl, .inl ⟨rfl, by omega⟩⟩
  | some s =>
    simp only [Option.isSome_some, if_true] at h3
    exact cost_branch.mono fun a' d' t' hr => ⟨by omega, hr.2.2.2, .inr ⟨hr.2.2.1, by omega⟩⟩

theorem cost_insert {E : TEnv} {t : RTree B} {k : K} {v : V} {h : Heap (Cell B K V)} :
    Cost γ (insert E t k v) h (grows t.level) := by
  unfold insert
  exact cost_insertEntry.mono fun a d t' hr => ⟨hr.1, hr.2.2⟩

theorem cost_insertUnique [BEq K] {E : TEnv} {t : RTree B} {k : K} {v : V} {h : Heap (Cell B K V)} :
    Cost γ (insertUnique E t k v) h fun a d r => grows t.level a d r.1 ∧ (r.2.isSome → a = 0 ∧ r.1.level = t.level) := by
  unfold insertUnique
  refine (cost_insertUniqueNode _ _ _).bind fun a d r h hr => ?_
  obtain ⟨root, old, sib⟩ := r
  obtain ⟨h1, h2, h3⟩ := hr
  cases sib with
  | none =>
    simp only [Option.isSome_none, Bool.false_eq_true, if_false] at h3
    exact .pure ⟨⟨by omega, .inl ⟨rfl, by omega⟩⟩, fun ho => ⟨by have := (h2 ho).1; omega, rfl⟩⟩
  | some s =>
    simp only [Option.isSome_some, if_true] at h3
    have hold : ¬ old.isSome := fun ho => by cases (h2 ho).2
    exact cost_branch.bind fun a' d' t' _ hr => .pure ⟨⟨by omega, .inr ⟨hr.2.2.1, by omega⟩⟩, fun ho => absurd ho hold⟩

end

theorem quiet_get [Bounds B] [Bounded Q B] [BEq Q] {E : TEnv} {borrow : K → Q} {t : RTree B} {q : Q} :
    Quiet γ (get E borrow t q : Prog (Cell B K V) _) := by
  unfold get
  refine (quiet_find _ _).bind fun o => ?_
  cases o with
  | none => exact .pure
  | some p => exact quiet_readEntry.bind fun _ => .pure

theorem quiet_setValue [Bounds B] [Bounded Q B] [BEq Q] {E : TEnv} {borrow : K → Q} {t : RTree B} {q : Q} {v : V} :
    Quiet γ (setValue E borrow t q v : Prog (Cell B K V) _) := by
  unfold setValue
  refine (quiet_find _ _).bind fun o => ?_
  cases o with
  | none => exact .pure
  | some p => exact quiet_replaceValue.bind fun _ => .pure

theorem quiet_len {E : TEnv} {t : RTree B} : Quiet γ (len E t : Prog (Cell B K V) _) := quiet_lenNode _ _

end RTree

/-! ### What is written is read -/

theorem run_bind_ok {α β δ : Type} {p : Prog α β} {f : β → Prog α δ} {h h2 : Heap α} {c : δ} (e : (p >>= f).run γ h = .ok (c, h2)) :
    ∃ b h1, p.run γ h = .ok (b, h1) ∧ (f b).run γ h1 = .ok (c, h2) := by
  rw [run_bind] at e
  have e : (match p.run γ h with | .ok (b, h') => (f b).run γ h' | .error e => .error e) = .ok (c, h2) := e
  cases hr : p.run γ h with
  | error x => rw [hr] at e; cases e
  | ok x => rw [hr] at e; exact ⟨x.1, x.2, rfl, e⟩

theorem run_ite_ok {α β : Type} {P : Prop} [Decidable P] {p : Prog α β} {x : Panic} {h h2 : Heap α} {c : β}
    (e : (if P then p else panic x).run γ h = .ok (c, h2)) : P ∧ p.run γ h = .ok (c, h2) := by
  split at e
  · exact ⟨‹_›, e⟩
  · cases e

theorem block_ok {α : Type} {p : Ptr} {h h1 : Heap α} {b : Block α} (e : (block p : Prog α _).run γ h = .ok (b, h1)) :
    h1 = h ∧ h[p.block]? = some (some b) := by
  unfold block at e
  simp only [Prog.run] at e
  split at e
  · obtain ⟨rfl, rfl⟩ := Prod.mk.inj (Except.ok.inj e)
    exact ⟨rfl, by assumption⟩
  · cases e

theorem add_ok {α : Type} {E : Env} {p q : Ptr} {n : Nat} {h h1 : Heap α} (e : (add E p n : Prog α _).run γ h = .ok (q, h1)) :
    h1 = h ∧ q = ⟨p.block, p.off + n * E.size⟩ := by
  unfold add at e
  replace e := run_bind_ok e
  obtain ⟨b, h', e1, e⟩ := e
  obtain ⟨rfl, -⟩ := block_ok e1
  replace e := run_ite_ok e
  obtain ⟨-, e⟩ := e
  obtain ⟨rfl, rfl⟩ := Prod.mk.inj (Except.ok.inj e)
  exact ⟨rfl, rfl⟩

theorem read_ok {α : Type} {E : Env} {p : Ptr} {a : α} {h h1 : Heap α} (e : (read E p : Prog α _).run γ h = .ok (a, h1)) :
    h1 = h ∧ ∃ b, h[p.block]? = some (some b) ∧ b.slots[p.off / E.size]? = some (some a) := by
  unfold read at e
  replace e := run_bind_ok e
  obtain ⟨b, h', e1, e⟩ := e
  obtain ⟨rfl, hb⟩ := block_ok e1
  replace e := run_ite_ok e
  obtain ⟨-, e⟩ := e
  split at e
  · obtain ⟨rfl, rfl⟩ := Prod.mk.inj (Except.ok.inj e)
    exact ⟨rfl, b, hb, by assumption⟩
  · cases e

theorem write_ok {α : Type} {E : Env} {p : Ptr} {a : α} {h h1 : Heap α} {u : Unit} (e : (write E p a : Prog α _).run γ h = .ok (u, h1)) :
    ∃ b, h[p.block]? = some (some b) ∧ h1 = h.set p.block (some ⟨b.bytes, b.slots.set (p.off / E.size) (some a)⟩) := by
  unfold write at e
  replace e := run_bind_ok e
  obtain ⟨b, h', e1, e⟩ := e
  obtain ⟨rfl, hb⟩ := block_ok e1
  replace e := run_ite_ok e
  obtain ⟨-, e⟩ := e
  unfold setSlots at e
  replace e := run_bind_ok e
  obtain ⟨b', h'', e2, e⟩ := e
  obtain ⟨rfl, hb'⟩ := block_ok e2
  rw [hb] at hb'
  obtain rfl : b = b' := by injection hb' with h; injection h
  simp only [Prog.run, hb] at e
  obtain ⟨rfl, rfl⟩ := Prod.mk.inj (Except.ok.inj e)
  exact ⟨b, hb, rfl⟩

/-- The node that has been written to a slot is the one that is removed from it. -/
theorem swapRemove_put {E : TEnv} {v : FCVec} {i : Nat} {n : RNode B} {u : Unit} {h h1 : Heap (Cell B K V)}
    (e : (putNode E v i n).run γ h = .ok (u, h1)) :
    Cost γ (FCVec.swapRemove E.node v i) h1 fun a d r => a = 0 ∧ d = 0 ∧ r.2 = .node n := by
  intro r h2 e2
  obtain ⟨q1, q2, -⟩ := FCVec.cost_swapRemove r h2 e2
  refine ⟨q1, q2, ?_⟩
  unfold putNode FCVec.set at e
  replace e := run_bind_ok e
  obtain ⟨_, _, e0, e'⟩ := e
  obtain ⟨rfl, rfl⟩ := Prod.mk.inj (Except.ok.inj e')
  replace e0 := run_ite_ok e0
  obtain ⟨-, e⟩ := e0
  replace e := run_bind_ok e
  obtain ⟨p, _, e1, e⟩ := e
  obtain ⟨rfl, rfl⟩ := add_ok e1
  replace e := run_bind_ok e
  obtain ⟨old, _, e1, e⟩ := e
  obtain ⟨rfl, b, hb, hs⟩ := read_ok e1
  replace e := run_bind_ok e
  obtain ⟨_, _, e1, e⟩ := e
  obtain ⟨b', hb', rfl⟩ := write_ok e1
  obtain ⟨rfl, rfl⟩ := Prod.mk.inj (Except.ok.inj e)
  rw [hb] at hb'
  obtain rfl : b = b' := by injection hb' with h; injection h
  unfold FCVec.swapRemove at e2
  obtain ⟨_, _, e1, e⟩ := run_bind_ok e2
  have hsame : ∀ {P : Prop} [Decidable P] {x : Panic} {h h1 : Heap (Cell B K V)} {u : Unit},
      (panicIf P x : Prog (Cell B K V) Unit).run γ h = .ok (u, h1) → h1 = h := by
    intro P _ x h h1 u e
    unfold panicIf at e
    split at e
    · cases e
    · exact (Prod.mk.inj (Except.ok.inj e)).2.symm
  obtain rfl := hsame e1
  replace e := run_bind_ok e
  obtain ⟨p, _, e1, e⟩ := e
  obtain ⟨rfl, rfl⟩ := add_ok e1
  replace e := run_bind_ok e
  obtain ⟨cell, _, e1, e⟩ := e
  obtain ⟨rfl, b', hb', hs'⟩ := read_ok e1
  have hlt := (List.getElem?_eq_some_iff.1 hb).1
  have hlt' := (List.getElem?_eq_some_iff.1 hs).1
  have hb' := (List.getElem?_set_self hlt).symm.trans hb'
  obtain rfl : _ = b' := by injection hb' with h; injection h
  have hs' := (List.getElem?_set_self hlt').symm.trans hs'
  obtain rfl : Cell.node n = cell := by injection hs' with h; injection h
  replace e := run_bind_ok e
  obtain ⟨_, _, e1, e⟩ := e
  replace e := run_bind_ok e
  obtain ⟨_, _, e1, e⟩ := e
  replace e := run_bind_ok e
  obtain ⟨_, _, e1, e⟩ := e
  obtain ⟨rfl, rfl⟩ := Prod.mk.inj (Except.ok.inj e)
  rfl

/-! ### Removal -/

/-- The vectors put aside have fewer elements than a node must have. -/
def Underfull (m : Nat) (r : RSlots) : Prop := ∀ v, some v ∈ r → v.len < m

section Remove

variable [Bounds B] [Bounded K B] [Bounded Q B] [BEq Q]

/-- Nothing is asked for and nothing given back, and what is put aside is underfull. -/
def putsAside (m : Nat) (r : RSlots) {R : Type} (a d : Nat) (x : R × Option (K × V) × RSlots) : Prop :=
  a = 0 ∧ d = 0 ∧ x.2.2.length = r.length ∧ Underfull m x.2.2

theorem cost_removeLoop {E : TEnv} {al : Alloc} {l : Nat} {q : Q}
    {rec : RNode B → RSlots → Prog (Cell B K V) (RNode B × Option (K × V) × RSlots)}
    (hrec : ∀ n r h, Underfull al.minChildren r → Cost γ (rec n r) h (putsAside al.minChildren r)) :
    ∀ i v r h, Underfull al.minChildren r → Cost γ (removeLoop E al l q rec i v r) h (putsAside al.minChildren r) := by
  intro i
  induction i with
  | zero => intro v r h hr; exact .pure ⟨rfl, rfl, rfl, hr⟩
  | succ i ih =>
    intro v r h hr
    unfold removeLoop
    refine quiet_nodeAt.then fun child h => ?_
    split
    · refine (hrec child r h hr).bind fun a d x h hx => ?_
      obtain ⟨child, found, r'⟩ := x
      obtain ⟨rfl, rfl, hlen, hr'⟩ := hx
      simp only [Nat.zero_add]
      have hlen : r'.length = r.length := hlen
      refine (quiet_putNode h).bind' fun a d u h1 hput hq => ?_
      obtain ⟨rfl, rfl⟩ := hq
      simp only [Nat.zero_add]
      cases found with
      | none => exact (ih v r' h1 hr').mono fun a d x hx => ⟨hx.1, hx.2.1, hx.2.2.1.trans hlen, hx.2.2.2⟩
      | some e =>
        dsimp only
        split
        · rename_i hm
          refine (swapRemove_put hput).bind fun a d x h2 hx => ?_
          obtain ⟨v, cell⟩ := x
          obtain ⟨rfl, rfl, hc⟩ := hx
          obtain rfl : cell = .node child := hc
          simp only [Nat.zero_add]
          refine Cost.bind (R := fun a d n => a = 0 ∧ d = 0 ∧ n = child)
            (fun n h' e => by obtain ⟨rfl, rfl⟩ := Prod.mk.inj (Except.ok.inj e); exact ⟨rfl, rfl, rfl⟩)
            fun a d n h2 hn => ?_
          obtain ⟨rfl, rfl, rfl⟩ := hn
          simp only [Nat.zero_add]
          refine Cost.bind (R := fun a d x => a = 0 ∧ d = 0 ∧ x = r'.set l (some n.vec))
            (fun x h' e => ?_) fun a d x h2 hx => ?_
          · refine ⟨(quiet_lift _ _ _ e).1, (quiet_lift _ _ _ e).2, ?_⟩
            unfold onUnderfull at e
            split at e
            · exact (Prod.mk.inj (Except.ok.inj e)).1.symm
            · cases e
          · obtain ⟨rfl, rfl, rfl⟩ := hx
            refine .pure ⟨rfl, rfl, (List.length_set ..).trans hlen, fun w hw => ?_⟩
            rcases List.mem_or_eq_of_mem_set hw with hw | hw
            · exact hr' w hw
            · obtain rfl : w = n.vec := by injection hw
              exact hm
        · exact .pure ⟨rfl, rfl, hlen, hr'⟩
    · exact ih v r h hr

theorem cost_removeNode {E : TEnv} {al : Alloc} {borrow : K → Q} {q : Q} : ∀ l (node : RNode B) r (h : Heap (Cell B K V)),
    Underfull al.minChildren r → Cost γ (removeNode E al borrow q l node r) h (putsAside al.minChildren r) := by
  intro l
  induction l with
  | zero =>
    intro node r h hr
    unfold removeNode
    refine quiet_entries.then fun es h => ?_
    split
    · refine FCVec.quiet_swapRemove.then fun x h => ?_
      exact quiet_lift.then fun _ _ => quiet_entries.then fun _ _ => .pure ⟨rfl, rfl, rfl, hr⟩
    · exact .pure ⟨rfl, rfl, rfl, hr⟩
  | succ l ih =>
    intro node r h hr
    unfold removeNode
    refine (cost_removeLoop ih _ _ _ _ hr).bind fun a d x h hx => ?_
    obtain ⟨v, found, r'⟩ := x
    obtain ⟨rfl, rfl, hlen, hr'⟩ := hx
    cases found with
    | none => exact .pure ⟨rfl, rfl, hlen, hr'⟩
    | some e => exact quiet_nodes.then fun _ _ => .pure ⟨rfl, rfl, hlen, hr'⟩

end Remove

namespace RTree

section

variable [Bounds B] [Volume B] [Bounded K B]

theorem cost_reinsertLoop {E : TEnv} {e : Env} {level : Nat} : ∀ n it (t : RTree B) (h : Heap (Cell B K V)),
    Cost γ (reinsertLoop E e level n it t) h fun a d r => d = 1 ∧ t.level ≤ r.1.level ∧ r.1.alloc = t.alloc ∧
      a ≤ (n - 1) * (r.1.level + 1) := by
  intro n
  induction n with
  | zero => intro it t h; exact Cost.fail
  | succ n ih =>
    intro it t h
    unfold reinsertLoop
    refine IntoIter.quiet_next.then fun x h => ?_
    obtain ⟨it, o⟩ := x
    cases o with
    | none =>
      exact IntoIter.cost_drop.bind fun a d _ _ hr => .pure ⟨by omega, Nat.le_refl _, rfl, by omega⟩
    | some c =>
      refine quiet_lift.then fun entry h => cost_insertEntry.bind fun a d t' h hr => ?_
      cases n with
      | zero => exact Cost.fail
      | succ n =>
        refine (ih it t' h).mono fun a' d' r hr' => ?_
        obtain ⟨h1, h2, h3⟩ := hr
        obtain ⟨h4, h5, h6, h7⟩ := hr'
        refine ⟨by omega, by omega, h6.trans h2, ?_⟩
        rw [Nat.add_sub_cancel] at h7 ⊢
        rw [Nat.succ_mul]
        omega

/-- The vectors put aside. -/
def aside (l : List (Option FCVec × Nat)) : List FCVec := l.filterMap (·.1)

theorem cost_reinsert {E : TEnv} : ∀ (l : List (Option FCVec × Nat)) (t : RTree B) (h : Heap (Cell B K V)),
    Cost γ (reinsert E l t) h fun a d r => d = (aside l).length ∧ t.level ≤ r.1.level ∧ r.1.alloc = t.alloc ∧
      a ≤ ((aside l).map FCVec.len).sum * (r.1.level + 1)
  | [], t, h => .pure ⟨rfl, Nat.le_refl _, rfl, Nat.zero_le _⟩
  | (none, _) :: rest, t, h => by
    unfold reinsert
    exact cost_reinsert rest t h
  | (some v, level) :: rest, t, h => by
    unfold reinsert
    refine IntoIter.quiet_new.then fun it h => (cost_reinsertLoop _ _ _ _).bind fun a d x h hx => ?_
    obtain ⟨t', dr⟩ := x
    refine (cost_reinsert rest t' h).bind fun a' d' x h' hx' => ?_
    obtain ⟨t2, dr'⟩ := x
    obtain ⟨h1, h2, h3, h4⟩ := hx
    obtain ⟨h5, h6, h7, h8⟩ := hx'
    have h2 : t.level ≤ t'.level := h2
    have h6 : t'.level ≤ t2.level := h6
    have e : aside ((some v, level) :: rest) = v :: aside rest := rfl
    have hd : d + (d' + 0) = (v :: aside rest).length := by rw [List.length_cons]; omega
    have h8 : a' ≤ ((aside rest).map FCVec.len).sum * (t2.level + 1) := h8
    have h4 : a ≤ v.len * (t'.level + 1) := by
      have : a ≤ (v.len + 1 - 1) * (t'.level + 1) := h4
      rwa [Nat.add_sub_cancel] at this
    have k1 : v.len * (t'.level + 1) ≤ v.len * (t2.level + 1) := Nat.mul_le_mul_left _ (by omega)
    have ha : a + (a' + 0) ≤ ((v :: aside rest).map FCVec.len).sum * (t2.level + 1) := by
      rw [List.map_cons, List.sum_cons, Nat.add_mul]
      omega
    exact .pure ⟨hd, Nat.le_trans h2 h6, h7.trans h3, ha⟩

theorem sum_len_le {m : Nat} : ∀ (l : List FCVec), (∀ v ∈ l, v.len ≤ m) → (l.map FCVec.len).sum ≤ l.length * m
  | [], _ => Nat.zero_le _
  | v :: vs, hv => by
    rw [List.map_cons, List.sum_cons, List.length_cons, Nat.succ_mul]
    have := sum_len_le vs fun v h => hv v (List.mem_cons_of_mem _ h)
    have := hv v List.mem_cons_self
    omega

/-- A removal: what it asks for and gives back. -/
theorem cost_remove [Bounded Q B] [BEq Q] {E : TEnv} {borrow : K → Q} {t : RTree B} {q : Q} {h : Heap (Cell B K V)} :
    Cost γ (remove E borrow t q) h fun a d r => r.1.alloc = t.alloc ∧ t.level ≤ r.1.level + 1 ∧
      (r.2.1 = none → a = 0 ∧ d = 0) ∧ d ≤ t.level + 1 ∧
      a ≤ t.level * (t.alloc.minChildren - 1) * (r.1.level + 1) := by
  unfold remove
  refine (cost_removeNode _ _ _ _ (fun v hv => ?_)).bind fun a d x h hx => ?_
  · rw [List.mem_replicate] at hv
    cases hv.2
  · obtain ⟨root, found, slots⟩ := x
    obtain ⟨rfl, rfl, hlen, hu⟩ := hx
    have hlen' : slots.length = t.level := hlen.trans (List.length_replicate ..)
    have hu' : Underfull t.alloc.minChildren slots := hu
    cases found with
    | none => exact .pure ⟨rfl, Nat.le_succ _, fun _ => ⟨rfl, rfl⟩, Nat.zero_le _, Nat.zero_le _⟩
    | some e =>
      refine cost_tryUnbranch.bind fun a d x h hx => ?_
      obtain ⟨t1, d1⟩ := x
      refine (cost_reinsert _ t1 h).bind fun a' d' x h' hx' => ?_
      obtain ⟨t2, d2⟩ := x
      obtain ⟨h1, h2, h3, h4⟩ := hx
      obtain ⟨h5, h6, h7, h8⟩ := hx'
      have h2 : d + t1.level = t.level := h2
      have h6 : t1.level ≤ t2.level := h6
      have k : aside slots.zipIdx = slots.filterMap id := by
        unfold aside
        have : slots = slots.zipIdx.map Prod.fst := by simp
        conv => rhs; rw [this, List.filterMap_map]
        rfl
      have k1 : (aside slots.zipIdx).length ≤ t.level := by
        rw [k]
        exact Nat.le_trans (List.length_filterMap_le ..) (Nat.le_of_eq hlen')
      have k2 : ∀ v ∈ aside slots.zipIdx, v.len ≤ t.alloc.minChildren - 1 := fun v hv => by
        rw [k, List.mem_filterMap] at hv
        obtain ⟨o, ho, rfl⟩ := hv
        have := hu' v ho
        omega
      have k3 : ((aside slots.zipIdx).map FCVec.len).sum ≤ t.level * (t.alloc.minChildren - 1) := by
        refine Nat.le_trans ?_ (Nat.mul_le_mul_right _ k1)
        exact sum_len_le _ k2
      have h8 : a' ≤ ((aside slots.zipIdx).map FCVec.len).sum * (t2.level + 1) := h8
      have hb := Nat.le_trans h8 (Nat.mul_le_mul_right _ k3)
      have ha : 0 + (a + (a' + 0)) ≤ t.level * (t.alloc.minChildren - 1) * (t2.level + 1) := by
        have h1 : a = 0 := h1
        omega
      have hd : 0 + (d + (d' + 0)) ≤ t.level + 1 := by
        have h5 : d' = (aside slots.zipIdx).length := h5
        omega
      exact .pure ⟨h7.trans h4, show t.level ≤ t2.level + 1 by omega, fun hn => (by cases hn), hd, ha⟩

end

end RTree

end

/-! ### Clones and drops -/

theorem cost_foldlM {α β δ : Type} {f : β → δ → Prog α β} {Q : Nat → Nat → Prop} (h0 : Q 0 0) (hadd : ∀ a d a' d', Q a d → Q a' d' → Q (a + a') (d + d'))
    (hf : ∀ b x h, Cost γ (f b x) h fun a d _ => Q a d) : ∀ (l : List δ) (b : β) (h : Heap α), Cost γ (l.foldlM f b) h fun a d _ => Q a d
  | [], b, h => .pure h0
  | x :: l, b, h => by
    rw [List.foldlM_cons]
    exact (hf b x h).bind fun a d b h' hr => (cost_foldlM h0 hadd hf l b h').mono fun a' d' _ hr' => hadd _ _ _ _ hr hr'

theorem cost_dropNode {E : TEnv} {al : Alloc} : ∀ (l : Nat) (node : RNode B) (h : Heap (Cell B K V)),
    Cost γ (dropNode E al l node) h fun a _ _ => a = 0
  | 0, node, h => by
    unfold dropNode
    exact FCVec.cost_drop.bind fun a d b h' hr => (quiet_lift h').mono fun a' d' _ hr' => by omega
  | l + 1, node, h => by
    unfold dropNode
    refine quiet_nodes.then fun cs h => ?_
    refine (cost_foldlM (Q := fun a _ => a = 0) rfl (fun _ _ _ _ h h' => by omega) (fun acc c h => ?_) cs [] h).bind fun a d es h hr => ?_
    · exact (cost_dropNode l c h).bind fun a d _ _ hr => .pure (by omega)
    · exact FCVec.cost_drop.bind fun a' d' _ _ hr' => .pure (by omega)

theorem cost_cloneNode {E : TEnv} {al : Alloc} : ∀ (l : Nat) (node : RNode B) (h : Heap (Cell B K V)),
    Cost γ (cloneNode E al l node) h fun _ d _ => d = 0
  | 0, node, h => by
    unfold cloneNode
    exact FCVec.cost_clone.bind fun a d b h' hr => .pure (by omega)
  | l + 1, node, h => by
    unfold cloneNode
    refine FCVec.cost_new.bind fun a d v h hr => ?_
    refine quiet_nodes.then fun cs h => ?_
    refine (cost_foldlM (Q := fun _ d => d = 0) rfl (fun _ _ _ _ h h' => by omega) (fun v c h => ?_) cs v h).bind fun a d es h hr => .pure (by omega)
    exact (cost_cloneNode l c h).bind fun a d _ h hr => (FCVec.quiet_push h).mono fun a' d' _ hr' => by omega

/-! ### Commands -/

section

variable [Bounds B] [Volume B] [Bounded K B] [BEq K] [Bounded Q B] [BEq Q]

/-- `Cmd.MayCall`, on the variables in memory, without the exact counts of `clone` and `drop`. -/
def cmdCost (f : List (Option (RTree B))) (a d : Nat) (r : List (Option (RTree B)) × Event K V) : Cmd K V Q → Prop
  | .new _ => a = 1 ∧ d = 0
  | .get _ _ | .replace _ _ _ | .len _ | .isEmpty _ => a = 0 ∧ d = 0
  | .insert i _ _ => d = 0 ∧ ∀ t t', f[i]? = some (some t) → r.1[i]? = some (some t') →
      t'.level = t.level ∧ a ≤ t.level ∨ t'.level = t.level + 1 ∧ a = t.level + 2
  | .insertUnique i _ _ => d = 0 ∧ (∀ v, r.2.reply = .moved (some v) → a = 0) ∧ ∀ t t', f[i]? = some (some t) → r.1[i]? = some (some t') →
      t'.level = t.level ∧ a ≤ t.level ∨ t'.level = t.level + 1 ∧ a = t.level + 2
  | .remove i _ => (r.2.reply = .moved none → a = 0 ∧ d = 0) ∧ ∀ t t', f[i]? = some (some t) → r.1[i]? = some (some t') →
      t.level ≤ t'.level + 1 ∧ d ≤ t.level + 1 ∧ a ≤ t.level * (t.alloc.minChildren - 1) * (t'.level + 1)
  | .clone _ => d = 0
  | .drop _ => a = 0

theorem cost_withTree {f : List (Option (RTree B))} {i : Nat} {e : Event K V} {g : RTree B → Prog (Cell B K V) (List (Option (RTree B)) × Event K V)}
    {h : Heap (Cell B K V)} {Q : Nat → Nat → List (Option (RTree B)) × Event K V → Prop}
    (hn : (∀ t, f[i]? ≠ some (some t)) → Q 0 0 (f, e)) (hs : ∀ t, f[i]? = some (some t) → Cost γ (g t) h Q) : Cost γ (withTree f i e g) h Q := by
  by_cases hi : ∃ t, f[i]? = some (some t)
  · obtain ⟨t, hi⟩ := hi
    rw [withTree_some hi]
    exact hs t hi
  · have hi' : ∀ t, f[i]? ≠ some (some t) := fun t ht => hi ⟨t, ht⟩
    rw [withTree_none hi']
    exact .pure (hn hi')

theorem set_same {T : Type} {f : List (Option T)} {i : Nat} {t t' t2 u : T} (hi : f[i]? = some (some t)) (h1 : f[i]? = some (some t'))
    (h2 : (f.set i (some u))[i]? = some (some t2)) : t' = t ∧ t2 = u := by
  rw [hi] at h1
  rw [List.getElem?_set_self (List.getElem?_eq_some_iff.1 hi).1] at h2
  exact ⟨by injection h1 with h; injection h with h; exact h.symm, by injection h2 with h; injection h with h; exact h.symm⟩

theorem cost_cmd {E : TEnv} (borrow : K → Q) (f : List (Option (RTree B))) (c : Cmd K V Q) (h : Heap (Cell B K V)) :
    Cost γ (Steps.cmd E borrow f c) h fun a d r => cmdCost f a d r c := by
  cases c with
  | new c =>
    unfold Steps.cmd RTree.new
    exact Cost.bind (R := fun a d _ => a = 1 ∧ d = 0) (FCVec.cost_new.bind fun a d _ _ hr => .pure ⟨by omega, by omega⟩)
      fun a d _ _ hr => .pure ⟨by omega, by omega⟩
  | insert i k v =>
    refine cost_withTree (fun hn => ⟨rfl, fun t t' ht => absurd ht (hn t)⟩) fun t hi => ?_
    refine RTree.cost_insert.bind fun a d u h hr => .pure ⟨hr.1, fun t' t2 h1 h2 => ?_⟩
    obtain ⟨rfl, rfl⟩ := set_same hi h1 h2
    exact hr.2
  | insertUnique i k v =>
    refine cost_withTree (fun hn => ⟨rfl, fun v e => rfl, fun t t' ht => absurd ht (hn t)⟩) fun t hi => ?_
    refine RTree.cost_insertUnique.bind fun a d u h hr => .pure ⟨hr.1.1, fun w e => ?_, fun t' t2 h1 h2 => ?_⟩
    · have e : Reply.moved u.2 = Reply.moved (some w) := e
      have e : u.2 = some w := by injection e
      exact (hr.2 (by rw [e]; rfl)).1
    · obtain ⟨rfl, rfl⟩ := set_same hi h1 h2
      exact hr.1.2
  | remove i q =>
    refine cost_withTree (fun hn => ⟨fun _ => ⟨rfl, rfl⟩, fun t t' ht => absurd ht (hn t)⟩) fun t hi => ?_
    refine RTree.cost_remove.bind fun a d u h hr => .pure ⟨fun e => ?_, fun t' t2 h1 h2 => ?_⟩
    · have e : Reply.moved (u.2.1.map (·.2)) = Reply.moved none := e
      have e : u.2.1.map (·.2) = none := by injection e
      exact hr.2.2.1 (Option.map_eq_none_iff.1 e)
    · obtain ⟨rfl, rfl⟩ := set_same hi h1 h2
      exact ⟨hr.2.1, hr.2.2.2.1, hr.2.2.2.2⟩
  | get i q =>
    exact cost_withTree (fun _ => ⟨rfl, rfl⟩) fun t _ => RTree.quiet_get.then fun _ _ => .pure ⟨rfl, rfl⟩
  | replace i q v =>
    exact cost_withTree (fun _ => ⟨rfl, rfl⟩) fun t _ => RTree.quiet_setValue.then fun _ _ => .pure ⟨rfl, rfl⟩
  | len i =>
    exact cost_withTree (fun _ => ⟨rfl, rfl⟩) fun t _ => RTree.quiet_len.then fun _ _ => .pure ⟨rfl, rfl⟩
  | isEmpty i =>
    exact cost_withTree (fun _ => ⟨rfl, rfl⟩) fun t _ => .pure ⟨rfl, rfl⟩
  | clone i =>
    refine cost_withTree (fun _ => rfl) fun t _ => ?_
    unfold RTree.clone
    exact Cost.bind (R := fun _ d _ => d = 0) ((cost_cloneNode _ _ _).bind fun a d _ _ hr => .pure (by show _ = _; omega))
      fun a d _ _ hr => .pure (by show _ = _; omega)
  | drop i =>
    refine cost_withTree (fun _ => rfl) fun t _ => ?_
    unfold RTree.drop
    exact (cost_dropNode _ _ _).bind fun a d _ _ hr => .pure (by show _ = _; omega)

end

end Steps

end RTree.Raw
