import Verif.Model.StepsLeft
import Verif.Proofs.ThreadView
/-!
# Left joins as single accesses
-/

namespace RTree.Raw.Steps

variable {B K V Q : Type} {γ : Nat → Nat}

section Run

theorem run_nodeSliceAt (E : TEnv) : ∀ (s : NodeSlice B) (i : Nat), (NodeSlice.at E s i : Prog (Cell B K V) _).run γ = Raw.NodeSlice.at (E.placed γ) s i
  | .none, _ => rfl
  | .one _, 0 => rfl
  | .one _, _ + 1 => rfl
  | .all v, i => run_nodeAt E v i

theorem run_entrySliceAt (E : TEnv) : ∀ (s : EntrySlice) (i : Nat), (EntrySlice.at E s i : Prog (Cell B K V) _).run γ = Raw.EntrySlice.at (E.placed γ) s i
  | .none, _ => rfl
  | .all v, i => run_seq (FCVec.run_get E.entry v i) fun _ => run_lift _

theorem run_nextNode (E : TEnv) (c : Cursor (NodeSlice B)) : (nextNode E c : Prog (Cell B K V) _).run γ = Raw.nextNode (E.placed γ) c :=
  run_ite (run_seq (run_nodeSliceAt E _ _) fun _ => rfl) rfl

theorem run_nextEntry (E : TEnv) (c : Cursor EntrySlice) : (nextEntry E c : Prog (Cell B K V) _).run γ = Raw.nextEntry (E.placed γ) c :=
  run_ite (run_seq (run_entrySliceAt E _ _) fun _ => rfl) rfl

theorem run_findNode (E : TEnv) (p : RNode B → Bool) : ∀ (n : Nat) (c : Cursor (NodeSlice B)), (findNode E p n c : Prog (Cell B K V) _).run γ = Raw.findNode (E.placed γ) p n c
  | 0, _ => rfl
  | n + 1, c => run_seq (run_nextNode E c) fun x => by
    obtain ⟨o, c⟩ := x
    cases o with
    | none => rfl
    | some x => exact run_ite rfl (run_findNode E p n c)

theorem run_findEntry (E : TEnv) (p : K × V → Bool) : ∀ (n : Nat) (c : Cursor EntrySlice), (findEntry E p n c : Prog (Cell B K V) _).run γ = Raw.findEntry (E.placed γ) p n c
  | 0, _ => rfl
  | n + 1, c => run_seq (run_nextEntry E c) fun x => by
    obtain ⟨o, c⟩ := x
    cases o with
    | none => rfl
    | some x => exact run_ite rfl (run_findEntry E p n c)

theorem run_findInner {step : Cursor (NodeSlice B) → Prog (Cell B K V) (Option (RNode B) × Cursor (NodeSlice B))}
    {step' : Cursor (NodeSlice B) → TM B K V (Option (RNode B) × Cursor (NodeSlice B))} (h : ∀ c, (step c).run γ = step' c) (start0 stop : Nat) :
    ∀ (fuel i : Nat) (s : SliceStack B), (findInner step start0 stop fuel i s).run γ = Raw.findInner step' start0 stop fuel i s := by
  intro fuel
  induction fuel with
  | zero =>
    intro i s
    unfold findInner Raw.findInner
    exact run_ite rfl rfl
  | succ fuel ih =>
    intro i s
    unfold findInner Raw.findInner
    refine run_ite (run_seq (run_lift _) fun it => run_seq (h it) fun x => ?_) rfl
    obtain ⟨found, it⟩ := x
    refine run_seq (run_lift _) fun s => ?_
    cases found with
    | none => exact ih _ _
    | some child =>
      cases i with
      | zero => rfl
      | succ i => exact run_seq (run_lift _) fun s => ih _ _

namespace MemLeftJoin

theorem run_ascend {β : Type} (minHeight level : Nat) {loop : MemLeftJoin B → Prog (Cell B K V) (Option β × MemLeftJoin B)} {loop' : MemLeftJoin B → TM B K V (Option β × MemLeftJoin B)}
    (h : ∀ it, (loop it).run γ = loop' it) (it : MemLeftJoin B) : (ascend minHeight level loop it).run γ = Raw.MemLeftJoin.ascend minHeight level loop' it :=
  run_ite rfl (run_seq (run_lift _) fun _ => run_seq (run_lift _) fun _ => h _)

theorem run_nextLoop (E : TEnv) (f : JoinFilter B B Q Q) (inner minHeight : Nat) : ∀ (fuel level : Nat) (it : MemLeftJoin B),
    (nextLoop E f inner minHeight fuel level it : Prog (Cell B K V) _).run γ = Raw.MemLeftJoin.nextLoop (E.placed γ) f inner minHeight fuel level it := by
  intro fuel
  induction fuel with
  | zero => intro level it; rfl
  | succ fuel ih =>
    intro level it
    unfold nextLoop Raw.MemLeftJoin.nextLoop
    cases level with
    | zero =>
      refine run_seq (run_lift _) fun c => run_seq (run_nextEntry E c) fun x => ?_
      obtain ⟨o, c⟩ := x
      cases o with
      | none => exact run_ascend _ _ (ih _) _
      | some e => exact run_seq (run_lift _) fun _ => run_seq (run_lift _) fun _ => rfl
    | succ l =>
      refine run_seq (run_lift _) fun _ => run_seq (run_findInner (run_nextNode E) _ _ _ _ _) fun x => ?_
      obtain ⟨o, left⟩ := x
      cases o with
      | none => exact run_ascend _ _ (ih _) _
      | some n =>
        refine run_seq (run_lift _) fun _ => run_seq (run_findInner (fun c => run_findNode E _ _ c) _ _ _ _ _) fun x => ?_
        obtain ⟨o, right⟩ := x
        exact run_seq (run_lift _) fun _ => run_seq (run_lift _) fun _ => ih _ _

theorem run_next (E : TEnv) (f : JoinFilter B B Q Q) (fuel : Nat) (it : MemLeftJoin B) : (next E f fuel it : Prog (Cell B K V) _).run γ = Raw.MemLeftJoin.next (E.placed γ) f fuel it :=
  run_ite rfl (run_nextLoop E f _ _ _ _ _)

end MemLeftJoin

namespace SliceStack

theorem run_nextLoop (E : TEnv) (borrow : K → Q) (f : SpatialFilter B Q) : ∀ (fuel level : Nat) (s : SliceStack B),
    (nextLoop E borrow f fuel level s : Prog (Cell B K V) _).run γ = Raw.SliceStack.nextLoop (E.placed γ) borrow f fuel level s := by
  intro fuel
  induction fuel with
  | zero =>
    intro level s
    unfold nextLoop Raw.SliceStack.nextLoop
    exact run_ite rfl rfl
  | succ fuel ih =>
    intro level s
    unfold nextLoop Raw.SliceStack.nextLoop
    refine run_ite ?_ rfl
    cases level with
    | zero =>
      refine run_seq (run_lift _) fun c => run_seq (run_findEntry E _ _ c) fun x => ?_
      obtain ⟨o, c⟩ := x
      refine run_seq (run_lift _) fun s => ?_
      cases o with
      | none => exact ih _ _
      | some e => rfl
    | succ l =>
      refine run_seq (run_lift _) fun c => run_seq (run_findNode E _ _ c) fun x => ?_
      obtain ⟨o, c⟩ := x
      refine run_seq (run_lift _) fun s => ?_
      cases o with
      | none => exact ih _ _
      | some e => exact run_seq (run_lift _) fun s => ih _ _

theorem run_collectLoop (E : TEnv) (borrow : K → Q) (f : SpatialFilter B Q) (fuel : Nat) : ∀ (n : Nat) (s : SliceStack B),
    (collectLoop E borrow f fuel n s : Prog (Cell B K V) _).run γ = Raw.SliceStack.collectLoop (E.placed γ) borrow f fuel n s
  | 0, _ => rfl
  | n + 1, s => run_seq (run_nextLoop E borrow f fuel 0 s) fun x => by
    obtain ⟨o, s⟩ := x
    cases o with
    | none => rfl
    | some e => exact run_seq (run_collectLoop E borrow f fuel n s) fun _ => rfl

end SliceStack

variable [Bounded Q B]

theorem MemLeftJoin.run_collectLoop (E : TEnv) (borrow : K → Q) (f : JoinFilter B B Q Q) (fuel : Nat) : ∀ (n : Nat) (it : MemLeftJoin B),
    (MemLeftJoin.collectLoop E borrow f fuel n it : Prog (Cell B K V) _).run γ = Raw.MemLeftJoin.collectLoop (E.placed γ) borrow f fuel n it
  | 0, _ => rfl
  | n + 1, it => run_seq (MemLeftJoin.run_next E f fuel it) fun x => by
    obtain ⟨o, it⟩ := x
    cases o with
    | none => rfl
    | some y =>
      obtain ⟨e, stack⟩ := y
      exact run_seq (SliceStack.run_collectLoop E borrow _ fuel fuel stack) fun _ => run_seq (MemLeftJoin.run_collectLoop E borrow f fuel n it) fun _ => rfl

theorem RTree.run_leftJoin (E : TEnv) (borrow : K → Q) (f : JoinFilter B B Q Q) (t0 t1 : RTree B) :
    (RTree.leftJoin E borrow f t0 t1 : Prog (Cell B K V) _).run γ = Raw.RTree.leftJoin (E.placed γ) borrow f t0 t1 :=
  run_seq (run_lift _) fun _ => MemLeftJoin.run_collectLoop E borrow f _ _ _

end Run

section Fresh

variable {m : Nat}

theorem fresh_nodeSliceAt (E : TEnv) : ∀ (s : NodeSlice B) (i : Nat), (NodeSlice.at E s i : Prog (Cell B K V) _).Fresh m fun _ => True
  | .none, _ => trivial
  | .one _, 0 => trivial
  | .one _, _ + 1 => trivial
  | .all _, _ => .bind (FCVec.fresh_get _ _ _) fun _ _ => fresh_lift

theorem fresh_entrySliceAt (E : TEnv) : ∀ (s : EntrySlice) (i : Nat), (EntrySlice.at E s i : Prog (Cell B K V) _).Fresh m fun _ => True
  | .none, _ => trivial
  | .all _, _ => .bind (FCVec.fresh_get _ _ _) fun _ _ => fresh_lift

theorem fresh_nextNode (E : TEnv) (c : Cursor (NodeSlice B)) : (nextNode E c : Prog (Cell B K V) _).Fresh m fun _ => True := by
  unfold nextNode
  split
  · exact .bind (fresh_nodeSliceAt E _ _) fun _ _ => trivial
  · trivial

theorem fresh_nextEntry (E : TEnv) (c : Cursor EntrySlice) : (nextEntry E c : Prog (Cell B K V) _).Fresh m fun _ => True := by
  unfold nextEntry
  split
  · exact .bind (fresh_entrySliceAt E _ _) fun _ _ => trivial
  · trivial

theorem fresh_findNode (E : TEnv) (p : RNode B → Bool) : ∀ (n : Nat) (c : Cursor (NodeSlice B)), (findNode E p n c : Prog (Cell B K V) _).Fresh m fun _ => True
  | 0, _ => trivial
  | n + 1, c => .bind (fresh_nextNode E c) fun x _ => by
    obtain ⟨o, c⟩ := x
    cases o with
    | none => trivial
    | some x =>
      dsimp only
      split
      · trivial
      · exact fresh_findNode E p n c

theorem fresh_findEntry (E : TEnv) (p : K × V → Bool) : ∀ (n : Nat) (c : Cursor EntrySlice), (findEntry E p n c : Prog (Cell B K V) _).Fresh m fun _ => True
  | 0, _ => trivial
  | n + 1, c => .bind (fresh_nextEntry E c) fun x _ => by
    obtain ⟨o, c⟩ := x
    cases o with
    | none => trivial
    | some x =>
      dsimp only
      split
      · trivial
      · exact fresh_findEntry E p n c

theorem fresh_findInner {step : Cursor (NodeSlice B) → Prog (Cell B K V) (Option (RNode B) × Cursor (NodeSlice B))} (h : ∀ c, (step c).Fresh m fun _ => True) (start0 stop : Nat) :
    ∀ (fuel i : Nat) (s : SliceStack B), (findInner step start0 stop fuel i s).Fresh m fun _ => True := by
  intro fuel
  induction fuel with
  | zero =>
    intro i s
    unfold findInner
    split <;> trivial
  | succ fuel ih =>
    intro i s
    unfold findInner
    split
    · refine .bind fresh_lift fun it _ => .bind (h it) fun x _ => ?_
      obtain ⟨found, it⟩ := x
      refine .bind fresh_lift fun s _ => ?_
      cases found with
      | none => exact ih _ _
      | some child =>
        cases i with
        | zero => trivial
        | succ i => exact .bind fresh_lift fun s _ => ih _ _
    · trivial

namespace MemLeftJoin

theorem fresh_ascend {β : Type} (minHeight level : Nat) {loop : MemLeftJoin B → Prog (Cell B K V) (Option β × MemLeftJoin B)} (h : ∀ it, (loop it).Fresh m fun _ => True)
    (it : MemLeftJoin B) : (ascend minHeight level loop it).Fresh m fun _ => True := by
  unfold ascend
  split
  · trivial
  · exact .bind fresh_lift fun _ _ => .bind fresh_lift fun _ _ => h _

theorem fresh_nextLoop (E : TEnv) (f : JoinFilter B B Q Q) (inner minHeight : Nat) : ∀ (fuel level : Nat) (it : MemLeftJoin B),
    (nextLoop E f inner minHeight fuel level it : Prog (Cell B K V) _).Fresh m fun _ => True := by
  intro fuel
  induction fuel with
  | zero => intro level it; trivial
  | succ fuel ih =>
    intro level it
    unfold nextLoop
    cases level with
    | zero =>
      refine .bind fresh_lift fun c _ => .bind (fresh_nextEntry E c) fun x _ => ?_
      obtain ⟨o, c⟩ := x
      cases o with
      | none => exact fresh_ascend _ _ (ih _) _
      | some e => exact .bind fresh_lift fun _ _ => .bind fresh_lift fun _ _ => trivial
    | succ l =>
      refine .bind fresh_lift fun _ _ => .bind (fresh_findInner (fresh_nextNode E) _ _ _ _ _) fun x _ => ?_
      obtain ⟨o, left⟩ := x
      cases o with
      | none => exact fresh_ascend _ _ (ih _) _
      | some n =>
        refine .bind fresh_lift fun _ _ => .bind (fresh_findInner (fun c => fresh_findNode E _ _ c) _ _ _ _ _) fun x _ => ?_
        obtain ⟨o, right⟩ := x
        exact .bind fresh_lift fun _ _ => .bind fresh_lift fun _ _ => ih _ _

theorem fresh_next (E : TEnv) (f : JoinFilter B B Q Q) (fuel : Nat) (it : MemLeftJoin B) : (next E f fuel it : Prog (Cell B K V) _).Fresh m fun _ => True := by
  unfold next
  dsimp only
  split
  · trivial
  · exact fresh_nextLoop E f _ _ _ _ _

end MemLeftJoin

namespace SliceStack

theorem fresh_nextLoop (E : TEnv) (borrow : K → Q) (f : SpatialFilter B Q) : ∀ (fuel level : Nat) (s : SliceStack B),
    (nextLoop E borrow f fuel level s : Prog (Cell B K V) _).Fresh m fun _ => True := by
  intro fuel
  induction fuel with
  | zero =>
    intro level s
    unfold nextLoop
    split <;> trivial
  | succ fuel ih =>
    intro level s
    unfold nextLoop
    split
    · cases level with
      | zero =>
        refine .bind fresh_lift fun c _ => .bind (fresh_findEntry E _ _ c) fun x _ => ?_
        obtain ⟨o, c⟩ := x
        refine .bind fresh_lift fun s _ => ?_
        cases o with
        | none => exact ih _ _
        | some e => trivial
      | succ l =>
        refine .bind fresh_lift fun c _ => .bind (fresh_findNode E _ _ c) fun x _ => ?_
        obtain ⟨o, c⟩ := x
        refine .bind fresh_lift fun s _ => ?_
        cases o with
        | none => exact ih _ _
        | some e => exact .bind fresh_lift fun s _ => ih _ _
    · trivial

theorem fresh_collectLoop (E : TEnv) (borrow : K → Q) (f : SpatialFilter B Q) (fuel : Nat) : ∀ (n : Nat) (s : SliceStack B),
    (collectLoop E borrow f fuel n s : Prog (Cell B K V) _).Fresh m fun _ => True
  | 0, _ => trivial
  | n + 1, s => .bind (fresh_nextLoop E borrow f fuel 0 s) fun x _ => by
    obtain ⟨o, s⟩ := x
    cases o with
    | none => trivial
    | some e => exact .bind (fresh_collectLoop E borrow f fuel n s) fun _ _ => trivial

end SliceStack

variable [Bounded Q B]

theorem MemLeftJoin.fresh_collectLoop (E : TEnv) (borrow : K → Q) (f : JoinFilter B B Q Q) (fuel : Nat) : ∀ (n : Nat) (it : MemLeftJoin B),
    (MemLeftJoin.collectLoop E borrow f fuel n it : Prog (Cell B K V) _).Fresh m fun _ => True
  | 0, _ => trivial
  | n + 1, it => .bind (MemLeftJoin.fresh_next E f fuel it) fun x _ => by
    obtain ⟨o, it⟩ := x
    cases o with
    | none => trivial
    | some y =>
      obtain ⟨e, stack⟩ := y
      exact .bind (SliceStack.fresh_collectLoop E borrow _ fuel fuel stack) fun _ _ => .bind (MemLeftJoin.fresh_collectLoop E borrow f fuel n it) fun _ _ => trivial

theorem fresh_tleftJoin (E : TEnv) (borrow : K → Q) (f : JoinFilter B B Q Q) (t0 t1 : RTree B) : (RTree.leftJoin E borrow f t0 t1 : Prog (Cell B K V) _).Fresh m fun _ => True :=
  .bind fresh_lift fun _ _ => MemLeftJoin.fresh_collectLoop E borrow f _ _ _

end Fresh

end RTree.Raw.Steps
