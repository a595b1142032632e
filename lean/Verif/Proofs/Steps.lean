import Verif.Model.Steps
import Verif.Proofs.FCVec
/-!
# Running the single accesses in one go is running the function
-/

namespace RTree.Raw

/-- The allocator makes the choices `gap`. -/
def Env.placed (E : Env) (gap : Nat → Nat) : Env := { E with gap := gap }

/-- The allocator makes the choices `gap`. -/
def TEnv.placed (E : TEnv) (gap : Nat → Nat) : TEnv := ⟨E.node.placed gap, E.entry.placed gap⟩

set_option linter.unusedSectionVars false
set_option linter.unusedVariables false

namespace Steps

variable {α β δ : Type} {γ : Nat → Nat}

@[simp] theorem placed_size (E : Env) : (E.placed γ).size = E.size := rfl
@[simp] theorem placed_maxBytes (E : Env) : (E.placed γ).maxBytes = E.maxBytes := rfl
@[simp] theorem placed_zeroOk (E : Env) : (E.placed γ).zeroOk = E.zeroOk := rfl
@[simp] theorem placed_node (E : TEnv) : (E.placed γ).node = E.node.placed γ := rfl
@[simp] theorem placed_entry (E : TEnv) : (E.placed γ).entry = E.entry.placed γ := rfl
@[simp] theorem placed_slotEnv (E : TEnv) (l : Nat) : Raw.RTree.slotEnv (E.placed γ) l = (Raw.RTree.slotEnv E l).placed γ := by cases l <;> rfl

theorem run_bind (p : Prog α β) (f : β → Prog α δ) : (p >>= f).run γ = (p.run γ >>= fun b => (f b).run γ) := by
  funext h
  show (p.bind f).run γ h = _
  induction p generalizing h with
  | done b => rfl
  | fail e => rfl
  | look i k ih =>
    rw [bind_apply]
    simp only [Prog.bind, Prog.run]
    cases h[i]? with
    | none => rfl
    | some o => cases o with
      | none => rfl
      | some b => exact ih b h
  | put i x k ih =>
    rw [bind_apply]
    simp only [Prog.bind, Prog.run]
    cases h[i]? with
    | none => rfl
    | some o => cases o with
      | none => rfl
      | some b => exact ih _
  | make b k ih => exact ih _ _

theorem run_pure (b : β) : (pure b : Prog α β).run γ = pure b := rfl
theorem run_done (b : β) : (.done b : Prog α β).run γ = pure b := rfl

theorem bind_congr {x x' : M α β} {f f' : β → M α δ} (hx : x = x') (hf : ∀ b, f b = f' b) : (x >>= f) = (x' >>= f') := by
  rw [hx, show f = f' from funext hf]

theorem run_seq {p : Prog α β} {f : β → Prog α δ} {x : M α β} {g : β → M α δ} (hp : p.run γ = x) (hf : ∀ b, (f b).run γ = g b) :
    (p >>= f).run γ = (x >>= g) := by
  rw [run_bind]; exact bind_congr hp hf

theorem run_ite {c : Prop} [Decidable c] {p q : Prog α β} {x y : M α β} (hp : p.run γ = x) (hq : q.run γ = y) :
    (if c then p else q).run γ = if c then x else y := by
  split <;> assumption

theorem run_panic (e : Panic) : (panic e : Prog α β).run γ = Raw.panic e := rfl

theorem run_panicIf {c : Prop} [Decidable c] (e : Panic) : (panicIf c e : Prog α Unit).run γ = Raw.panicIf c e := run_ite rfl rfl

theorem run_lift (x : Res β) : (lift x : Prog α β).run γ = Raw.lift x := by cases x <;> rfl

theorem run_layoutArray (E : Env) (n : Nat) : (layoutArray E n : Prog α Nat).run γ = Raw.layoutArray (E.placed γ) n := run_ite rfl rfl

theorem run_foldlM {X : Type} {f : β → X → Prog α β} {g : β → X → M α β} (h : ∀ b x, (f b x).run γ = g b x) :
    ∀ (xs : List X) (b : β), (xs.foldlM f b).run γ = xs.foldlM g b
  | [], _ => rfl
  | x :: xs, b => by
    rw [List.foldlM_cons, List.foldlM_cons]
    exact run_seq (h b x) fun b' => run_foldlM h xs b'

theorem run_alloc (E : Env) (n : Nat) : (alloc E n : Prog α Ptr).run γ = Raw.alloc (E.placed γ) n := by
  refine run_seq (run_layoutArray E n) fun bytes => run_seq (run_panicIf _) fun _ => ?_
  funext h
  show Except.ok _ = Except.ok _
  rw [gapped, List.length_append, List.length_replicate]
  rfl

theorem run_block (p : Ptr) : (block p : Prog α (Block α)).run γ = Raw.block p := by
  funext h
  simp only [block, Prog.run, Raw.block]
  cases h[p.block]? with
  | none => rfl
  | some o => cases o <;> rfl

/-- A change right after a look. -/
theorem run_put {p : Ptr} {f : Block α → Prog α Unit} {g : Block α → M α Unit}
    (hfg : ∀ b h, h[p.block]? = some (some b) → (f b).run γ h = g b h) : (block p >>= f).run γ = (Raw.block p >>= g) := by
  rw [run_bind, run_block]
  funext h
  rw [bind_apply, bind_apply, Raw.block]
  cases hb : h[p.block]? with
  | none => rfl
  | some o => cases o with
    | none => rfl
    | some b => exact hfg b h hb

theorem run_setSlots (p : Ptr) (slots : List (Option α)) : (setSlots p slots).run γ = Raw.setSlots p slots := by
  refine run_put fun b h hb => ?_
  show (match h[p.block]? with | some (some _) => _ | _ => _) = _
  rw [hb]; rfl

theorem run_dealloc (E : Env) (p : Ptr) (n : Nat) : (dealloc E p n : Prog α Unit).run γ = Raw.dealloc (E.placed γ) p n := by
  refine run_seq (run_layoutArray E n) fun bytes => run_put fun b h hb => ?_
  rw [run_bind, run_panicIf]
  rw [placed_zeroOk]
  by_cases hc : p.off ≠ 0 ∨ b.bytes ≠ bytes ∨ (bytes = 0 ∧ E.zeroOk = false)
  · rw [Raw.panicIf, if_pos hc]; rfl
  · rw [Raw.panicIf, if_neg hc]
    show (match h[p.block]? with | some (some _) => _ | _ => _) = _
    rw [hb]; rfl

theorem run_add (E : Env) (p : Ptr) (n : Nat) : (add E p n : Prog α Ptr).run γ = Raw.add (E.placed γ) p n :=
  run_seq (run_block p) fun _ => run_ite rfl rfl

theorem run_read (E : Env) (p : Ptr) : (read E p : Prog α α).run γ = Raw.read (E.placed γ) p := by
  refine run_seq (run_block p) fun b => run_ite ?_ rfl
  rw [placed_size]
  cases b.slots[p.off / E.size]? with
  | none => rfl
  | some o => cases o <;> rfl

theorem run_write (E : Env) (p : Ptr) (a : α) : (write E p a : Prog α Unit).run γ = Raw.write (E.placed γ) p a :=
  run_seq (run_block p) fun _ => run_ite (run_setSlots _ _) rfl

theorem run_copy (E : Env) (src dst : Ptr) (n : Nat) : (copy E src dst n : Prog α Unit).run γ = Raw.copy (E.placed γ) src dst n :=
  run_seq (run_block src) fun _ => run_seq (run_panicIf _) fun _ => run_ite rfl (run_setSlots _ _)

theorem run_swapPtr (E : Env) (p q : Ptr) : (swapPtr E p q : Prog α Unit).run γ = Raw.swapPtr (E.placed γ) p q :=
  run_seq (run_read E p) fun _ => run_seq (run_read E q) fun _ => run_seq (run_write E p _) fun _ => run_write E q _

namespace FCVec

theorem run_new (E : Env) (cap : Nat) : (new E cap : Prog α FCVec).run γ = Raw.FCVec.new (E.placed γ) cap :=
  run_seq (run_alloc E cap) fun _ => rfl

theorem run_sliceLoop (E : Env) (v : FCVec) : ∀ n i, (sliceLoop E v n i : Prog α (List α)).run γ = Raw.FCVec.sliceLoop (E.placed γ) v n i
  | 0, _ => rfl
  | n + 1, i => run_seq (run_add E v.buf i) fun p => run_seq (run_read E p) fun _ => run_seq (run_sliceLoop E v n (i + 1)) fun _ => rfl

theorem run_slice (E : Env) (v : FCVec) : (slice E v : Prog α (List α)).run γ = Raw.FCVec.slice (E.placed γ) v := run_sliceLoop E v _ _

theorem run_get (E : Env) (v : FCVec) (i : Nat) : (get E v i : Prog α α).run γ = Raw.FCVec.get (E.placed γ) v i :=
  run_ite (run_seq (run_add E v.buf i) fun p => run_read E p) rfl

theorem run_set (E : Env) (v : FCVec) (i : Nat) (a : α) : (set E v i a : Prog α α).run γ = Raw.FCVec.set (E.placed γ) v i a :=
  run_ite (run_seq (run_add E v.buf i) fun p => run_seq (run_read E p) fun _ => run_seq (run_write E p a) fun _ => rfl) rfl

theorem run_push (E : Env) (cap : Nat) (v : FCVec) (a : α) : (push E cap v a : Prog α FCVec).run γ = Raw.FCVec.push (E.placed γ) cap v a :=
  run_seq (run_panicIf _) fun _ => run_seq (run_add E v.buf v.len) fun p => run_seq (run_write E p a) fun _ => rfl

theorem run_tryPush (E : Env) (cap : Nat) (v : FCVec) (a : α) : (tryPush E cap v a : Prog α _).run γ = Raw.FCVec.tryPush (E.placed γ) cap v a :=
  run_ite rfl (run_seq (run_add E v.buf v.len) fun p => run_seq (run_write E p a) fun _ => rfl)

theorem run_swapRemove (E : Env) (v : FCVec) (i : Nat) : (swapRemove E v i : Prog α _).run γ = Raw.FCVec.swapRemove (E.placed γ) v i :=
  run_seq (run_panicIf _) fun _ => run_seq (run_add E _ _) fun _ => run_seq (run_read E _) fun _ => run_seq (run_add E _ _) fun _ =>
    run_seq (run_add E _ _) fun _ => run_seq (run_copy E _ _ _) fun _ => rfl

theorem run_swap (E : Env) (v : FCVec) (i j : Nat) : (swap E v i j : Prog α Unit).run γ = Raw.FCVec.swap (E.placed γ) v i j :=
  run_seq (run_panicIf _) fun _ => run_seq (run_add E _ _) fun _ => run_seq (run_add E _ _) fun _ => run_swapPtr E _ _

theorem run_pop (E : Env) (v : FCVec) : (pop E v : Prog α _).run γ = Raw.FCVec.pop (E.placed γ) v :=
  run_ite rfl (run_seq (run_add E _ _) fun _ => run_seq (run_read E _) fun _ => rfl)

theorem run_popLoop (E : Env) : ∀ n (v : FCVec), (popLoop E n v : Prog α (List α)).run γ = Raw.FCVec.popLoop (E.placed γ) n v
  | 0, _ => rfl
  | n + 1, v => run_seq (run_pop E v) fun r => by
    obtain ⟨v, o⟩ := r
    cases o with
    | none => rfl
    | some a => exact run_seq (run_popLoop E n v) fun _ => rfl

theorem run_drop (E : Env) (cap : Nat) (v : FCVec) : (drop E cap v : Prog α (List α)).run γ = Raw.FCVec.drop (E.placed γ) cap v :=
  run_seq (run_popLoop E _ v) fun _ => run_seq (run_dealloc E _ _) fun _ => rfl

theorem run_pushAll (E : Env) (cap : Nat) : ∀ (v : FCVec) (as : List α), (pushAll E cap v as).run γ = Raw.FCVec.pushAll (E.placed γ) cap v as
  | _, [] => rfl
  | v, a :: as => run_seq (run_push E cap v a) fun v => run_pushAll E cap v as

theorem run_clone (E : Env) (cap : Nat) (cl : α → α) (v : FCVec) : (clone E cap cl v).run γ = Raw.FCVec.clone (E.placed γ) cap cl v :=
  run_seq (run_panicIf _) fun _ => run_seq (run_new E cap) fun _ => run_seq (run_slice E v) fun _ => run_pushAll E cap _ _

end FCVec

namespace IntoIter

theorem run_new (E : Env) (cap : Nat) (v : FCVec) : (new E cap v : Prog α _).run γ = Raw.IntoIter.new (E.placed γ) cap v :=
  run_seq (run_add E _ _) fun _ => rfl

theorem run_next (E : Env) (it : IntoIter) : (next E it : Prog α _).run γ = Raw.IntoIter.next (E.placed γ) it :=
  run_ite rfl (run_seq (run_read E _) fun _ => run_seq (run_add E _ _) fun _ => rfl)

theorem run_drain (E : Env) : ∀ n (it : IntoIter), (drain E n it : Prog α (List α)).run γ = Raw.IntoIter.drain (E.placed γ) n it
  | 0, _ => rfl
  | n + 1, it => run_seq (run_next E it) fun r => by
    obtain ⟨it, o⟩ := r
    cases o with
    | none => rfl
    | some a => exact run_seq (run_drain E n it) fun _ => rfl

theorem run_drop (E : Env) (it : IntoIter) : (drop E it : Prog α (List α)).run γ = Raw.IntoIter.drop (E.placed γ) it :=
  run_seq (run_drain E _ it) fun _ => run_seq (run_dealloc E _ _) fun _ => rfl

end IntoIter

variable {B K V Q : Type}

theorem run_nodes (E : TEnv) (v : FCVec) : (nodes E v : Prog (Cell B K V) _).run γ = Raw.nodes (E.placed γ) v :=
  run_seq (FCVec.run_slice E.node v) fun _ => run_lift _

theorem run_entries (E : TEnv) (v : FCVec) : (entries E v : Prog (Cell B K V) _).run γ = Raw.entries (E.placed γ) v :=
  run_seq (FCVec.run_slice E.entry v) fun _ => run_lift _

theorem run_nodeAt (E : TEnv) (v : FCVec) (i : Nat) : (nodeAt E v i : Prog (Cell B K V) _).run γ = Raw.nodeAt (E.placed γ) v i :=
  run_seq (FCVec.run_get E.node v i) fun _ => run_lift _

theorem run_putNode (E : TEnv) (v : FCVec) (i : Nat) (n : RNode B) : (putNode E v i n : Prog (Cell B K V) _).run γ = Raw.putNode (E.placed γ) v i n :=
  run_seq (FCVec.run_set E.node v i _) fun _ => rfl

section Split

variable [Bounds B] [Volume B]

theorem run_seedSplitGroups (e : Env) (bf : α → B) (v : FCVec) (o : α) : (seedSplitGroups e bf v o).run γ = Raw.seedSplitGroups (e.placed γ) bf v o :=
  run_seq (FCVec.run_slice e v) fun _ => run_seq (run_lift _) fun _ => run_seq (FCVec.run_swap e v _ _) fun _ => run_ite (FCVec.run_set e v _ _) rfl

theorem run_splitStep (e : Env) (bf : α → B) (m cap : Nat) (s : RSplit B) : (splitStep e bf m cap s).run γ = Raw.splitStep (e.placed γ) bf m cap s :=
  run_seq (FCVec.run_slice e _) fun _ => run_seq (run_lift _) fun _ => run_seq (run_lift _) fun _ =>
    run_ite (run_seq (FCVec.run_swap e _ _ _) fun _ => rfl) (run_seq (FCVec.run_swapRemove e _ _) fun _ => run_seq (FCVec.run_push e _ _ _) fun _ => rfl)

theorem run_splitLoop (e : Env) (bf : α → B) (m cap : Nat) : ∀ n (s : RSplit B), (splitLoop e bf m cap n s).run γ = Raw.splitLoop (e.placed γ) bf m cap n s
  | 0, s => by
    unfold splitLoop Raw.splitLoop
    exact run_ite rfl rfl
  | n + 1, s => by
    unfold splitLoop Raw.splitLoop
    exact run_ite (run_seq (run_splitStep e bf m cap s) fun s => run_splitLoop e bf m cap n s) rfl

theorem run_split (e : Env) (bf : α → B) (m cap : Nat) (v : FCVec) (o : α) : (split e bf m cap v o).run γ = Raw.split (e.placed γ) bf m cap v o :=
  run_seq (run_panicIf _) fun _ => run_seq (FCVec.run_new e cap) fun _ => run_seq (run_seedSplitGroups e bf v o) fun _ => run_seq (FCVec.run_push e _ _ _) fun _ =>
    run_seq (FCVec.run_get e _ _) fun _ => run_splitLoop e bf m cap _ _

end Split

section Insert

variable [Bounds B] [Volume B] [Bounded K B]

theorem run_pushNode (E : TEnv) (a : Alloc) (l : Nat) (node : RNode B) (b : B) (n : RNode B) :
    (pushNode E a l node b n : Prog (Cell B K V) _).run γ = Raw.pushNode (E.placed γ) a l node b n :=
  run_seq (FCVec.run_tryPush E.node _ _ _) fun r => by
    obtain ⟨v, o⟩ := r
    cases o with
    | none => rfl
    | some o => exact run_seq (run_lift _) fun _ => run_seq (run_split E.node _ _ _ _ _) fun _ => rfl

theorem run_pushEntry (E : TEnv) (a : Alloc) (node : RNode B) (b : B) (e : K × V) :
    (pushEntry E a node b e).run γ = Raw.pushEntry (E.placed γ) a node b e :=
  run_seq (FCVec.run_tryPush E.entry _ _ _) fun r => by
    obtain ⟨v, o⟩ := r
    cases o with
    | none => rfl
    | some o => exact run_seq (run_split E.entry _ _ _ _ _) fun _ => rfl

theorem run_selfInsert (E : TEnv) (a : Alloc) (l : Nat) (node : RNode B) (e : REntry B K V) :
    (selfInsert E a l node e).run γ = Raw.selfInsert (E.placed γ) a l node e := by
  cases l with
  | zero => cases e with
    | leaf k v => exact run_pushEntry E a node _ _
    | inner l' n => rfl
  | succ l => cases e with
    | leaf k v => rfl
    | inner l' n => exact run_seq (run_panicIf _) fun _ => run_pushNode E a l node _ _

theorem run_insertNode (E : TEnv) (a : Alloc) (e : REntry B K V) : ∀ l (node : RNode B), (insertNode E a e l node).run γ = Raw.insertNode (E.placed γ) a e l node
  | 0, node => by
    unfold insertNode Raw.insertNode
    exact run_ite rfl (run_selfInsert E a 0 node e)
  | l + 1, node => by
    unfold insertNode Raw.insertNode
    refine run_ite (run_seq (run_nodes E _) fun _ => run_seq (run_lift _) fun _ => run_seq (run_nodeAt E _ _) fun c => run_seq (run_insertNode E a e l c) fun r => ?_)
      (run_selfInsert E a _ node e)
    refine run_seq (run_putNode E _ _ _) fun _ => ?_
    cases r.2 with
    | none => rfl
    | some s => exact run_seq (run_nodes E _) fun _ => run_selfInsert E a _ _ _

end Insert

section Get

variable [Bounds B] [Bounded Q B] [BEq Q]

theorem run_findChildren (q : Q) {f : RNode B → Prog (Cell B K V) _} {g : RNode B → TM B K V _} (h : ∀ c, (f c).run γ = g c) :
    ∀ cs, (findChildren q f cs).run γ = Raw.findChildren q g cs
  | [] => rfl
  | c :: cs => by
    unfold findChildren Raw.findChildren
    refine run_ite (run_seq (h c) fun r => ?_) (run_findChildren q h cs)
    cases r with
    | none => exact run_findChildren q h cs
    | some p => rfl

theorem run_find (E : TEnv) (borrow : K → Q) (q : Q) : ∀ l (node : RNode B), (find E borrow q l node : Prog (Cell B K V) _).run γ = Raw.find (E.placed γ) borrow q l node
  | 0, node => run_seq (run_entries E _) fun _ => rfl
  | l + 1, node => run_seq (run_nodes E _) fun cs => run_findChildren q (run_find E borrow q l) cs

omit [Bounds B] in
theorem run_readEntry (E : TEnv) (p : FCVec × Nat) : (readEntry E p : Prog (Cell B K V) _).run γ = Raw.readEntry (E.placed γ) p :=
  run_seq (FCVec.run_get E.entry _ _) fun _ => run_lift _

omit [Bounds B] in
theorem run_replaceValue (E : TEnv) (p : FCVec × Nat) (v : V) : (replaceValue E p v : Prog (Cell B K V) _).run γ = Raw.replaceValue (E.placed γ) p v :=
  run_seq (run_readEntry E p) fun _ => run_seq (FCVec.run_set E.entry _ _ _) fun _ => rfl

end Get

section InsertUnique

variable [Bounds B] [Volume B] [Bounded K B] [BEq K]

theorem run_insertUniqueNode (E : TEnv) (a : Alloc) (k : K) (v : V) : ∀ l (node : RNode B),
    (insertUniqueNode E a k v l node).run γ = Raw.insertUniqueNode (E.placed γ) a k v l node
  | 0, node => run_seq (run_entries E _) fun es => by
    cases es.findIdx? (fun e => e.1 == k) with
    | some i => exact run_seq (run_replaceValue E _ _) fun _ => rfl
    | none => exact run_seq (run_insertNode E a _ _ _) fun _ => rfl
  | l + 1, node => run_seq (run_nodes E _) fun children => by
    cases getOnly ((children.zipIdx.filter fun c => Bounds.contains c.1.bounds (Bounded.bounds k)).map (·.2)) with
    | none => exact run_seq (run_insertNode E a _ _ _) fun _ => rfl
    | only i =>
      refine run_seq (run_nodeAt E _ _) fun c => run_seq (run_insertUniqueNode E a k v l c) fun r => run_seq (run_putNode E _ _ _) fun _ => ?_
      cases r.2.2 with
      | none => rfl
      | some s => exact run_seq (run_nodes E _) fun _ => run_seq (run_selfInsert E a _ _ _) fun _ => rfl
    | multiple =>
      refine run_seq (run_find E _ _ _ _) fun r => ?_
      cases r with
      | none => exact run_seq (run_insertNode E a _ _ _) fun _ => rfl
      | some p => exact run_seq (run_replaceValue E _ _) fun _ => rfl

end InsertUnique

section Remove

variable [Bounds B] [Bounded K B] [Bounded Q B] [BEq Q]

theorem run_removeLoop (E : TEnv) (a : Alloc) (l : Nat) (q : Q) {f : RNode B → RSlots → Prog (Cell B K V) _} {g : RNode B → RSlots → TM B K V _}
    (h : ∀ c r, (f c r).run γ = g c r) : ∀ i v r, (removeLoop E a l q f i v r).run γ = Raw.removeLoop (E.placed γ) a l q g i v r
  | 0, _, _ => rfl
  | i + 1, v, r => by
    unfold removeLoop Raw.removeLoop
    refine run_seq (run_nodeAt E _ _) fun c => run_ite (run_seq (h c r) fun x => run_seq (run_putNode E _ _ _) fun _ => ?_) (run_removeLoop E a l q h i v r)
    cases x.2.1 with
    | none => exact run_removeLoop E a l q h i v x.2.2
    | some e => exact run_ite (run_seq (FCVec.run_swapRemove E.node _ _) fun _ => run_seq (run_lift _) fun _ => run_seq (run_lift _) fun _ => rfl) rfl

theorem run_removeNode (E : TEnv) (a : Alloc) (borrow : K → Q) (q : Q) : ∀ l (node : RNode B) r,
    (removeNode E a borrow q l node r : Prog (Cell B K V) _).run γ = Raw.removeNode (E.placed γ) a borrow q l node r
  | 0, node, r => run_seq (run_entries E _) fun es => by
    cases es.findIdx? (fun e => borrow e.1 == q) with
    | none => rfl
    | some i => exact run_seq (FCVec.run_swapRemove E.entry _ _) fun _ => run_seq (run_lift _) fun _ => run_seq (run_entries E _) fun _ => rfl
  | l + 1, node, r => run_seq (run_removeLoop E a l q (run_removeNode E a borrow q l) _ _ _) fun x => by
    obtain ⟨v, found, r⟩ := x
    cases found with
    | none => rfl
    | some e => exact run_seq (run_nodes E _) fun _ => rfl

end Remove

theorem run_dropNode (E : TEnv) (a : Alloc) : ∀ l (node : RNode B), (dropNode E a l node : Prog (Cell B K V) _).run γ = Raw.dropNode (E.placed γ) a l node
  | 0, _ => run_seq (FCVec.run_drop E.entry _ _) fun _ => run_lift _
  | l + 1, _ => run_seq (run_nodes E _) fun cs => run_seq (run_foldlM (fun _ c => run_seq (run_dropNode E a l c) fun _ => rfl) cs _) fun _ =>
    run_seq (FCVec.run_drop E.node _ _) fun _ => rfl

theorem run_cloneNode (E : TEnv) (a : Alloc) : ∀ l (node : RNode B), (cloneNode E a l node : Prog (Cell B K V) _).run γ = Raw.cloneNode (E.placed γ) a l node
  | 0, _ => run_seq (FCVec.run_clone E.entry _ _ _) fun _ => rfl
  | l + 1, _ => run_seq (FCVec.run_new E.node _) fun _ => run_seq (run_nodes E _) fun cs =>
    run_seq (run_foldlM (fun _ c => run_seq (run_cloneNode E a l c) fun _ => FCVec.run_push E.node _ _ _) cs _) fun _ => rfl

theorem run_lenNode (E : TEnv) : ∀ l (node : RNode B), (lenNode E l node : Prog (Cell B K V) _).run γ = Raw.lenNode (E.placed γ) l node
  | 0, _ => rfl
  | l + 1, _ => run_seq (run_nodes E _) fun cs => run_foldlM (fun _ c => run_seq (run_lenNode E l c) fun _ => rfl) cs _

namespace RTree

theorem run_new [Bounds B] (E : TEnv) (c : Config) : (new E c : Prog (Cell B K V) _).run γ = Raw.RTree.new (E.placed γ) c :=
  run_seq (FCVec.run_new E.entry _) fun _ => rfl

theorem run_drop (E : TEnv) (t : RTree B) : (drop E t : Prog (Cell B K V) _).run γ = Raw.RTree.drop (E.placed γ) t := run_dropNode E _ _ _

section

variable [Bounds B]

theorem run_branch (E : TEnv) (t : RTree B) (s : Nat × RNode B) : (branch E t s : Prog (Cell B K V) _).run γ = Raw.RTree.branch (E.placed γ) t s :=
  run_seq (run_panicIf _) fun _ => run_seq (FCVec.run_new E.node _) fun _ => run_seq (FCVec.run_push E.node _ _ _) fun _ =>
    run_seq (FCVec.run_push E.node _ _ _) fun _ => rfl

theorem run_tryUnbranch (E : TEnv) (t : RTree B) : (tryUnbranch E t : Prog (Cell B K V) _).run γ = Raw.RTree.tryUnbranch (E.placed γ) t := by
  obtain ⟨a, l, root⟩ := t
  cases l with
  | zero => rfl
  | succ l => exact run_ite (run_seq (FCVec.run_swapRemove E.node _ _) fun _ => run_seq (run_lift _) fun _ => run_seq (run_drop E _) fun _ => rfl) rfl

end

section

variable [Bounds B] [Volume B] [Bounded K B]

theorem run_insertEntry (E : TEnv) (t : RTree B) (e : REntry B K V) : (insertEntry E t e).run γ = Raw.RTree.insertEntry (E.placed γ) t e :=
  run_seq (run_insertNode E _ _ _ _) fun r => by
    obtain ⟨root, s⟩ := r
    cases s with
    | none => rfl
    | some s => exact run_branch E _ _

theorem run_insert (E : TEnv) (t : RTree B) (k : K) (v : V) : (insert E t k v).run γ = Raw.RTree.insert (E.placed γ) t k v := run_insertEntry E t _

theorem run_insertUnique [BEq K] (E : TEnv) (t : RTree B) (k : K) (v : V) : (insertUnique E t k v).run γ = Raw.RTree.insertUnique (E.placed γ) t k v :=
  run_seq (run_insertUniqueNode E _ _ _ _ _) fun r => by
    obtain ⟨root, old, s⟩ := r
    cases s with
    | none => rfl
    | some s => exact run_seq (run_branch E _ _) fun _ => rfl

theorem run_reinsertLoop (E : TEnv) (e : Env) (l : Nat) : ∀ n (it : IntoIter) (t : RTree B),
    (reinsertLoop E e l n it t : Prog (Cell B K V) _).run γ = Raw.RTree.reinsertLoop (E.placed γ) (e.placed γ) l n it t
  | 0, _, _ => rfl
  | n + 1, it, t => run_seq (IntoIter.run_next e it) fun r => by
    obtain ⟨it, c⟩ := r
    cases c with
    | none => exact run_seq (IntoIter.run_drop e it) fun _ => rfl
    | some c => exact run_seq (run_lift _) fun _ => run_seq (run_insertEntry E _ _) fun t => run_reinsertLoop E e l n it t

theorem run_reinsert (E : TEnv) : ∀ sl (t : RTree B), (reinsert E sl t : Prog (Cell B K V) _).run γ = Raw.RTree.reinsert (E.placed γ) sl t
  | [], _ => rfl
  | (none, _) :: rest, t => run_reinsert E rest t
  | (some v, l) :: rest, t => by
    unfold reinsert Raw.RTree.reinsert
    rw [placed_slotEnv]
    exact run_seq (IntoIter.run_new _ _ _) fun _ => run_seq (run_reinsertLoop E _ _ _ _ _) fun _ => run_seq (run_reinsert E rest _) fun _ => rfl

theorem run_remove [Bounded Q B] [BEq Q] (E : TEnv) (borrow : K → Q) (t : RTree B) (q : Q) :
    (remove E borrow t q : Prog (Cell B K V) _).run γ = Raw.RTree.remove (E.placed γ) borrow t q :=
  run_seq (run_removeNode E _ _ _ _ _ _) fun r => by
    obtain ⟨root, found, slots⟩ := r
    cases found with
    | none => rfl
    | some e => exact run_seq (run_tryUnbranch E _) fun _ => run_seq (run_reinsert E _ _) fun _ => rfl

end

theorem run_clone (E : TEnv) (t : RTree B) : (clone E t : Prog (Cell B K V) _).run γ = Raw.RTree.clone (E.placed γ) t :=
  run_seq (run_cloneNode E _ _ _) fun _ => rfl

section

variable [Bounds B] [Bounded Q B] [BEq Q]

theorem run_get (E : TEnv) (borrow : K → Q) (t : RTree B) (q : Q) : (get E borrow t q : Prog (Cell B K V) _).run γ = Raw.RTree.get (E.placed γ) borrow t q :=
  run_seq (run_find E _ _ _ _) fun r => by
    cases r with
    | none => rfl
    | some p => exact run_seq (run_readEntry E p) fun _ => rfl

theorem run_setValue (E : TEnv) (borrow : K → Q) (t : RTree B) (q : Q) (v : V) :
    (setValue E borrow t q v : Prog (Cell B K V) _).run γ = Raw.RTree.setValue (E.placed γ) borrow t q v :=
  run_seq (run_find E _ _ _ _) fun r => by
    cases r with
    | none => rfl
    | some p => exact run_seq (run_replaceValue E p v) fun _ => rfl

end

theorem run_len (E : TEnv) (t : RTree B) : (len E t : Prog (Cell B K V) _).run γ = Raw.RTree.len (E.placed γ) t := run_lenNode E _ _

end RTree

theorem run_queryLeaf (E : TEnv) (borrow : K → Q) (f : SpatialFilter B Q) (v : FCVec) : ∀ n i,
    (queryLeaf E borrow f v n i : Prog (Cell B K V) _).run γ = Raw.queryLeaf (E.placed γ) borrow f v n i
  | 0, _ => rfl
  | n + 1, i => run_seq (FCVec.run_get E.entry v i) fun _ => run_seq (run_lift _) fun _ => run_seq (run_queryLeaf E borrow f v n (i + 1)) fun _ => rfl

theorem run_queryInner (E : TEnv) (f : SpatialFilter B Q) {rec : RNode B → Prog (Cell B K V) (List (K × V))} {rec' : RNode B → TM B K V (List (K × V))}
    (h : ∀ c, (rec c).run γ = rec' c) (v : FCVec) : ∀ n i, (queryInner E f rec v n i).run γ = Raw.queryInner (E.placed γ) f rec' v n i
  | 0, _ => rfl
  | n + 1, i => run_seq (run_nodeAt E v i) fun c => run_seq (run_ite (h c) rfl) fun _ => run_seq (run_queryInner E f h v n (i + 1)) fun _ => rfl

theorem run_queryNode (E : TEnv) (borrow : K → Q) (f : SpatialFilter B Q) : ∀ l (node : RNode B),
    (queryNode E borrow f l node : Prog (Cell B K V) _).run γ = Raw.queryNode (E.placed γ) borrow f l node
  | 0, _ => run_queryLeaf E borrow f _ _ _
  | l + 1, _ => run_queryInner E f (run_queryNode E borrow f l) _ _ _

theorem RTree.run_filterIter (E : TEnv) (borrow : K → Q) (f : SpatialFilter B Q) (t : RTree B) :
    (RTree.filterIter E borrow f t : Prog (Cell B K V) _).run γ = Raw.RTree.filterIter (E.placed γ) borrow f t :=
  run_ite (run_queryNode E borrow f _ _) rfl

theorem RTree.run_iter (E : TEnv) (t : RTree B) : (RTree.iter E t : Prog (Cell B K V) _).run γ = Raw.RTree.iter (E.placed γ) t :=
  run_queryNode E id _ _ _

section

variable {S : Type} [LE S]

theorem Sorted.run_pushEntries (E : TEnv) (hp : RawHeap B K V S) (r : Ranking B K (Option S)) (v : FCVec) : ∀ n i q,
    (Sorted.pushEntries E hp r v n i q).run γ = Raw.Sorted.pushEntries (E.placed γ) hp r v n i q
  | 0, _, _ => rfl
  | n + 1, i, _ => run_seq (FCVec.run_get E.entry v i) fun _ => run_seq (run_lift _) fun _ => run_seq (run_lift _) fun _ => Sorted.run_pushEntries E hp r v n (i + 1) _

theorem Sorted.run_pushNodes (E : TEnv) (hp : RawHeap B K V S) (r : Ranking B K (Option S)) (l : Nat) (v : FCVec) : ∀ n i q,
    (Sorted.pushNodes E hp r l v n i q).run γ = Raw.Sorted.pushNodes (E.placed γ) hp r l v n i q
  | 0, _, _ => rfl
  | n + 1, i, _ => run_seq (run_nodeAt E v i) fun _ => run_seq (run_lift _) fun _ => Sorted.run_pushNodes E hp r l v n (i + 1) _

theorem Sorted.run_nextLoop (E : TEnv) (hp : RawHeap B K V S) (r : Ranking B K (Option S)) : ∀ fuel q,
    (Sorted.nextLoop E hp r fuel q).run γ = Raw.Sorted.nextLoop (E.placed γ) hp r fuel q
  | 0, _ => rfl
  | fuel + 1, q => by
    rw [Sorted.nextLoop, Raw.Sorted.nextLoop]
    cases hp.pop q with
    | none => rfl
    | some x =>
      obtain ⟨⟨⟨m, level⟩, value⟩, q⟩ := x
      match level with
      | 0 => exact run_seq (run_lift _) fun _ => rfl
      | 1 => exact run_seq (run_lift _) fun _ => run_seq (Sorted.run_pushEntries E hp r _ _ _ _) fun _ => Sorted.run_nextLoop E hp r fuel _
      | l + 2 => exact run_seq (run_lift _) fun _ => run_seq (Sorted.run_pushNodes E hp r _ _ _ _ _) fun _ => Sorted.run_nextLoop E hp r fuel _

theorem Sorted.run_takeLoop (E : TEnv) (hp : RawHeap B K V S) (r : Ranking B K (Option S)) (fuel : Nat) : ∀ k q,
    (Sorted.takeLoop E hp r fuel k q).run γ = Raw.Sorted.takeLoop (E.placed γ) hp r fuel k q
  | 0, _ => rfl
  | k + 1, q => run_seq (Sorted.run_nextLoop E hp r fuel q) fun x => by
    obtain ⟨o, q⟩ := x
    cases o with
    | none => rfl
    | some e => exact run_seq (Sorted.run_takeLoop E hp r fuel k q) fun _ => rfl

theorem RTree.run_filterFirstAscBy (E : TEnv) (hp : RawHeap B K V S) (r : Ranking B K (Option S)) (k : Nat) (t : RTree B) :
    (RTree.filterFirstAscBy E hp r k t).run γ = Raw.RTree.filterFirstAscBy (E.placed γ) hp r k t :=
  run_seq (run_lift _) fun _ => Sorted.run_takeLoop E hp r _ k _

end

theorem run_productRound {visit : Nat → Nat → Prog (Cell B K V) (EntryPairs K V)} {visit' : Nat → Nat → TM B K V (EntryPairs K V)}
    (h : ∀ i j, (visit i j).run γ = visit' i j) (j : Nat) : ∀ n i, (productRound visit j n i).run γ = Raw.productRound visit' j n i
  | 0, _ => rfl
  | n + 1, i => run_seq (h i j) fun _ => run_seq (run_productRound h j n (i + 1)) fun _ => rfl

theorem run_productLoop {visit : Nat → Nat → Prog (Cell B K V) (EntryPairs K V)} {visit' : Nat → Nat → TM B K V (EntryPairs K V)}
    (h : ∀ i j, (visit i j).run γ = visit' i j) (n : Nat) : ∀ m j, (productLoop visit n m j).run γ = Raw.productLoop visit' n m j
  | 0, _ => rfl
  | m + 1, j => run_seq (run_productRound h j n 0) fun _ => run_seq (run_productLoop h n m (j + 1)) fun _ => rfl

theorem run_sliceAt (E : TEnv) (level : Nat) (n : RNode B) (i : Nat) :
    (sliceAt E level n i : Prog (Cell B K V) _).run γ = Raw.sliceAt (E.placed γ) level n i := by
  cases level with
  | zero => rfl
  | succ l => exact run_nodeAt E n.vec i

theorem run_joinNode (E : TEnv) (borrow : K → Q) (f : JoinFilter B B Q Q) (p0 p1 : Nat) : ∀ l (n0 n1 : RNode B),
    (joinNode E borrow f p0 p1 l n0 n1 : Prog (Cell B K V) _).run γ = Raw.joinNode (E.placed γ) borrow f p0 p1 l n0 n1
  | 0, n0, n1 => run_productLoop (fun i j => run_seq (FCVec.run_get E.entry _ i) fun _ => run_seq (run_lift _) fun _ =>
      run_seq (FCVec.run_get E.entry _ j) fun _ => run_seq (run_lift _) fun _ => rfl) _ _ _
  | l + 1, n0, n1 => run_productLoop (fun i j => run_seq (run_sliceAt E _ n0 i) fun c0 => run_seq (run_sliceAt E _ n1 j) fun c1 =>
      run_ite (run_joinNode E borrow f p0 p1 l c0 c1) rfl) _ _ _

theorem RTree.run_join (E : TEnv) (borrow : K → Q) (f : JoinFilter B B Q Q) (t0 t1 : RTree B) :
    (RTree.join E borrow f t0 t1 : Prog (Cell B K V) _).run γ = Raw.RTree.join (E.placed γ) borrow f t0 t1 :=
  run_ite (run_joinNode E borrow f _ _ _ _ _) rfl

section

variable {σ : Type}

theorem run_mutLeaf (E : TEnv) (borrow : K → Q) (f : SpatialFilter B Q) {step : σ → K × Place → Prog (Cell B K V) σ} {step' : σ → K × Place → TM B K V σ}
    (h : ∀ s r, (step s r).run γ = step' s r) (v : FCVec) : ∀ n i s, (mutLeaf E borrow f step v n i s).run γ = Raw.mutLeaf (E.placed γ) borrow f step' v n i s
  | 0, _, _ => rfl
  | n + 1, i, _ => run_seq (FCVec.run_get E.entry v i) fun _ => run_seq (run_lift _) fun _ => run_seq (run_ite (h _ _) rfl) fun _ => run_mutLeaf E borrow f h v n (i + 1) _

theorem run_mutInner (E : TEnv) (f : SpatialFilter B Q) {rec : RNode B → σ → Prog (Cell B K V) σ} {rec' : RNode B → σ → TM B K V σ}
    (h : ∀ c s, (rec c s).run γ = rec' c s) (v : FCVec) : ∀ n i s, (mutInner E f rec v n i s).run γ = Raw.mutInner (E.placed γ) f rec' v n i s
  | 0, _, _ => rfl
  | n + 1, i, _ => run_seq (run_nodeAt E v i) fun _ => run_seq (run_ite (h _ _) rfl) fun _ => run_mutInner E f h v n (i + 1) _

theorem run_mutNode (E : TEnv) (borrow : K → Q) (f : SpatialFilter B Q) {step : σ → K × Place → Prog (Cell B K V) σ} {step' : σ → K × Place → TM B K V σ}
    (h : ∀ s r, (step s r).run γ = step' s r) : ∀ l (node : RNode B) s, (mutNode E borrow f step l node s).run γ = Raw.mutNode (E.placed γ) borrow f step' l node s
  | 0, _, _ => run_mutLeaf E borrow f h _ _ _ _
  | l + 1, _, _ => run_mutInner E f (run_mutNode E borrow f h l) _ _ _ _

theorem RTree.run_filterIterMut (E : TEnv) (borrow : K → Q) (f : SpatialFilter B Q) {step : σ → K × Place → Prog (Cell B K V) σ} {step' : σ → K × Place → TM B K V σ}
    (h : ∀ s r, (step s r).run γ = step' s r) (t : RTree B) (s : σ) :
    (RTree.filterIterMut E borrow f step t s).run γ = Raw.RTree.filterIterMut (E.placed γ) borrow f step' t s :=
  run_ite (run_mutNode E borrow f h _ _ _) rfl

variable {S : Type} [LE S]

theorem SortedMut.run_pushEntries (E : TEnv) (hp : RawHeapMut B S) (r : Ranking B K (Option S)) (v : FCVec) : ∀ n i q,
    (SortedMut.pushEntries E hp r v n i q : Prog (Cell B K V) _).run γ = Raw.SortedMut.pushEntries (E.placed γ) hp r v n i q
  | 0, _, _ => rfl
  | n + 1, i, _ => run_seq (FCVec.run_get E.entry v i) fun _ => run_seq (run_lift _) fun _ => run_seq (run_lift _) fun _ => SortedMut.run_pushEntries E hp r v n (i + 1) _

theorem SortedMut.run_pushNodes (E : TEnv) (hp : RawHeapMut B S) (r : Ranking B K (Option S)) (l : Nat) (v : FCVec) : ∀ n i q,
    (SortedMut.pushNodes E hp r l v n i q : Prog (Cell B K V) _).run γ = Raw.SortedMut.pushNodes (E.placed γ) hp r l v n i q
  | 0, _, _ => rfl
  | n + 1, i, _ => run_seq (run_nodeAt E v i) fun _ => run_seq (run_lift _) fun _ => SortedMut.run_pushNodes E hp r l v n (i + 1) _

theorem SortedMut.run_nextLoop (E : TEnv) (hp : RawHeapMut B S) (r : Ranking B K (Option S)) : ∀ fuel q,
    (SortedMut.nextLoop E hp r fuel q : Prog (Cell B K V) _).run γ = Raw.SortedMut.nextLoop (E.placed γ) hp r fuel q
  | 0, _ => rfl
  | fuel + 1, q => by
    rw [SortedMut.nextLoop, Raw.SortedMut.nextLoop]
    cases hp.pop q with
    | none => rfl
    | some x =>
      obtain ⟨⟨⟨m, level⟩, value⟩, q⟩ := x
      match level with
      | 0 => exact run_seq (run_lift _) fun _ => run_seq (run_readEntry E _) fun _ => rfl
      | 1 => exact run_seq (run_lift _) fun _ => run_seq (SortedMut.run_pushEntries E hp r _ _ _ _) fun _ => SortedMut.run_nextLoop E hp r fuel _
      | l + 2 => exact run_seq (run_lift _) fun _ => run_seq (SortedMut.run_pushNodes E hp r _ _ _ _ _) fun _ => SortedMut.run_nextLoop E hp r fuel _

theorem SortedMut.run_takeLoop (E : TEnv) (hp : RawHeapMut B S) (r : Ranking B K (Option S)) {step : σ → K × Place → Prog (Cell B K V) σ}
    {step' : σ → K × Place → TM B K V σ} (h : ∀ s r, (step s r).run γ = step' s r) (fuel : Nat) : ∀ k q s,
    (SortedMut.takeLoop E hp r step fuel k q s).run γ = Raw.SortedMut.takeLoop (E.placed γ) hp r step' fuel k q s
  | 0, _, _ => rfl
  | k + 1, q, s => run_seq (SortedMut.run_nextLoop E hp r fuel q) fun x => by
    obtain ⟨o, q⟩ := x
    cases o with
    | none => rfl
    | some e => exact run_seq (h _ _) fun _ => SortedMut.run_takeLoop E hp r h fuel k q _

theorem RTree.run_filterFirstAscByMut (E : TEnv) (hp : RawHeapMut B S) (r : Ranking B K (Option S)) {step : σ → K × Place → Prog (Cell B K V) σ}
    {step' : σ → K × Place → TM B K V σ} (h : ∀ s r, (step s r).run γ = step' s r) (k : Nat) (t : RTree B) (s : σ) :
    (RTree.filterFirstAscByMut E hp r step k t s).run γ = Raw.RTree.filterFirstAscByMut (E.placed γ) hp r step' k t s :=
  run_seq (run_lift _) fun _ => SortedMut.run_takeLoop E hp r h _ k _ _

end

end Steps

end RTree.Raw
