import Verif.Proofs.Unwind
import Verif.Proofs.RawInsert
/-!
# What the nodes of a tree own; destructors; splitting
-/

namespace RTree.Unwind

open Raw

variable {B K V Q σ τ β γ : Type}

/-- What is assumed about sizes: element types are not zero-sized, nodes have room for two children. -/
structure Fit (E : TEnv) (cap : Nat) : Prop where
  node : 0 < E.node.size
  entry : 0 < E.entry.size
  cap : 2 ≤ cap

theorem Fit.size {E : TEnv} {cap : Nat} (S : Fit E cap) : ∀ l, 0 < (RTree.slotEnv E l).size
  | 0 => S.entry
  | _ + 1 => S.node

/-- What an element of a vector of level `l` stands for. -/
abbrev It (B K V : Type) (l : Nat) := Item (Own B) K V l

/-- A node of level `l`. -/
abbrev Gh (B K V : Type) (l : Nat) := G (Own B) K V l

/-- Bounds. -/
abbrev bT (n : Nat) : Thing B K V := .chunk (boundC n)

/-- A vector of elements of level `l`. -/
abbrev vT (E : TEnv) (cap l : Nat) (v : FCVec) (kids : List (It B K V l)) : Thing B K V :=
  .chunk (vecC (RTree.slotEnv E l) cap v (kids.map (cell l)))

/-- What an element drops by itself. -/
def headT : (l : Nat) → It B K V l → List (Thing B K V)
  | 0, e => [.key e.1, .val e.2]
  | _ + 1, g => [bT g.bounds.mem]

/-- What else belongs to an element. -/
def restT (E : TEnv) (cap : Nat) : (l : Nat) → It B K V l → List (Thing B K V)
  | 0, _ => []
  | l + 1, g => vT E cap l g.vec g.kids :: g.kids.flatMap fun i => headT l i ++ restT E cap l i

/-- All that belongs to an element. -/
def thingsI (E : TEnv) (cap l : Nat) (i : It B K V l) : List (Thing B K V) := headT l i ++ restT E cap l i

/-- What the elements of a list drop by themselves. -/
abbrev headL (l : Nat) (kids : List (It B K V l)) : List (Thing B K V) := kids.flatMap (headT l)
/-- What else belongs to the elements of a list. -/
abbrev restL (E : TEnv) (cap l : Nat) (kids : List (It B K V l)) : List (Thing B K V) := kids.flatMap (restT E cap l)
/-- All that belongs to the elements of a list. -/
abbrev thingsL (E : TEnv) (cap l : Nat) (kids : List (It B K V l)) : List (Thing B K V) := kids.flatMap (thingsI E cap l)

/-- All that belongs to a node. -/
abbrev nodeT (E : TEnv) (cap l : Nat) (g : Gh B K V l) : List (Thing B K V) :=
  bT g.bounds.mem :: vT E cap l g.vec g.kids :: thingsL E cap l g.kids

theorem thingsI_succ (E : TEnv) (cap l : Nat) (g : Gh B K V l) : thingsI E cap (l + 1) g = nodeT E cap l g := rfl

theorem entsI_succ (l : Nat) (g : Gh B K V l) : entsI (l + 1) g = g.kids.flatMap (entsI l) := rfl

theorem restT_succ (E : TEnv) (cap l : Nat) (g : Gh B K V l) : restT E cap (l + 1) g = vT E cap l g.vec g.kids :: thingsL E cap l g.kids := rfl

/-- Permutations of lists of things; see `perms`. -/
syntax "permsU" (" [" term,* "]")? : tactic
macro_rules
  | `(tactic| permsU) => `(tactic| permsU [])
  | `(tactic| permsU [$hs,*]) => do
    let hs := hs.getElems
    let mut tac ← `(tactic| skip)
    for h in hs do
      tac ← `(tactic| ($tac; have hperm := List.perm_iff_count.1 $h b; revert hperm))
    `(tactic| (
      classical
      refine List.perm_iff_count.2 fun b => ?_
      $tac
      simp only [vT, bT, headL, restL, thingsL, nodeT, thingsI_succ, ents, entsI_succ, List.append_eq, List.flatMap_append, List.flatMap_cons, List.flatMap_nil, List.count_append, List.count_cons, List.count_nil,
        List.nil_append, List.cons_append, List.append_nil, List.map_nil, List.map_cons]
      omega))

variable {E : TEnv} {cap : Nat}

theorem things_split (l : Nat) (kids : List (It B K V l)) : (thingsL E cap l kids).Perm (headL l kids ++ restL E cap l kids) := by
  induction kids with
  | nil => exact .refl _
  | cons i kids ih =>
    have : thingsI E cap l i = headT l i ++ restT E cap l i := rfl
    simp only [thingsL, headL, restL, List.flatMap_cons, this] at ih ⊢
    perms [ih]

/-! ### Reading memory -/

variable {h : Raw.Heap (UCell B K V)}

theorem nodes_read (S : Fit E cap) {l : Nat} {v : FCVec} {kids : List (It B K V (l + 1))}
    (H : Has h [vecC E.node cap v (kids.map (cell (l + 1)))]) : nodes E v h = .ok (kids.map raw, h) := by
  rw [nodes, bind_ok (FCVec.slice_ok H.owns S.node)]
  have : kids.map (cell (l + 1)) = kids.map fun g => (Cell.node (raw g) : UCell B K V) := rfl
  rw [this, mapM_asNode]; rfl

theorem entries_read (S : Fit E cap) {v : FCVec} {kids : List (K × V)}
    (H : Has h [vecC E.entry cap v (kids.map (cell (B := Own B) 0))]) : entries E v h = .ok (kids, h) := by
  rw [entries, bind_ok (FCVec.slice_ok H.owns S.entry)]
  have : kids.map (cell (B := Own B) 0) = kids.map fun g => (Cell.entry g : UCell B K V) := rfl
  rw [this, mapM_asEntry]; rfl

theorem nodeAt_read (S : Fit E cap) {l : Nat} {v : FCVec} {kids : List (It B K V (l + 1))}
    (H : Has h [vecC E.node cap v (kids.map (cell (l + 1)))]) {i : Nat} (hi : i < kids.length) : nodeAt E v i h = .ok (raw kids[i], h) := by
  have := FCVec.get_ok H.owns S.node i
  have hx : index (kids.map (cell (B := Own B) (l + 1))) i = .ok (cell (l + 1) kids[i]) := by simp [index, hi]
  rw [hx] at this
  rw [nodeAt, bind_ok this]; rfl

theorem nodeAt_out (S : Fit E cap) {l : Nat} {v : FCVec} {kids : List (It B K V (l + 1))}
    (H : Has h [vecC E.node cap v (kids.map (cell (l + 1)))]) {i : Nat} (hi : ¬ i < kids.length) : nodeAt E v i h = .error .indexOutOfBounds := by
  have := FCVec.get_ok H.owns S.node i
  have hx : index (kids.map (cell (B := Own B) (l + 1))) i = .error .indexOutOfBounds := by simp [index, hi]
  rw [hx] at this
  rw [nodeAt, bind_err this]

theorem putNode_write (S : Fit E cap) {l : Nat} {v : FCVec} {kids : List (It B K V (l + 1))}
    (H : Has h [vecC E.node cap v (kids.map (cell (l + 1)))]) {i : Nat} (hi : i < kids.length) (g : Gh B K V l) :
    ∃ h', putNode E v i (raw g) h = .ok ((), h') ∧
      Tr h [vecC E.node cap v (kids.map (cell (l + 1)))] h' [vecC E.node cap v ((kids.set i g).map (cell (l + 1)))] := by
  obtain ⟨h', h1, t⟩ := FCVec.set_tr H S.node (i := i) (by simpa using hi) (.node (raw g))
  refine ⟨h', ?_, ?_⟩
  · rw [putNode, bind_ok h1]; rfl
  · rw [List.map_set]; exact t

/-- The block of a vector among the things owned. -/
theorem has_vec {R Fr : List (Thing B K V)} {l : Nat} {v : FCVec} {kids : List (It B K V l)} (H : Has h (chunksT R))
    (hp : R.Perm (vT E cap l v kids :: Fr)) : Has h [vecC (RTree.slotEnv E l) cap v (kids.map (cell l))] := by
  have H' := H.perm (chunksT_perm hp)
  exact Has.left (ds := chunksT Fr) H'

/-! ### Destructors -/

theorem dropCell_quiet : ∀ (l : Nat) (i : It B K V l), Quiet (dropCell (cell l i) : U B K V Q σ Unit) (headT l i) (fun _ R' => R' = [])
  | 0, e => fun s => (dropKey_quiet e.1).call (Fr := [.val e.2]) (.refl _) (by
      rintro _ _ rfl
      exact (dropValue_quiet e.2).last (Fr := []) (.refl _) (by rintro _ _ rfl; exact ⟨rfl, rfl⟩))
  | _ + 1, g => dropBounds_quiet g.bounds

theorem each_quiet {α ι : Type} {f : α → U B K V Q σ Unit} {m : ι → α} {T : ι → List (Thing B K V)} (hf : ∀ i, Quiet (f (m i)) (T i) (fun _ R' => R' = [])) :
    ∀ is : List ι, Quiet (each f (is.map m)) (is.flatMap T) (fun _ R' => R' = [])
  | [] => fun s => .pure ⟨rfl, rfl⟩
  | i :: is => fun s => (hf i).call (Fr := is.flatMap T) (.refl _) (by
      rintro _ _ rfl
      exact each_quiet hf is s)

theorem dropVec_quiet (S : Fit E cap) (l : Nat) (v : FCVec) (kids : List (It B K V l)) :
    Quiet (dropVec (RTree.slotEnv E l) cap v : U B K V Q σ Unit) (vT E cap l v kids :: headL l kids) (fun _ R' => R' = []) := by
  intro s
  refine .call (F₀ := fun _ _ => False) (Fr := headL l kids)
    (.memOk (cs := [vecC (RTree.slotEnv E l) cap v (kids.map (cell l))]) (M := fun cells cs' => cells = (kids.map (cell l)).reverse ∧ cs' = []) ?_)
    (.refl _) ?_ (fun _ _ h => h.elim)
  · intro h H
    obtain ⟨h', h1, t⟩ := FCVec.drop_tr H (S.size l)
    exact ⟨_, h', [], h1, ⟨rfl, rfl⟩, t⟩
  · rintro cells _ _ ⟨rfl, _, rfl, rfl, rfl⟩
    have key : ∀ ks : List (It B K V l), Quiet (each dropCell (ks.map (cell l)) : U B K V Q σ Unit) (headL l ks) (fun _ R' => R' = []) :=
      each_quiet (dropCell_quiet l)
    rw [← List.map_reverse]
    exact (key kids.reverse).last (Fr := []) (by
      rw [List.map_nil, List.nil_append, List.append_nil]
      exact (List.reverse_perm kids).symm.flatMap_right _) (by rintro _ _ rfl; exact ⟨rfl, rfl⟩)

theorem dropChildren_quiet (S : Fit E cap) : ∀ (l : Nat) (v : FCVec) (kids : List (It B K V l)),
    Quiet (dropChildren E cap l v : U B K V Q σ Unit) (vT E cap l v kids :: thingsL E cap l kids) (fun _ R' => R' = []) := by
  intro l
  induction l with
  | zero =>
    intro v kids s
    refine (dropVec_quiet S 0 v kids).last (Fr := []) ?_ (by rintro _ _ rfl; exact ⟨rfl, rfl⟩)
    rw [List.append_nil]
    refine .cons _ ((things_split 0 kids).trans ?_)
    have : restL E cap 0 kids = [] := List.flatMap_eq_nil_iff.2 fun _ _ => rfl
    rw [this, List.append_nil]
  | succ l ih =>
    intro v kids s
    refine .read (fun h H => nodes_read S (has_vec H (.refl _))) ?_
    have key : ∀ ks : List (It B K V (l + 1)), Quiet (each (fun c => dropChildren E cap l c.vec) (ks.map raw) : U B K V Q σ Unit)
        (restL E cap (l + 1) ks) (fun _ R' => R' = []) :=
      each_quiet (m := raw) (T := restT E cap (l + 1)) fun (a : Gh B K V l) => ih a.vec a.kids
    refine (key kids).call (Fr := vT E cap (l + 1) v kids :: headL (l + 1) kids) ?_ ?_
    · have := things_split (E := E) (cap := cap) (l + 1) kids
      perms [this]
    · rintro _ _ rfl
      exact (dropVec_quiet S (l + 1) v kids).last (Fr := []) (by simp) (by rintro _ _ rfl; exact ⟨rfl, rfl⟩)

theorem dropContainer_quiet (S : Fit E cap) (l : Nat) (g : Gh B K V l) :
    Quiet (dropContainer E cap l (raw g) : U B K V Q σ Unit) (nodeT E cap l g) (fun _ R' => R' = []) := fun s =>
  (dropChildren_quiet S l g.vec g.kids).call (Fr := [bT g.bounds.mem]) (by perms) (by
    rintro _ _ rfl
    exact (dropBounds_quiet g.bounds).last (Fr := []) (.refl _) (by rintro _ _ rfl; exact ⟨rfl, rfl⟩))

theorem dropEntry_quiet (S : Fit E cap) : ∀ (l : Nat) (i : It B K V l),
    Quiet (dropEntry E cap (rawE l i) : U B K V Q σ Unit) (thingsI E cap l i) (fun _ R' => R' = [])
  | 0, e => fun s => (dropCell_quiet 0 e).last (Fr := []) (.refl _) (by rintro _ _ rfl; exact ⟨rfl, rfl⟩)
  | l + 1, g => dropContainer_quiet S l g

theorem dropPair_quiet (k : K) (v : V) : Quiet (dropPair k v : U B K V Q σ Unit) [.key k, .val v] (fun _ R' => R' = []) := fun s =>
  dropCell_quiet (B := B) 0 ((k, v) : K × V) s

theorem dropOption_quiet : ∀ o : Option V, Quiet (dropOption o : U B K V Q σ Unit) (o.toList.map .val) (fun _ R' => R' = [])
  | some v => dropValue_quiet v
  | none => fun _ => .pure ⟨rfl, rfl⟩

/-- A guard around a computation that owns nothing else. -/
theorem guarded_keep {x : U B K V Q σ β} {cleanup : U B K V Q σ Unit} {s : σ} {R T Fr : List (Thing B K V)} {P : β → σ → List (Thing B K V) → Prop}
    {F : σ → List (Thing B K V) → Prop} (hx : Spec x s R P (fun s' R' => s' = s ∧ R' = R)) (hp : R.Perm (T ++ Fr)) (hq : Quiet cleanup T (fun _ R' => R' = []))
    (hF : F s Fr) : Spec (guarded cleanup x) s R P F := by
  refine .guarded hx ?_
  rintro _ _ ⟨rfl, rfl⟩
  exact hq.last hp (by rintro _ _ rfl; exact hF)

/-- The same for a call of user code and the rest. -/
theorem guarded_ask {g : Code B K V Q → Option β} {cleanup : U B K V Q σ Unit} {f : β → U B K V Q σ γ} {s : σ} {R T Fr : List (Thing B K V)}
    {P : γ → σ → List (Thing B K V) → Prop} {F : σ → List (Thing B K V) → Prop} (hp : R.Perm (T ++ Fr)) (hq : Quiet cleanup T (fun _ R' => R' = []))
    (hF : F s Fr) (hc : ∀ b, Spec (f b) s R P F) : Spec (guarded cleanup (user g) >>= f) s R P F :=
  .bind (P₀ := fun _ s' R' => s' = s ∧ R' = R) (F₀ := F) (guarded_keep (.user (fun _ => ⟨rfl, rfl⟩) ⟨rfl, rfl⟩) hp hq hF)
    (by rintro b _ _ ⟨rfl, rfl⟩; exact hc b) (fun _ _ h => h)

theorem guarded_panicIf {c : Prop} [Decidable c] {cleanup : U B K V Q σ Unit} {f : Unit → U B K V Q σ γ} {s : σ} {R T Fr : List (Thing B K V)}
    {P : γ → σ → List (Thing B K V) → Prop} {F : σ → List (Thing B K V) → Prop} (hp : R.Perm (T ++ Fr)) (hq : Quiet cleanup T (fun _ R' => R' = []))
    (hF : F s Fr) (hc : ¬ c → Spec (f ()) s R P F) : Spec (guarded cleanup (Unwind.panicIf c) >>= f) s R P F :=
  .bind (P₀ := fun _ s' R' => s' = s ∧ R' = R ∧ ¬ c) (F₀ := F) (guarded_keep (.panicIf (fun h => ⟨rfl, rfl, h⟩) (fun _ => ⟨rfl, rfl⟩)) hp hq hF)
    (by rintro b _ _ ⟨rfl, rfl, h⟩; exact hc h) (fun _ _ h => h)

theorem guarded_panic {cleanup : U B K V Q σ Unit} {s : σ} {R T Fr : List (Thing B K V)} {P : β → σ → List (Thing B K V) → Prop}
    {F : σ → List (Thing B K V) → Prop} (hp : R.Perm (T ++ Fr)) (hq : Quiet cleanup T (fun _ R' => R' = [])) (hF : F s Fr) :
    Spec (guarded cleanup panic) s R P F :=
  guarded_keep (.panic ⟨rfl, rfl⟩) hp hq hF

/-- A destructor that may have panicked. -/
theorem destroyed_spec {ask : Code B K V Q → Option Bool} {locals result : U B K V Q σ Unit} {s : σ} {R T T' Fr : List (Thing B K V)}
    {F : σ → List (Thing B K V) → Prop} (hp : R.Perm (T ++ (T' ++ Fr))) (hl : Quiet locals T (fun _ R' => R' = [])) (hr : Quiet result T' (fun _ R' => R' = []))
    (hleak : F s (T' ++ Fr)) (hdrop : F s Fr) : Spec (destroyed ask locals result) s R (fun _ s' R' => s' = s ∧ R' = R) F := by
  refine guarded_ask hp hl hleak ?_
  rintro (_ | _)
  · refine .guarded (F₀ := fun s' R' => s' = s ∧ R' = T ++ Fr) (guarded_panic (T := T') (Fr := T ++ Fr) (by permsU [hp]) hr ⟨rfl, rfl⟩) ?_
    rintro _ _ ⟨rfl, rfl⟩
    exact hl.last (.refl _) (by rintro _ _ rfl; exact hdrop)
  · exact .pure ⟨rfl, rfl⟩

/-- Nothing to drop. -/
theorem pure_quiet : Quiet (pure () : U B K V Q σ Unit) [] (fun _ R' => R' = []) := fun _ => .pure ⟨rfl, rfl⟩

/-- The same, then the rest. -/
theorem destroyed_call {ask : Code B K V Q → Option Bool} {locals result : U B K V Q σ Unit} {f : Unit → U B K V Q σ γ} {s : σ} {R T T' Fr : List (Thing B K V)}
    {P : γ → σ → List (Thing B K V) → Prop} {F : σ → List (Thing B K V) → Prop} (hp : R.Perm (T ++ (T' ++ Fr))) (hl : Quiet locals T (fun _ R' => R' = []))
    (hr : Quiet result T' (fun _ R' => R' = [])) (hleak : F s (T' ++ Fr)) (hdrop : F s Fr) (hc : Spec (f ()) s R P F) :
    Spec (destroyed ask locals result >>= f) s R P F :=
  .bind (destroyed_spec hp hl hr hleak hdrop) (by rintro _ _ _ ⟨rfl, rfl⟩; exact hc) (fun _ _ h => h)

/-- A function that drops bounds before it returns. -/
theorem returning_spec {bounds : B} {result : β → U B K V Q σ Unit} {x : U B K V Q σ β} {s : σ} {R : List (Thing B K V)} {P : β → σ → List (Thing B K V) → Prop}
    {F : σ → List (Thing B K V) → Prop} (hx : Spec x s R P F)
    (hr : ∀ b s' R', P b s' R' → ∃ T Fr, R'.Perm (T ++ Fr) ∧ Quiet (result b) T (fun _ R' => R' = []) ∧ F s' (T ++ Fr) ∧ F s' Fr) :
    Spec (returning bounds result x) s R P F := by
  refine .bind hx ?_ (fun _ _ h => h)
  intro b s' R' hP
  obtain ⟨T, Fr, hp, hq, h1, h2⟩ := hr b s' R' hP
  exact destroyed_call (T := []) hp pure_quiet hq h1 h2 (.pure hP)

theorem setBounds_spec (n : UNode B) (b : B) {locals : U B K V Q (UNode B) Unit} {R T Fr : List (Thing B K V)} {F : UNode B → List (Thing B K V) → Prop}
    (hp : R.Perm (bT n.bounds.mem :: (T ++ Fr))) (hl : Quiet locals T (fun _ R' => R' = [])) (hF : ∀ o, F ⟨o, n.vec⟩ (bT o.mem :: Fr)) :
    Spec (setBounds b locals : U B K V Q (UNode B) Unit) n R (fun _ n' R' => n'.vec = n.vec ∧ R' = bT n'.bounds.mem :: (T ++ Fr)) F := by
  refine .place ?_
  refine (dropBounds_quiet n.bounds).call (Fr := T ++ Fr) hp ?_
  rintro _ _ rfl
  refine (newBounds_quiet b).call (Fr := T ++ Fr) (.refl _) ?_
  rintro o _ rfl
  refine .put ?_
  refine (destroyed_spec (T := T) (T' := []) (Fr := bT o.mem :: Fr) (by permsU) hl pure_quiet (hF o) (hF o)).mono ?_ (fun _ _ h => h)
  rintro _ _ _ ⟨rfl, rfl⟩
  exact ⟨rfl, rfl⟩

end RTree.Unwind
