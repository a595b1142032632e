import Verif.Proofs.HonestProgram
/-!
# From the middle of a program

Whatever happened before: memory without the blocks of the bounds, and with all that cannot be reached made unreadable,
is memory of the model in which bounds own nothing.
-/

set_option linter.unusedSectionVars false

namespace RTree.Unwind

open Raw

variable {B K V Q : Type} {E : TEnv} {cap : Nat} {Z : Nat → Prop}

/-- Bounds without their memory. -/
def eraseI : (l : Nat) → It B K V l → Item B K V l
  | 0, e => e
  | l + 1, g => (⟨g.bounds.val, g.vec, g.kids.map (eraseI l)⟩ : GN B (Item B K V l))

/-- The tree, bounds without their memory. -/
def eraseT (G : GT B K V) : GTree B K V := ⟨G.alloc, G.level, eraseI (G.level + 1) G.g⟩

/-- The trees, bounds without their memory. -/
def eraseF (gs : GF B K V) : Forest B K V := gs.map fun o => o.map eraseT

/-- The blocks of vectors. -/
def vecsI : (l : Nat) → It B K V l → List Nat
  | 0, _ => []
  | l + 1, g => g.vec.buf.block :: g.kids.flatMap (vecsI l)

/-- The blocks of bounds. -/
def boxesI : (l : Nat) → It B K V l → List Nat
  | 0, _ => []
  | l + 1, g => g.bounds.mem :: g.kids.flatMap (boxesI l)

/-- The blocks of vectors. -/
def vecsF (gs : GF B K V) : List Nat := gs.flatMap fun o => o.elim [] fun G => vecsI (G.level + 1) G.g

/-- The blocks of bounds. -/
def boxesF (gs : GF B K V) : List Nat := gs.flatMap fun o => o.elim [] fun G => boxesI (G.level + 1) G.g

theorem fps_flatMap {α ι : Type} (xs : List ι) (f : ι → List (Chunk α)) : fps (xs.flatMap f) = xs.flatMap fun x => fps (f x) := by
  induction xs with
  | nil => rfl
  | cons x xs ih => rw [List.flatMap_cons, fps_append, ih, List.flatMap_cons]

theorem chunksT_flatMap {ι : Type} (xs : List ι) (f : ι → List (Thing B K V)) : chunksT (xs.flatMap f) = xs.flatMap fun x => chunksT (f x) := by
  induction xs with
  | nil => rfl
  | cons x xs ih => rw [List.flatMap_cons, chunksT_append, ih, List.flatMap_cons]

theorem flatMap_perm {α β : Type} {xs : List α} {f g k : α → List β} (h : ∀ x ∈ xs, (f x).Perm (g x ++ k x)) : (xs.flatMap f).Perm (xs.flatMap g ++ xs.flatMap k) := by
  induction xs with
  | nil => exact .refl _
  | cons x xs ih =>
    have h1 := h x List.mem_cons_self
    have h2 := ih fun y hy => h y (List.mem_cons_of_mem _ hy)
    rw [List.flatMap_cons, List.flatMap_cons, List.flatMap_cons]
    perms [h1, h2]

theorem fps_things : ∀ (l : Nat) (i : It B K V l), (fps (chunksT (thingsI E cap l i))).Perm (vecsI l i ++ boxesI l i)
  | 0, _ => .refl _
  | l + 1, g => by
    have ih : (fps (chunksT (thingsL E cap l g.kids))).Perm (g.kids.flatMap (vecsI l) ++ g.kids.flatMap (boxesI l)) := by
      rw [thingsL, chunksT_flatMap, fps_flatMap]
      exact flatMap_perm fun x _ => fps_things l x
    show (g.bounds.mem :: g.vec.buf.block :: fps (chunksT (thingsL E cap l g.kids))).Perm ((g.vec.buf.block :: g.kids.flatMap (vecsI l)) ++ (g.bounds.mem :: g.kids.flatMap (boxesI l)))
    perms [ih]

theorem fps_own (gs : GF B K V) : (fps (chunksT (ownF E gs))).Perm (vecsF gs ++ boxesF gs) := by
  rw [ownF, chunksT_flatMap, fps_flatMap]
  refine flatMap_perm fun o _ => ?_
  cases o with
  | none => exact .refl _
  | some G => exact fps_things (G.level + 1) G.g

theorem fps_erased : ∀ (l : Nat) (i : It B K V l), fps (chunksI E cap l (eraseI l i)) = vecsI l i
  | 0, _ => rfl
  | l + 1, g => by
    show g.vec.buf.block :: fps (chunksL E cap l (g.kids.map (eraseI l))) = g.vec.buf.block :: _
    congr 1
    rw [chunksL, List.flatMap_map, fps_flatMap]
    congr 1
    funext x
    exact fps_erased l x

theorem fps_forest (gs : GF B K V) : fps (Raw.Forest.own E (eraseF gs)) = vecsF gs := by
  rw [Raw.Forest.own, eraseF, List.flatMap_map, fps_flatMap, vecsF]
  congr 1
  funext o
  cases o with
  | none => rfl
  | some G => exact fps_erased (G.level + 1) G.g

/-! ### Memory -/

open Classical in
/-- What can be read. -/
noncomputable def stripC (vecs boxes : List Nat) : UCell B K V → Option (Cell B K V)
  | .entry e => some (.entry e)
  | .node n => if n.vec.buf.block ∈ vecs ∧ n.bounds.mem ∈ boxes then some (.node ⟨n.bounds.val, n.vec⟩) else none

/-- A block. -/
noncomputable def stripB (vecs boxes : List Nat) (k : Block (UCell B K V)) : Block (Cell B K V) := ⟨k.bytes, k.slots.map fun o => o.bind (stripC vecs boxes)⟩

/-- Memory. -/
noncomputable def stripH (vecs boxes : List Nat) (h : Raw.Heap (UCell B K V)) : Raw.Heap (Cell B K V) := h.map fun o => o.map (stripB vecs boxes)

/-- Each block corresponds to itself. -/
def here (vecs boxes : List Nat) : Links := ⟨fun a b => a = b ∧ b ∈ vecs, fun m => m ∈ boxes⟩

theorem strip_alike {vecs boxes : List Nat} {h : Raw.Heap (UCell B K V)} (hv : ∀ b ∈ vecs, b < h.length) (hb : ∀ b ∈ boxes, b < h.length)
    (hd : ∀ b ∈ vecs, b ∉ boxes) : Alike (here vecs boxes) (stripH vecs boxes h) h where
  dom a b hab := by
    obtain ⟨rfl, ha⟩ := hab
    rw [stripH, List.length_map]; exact hv _ ha
  cod a b hab := hv _ hab.2
  func a b c hab hac := hab.1.symm.trans hac.1
  inj a b c hab hcb := hab.1.trans hcb.1.symm
  live a b k hab hk := by
    obtain ⟨rfl, ha⟩ := hab
    rw [stripH, List.getElem?_map] at hk
    simp only [Option.map_eq_some_iff] at hk
    obtain ⟨o, ho, k', rfl, rfl⟩ := hk
    refine ⟨k', ho, rfl, ?_⟩
    show Pairs _ (k'.slots.map _) k'.slots
    generalize k'.slots = s
    induction s with
    | nil => exact .nil
    | cons o s ih =>
      refine .cons ?_ ih
      cases o with
      | none => exact .none _
      | some c =>
        cases c with
        | entry e => exact .some (.entry e)
        | node n =>
          by_cases hn : n.vec.buf.block ∈ vecs ∧ n.bounds.mem ∈ boxes
          · have e : stripC vecs boxes (.node n : UCell B K V) = some (.node ⟨n.bounds.val, n.vec⟩) := if_pos hn
            show Over _ (stripC vecs boxes (.node n)) _
            rw [e]
            exact .some (.node ⟨rfl, hn.2, ⟨⟨rfl, hn.1⟩, rfl⟩, rfl⟩)
          · have e : stripC vecs boxes (.node n : UCell B K V) = none := if_neg hn
            show Over _ (stripC vecs boxes (.node n)) _
            rw [e]
            exact .none _
  box m hm := hb m hm
  off a b hab hbox := hd b hab.2 hbox

theorem strip_cell {vecs boxes : List Nat} : ∀ (l : Nat) (i : It B K V l), (∀ b ∈ vecsI l i, b ∈ vecs) → (∀ b ∈ boxesI l i, b ∈ boxes) →
    stripC vecs boxes (cell l i) = some (cell l (eraseI l i))
  | 0, _, _, _ => rfl
  | l + 1, g, hv, hb => if_pos ⟨hv _ List.mem_cons_self, hb _ List.mem_cons_self⟩

theorem strip_holds {vecs boxes : List Nat} {h : Raw.Heap (UCell B K V)} : ∀ (l : Nat) (i : It B K V l), (∀ c, Thing.chunk c ∈ thingsI E cap l i → c.holds h) →
    (∀ b ∈ vecsI l i, b ∈ vecs) → (∀ b ∈ boxesI l i, b ∈ boxes) → ∀ c ∈ chunksI E cap l (eraseI l i), c.holds (stripH vecs boxes h)
  | 0, _, _, _, _, c, hc => by cases hc
  | l + 1, g, H, hv, hb, c, hc => by
    have kv : ∀ i ∈ g.kids, ∀ b ∈ vecsI l i, b ∈ vecs := fun i hi b hx => hv b (List.mem_cons_of_mem _ (List.mem_flatMap.2 ⟨i, hi, hx⟩))
    have kb : ∀ i ∈ g.kids, ∀ b ∈ boxesI l i, b ∈ boxes := fun i hi b hx => hb b (List.mem_cons_of_mem _ (List.mem_flatMap.2 ⟨i, hi, hx⟩))
    rcases List.mem_cons.1 hc with rfl | hc
    · have ho : Owns (RTree.slotEnv E l) cap h g.vec (g.kids.map (cell l)) := H _ (List.mem_cons_of_mem _ List.mem_cons_self)
      obtain ⟨slots, ⟨h1, h2⟩, h3⟩ := ho.mem
      show Owns (RTree.slotEnv E l) cap (stripH vecs boxes h) g.vec ((g.kids.map (eraseI l)).map (cell l))
      refine ⟨ho.off, by rw [ho.len]; simp, by have := ho.fits; simpa using this, ho.layout, ho.nonzero, slots.map fun o => o.bind (stripC vecs boxes), ⟨?_, by simpa using h2⟩, ?_⟩
      · rw [stripH, List.getElem?_map, h1]; rfl
      · intro k hk
        have hk : k < g.kids.length := by simpa using hk
        have h3 := h3 k (by simpa using hk)
        rw [List.getElem?_map, h3]
        rw [List.getElem?_map, List.getElem?_map, List.getElem?_map, List.getElem?_eq_getElem hk]
        show some (stripC vecs boxes (cell l g.kids[k])) = some (some (cell l (eraseI l g.kids[k])))
        rw [strip_cell l _ (kv _ (List.getElem_mem hk)) (kb _ (List.getElem_mem hk))]
    · have hc : c ∈ chunksL E cap l (g.kids.map (eraseI l)) := hc
      obtain ⟨x, hx, hc⟩ := List.mem_flatMap.1 hc
      obtain ⟨i, hi, rfl⟩ := List.mem_map.1 hx
      exact strip_holds l i (fun c hc => H c (List.mem_cons_of_mem _ (List.mem_cons_of_mem _ (List.mem_flatMap.2 ⟨i, hi, hc⟩)))) (kv i hi) (kb i hi) c hc

theorem mem_chunksT {R : List (Thing B K V)} {c : Chunk (UCell B K V)} (h : Thing.chunk c ∈ R) : c ∈ chunksT R := List.mem_filterMap.2 ⟨_, h, rfl⟩

/-- The state in the middle of a program. -/
theorem strip_state {gs : GF B K V} {h : Raw.Heap (UCell B K V)} (H : Has h (chunksT (ownF E gs))) :
    ∃ L h', Alike L h' h ∧ SameVars L (Raw.Forest.rawF (eraseF gs)) (rawF gs) ∧ Has h' (Raw.Forest.own E (eraseF gs)) := by
  have hp := fps_own (E := E) gs
  have hn := hp.nodup_iff.1 H.nodup
  have halive : ∀ b ∈ vecsF gs ++ boxesF gs, b < h.length := by
    intro b hb
    obtain ⟨c, hc, hbc⟩ := List.mem_flatMap.1 (hp.mem_iff.2 hb)
    exact c.alive (H.holds c hc) b hbc
  refine ⟨here (vecsF gs) (boxesF gs), stripH (vecsF gs) (boxesF gs) h, strip_alike (fun b hb => halive b (List.mem_append_left _ hb)) (fun b hb => halive b (List.mem_append_right _ hb))
    (fun b hb hx => (List.nodup_append.1 hn).2.2 b hb b hx rfl), ?_, ⟨?_, ?_⟩⟩
  · have key : ∀ xs : GF B K V, (∀ o ∈ xs, o ∈ gs) → SameVars (here (vecsF gs) (boxesF gs)) (Raw.Forest.rawF (eraseF xs)) (rawF xs) := by
      intro xs
      induction xs with
      | nil => intro _; exact .nil
      | cons o xs ih =>
        intro hx
        refine .cons ?_ (ih fun o ho => hx o (List.mem_cons_of_mem _ ho))
        have ho := hx o List.mem_cons_self
        cases o with
        | none => exact .none
        | some G =>
          refine .some ⟨rfl, rfl, rfl, ?_, ⟨⟨rfl, ?_⟩, rfl⟩, rfl⟩
          · exact List.mem_flatMap.2 ⟨_, ho, List.mem_cons_self⟩
          · exact List.mem_flatMap.2 ⟨_, ho, List.mem_cons_self⟩
    exact key gs fun _ h => h
  · intro c hc
    obtain ⟨o, ho, hc⟩ := List.mem_flatMap.1 hc
    obtain ⟨o, hg, rfl⟩ := List.mem_map.1 ho
    cases o with
    | none => cases hc
    | some G =>
      refine strip_holds (G.level + 1) G.g (fun c hc => H.holds c (mem_chunksT (List.mem_flatMap.2 ⟨_, hg, hc⟩))) ?_ ?_ c hc
      · exact fun b hb => List.mem_flatMap.2 ⟨_, hg, hb⟩
      · exact fun b hb => List.mem_flatMap.2 ⟨_, hg, hb⟩
  · rw [fps_forest]
    exact (List.nodup_append.1 hn).1

end RTree.Unwind
