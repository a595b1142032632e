import Verif.Model.RawMut
import Verif.Proofs.RawQuery
import Verif.Proofs.Mut
/-!
# Places of values

The skeleton of a node in memory is the node without its values.  It determines where the values are.
-/

namespace RTree.Raw

variable {B K V Q : Type} {E : TEnv} {h : Heap (Cell B K V)} {cap : Nat}

/-- An item without its values. -/
def strip : (l : Nat) → Item B K V l → Item B K Unit l
  | 0, e => (e.1, ())
  | l + 1, g => ⟨g.bounds, g.vec, g.kids.map (strip l)⟩

/-- A node without its values. -/
abbrev skel (l : Nat) (g : G B K V l) : G B K Unit l := ⟨g.bounds, g.vec, g.kids.map (strip l)⟩

theorem strip_succ (l : Nat) (g : G B K V l) : strip (l + 1) g = skel l g := rfl

/-- The places of the values below a node, from left to right. -/
def places : (l : Nat) → G B K V l → List Place
  | 0, g => (List.range g.kids.length).map fun i => (g.vec, i)
  | l + 1, g => g.kids.flatMap (places l)

theorem places_skel : ∀ (l : Nat) (g : G B K V l), places l (skel l g) = places l g
  | 0, g => by simp [places, skel]
  | l + 1, g => by
    rw [places, places, skel, List.flatMap_map]
    congr 1
    funext c
    exact places_skel l c

theorem ents_zero (g : G B K V 0) : ents 0 g = g.kids := by
  show g.kids.flatMap (fun e => [e]) = g.kids
  simp

theorem ents_succ (l : Nat) (g : G B K V (l + 1)) : ents (l + 1) g = g.kids.flatMap (ents l) := rfl

theorem places_length : ∀ (l : Nat) (g : G B K V l), (places l g).length = (ents l g).length
  | 0, g => by rw [ents_zero]; simp [places]
  | l + 1, g => by
    rw [places, ents_succ]
    induction g.kids with
    | nil => rfl
    | cons c cs ih => rw [List.flatMap_cons, List.flatMap_cons, List.length_append, List.length_append, ih, places_length l c]

theorem ents_skel : ∀ (l : Nat) (g : G B K V l), ents l (skel l g) = (ents l g).map fun e => (e.1, ())
  | 0, g => by rw [ents_zero, ents_zero]; rfl
  | l + 1, g => by
    rw [ents_succ, ents_succ, skel, List.flatMap_map, List.map_flatMap]
    congr 1
    funext c
    exact ents_skel l c

theorem raw_skel (l : Nat) (g : G B K V l) : raw (skel l g) = raw g := rfl

theorem addressed_skel : ∀ (l : Nat) (g : G B K V l) (a : Nat), (node l (skel l g)).addressed a = (node l g).addressed a
  | 0, g, a => by
    show Node.leaf _ _ = Node.leaf _ _
    congr 1
    have : (skel 0 g).kids = g.kids.map fun e => (e.1, ()) := rfl
    rw [this]
    refine List.ext_getElem? fun i => ?_
    simp only [List.getElem?_map, List.getElem?_zipIdx]
    cases g.kids[i]? <;> rfl
  | l + 1, g, a => by
    show Node.inner _ _ = Node.inner _ _
    congr 1
    have : (skel (l + 1) g).kids = g.kids.map (skel l) := rfl
    rw [this]
    generalize g.kids = kids
    induction kids generalizing a with
    | nil => rfl
    | cons c cs ih =>
      simp only [List.map_cons, addressedList]
      rw [addressed_skel l c a]
      have : (node l (skel l c)).size = (node l c).size := by
        rw [Node.size_eq, Node.size_eq, ents_node, ents_node, ents_skel, List.length_map]
      rw [this]
      congr 1
      exact ih _

theorem size_node (l : Nat) (g : G B K V l) : (node l g).size = (places l g).length := by
  rw [Node.size_eq, ents_node, places_length]

/-! ### Reading and writing at a place -/

/-- The node after a write to a value: only the value has changed. -/
def SameSkel (E : TEnv) (cap l : Nat) (g : G B K V l) (n : Node B K V) (cs : List (Chunk (Cell B K V))) (es : List (K × V)) : Prop :=
  ∃ g' : G B K V l, n = node l g' ∧ skel l g' = skel l g ∧ cs = chunks E cap l g' ∧ es = ents l g'

/-- The children after a write to a value. -/
def SameSkels (E : TEnv) (cap l : Nat) (kids : List (Item B K V (l + 1))) (ns : List (Node B K V)) (cs : List (Chunk (Cell B K V))) (es : List (K × V)) : Prop :=
  ∃ kids' : List (Item B K V (l + 1)), ns = kids'.map (node l) ∧ kids'.map (skel l) = kids.map (skel l) ∧
    cs = chunksL E cap (l + 1) kids' ∧ es = kids'.flatMap (entsI (l + 1))

theorem skel_cells {l : Nat} {kids kids' : List (Item B K V (l + 1))} (h : kids'.map (skel l) = kids.map (skel l)) :
    kids'.map (cell (l + 1)) = (kids.map (cell (l + 1)) : List (Cell B K V)) := by
  have := congrArg (List.map fun g : G B K Unit l => (Cell.node (raw g) : Cell B K V)) h
  rw [List.map_map, List.map_map] at this
  exact this

theorem place_at : ∀ (l : Nat) (g : G B K V l) (a : Nat) (p : Place), (places l g)[a]? = some p →
    ∃ k v, (ents l g)[a]? = some (k, v) ∧
      PlaceRel E cap (chunks E cap l g) (ents l g) (SameSkel E cap l g) (some (v, fun v' => (node l g).modifyAt a fun _ => v')) (some p)
  | 0, g, a, p, hp => by
    rw [places, List.getElem?_map] at hp
    have ha : a < g.kids.length := by
      rcases Nat.lt_or_ge a g.kids.length with h | h
      · exact h
      · rw [List.getElem?_eq_none (by simpa using h)] at hp; cases hp
    rw [List.getElem?_range ha, Option.map_some] at hp
    cases hp
    have e0 : ∀ k : List (K × V), (chunksL (B := B) E cap 0 k) = [] := by
      intro k
      show k.flatMap (fun _ => []) = []
      simp
    refine ⟨g.kids[a].1, g.kids[a].2, by rw [ents_zero]; simp [ha], g.kids, chunksL E cap 0 g.kids, g.kids[a].1, g.kids.eraseIdx a, by simp [ha], .refl _, ?_, ?_⟩
    · rw [ents_zero]
      have := flatMap_get (fun x => [x]) ha
      simpa using this
    · intro v'
      refine ⟨_, _, ⟨⟨g.bounds, g.vec, g.kids.set a (g.kids[a].1, v')⟩, ?_, ?_, rfl, rfl⟩, ?_, ?_⟩
      · show Node.leaf _ _ = Node.leaf _ _
        congr 1
        refine List.ext_getElem? fun i => ?_
        rw [List.getElem?_modify, List.getElem?_set]
        by_cases hi : a = i
        · subst hi; simp [ha]
        · simp [hi]
      · show GN.mk _ _ _ = GN.mk _ _ _
        congr 1
        show List.map (strip 0) (g.kids.set a (g.kids[a].1, v')) = List.map (strip 0) g.kids
        refine List.ext_getElem? fun i => ?_
        rw [List.getElem?_map, List.getElem?_map, List.getElem?_set]
        by_cases hi : a = i
        · subst hi; simp [ha, strip]
        · simp [hi]
      · simp only [chunks, e0]; exact .refl _
      · rw [ents_zero]
        have := flatMap_set (fun x => [x]) ha (g.kids[a].1, v')
        simpa using this
  | l + 1, g, a, p, hp => by
    have hkids : ∀ (kids : List (Item B K V (l + 1))) (a : Nat), (kids.flatMap (places l))[a]? = some p → ∃ k v, (kids.flatMap (ents l))[a]? = some (k, v) ∧
        PlaceRel E cap (chunksL E cap (l + 1) kids) (kids.flatMap (entsI (l + 1))) (SameSkels E cap l kids)
          (some (v, fun v' => modifyAtList a (fun _ => v') (kids.map (node l)))) (some p) := by
      intro kids
      induction kids with
      | nil => intro a h; cases h
      | cons c kids ih =>
        intro a ha
        rw [List.flatMap_cons] at ha
        have esplit : (c :: kids).flatMap (ents l) = ents l c ++ kids.flatMap (ents l) := rfl
        rw [esplit]
        have ec : ∀ (c : Item B K V (l + 1)) kids, chunksL E cap (l + 1) (c :: kids) = chunks E cap l c ++ chunksL E cap (l + 1) kids := fun _ _ => rfl
        have ee : ∀ (c : Item B K V (l + 1)) kids, (c :: kids).flatMap (entsI (l + 1)) = ents l c ++ kids.flatMap (entsI (l + 1)) := fun _ _ => rfl
        by_cases hlt : a < (places l c).length
        · rw [List.getElem?_append_left hlt] at ha
          obtain ⟨k, v, h1, h2⟩ := place_at l c a p ha
          refine ⟨k, v, by rw [List.getElem?_append_left (by rw [← places_length]; exact hlt)]; exact h1, ?_⟩
          obtain ⟨xs, fr, k', rest, hxs, hpc, hpe, hback⟩ := h2
          refine ⟨xs, fr ++ chunksL E cap (l + 1) kids, k', rest ++ kids.flatMap (entsI (l + 1)), hxs, ?_, ?_, ?_⟩
          · rw [ec]; perms [hpc]
          · rw [ee]; perms [hpe]
          · intro v'
            obtain ⟨_, _, ⟨g', hb, hr, rfl, rfl⟩, hc, he⟩ := hback v'
            refine ⟨_, _, ⟨g' :: kids, ?_, by rw [List.map_cons, hr]; rfl, rfl, rfl⟩, ?_, ?_⟩
            · show modifyAtList a (fun _ => v') (node l c :: kids.map (node l)) = _
              rw [modifyAtList, if_pos (by rw [size_node]; exact hlt)]; exact congrArg (· :: _) hb
            · rw [ec]; perms [hc]
            · rw [ee]; perms [he]
        · have hge : (places l c).length ≤ a := Nat.le_of_not_lt hlt
          rw [List.getElem?_append_right hge] at ha
          obtain ⟨k, v, h1, h2⟩ := ih _ ha
          refine ⟨k, v, by rw [List.getElem?_append_right (by rw [← places_length]; exact hge), ← places_length]; exact h1, ?_⟩
          obtain ⟨xs, fr, k', rest, hxs, hpc, hpe, hback⟩ := h2
          refine ⟨xs, chunks E cap l c ++ fr, k', ents l c ++ rest, hxs, ?_, ?_, ?_⟩
          · rw [ec]; perms [hpc]
          · rw [ee]; perms [hpe]
          · intro v'
            obtain ⟨_, _, ⟨kids', hb, hr, rfl, rfl⟩, hc, he⟩ := hback v'
            refine ⟨_, _, ⟨c :: kids', ?_, by rw [List.map_cons, hr]; rfl, rfl, rfl⟩, ?_, ?_⟩
            · show modifyAtList a (fun _ => v') (node l c :: kids.map (node l)) = _
              rw [modifyAtList, if_neg (by rw [size_node]; exact hlt), size_node]; exact congrArg (_ :: ·) hb
            · rw [ec]; perms [hc]
            · rw [ee]; perms [he]
    obtain ⟨k, v, h1, xs, fr, k', rest, hxs, hpc, hpe, hback⟩ := hkids g.kids a hp
    refine ⟨k, v, h1, xs, vecC E.node cap g.vec (g.kids.map (cell (l + 1))) :: fr, k', rest, hxs, ?_, hpe, ?_⟩
    · exact (hpc.cons _).trans (.swap _ _ _)
    · intro v'
      obtain ⟨_, _, ⟨kids', hb, hr, rfl, rfl⟩, hc, he⟩ := hback v'
      refine ⟨_, _, ⟨⟨g.bounds, g.vec, kids'⟩, ?_, ?_, rfl, rfl⟩, ?_, he⟩
      · show Node.inner _ _ = Node.inner _ _
        congr 1
      · show GN.mk _ _ _ = GN.mk _ _ _
        congr 1
      · simp only [chunks, skel_cells hr]
        exact (hc.cons _).trans (.swap _ _ _)

/-! ### Different values are at different places -/

theorem mem_places_block : ∀ (l : Nat) (g : G B K V l) (p : Place), p ∈ places l g → p.1.buf.block ∈ fps (chunks E cap l g)
  | 0, g, p, hp => by
    rw [places, List.mem_map] at hp
    obtain ⟨i, _, rfl⟩ := hp
    simp [vecC]
  | l + 1, g, p, hp => by
    rw [places, List.mem_flatMap] at hp
    obtain ⟨c, hc, hp⟩ := hp
    have := mem_places_block l c p hp
    rw [mem_fps] at this ⊢
    obtain ⟨x, hx, hb⟩ := this
    refine ⟨x, List.mem_cons_of_mem _ (List.mem_flatMap.2 ⟨c, hc, ?_⟩), hb⟩
    rw [chunksI_succ]; exact hx

theorem places_nodup : ∀ (l : Nat) (g : G B K V l), (fps (chunks E cap l g)).Nodup → ((places l g).map Place.loc).Nodup
  | 0, g, _ => by
    rw [places, List.map_map]
    exact List.pairwise_map.2 (List.nodup_range.imp fun h e => h (congrArg Prod.snd e))
  | l + 1, g, hn => by
    rw [fps_cons, List.nodup_append] at hn
    have hn := hn.2.1
    rw [places]
    have key : ∀ kids : List (Item B K V (l + 1)), (fps (chunksL E cap (l + 1) kids)).Nodup → ((kids.flatMap (places l)).map Place.loc).Nodup := by
      intro kids
      induction kids with
      | nil => intro _; exact List.nodup_nil
      | cons c kids ih =>
        intro hn
        have ec : chunksL E cap (l + 1) (c :: kids) = chunks E cap l c ++ chunksL E cap (l + 1) kids := rfl
        rw [ec, fps_append, List.nodup_append] at hn
        rw [List.flatMap_cons, List.map_append, List.nodup_append]
        refine ⟨places_nodup l c hn.1, ih hn.2.1, ?_⟩
        rintro _ hx _ hy rfl
        obtain ⟨p, hp, rfl⟩ := List.mem_map.1 hx
        obtain ⟨q, hq, e⟩ := List.mem_map.1 hy
        obtain ⟨d, hd, hq⟩ := List.mem_flatMap.1 hq
        have h1 := mem_places_block (E := E) (cap := cap) l c p hp
        have h2 := mem_places_block (E := E) (cap := cap) l d q hq
        refine hn.2.2 _ h1 q.1.buf.block ?_ (congrArg Prod.fst e).symm
        rw [mem_fps] at h2 ⊢
        obtain ⟨x, hx, hb⟩ := h2
        exact ⟨x, List.mem_flatMap.2 ⟨d, hd, by rw [chunksI_succ]; exact hx⟩, hb⟩
    exact key _ hn

end RTree.Raw
