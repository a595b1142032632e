import Verif.RefThreads
import Verif.Proofs.Updates
import Verif.Proofs.RawQuery
/-!
# Threads that use references of one mutable iteration do not notice each other
-/

namespace RTree.Raw

variable {B K V : Type} {E : TEnv}

section

variable [Bounds B] [Volume B] [Bounded K B] [BEq K]

/-- The memory and the threads on one side, and every thread alone with its own values on the other. -/
structure Apart (E : TEnv) (c : Config) (t : GTree B K V) (h₀ : Heap (Cell B K V)) (es₀ : List (K × V)) (owner : Nat → Nat) (addrs : List Nat) (ts : Nat → RefThread V)
    (A : Nat → RefThread V × List V) (h : Heap (Cell B K V)) (g : G B K V t.level) : Prop where
  skel : skel t.level g = skel t.level t.root
  tr : Tr h₀ (t.own E) h (GTree.own E ⟨t.alloc, t.level, g⟩)
  reach : Reachable c (fun _ => True) (GTree.abs ⟨t.alloc, t.level, g⟩)
  same : ∀ i, ts i = (A i).1
  len : ∀ i, (A i).2.length = addrs.length
  cells : ∀ j a, addrs[j]? = some a → ((ents t.level g)[a]?).map (·.2) = (A (owner j)).2[j]?
  others : ∀ a, a ∉ addrs → (ents t.level g)[a]? = es₀[a]?
  keys : (ents t.level g).map (·.1) = es₀.map (·.1)
  pending : ∀ i j old new, (A i).1.pending = some (j, old, new) → owner j = i ∧ (A i).2[j]? = some old

variable {c : Config} {t : GTree B K V} {h₀ : Heap (Cell B K V)} {es₀ : List (K × V)} {owner : Nat → Nat} {addrs : List Nat} {refs : List (K × Place)}

/-- What thread `i` holds, in memory and on values. -/
theorem held_at (hrefs : refs.map (fun r => some r.2) = addrs.map fun a => (places t.level t.root)[a]?) {g : G B K V t.level} (hsk : skel t.level g = skel t.level t.root) (i j : Nat) :
    (heldBy owner refs i j = none ∧ ¬ (owner j = i ∧ j < addrs.length)) ∨
      ∃ p a, heldBy owner refs i j = some p ∧ owner j = i ∧ addrs[j]? = some a ∧ (places t.level g)[a]? = some p := by
  unfold heldBy
  by_cases ho : owner j = i
  · rw [if_pos ho]
    have := congrArg (·[j]?) hrefs
    simp only [List.getElem?_map] at this
    rw [← places_skel, ← hsk, places_skel] at this
    cases h1 : refs[j]? with
    | none =>
      left
      refine ⟨rfl, fun h => ?_⟩
      rw [h1, List.getElem?_eq_getElem h.2] at this
      cases this
    | some r =>
      right
      cases h2 : addrs[j]? with
      | none => rw [h1, h2] at this; cases this
      | some a =>
        rw [h1, h2] at this
        simp only [Option.map_some, Option.some.injEq] at this
        exact ⟨r.2, a, rfl, ho, rfl, this.symm⟩
  · rw [if_neg ho]
    exact .inl ⟨rfl, fun h => ho h.1⟩

theorem access_sim (Z : Sizes E t.alloc.maxChildren) (hrefs : refs.map (fun r => some r.2) = addrs.map fun a => (places t.level t.root)[a]?) (hn : addrs.Nodup)
    (code : Nat → RefCode V) {ts : Nat → RefThread V} {A : Nat → RefThread V × List V} {h : Heap (Cell B K V)} (P : ∃ g, Apart E c t h₀ es₀ owner addrs ts A h g) (i : Nat) :
    ∃ ts' h', refStep E owner refs code ts i h = .ok (ts', h') ∧
      ∃ g, Apart E c t h₀ es₀ owner addrs ts' (fun j => if j = i then RefThread.alone (fun j => owner j == i) (code i) (A i) else A j) h' g := by
  obtain ⟨g, P⟩ := P
  have hsi := P.same i
  -- a step that changes the state of the thread only
  have keep : ∀ (s' : RefThread V), RefThread.alone (fun j => owner j == i) (code i) (A i) = (s', (A i).2) →
      (∀ j old new, s'.pending = some (j, old, new) → owner j = i ∧ (A i).2[j]? = some old) →
      Apart E c t h₀ es₀ owner addrs (fun j => if j = i then s' else ts j) (fun j => if j = i then RefThread.alone (fun j => owner j == i) (code i) (A i) else A j) h g := by
    intro s' he hp
    refine ⟨P.skel, P.tr, P.reach, fun j => ?_, fun j => ?_, fun j a ha => ?_, P.others, P.keys, fun k j old new hk => ?_⟩
    · split
      · rw [he]
      · exact P.same j
    · split
      · rw [he]; exact P.len i
      · exact P.len j
    · rw [P.cells j a ha]; split
      next h => rw [he, h]
      next => rfl
    · by_cases hki : k = i
      · subst hki
        rw [if_pos rfl] at hk ⊢
        rw [he] at hk ⊢
        exact hp j old new hk
      · rw [if_neg hki] at hk ⊢
        exact P.pending k j old new hk
  have stay : RefThread.alone (fun j => owner j == i) (code i) (A i) = A i → refAccess E (heldBy owner refs i) (code i) (ts i) h = .ok (ts i, h) →
      ∃ ts' h', refStep E owner refs code ts i h = .ok (ts', h') ∧
      ∃ g, Apart E c t h₀ es₀ owner addrs ts' (fun j => if j = i then RefThread.alone (fun j => owner j == i) (code i) (A i) else A j) h' g := by
    intro h1 h2
    refine ⟨_, h, bind_ok h2, g, ?_⟩
    exact keep (ts i) (by rw [h1, hsi]) (fun j old new hp => P.pending i j old new (by rw [← hsi]; exact hp))
  cases hpend : (A i).1.pending with
  | some x =>
    obtain ⟨j, old, new⟩ := x
    obtain ⟨ho, hc⟩ := P.pending i j old new hpend
    have hjl : j < addrs.length := by rw [← P.len i]; exact (List.getElem?_eq_some_iff.1 hc).1
    rcases held_at (owner := owner) hrefs P.skel i j with ⟨_, hno⟩ | ⟨p, a, h1, _, h2, h3⟩
    · exact (hno ⟨ho, hjl⟩).elim
    obtain ⟨k, v, he, hp⟩ := place_at (E := E) (cap := t.alloc.maxChildren) t.level g a p h3
    obtain ⟨h', _, _, e0, ⟨g', hnode, hs, rfl, rfl⟩, tr, hk, hvs⟩ := place_write Z P.tr.has hp new
    have hacc : refAccess E (heldBy owner refs i) (code i) (ts i) h = .ok (⟨(ts i).replies ++ [.moved (some old)], none, (ts i).given ++ [new]⟩, h') := by
      rw [refAccess, hsi, hpend]
      dsimp only
      rw [h1]
      dsimp only
      rw [bind_ok e0]; rfl
    have hal : RefThread.alone (fun j => owner j == i) (code i) (A i) = (⟨(A i).1.replies ++ [.moved (some old)], none, (A i).1.given ++ [new]⟩, (A i).2.set j new) := by
      rw [RefThread.alone, hpend]
    have htree : (GTree.abs ⟨t.alloc, t.level, g⟩).modifyAt a (fun _ => new) = GTree.abs ⟨t.alloc, t.level, g'⟩ := by
      rw [Tree.modifyAt, GTree.abs, GTree.abs]
      simp only [hnode]
    have hents : ents t.level g' = (ents t.level g).modify a fun e => (e.1, new) := by
      have h4 : (GTree.abs ⟨t.alloc, t.level, g'⟩).entries = ents t.level g' := GTree.entries_abs _
      have h5 : (GTree.abs ⟨t.alloc, t.level, g⟩).entries = ents t.level g := GTree.entries_abs _
      rw [← h4, ← htree, Tree.entries_modifyAt, h5]
    refine ⟨_, h', bind_ok hacc, g', hs.trans P.skel, P.tr.trans tr, by rw [← htree]; exact .modifyAt _ _ P.reach, fun l => ?_, fun l => ?_, fun l b hb => ?_, fun b hb => ?_, ?_, fun l m o w hl => ?_⟩
    · split
      · rw [hal, hsi]
      · exact P.same l
    · split
      · rw [hal, List.length_set]; exact P.len i
      · exact P.len l
    · rw [hents, List.getElem?_modify]
      by_cases hlj : l = j
      · subst hlj
        obtain rfl : b = a := by rw [h2] at hb; cases hb; rfl
        rw [if_pos ho, hal, he]
        have hl' := hjl
        rw [← P.len i] at hl'
        simp [List.getElem?_set, hl']
      · have hab : a ≠ b := by
          intro hab
          subst hab
          obtain ⟨l1, g1⟩ := List.getElem?_eq_some_iff.1 hb
          obtain ⟨l2, g2⟩ := List.getElem?_eq_some_iff.1 h2
          exact hlj ((List.getElem_inj hn).1 (g1.trans g2.symm))
        simp only [if_neg hab, id_map']
        rw [P.cells l b hb]
        split
        next hoi => rw [hal, hoi, List.getElem?_set, if_neg (Ne.symm hlj)]
        next => rfl
    · rw [hents, List.getElem?_modify]
      have hab : a ≠ b := fun hab => hb (hab ▸ List.mem_of_getElem? h2)
      simp only [if_neg hab, id_map']
      exact P.others b hb
    · rw [hents, ← P.keys]
      refine List.ext_getElem? fun b => ?_
      rw [List.getElem?_map, List.getElem?_map, List.getElem?_modify]
      by_cases hab : a = b
      · subst hab; simp [he]
      · simp [hab]
    · by_cases hli : l = i
      · subst hli
        rw [if_pos rfl, hal] at hl
        cases hl
      · rw [if_neg hli] at hl ⊢
        exact P.pending l m o w hl
  | none =>
    cases hcode : code i (A i).1.replies with
    | none =>
      refine stay (by rw [RefThread.alone, hpend]; dsimp only; rw [hcode]) ?_
      rw [refAccess, hsi, hpend]
      dsimp only
      rw [hcode]; rfl
    | some x =>
      have hcell : ∀ {j a k v}, owner j = i → addrs[j]? = some a → (ents t.level g)[a]? = some (k, v) → (A i).2[j]? = some v := by
        intro j a k v ho h2 he
        have := P.cells j a h2
        rw [he, ho] at this
        exact this.symm
      have hnone : ∀ {j}, ¬ (owner j = i ∧ j < addrs.length) → owner j = i → (A i).2[j]? = none := by
        intro j hno ho
        refine List.getElem?_eq_none ?_
        rw [P.len i]
        exact Nat.le_of_not_lt fun h => hno ⟨ho, h⟩
      cases x with
      | read j =>
        rcases held_at (owner := owner) hrefs P.skel i j with ⟨h1, hno⟩ | ⟨p, a, h1, ho, h2, h3⟩
        · refine stay ?_ ?_
          · rw [RefThread.alone, hpend]; dsimp only; rw [hcode]; dsimp only
            by_cases ho : owner j = i
            · rw [hnone hno ho]; split
              next hx => cases hx
              next => rfl
            · have : (owner j == i) = false := by simpa using ho
              rw [this]
          · rw [refAccess, hsi, hpend]; dsimp only; rw [hcode]; dsimp only; rw [h1]; rfl
        · obtain ⟨k, v, he, hp⟩ := place_at (E := E) (cap := t.alloc.maxChildren) t.level g a p h3
          obtain ⟨k', e0⟩ := place_read Z P.tr.has hp
          have hal : RefThread.alone (fun j => owner j == i) (code i) (A i) = ({ (A i).1 with replies := (A i).1.replies ++ [.seen (some v)] }, (A i).2) := by
            rw [RefThread.alone, hpend]; dsimp only; rw [hcode]; dsimp only
            rw [hcell ho h2 he, beq_iff_eq.2 ho]
          have hacc : refAccess E (heldBy owner refs i) (code i) (ts i) h = .ok ({ (A i).1 with replies := (A i).1.replies ++ [.seen (some v)] }, h) := by
            rw [refAccess, hsi, hpend]; dsimp only; rw [hcode]; dsimp only; rw [h1]; dsimp only; rw [bind_ok e0]; rw [hpend]; rfl
          exact ⟨_, h, bind_ok hacc, g, keep _ hal (fun j old new hx => by dsimp only at hx; rw [hpend] at hx; cases hx)⟩
      | replace j new =>
        rcases held_at (owner := owner) hrefs P.skel i j with ⟨h1, hno⟩ | ⟨p, a, h1, ho, h2, h3⟩
        · refine stay ?_ ?_
          · rw [RefThread.alone, hpend]; dsimp only; rw [hcode]; dsimp only
            by_cases ho : owner j = i
            · rw [hnone hno ho]; split
              next hx => cases hx
              next => rfl
            · have : (owner j == i) = false := by simpa using ho
              rw [this]
          · rw [refAccess, hsi, hpend]; dsimp only; rw [hcode]; dsimp only; rw [h1]; rfl
        · obtain ⟨k, v, he, hp⟩ := place_at (E := E) (cap := t.alloc.maxChildren) t.level g a p h3
          obtain ⟨k', e0⟩ := place_read Z P.tr.has hp
          have hal : RefThread.alone (fun j => owner j == i) (code i) (A i) = ({ (A i).1 with pending := some (j, v, new) }, (A i).2) := by
            rw [RefThread.alone, hpend]; dsimp only; rw [hcode]; dsimp only
            rw [hcell ho h2 he, beq_iff_eq.2 ho]
          have hacc : refAccess E (heldBy owner refs i) (code i) (ts i) h = .ok ({ (A i).1 with pending := some (j, v, new) }, h) := by
            rw [refAccess, hsi, hpend]; dsimp only; rw [hcode]; dsimp only; rw [h1]; dsimp only; rw [bind_ok e0]; rfl
          refine ⟨_, h, bind_ok hacc, g, keep _ hal (fun j' old new' hx => ?_)⟩
          cases hx
          exact ⟨ho, hcell ho h2 he⟩

/-- A whole schedule: thread `i` has made `n i` accesses before. -/
theorem schedule_sim (Z : Sizes E t.alloc.maxChildren) (hrefs : refs.map (fun r => some r.2) = addrs.map fun a => (places t.level t.root)[a]?) (hn : addrs.Nodup)
    (code : Nat → RefCode V) (cells : List V) : ∀ (schedule : List Nat) {ts : Nat → RefThread V} (n : Nat → Nat) {h : Heap (Cell B K V)},
    (∃ g, Apart E c t h₀ es₀ owner addrs ts (fun i => RefThread.runAlone (fun j => owner j == i) (code i) cells (n i)) h g) →
    ∃ ts' h', refRun E owner refs code schedule ts h = .ok (ts', h') ∧
      ∃ g, Apart E c t h₀ es₀ owner addrs ts' (fun i => RefThread.runAlone (fun j => owner j == i) (code i) cells (n i + schedule.count i)) h' g
  | [], ts, n, h, P => ⟨ts, h, rfl, by simpa using P⟩
  | i :: schedule, ts, n, h, P => by
    obtain ⟨ts₁, h₁, e1, P₁⟩ := access_sim Z hrefs hn code P i
    have hA : (fun j => if j = i then RefThread.alone (fun j => owner j == i) (code i) (RefThread.runAlone (fun j => owner j == i) (code i) cells (n i))
          else RefThread.runAlone (fun k => owner k == j) (code j) cells (n j)) =
        fun j => RefThread.runAlone (fun k => owner k == j) (code j) cells ((fun j => if j = i then n j + 1 else n j) j) := by
      funext j
      dsimp only
      split
      next h => subst h; rfl
      next => rfl
    rw [hA] at P₁
    obtain ⟨ts₂, h₂, e2, P₂⟩ := schedule_sim Z hrefs hn code cells schedule _ P₁
    refine ⟨ts₂, h₂, (bind_ok e1).trans e2, ?_⟩
    have hB : (fun j => RefThread.runAlone (fun k => owner k == j) (code j) cells ((fun j => if j = i then n j + 1 else n j) j + schedule.count j)) =
        fun j => RefThread.runAlone (fun k => owner k == j) (code j) cells (n j + (i :: schedule).count j) := by
      funext j
      dsimp only
      rw [List.count_cons]
      by_cases h : j = i
      · subst h; simp; congr 1; omega
      · have : (i == j) = false := by simpa using Ne.symm h
        simp [h, this]
    rw [hB] at P₂
    exact P₂

end

end RTree.Raw
