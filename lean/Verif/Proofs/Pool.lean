import Verif.Proofs.Threads
/-!
# All threads together
-/

namespace RTree.Raw

variable {α β : Type}

/-- The memory is made of the part `s` that is shared and of the parts `g j` of the threads, and thread `j`, left alone with `s` and `g j`,
    would end as `Post j` says. -/
structure PoolInv (s : Heap α) (Post : Nat → Res (β × Heap α) → Prop) (P : Pool α β) (g : Nat → Heap α) : Prop where
  shared : ∀ a, Alive s a → P.heap[a]? = s[a]?
  parts : ∀ j a, Alive (g j) a → P.heap[a]? = (g j)[a]?
  apart : ∀ i j a, i ≠ j → Alive (g i) a → ¬ Alive (g j) a
  view : ∀ j, View s (g j)
  len : ∀ j, (g j).length ≤ P.heap.length
  post : ∀ j p, P.threads[j]? = some p → ∀ γ, Post j (p.runOwn s γ (g j))
  all : ∀ a, Alive P.heap a → Alive s a ∨ ∃ j, j < P.threads.length ∧ Alive (g j) a

namespace PoolInv

variable {s : Heap α} {Post : Nat → Res (β × Heap α) → Prop} {P : Pool α β} {g : Nat → Heap α}

/-- What a thread is about to look at is there. -/
theorem uses (I : PoolInv s Post P g) (hub : ∀ j, ¬ Post j (.error .ub)) {j : Nat} {p : Prog α β} (hp : P.threads[j]? = some p) {a : Nat}
    (ha : p.uses = some a) : Alive s a ∨ Alive (g j) a := by
  refine Classical.byContradiction fun hn => ?_
  have h1 : ¬ Alive s a := fun h => hn (.inl h)
  have h2 : ¬ Alive (g j) a := fun h => hn (.inr h)
  have := I.post j p hp (fun _ => 0)
  cases p with
  | look i k => cases ha; rw [runOwn_look_ub h1 h2] at this; exact hub j this
  | put i x k => cases ha; rw [runOwn_put_ub h2] at this; exact hub j this
  | done b => cases ha
  | fail e => cases ha
  | make b k => cases ha

/-- What a thread is about to change is its own. -/
theorem changes (I : PoolInv s Post P g) (hub : ∀ j, ¬ Post j (.error .ub)) {j : Nat} {p : Prog α β} (hp : P.threads[j]? = some p) {a : Nat}
    (ha : p.changes = some a) : Alive (g j) a := by
  refine Classical.byContradiction fun h2 => ?_
  have := I.post j p hp (fun _ => 0)
  cases p with
  | put i x k => cases ha; rw [runOwn_put_ub h2] at this; exact hub j this
  | look i k => cases ha
  | done b => cases ha
  | fail e => cases ha
  | make b k => cases ha

theorem no_race (I : PoolInv s Post P g) (hub : ∀ j, ¬ Post j (.error .ub)) : ¬ P.Race := by
  rintro ⟨i, j, p, q, b, hij, hp, hq, h1, h2⟩
  have hi := I.changes hub hp h1
  rcases I.uses hub hq h2 with h | h
  · exact (I.view i).apart b h hi
  · exact I.apart i j b hij hi h

theorem threads_set {l : List (Prog α β)} {j k : Nat} {p q : Prog α β} (h : (l.set j q)[k]? = some p) : (k = j ∧ p = q) ∨ (k ≠ j ∧ l[k]? = some p) := by
  rw [List.getElem?_set] at h
  by_cases hk : j = k
  · rw [if_pos hk] at h
    split at h
    · cases h; exact .inl ⟨hk.symm, rfl⟩
    · cases h
  · rw [if_neg hk] at h
    exact .inr ⟨fun e => hk e.symm, h⟩

theorem step (I : PoolInv s Post P g) (hub : ∀ j, ¬ Post j (.error .ub)) (m : Nat × Nat) : ∃ g', PoolInv s Post (P.step m) g' := by
  obtain ⟨j, n⟩ := m
  rw [Pool.step]
  cases hp : P.threads[j]? with
  | none => exact ⟨g, I⟩
  | some p =>
    have hj : j < P.threads.length := (List.getElem?_eq_some_iff.1 hp).1
    -- threads that are not changed
    have same : ∀ q, (∀ γ, Post j (q.runOwn s γ (g j))) → PoolInv s Post ⟨P.heap, P.threads.set j q⟩ g := by
      intro q hq
      refine ⟨I.shared, I.parts, I.apart, I.view, I.len, ?_, ?_⟩
      · intro k p' hk γ
        rcases threads_set hk with ⟨rfl, rfl⟩ | ⟨_, hk⟩
        · exact hq γ
        · exact I.post k p' hk γ
      · intro a ha
        rcases I.all a ha with h | ⟨k, hk, h⟩
        · exact .inl h
        · exact .inr ⟨k, by simpa using hk, h⟩
    cases p with
    | done b => exact ⟨g, same _ (I.post j _ hp)⟩
    | fail e => exact ⟨g, same _ (I.post j _ hp)⟩
    | look i k =>
      rcases I.uses hub hp rfl with hs | ho
      · obtain ⟨b, hb⟩ := hs
        have hh := I.shared i ⟨b, hb⟩
        rw [hb] at hh
        simp only [Prog.step, hh]
        refine ⟨g, same _ fun γ => ?_⟩
        have := I.post j _ hp γ
        rwa [runOwn_look_shared hb] at this
      · have hs : ¬ Alive s i := fun h => (I.view j).apart i h ho
        obtain ⟨b, hb⟩ := ho
        have hh := I.parts j i ⟨b, hb⟩
        rw [hb] at hh
        simp only [Prog.step, hh]
        refine ⟨g, same _ fun γ => ?_⟩
        have := I.post j _ hp γ
        rwa [runOwn_look_own hs hb] at this
    | put i x k =>
      have ho := I.changes hub hp (a := i) rfl
      have hs : ¬ Alive s i := fun h => (I.view j).apart i h ho
      have hoth : ∀ k, k ≠ j → ¬ Alive (g k) i := fun k hk h => I.apart j k i (fun e => hk e.symm) ho h
      obtain ⟨b, hb⟩ := ho
      have hh := I.parts j i ⟨b, hb⟩
      rw [hb] at hh
      simp only [Prog.step, hh]
      let g' : Nat → Heap α := fun k => if k = j then (g j).set i x else g k
      have ej : g' j = (g j).set i x := by simp [g']
      have ek : ∀ k, k ≠ j → g' k = g k := fun k hk => by simp [g', hk]
      have al : ∀ k a, Alive (g' k) a → Alive (g k) a := by
        intro k a h
        by_cases hk : k = j
        · subst hk
          rw [ej] at h
          obtain ⟨c, hc⟩ := h
          by_cases hi : i = a
          · subst hi; exact ⟨b, hb⟩
          · rw [List.getElem?_set_ne hi] at hc; exact ⟨c, hc⟩
        · rwa [ek k hk] at h
      refine ⟨g', ⟨?_, ?_, ?_, ?_, ?_, ?_, ?_⟩⟩
      · intro a ha
        have : i ≠ a := fun e => hs (e ▸ ha)
        show (P.heap.set i x)[a]? = _
        rw [List.getElem?_set_ne this]
        exact I.shared a ha
      · intro k a ha
        show (P.heap.set i x)[a]? = _
        by_cases hk : k = j
        · subst hk
          rw [ej] at ha ⊢
          by_cases hi : i = a
          · subst hi
            rw [List.getElem?_set_self (List.getElem?_eq_some_iff.1 hh).1, List.getElem?_set_self (List.getElem?_eq_some_iff.1 hb).1]
          · obtain ⟨c, hc⟩ := ha
            rw [List.getElem?_set_ne hi] at hc
            rw [List.getElem?_set_ne hi, List.getElem?_set_ne hi]
            exact I.parts k a ⟨c, hc⟩
        · rw [ek k hk] at ha ⊢
          have : i ≠ a := fun e => hoth k hk (e ▸ ha)
          rw [List.getElem?_set_ne this]
          exact I.parts k a ha
      · exact fun k l a hkl h1 h2 => I.apart k l a hkl (al k a h1) (al l a h2)
      · intro k
        refine ⟨?_, fun a h1 h2 => (I.view k).apart a h1 (al k a h2)⟩
        by_cases hk : k = j
        · subst hk; rw [ej, List.length_set]; exact (I.view k).len
        · rw [ek k hk]; exact (I.view k).len
      · intro k
        show _ ≤ (P.heap.set i x).length
        rw [List.length_set]
        by_cases hk : k = j
        · subst hk; rw [ej, List.length_set]; exact I.len k
        · rw [ek k hk]; exact I.len k
      · intro l p' hl γ
        rcases threads_set hl with ⟨rfl, rfl⟩ | ⟨hne, hl⟩
        · rw [ej]
          have := I.post l _ hp γ
          rwa [runOwn_put ⟨b, hb⟩] at this
        · rw [ek l hne]; exact I.post l p' hl γ
      · intro a ha
        obtain ⟨c, hc⟩ := ha
        have hc : (P.heap.set i x)[a]? = some (some c) := hc
        by_cases hi : i = a
        · subst hi
          refine .inr ⟨j, by simpa using hj, c, ?_⟩
          rw [ej, List.getElem?_set_self (List.getElem?_eq_some_iff.1 hb).1]
          rwa [List.getElem?_set_self (List.getElem?_eq_some_iff.1 hh).1] at hc
        · rw [List.getElem?_set_ne hi] at hc
          rcases I.all a ⟨c, hc⟩ with h | ⟨k', hk', h⟩
          · exact .inl h
          · refine .inr ⟨k', by simpa using hk', ?_⟩
            by_cases hk : k' = j
            · subst hk
              obtain ⟨d, hd⟩ := h
              exact ⟨d, by rw [ej, List.getElem?_set_ne hi, hd]⟩
            · rwa [ek k' hk]
    | make b k =>
      simp only [Prog.step]
      have hle := I.len j
      -- the allocator's choice, as thread `j` sees it
      let d := P.heap.length + n - (g j).length
      let g' : Nat → Heap α := fun k => if k = j then g j ++ List.replicate d none ++ [some b] else g k
      have ej : g' j = g j ++ List.replicate d none ++ [some b] := by simp [g']
      have ek : ∀ k, k ≠ j → g' k = g k := fun k hk => by simp [g', hk]
      have ed : (g j).length + d = P.heap.length + n := by omega
      have gnew : ∀ a, (g' j)[a]? = some (some b) ↔ (a = P.heap.length + n ∨ (g j)[a]? = some (some b)) := by
        intro a
        rw [ej, List.append_assoc]
        by_cases h1 : a < (g j).length
        · rw [List.getElem?_append_left h1]
          constructor
          · exact .inr
          · rintro (h | h)
            · omega
            · exact h
        · rw [List.getElem?_append_right (by omega)]
          by_cases h2 : a - (g j).length < d
          · rw [List.getElem?_append_left (by simpa using h2), List.getElem?_replicate, if_pos h2, List.getElem?_eq_none (by omega : (g j).length ≤ a)]
            constructor
            · intro h; cases h
            · rintro (h | h)
              · omega
              · cases h
          · rw [List.getElem?_append_right (by simpa using h2), List.length_replicate]
            by_cases h3 : a = P.heap.length + n
            · have : a - (g j).length - d = 0 := by omega
              rw [this]
              simp [h3]
            · have : 1 ≤ a - (g j).length - d := by omega
              rw [List.getElem?_eq_none (by simpa using this), List.getElem?_eq_none (by omega : (g j).length ≤ a)]
              simp [h3]
      -- blocks of `g' j`
      have gj : ∀ a, a ≠ P.heap.length + n → Alive (g' j) a → Alive (g j) a := by
        intro a hne ⟨c, hc⟩
        rw [ej, List.append_assoc] at hc
        by_cases h1 : a < (g j).length
        · rw [List.getElem?_append_left h1] at hc; exact ⟨c, hc⟩
        · rw [List.getElem?_append_right (by omega)] at hc
          by_cases h2 : a - (g j).length < d
          · rw [List.getElem?_append_left (by simpa using h2), List.getElem?_replicate, if_pos h2] at hc; cases hc
          · rw [List.getElem?_append_right (by simpa using h2), List.length_replicate] at hc
            have : 1 ≤ a - (g j).length - d := by omega
            rw [List.getElem?_eq_none (by simpa using this)] at hc
            cases hc
      have gold : ∀ a, a < (g j).length → (g' j)[a]? = (g j)[a]? := by
        intro a h1
        rw [ej, List.append_assoc, List.getElem?_append_left h1]
      have hnew : (P.heap ++ List.replicate n none ++ [some b])[P.heap.length + n]? = some (some b) := by
        rw [List.getElem?_append_right (by simp)]
        simp
      have hold : ∀ a, a < P.heap.length → (P.heap ++ List.replicate n none ++ [some b])[a]? = P.heap[a]? := by
        intro a ha
        rw [List.append_assoc, List.getElem?_append_left ha]
      refine ⟨g', ⟨?_, ?_, ?_, ?_, ?_, ?_, ?_⟩⟩
      · intro a ha
        have := ha.lt
        have := (I.view j).len
        show (P.heap ++ List.replicate n none ++ [some b])[a]? = _
        rw [hold a (by omega)]
        exact I.shared a ha
      · intro k a ha
        show (P.heap ++ List.replicate n none ++ [some b])[a]? = _
        by_cases hk : k = j
        · subst hk
          by_cases hne : a = P.heap.length + n
          · rw [hne, hnew, (gnew _).2 (.inl rfl)]
          · have h1 := gj a hne ha
            have := h1.lt
            rw [hold a (by omega), gold a h1.lt]
            exact I.parts k a h1
        · rw [ek k hk] at ha ⊢
          have := ha.lt
          have := I.len k
          rw [hold a (by omega)]
          exact I.parts k a ha
      · intro k l a hkl h1 h2
        by_cases hne : a = P.heap.length + n
        · by_cases hk : k = j
          · subst hk
            rw [ek l (fun e => hkl e.symm)] at h2
            have := h2.lt
            have := I.len l
            omega
          · rw [ek k hk] at h1
            have := h1.lt
            have := I.len k
            omega
        · have e1 : Alive (g k) a := by
            by_cases hk : k = j
            · subst hk; exact gj a hne h1
            · rwa [ek k hk] at h1
          have e2 : Alive (g l) a := by
            by_cases hk : l = j
            · subst hk; exact gj a hne h2
            · rwa [ek l hk] at h2
          exact I.apart k l a hkl e1 e2
      · intro k
        by_cases hk : k = j
        · subst hk
          have := (I.view k).len
          refine ⟨by rw [ej]; simp; omega, fun a h1 h2 => ?_⟩
          have := h1.lt
          exact (I.view k).apart a h1 (gj a (by omega) h2)
        · rw [ek k hk]; exact I.view k
      · intro k
        show _ ≤ (P.heap ++ List.replicate n none ++ [some b]).length
        have := I.len k
        by_cases hk : k = j
        · subst hk; rw [ej]; simp; omega
        · rw [ek k hk]; simp; omega
      · intro l p' hl γ
        rcases threads_set hl with ⟨rfl, rfl⟩ | ⟨hne, hl⟩
        · let γ' : Nat → Nat := fun m => if m = (g l).length then d else γ m
          have e0 : γ' (g l).length = d := by simp [γ']
          have := I.post l _ hp γ'
          simp only [Prog.runOwn] at this
          rw [e0, ed, ← ej] at this
          rwa [runOwn_congr (γ := γ') (γ' := γ)] at this
          intro m hm
          rw [ej] at hm
          simp at hm
          have : m ≠ (g l).length := by omega
          simp [γ', this]
        · rw [ek l hne]; exact I.post l p' hl γ
      · intro a ha
        by_cases hne : a = P.heap.length + n
        · exact .inr ⟨j, by simpa using hj, b, by rw [gnew]; exact .inl hne⟩
        · obtain ⟨c, hc⟩ := ha
          have hc : (P.heap ++ List.replicate n none ++ [some b])[a]? = some (some c) := hc
          have h1 : a < P.heap.length := by
            refine Classical.byContradiction fun hn => ?_
            rw [List.append_assoc, List.getElem?_append_right (by omega)] at hc
            by_cases h2 : a - P.heap.length < n
            · rw [List.getElem?_append_left (by simpa using h2), List.getElem?_replicate, if_pos h2] at hc; cases hc
            · rw [List.getElem?_append_right (by simpa using h2), List.length_replicate] at hc
              have : 1 ≤ a - P.heap.length - n := by omega
              rw [List.getElem?_eq_none (by simpa using this)] at hc
              cases hc
          rw [hold a h1] at hc
          rcases I.all a ⟨c, hc⟩ with h | ⟨k', hk', h⟩
          · exact .inl h
          · refine .inr ⟨k', by simpa using hk', ?_⟩
            by_cases hk : k' = j
            · subst hk
              obtain ⟨e, he⟩ := h
              exact ⟨e, by rw [gold a (List.getElem?_eq_some_iff.1 he).1, he]⟩
            · rwa [ek k' hk]

theorem run (I : PoolInv s Post P g) (hub : ∀ j, ¬ Post j (.error .ub)) (schedule : List (Nat × Nat)) : ∃ g', PoolInv s Post (P.run schedule) g' := by
  induction schedule generalizing P g with
  | nil => exact ⟨g, I⟩
  | cons m ms ih =>
    obtain ⟨g', I'⟩ := I.step hub m
    exact ih I'

end PoolInv

theorem Pool.step_length (P : Pool α β) (m : Nat × Nat) : (P.step m).threads.length = P.threads.length := by
  rw [Pool.step]
  split
  · simp
  · rfl

theorem Pool.run_length (P : Pool α β) (ms : List (Nat × Nat)) : (P.run ms).threads.length = P.threads.length := by
  induction ms generalizing P with
  | nil => rfl
  | cons m ms ih => exact (ih (P.step m)).trans (P.step_length m)

/-! ### Fair schedules -/

theorem Pool.step_other {P : Pool α β} {m : Nat × Nat} {j : Nat} (h : m.1 ≠ j) : (P.step m).threads[j]? = P.threads[j]? := by
  rw [Pool.step]
  split
  · exact List.getElem?_set_ne h
  · rfl

theorem Pool.step_this {P : Pool α β} {j n : Nat} {p : Prog α β} (h : P.threads[j]? = some p) :
    (P.step (j, n)).threads[j]? = some (p.step n P.heap).1 := by
  simp only [Pool.step, h]
  exact List.getElem?_set_self (List.getElem?_eq_some_iff.1 h).1

/-- Where an infinite schedule has got to after `n` accesses. -/
theorem Pool.run_range_succ (P : Pool α β) (sched : Nat → Nat × Nat) (n : Nat) :
    P.run ((List.range (n + 1)).map sched) = (P.run ((List.range n).map sched)).step (sched n) := by
  rw [List.range_succ, List.map_append, Pool.run, List.foldl_append]; rfl

theorem Pool.finishes (P : Pool α β) (sched : Nat → Nat × Nat) {j : Nat} (fair : ∀ n, ∃ m, n ≤ m ∧ (sched m).1 = j) : ∀ (p : Prog α β) (n : Nat),
    (P.run ((List.range n).map sched)).threads[j]? = some p → ∃ m q, (P.run ((List.range m).map sched)).threads[j]? = some q ∧ q.finished = true := by
  -- the next access of thread `j`
  have next : ∀ (p : Prog α β) (n : Nat), (P.run ((List.range n).map sched)).threads[j]? = some p →
      ∃ m c, (P.run ((List.range m).map sched)).threads[j]? = some p ∧ sched m = (j, c) := by
    intro p n hp
    obtain ⟨m, hm, hs⟩ := fair n
    obtain ⟨d, rfl⟩ : ∃ d, m = n + d := ⟨m - n, by omega⟩
    clear hm
    induction d generalizing n with
    | zero => exact ⟨n, (sched n).2, hp, by rw [← hs]; rfl⟩
    | succ d ih =>
      by_cases h : (sched n).1 = j
      · exact ⟨n, (sched n).2, hp, by rw [← h]⟩
      · have e := (Pool.step_other (P := P.run ((List.range n).map sched)) h).trans hp
        rw [← Pool.run_range_succ] at e
        exact ih (n + 1) e (by rw [← hs]; congr 2; omega)
  intro p
  induction p with
  | done b => intro n h; exact ⟨n, _, h, rfl⟩
  | fail e => intro n h; exact ⟨n, _, h, rfl⟩
  | look i k ih =>
    intro n h
    obtain ⟨m, c, hm, hs⟩ := next _ n h
    have e := Pool.step_this (n := c) hm
    rw [← hs, ← Pool.run_range_succ] at e
    by_cases ha : Alive (P.run ((List.range m).map sched)).heap i
    · obtain ⟨b, hb⟩ := ha
      simp only [Prog.step, hb] at e
      exact ih b _ e
    · rcases not_alive ha with h1 | h1 <;> simp only [Prog.step, h1] at e <;> exact ⟨_, _, e, rfl⟩
  | put i x k ih =>
    intro n h
    obtain ⟨m, c, hm, hs⟩ := next _ n h
    have e := Pool.step_this (n := c) hm
    rw [← hs, ← Pool.run_range_succ] at e
    by_cases ha : Alive (P.run ((List.range m).map sched)).heap i
    · obtain ⟨b, hb⟩ := ha
      simp only [Prog.step, hb] at e
      exact ih _ e
    · rcases not_alive ha with h1 | h1 <;> simp only [Prog.step, h1] at e <;> exact ⟨_, _, e, rfl⟩
  | make b k ih =>
    intro n h
    obtain ⟨m, c, hm, hs⟩ := next _ n h
    have e := Pool.step_this (n := c) hm
    rw [← hs, ← Pool.run_range_succ] at e
    exact ih _ _ e

end RTree.Raw
