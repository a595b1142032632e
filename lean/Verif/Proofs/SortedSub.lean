import Verif.Proofs.RawSorted
/-!
# Sorted iteration yields every entry at most once, whatever the ranking

Nothing is assumed of the ranking: every entry waits in at most one place, in an item of the queue.
-/

namespace RTree

variable {B K V S : Type} [LE S]

/-- The entries below an item of the queue. -/
def SortedItem.waiting : SortedItem B K V → List (K × V)
  | .node n => n.entries
  | .entry e => [e]

/-- The entries below the items of the queue. -/
def waiting (hp : IterHeap B K V S) (q : hp.H) : List (K × V) := (hp.items q).flatMap fun x => x.2.waiting

variable {hp : IterHeap B K V S} {r : Ranking B K (Option S)}

theorem waiting_push (x : Score S × SortedItem B K V) (q : hp.H) : (waiting hp (hp.push x q)).Perm (x.2.waiting ++ waiting hp q) := by
  have := (hp.items_push x q).flatMap_right fun x => x.2.waiting
  exact this

theorem pushEntries_sub : ∀ (es : List (K × V)) (q q' : hp.H), FilterSortedIter.pushEntries hp r es q = .ok q' → ∃ lost, (es ++ waiting hp q).Perm (lost ++ waiting hp q')
  | [], q, q', h => by cases h; exact ⟨[], .refl _⟩
  | e :: es, q, q', h => by
    rw [Raw.pushEntries_cons] at h
    obtain ⟨o, h1, h2⟩ := bind_eq_ok.1 h
    obtain ⟨lost, h3⟩ := pushEntries_sub es _ q' h2
    cases o with
    | none => exact ⟨e :: lost, h3.cons e⟩
    | some m =>
      refine ⟨lost, ?_⟩
      have h4 := waiting_push (hp := hp) (⟨m, 0⟩, .entry e) q
      refine .trans ?_ h3
      show ([e] ++ es ++ waiting hp q).Perm _
      have h5 : (waiting hp (hp.push (⟨m, 0⟩, .entry e) q)).Perm ([e] ++ waiting hp q) := h4
      perms [h5]

theorem pushNodes_sub (l : Nat) : ∀ (cs : List (Node B K V)) (q q' : hp.H), FilterSortedIter.pushNodes hp r l cs q = .ok q' →
    ∃ lost, (entriesList cs ++ waiting hp q).Perm (lost ++ waiting hp q')
  | [], q, q', h => by cases h; exact ⟨[], .refl _⟩
  | c :: cs, q, q', h => by
    rw [Raw.pushNodes_cons] at h
    obtain ⟨o, h1, h2⟩ := bind_eq_ok.1 h
    obtain ⟨lost, h3⟩ := pushNodes_sub l cs _ q' h2
    rw [entriesList]
    cases o with
    | none => exact ⟨c.entries ++ lost, by perms [h3]⟩
    | some m =>
      refine ⟨lost, ?_⟩
      have h5 : (waiting hp (hp.push (⟨m, l⟩, .node c) q)).Perm (c.entries ++ waiting hp q) := waiting_push (hp := hp) (⟨m, l⟩, .node c) q
      refine .trans ?_ h3
      perms [h5]

theorem nextLoop_sub : ∀ (fuel : Nat) (q : hp.H) (o : Option (K × V)) (q' : hp.H), FilterSortedIter.nextLoop hp r fuel q = .ok (o, q') →
    ∃ lost, (waiting hp q).Perm (o.toList ++ lost ++ waiting hp q')
  | 0, _, _, _, h => by cases h
  | fuel + 1, q, o, q', h => by
    rw [FilterSortedIter.nextLoop] at h
    cases hpop : hp.pop q with
    | none => rw [hpop] at h; cases h; exact ⟨[], .refl _⟩
    | some x =>
      obtain ⟨⟨score, item⟩, q₁⟩ := x
      have hw : (waiting hp q).Perm (item.waiting ++ waiting hp q₁) :=
        (hp.pop_some hpop).1.flatMap_right fun x : Score S × SortedItem B K V => x.2.waiting
      rw [hpop] at h
      obtain ⟨m, level⟩ := score
      match level with
      | 0 =>
        obtain ⟨e, h1, h2⟩ := bind_eq_ok.1 h
        cases item with
        | node n => cases h1
        | entry e' => cases h1; cases h2; exact ⟨[], hw⟩
      | 1 =>
        obtain ⟨n, h1, h2⟩ := bind_eq_ok.1 h
        obtain ⟨es, h3, h5⟩ := bind_eq_ok.1 h2
        obtain ⟨q₂, h4, h6⟩ := bind_eq_ok.1 h5
        cases item with
        | entry e => cases h1
        | node n' =>
          cases h1
          cases n with
          | inner b cs => cases h3
          | leaf b es' =>
            cases h3
            obtain ⟨l1, e1⟩ := pushEntries_sub _ _ _ h4
            obtain ⟨l2, e2⟩ := nextLoop_sub fuel _ _ _ h6
            have hw' : (waiting hp q).Perm (es ++ waiting hp q₁) := hw
            exact ⟨l1 ++ l2, by perms [hw', e1, e2]⟩
      | l + 2 =>
        obtain ⟨n, h1, h2⟩ := bind_eq_ok.1 h
        obtain ⟨cs, h3, h5⟩ := bind_eq_ok.1 h2
        obtain ⟨q₂, h4, h6⟩ := bind_eq_ok.1 h5
        cases item with
        | entry e => cases h1
        | node n' =>
          cases h1
          cases n with
          | leaf b cs => cases h3
          | inner b cs' =>
            cases h3
            obtain ⟨l1, e1⟩ := pushNodes_sub _ _ _ _ h4
            obtain ⟨l2, e2⟩ := nextLoop_sub fuel _ _ _ h6
            have hw' : (waiting hp q).Perm (entriesList cs ++ waiting hp q₁) := hw
            exact ⟨l1 ++ l2, by perms [hw', e1, e2]⟩

theorem takeLoop_sub (fuel : Nat) : ∀ (k : Nat) (q : hp.H) (es : List (K × V)), FilterSortedIter.takeLoop hp r fuel k q = .ok es → ∃ lost, (waiting hp q).Perm (es ++ lost)
  | 0, q, es, h => by cases h; exact ⟨_, .refl _⟩
  | k + 1, q, es, h => by
    rw [FilterSortedIter.takeLoop] at h
    obtain ⟨⟨o, q₁⟩, h1, h2⟩ := bind_eq_ok.1 h
    obtain ⟨l1, e1⟩ := nextLoop_sub fuel _ _ _ h1
    cases o with
    | none => cases h2; exact ⟨_, .refl _⟩
    | some e =>
      obtain ⟨es', h3, h4⟩ := bind_eq_ok.1 h2
      cases h4
      obtain ⟨l2, e2⟩ := takeLoop_sub fuel k q₁ es' h3
      refine ⟨l1 ++ l2, ?_⟩
      have e1' : (waiting hp q).Perm ([e] ++ l1 ++ waiting hp q₁) := e1
      show (waiting hp q).Perm ([e] ++ es' ++ (l1 ++ l2))
      perms [e1', e2]

/-- The entries yielded are among those of the tree. -/
theorem Tree.filterFirstAscBy_sub {t : Tree B K V} {k : Nat} {es : List (K × V)} (h : t.filterFirstAscBy hp r k = .ok es) : ∃ others, t.entries.Perm (es ++ others) := by
  obtain ⟨q, h1, h2⟩ := bind_eq_ok.1 h
  obtain ⟨lost, e1⟩ := takeLoop_sub _ _ _ _ h2
  obtain ⟨o, h3, h4⟩ := bind_eq_ok.1 h1
  cases o with
  | none =>
    cases h4
    rw [waiting, hp.items_empty] at e1
    have : es ++ lost = [] := e1.symm.eq_nil
    exact ⟨t.entries, by rw [(List.append_eq_nil_iff.1 this).1]; exact .refl _⟩
  | some m =>
    cases h4
    have h5 := waiting_push (hp := hp) (⟨m, t.level + 1⟩, .node t.root) hp.empty
    rw [waiting, waiting, hp.items_empty] at h5
    simp only [List.flatMap_nil, List.append_nil] at h5
    exact ⟨lost, h5.symm.trans e1⟩

end RTree
