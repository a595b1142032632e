import Verif.Proofs.ThreadView
import Verif.Proofs.Forest
import Verif.Proofs.RawQuery
import Verif.Proofs.RawSorted
import Verif.Proofs.RawJoin
import Verif.Proofs.RawLeftTreeRun
import Verif.Proofs.StepsLeft
import Verif.Props.Join
import Verif.Proofs.Updates
/-!
# Threads follow their programs on values
-/

namespace RTree.Raw

variable {B K V Q : Type} {E : TEnv}

set_option linter.unusedSectionVars false

/-! ### The choices of the allocator do not matter for what is owned -/

section

variable {γ : Nat → Nat}

theorem owns_placed {α : Type} {E : Env} {cap : Nat} {h : Heap α} {v : FCVec} {l : List α} : Owns (E.placed γ) cap h v l ↔ Owns E cap h v l :=
  ⟨fun ⟨a, b, c, d, e, s, ⟨f1, f2⟩, g⟩ => ⟨a, b, c, d, e, s, ⟨f1, f2⟩, g⟩, fun ⟨a, b, c, d, e, s, ⟨f1, f2⟩, g⟩ => ⟨a, b, c, d, e, s, ⟨f1, f2⟩, g⟩⟩

theorem vecC_placed {α : Type} {E : Env} {cap : Nat} {v : FCVec} {l : List α} : vecC (E.placed γ) cap v l = vecC E cap v l := by
  have : (fun h : Heap α => Owns (E.placed γ) cap h v l) = fun h => Owns E cap h v l := funext fun h => propext owns_placed
  simp only [vecC, this]

theorem chunksI_placed (E : TEnv) (cap : Nat) : ∀ (l : Nat) (x : Item B K V l), chunksI (E.placed γ) cap l x = chunksI E cap l x
  | 0, _ => rfl
  | l + 1, g => by
    have : chunksI (B := B) (K := K) (V := V) (E.placed γ) cap l = chunksI E cap l := funext (chunksI_placed E cap l)
    rw [chunksI, chunksI, this, Steps.placed_slotEnv, vecC_placed]

theorem own_placed (E : TEnv) (gs : Forest B K V) : Forest.own (E.placed γ) gs = Forest.own E gs := by
  have : GTree.own (B := B) (K := K) (V := V) (E.placed γ) = GTree.own E := by
    funext t
    exact chunksI_placed E t.alloc.maxChildren (t.level + 1) t.root
  rw [Forest.own, Forest.own, this]

theorem town_placed (E : TEnv) (t : GTree B K V) : t.own (E.placed γ) = t.own E := chunksI_placed E t.alloc.maxChildren (t.level + 1) t.root

theorem Sizes.placed {cap : Nat} (S : Sizes E cap) : Sizes (E.placed γ) cap := ⟨S.node, S.entry, S.nodeMax, S.entryMax, S.cap⟩

theorem Good.placed [Bounds B] [Volume B] [Bounded K B] [BEq K] {gs : Forest B K V} (h : Good E gs) : Good (E.placed γ) gs :=
  fun t ht => ⟨(h t ht).1.placed, (h t ht).2⟩

theorem Good.unplaced [Bounds B] [Volume B] [Bounded K B] [BEq K] {gs : Forest B K V} (h : Good (E.placed γ) gs) : Good E gs :=
  fun t ht => ⟨⟨(h t ht).1.node, (h t ht).1.entry, (h t ht).1.nodeMax, (h t ht).1.entryMax, (h t ht).1.cap⟩, (h t ht).2⟩

end

open Forest

variable [Bounds B] [Volume B] [Bounded K B] [BEq K] [Bounded Q B] [BEq Q]

theorem Steps.run_withTree {γ : Nat → Nat} {R : Type} (f : List (Option (RTree B))) (i : Nat) (d : R)
    {x : RTree B → Prog (Cell B K V) (List (Option (RTree B)) × R)} {y : RTree B → TM B K V (List (Option (RTree B)) × R)}
    (h : ∀ t, (x t).run γ = y t) : (withTree f i d x).run γ = withTree f i d y := by
  rw [withTree, withTree]
  split
  · exact h _
  · rfl

theorem Steps.run_cmd {γ : Nat → Nat} (borrow : K → Q) (f : List (Option (RTree B))) (c : Cmd K V Q) :
    (Steps.cmd E borrow f c).run γ = Cmd.raw (E.placed γ) borrow f c := by
  cases c with
  | new c => exact run_seq (RTree.run_new E c) fun _ => rfl
  | insert i k v => exact run_withTree f i _ fun t => run_seq (RTree.run_insert E t k v) fun _ => rfl
  | insertUnique i k v => exact run_withTree f i _ fun t => run_seq (RTree.run_insertUnique E t k v) fun _ => rfl
  | remove i q => exact run_withTree f i _ fun t => run_seq (RTree.run_remove E borrow t q) fun _ => rfl
  | get i q => exact run_withTree f i _ fun t => run_seq (RTree.run_get E borrow t q) fun _ => rfl
  | replace i q v => exact run_withTree f i _ fun t => run_seq (RTree.run_setValue E borrow t q v) fun _ => rfl
  | len i => exact run_withTree f i _ fun t => run_seq (RTree.run_len E t) fun _ => rfl
  | isEmpty i => exact run_withTree f i _ fun t => rfl
  | clone i => exact run_withTree f i _ fun t => run_seq (RTree.run_clone E t) fun _ => rfl
  | drop i => exact run_withTree f i _ fun t => run_seq (RTree.run_drop E t) fun _ => rfl

theorem Steps.Holding.run_use {γ : Nat → Nat} (s : Holding K V) (u : RefUse V) :
    (Steps.Holding.use E s u : Prog (Cell B K V) _).run γ = Raw.Holding.use (E.placed γ) s u := by
  cases u with
  | read j =>
    rw [Steps.Holding.use, Raw.Holding.use]
    cases s.refs[j]? with
    | none => rfl
    | some r => exact run_seq (run_readEntry E r.2) fun _ => rfl
  | replace j v =>
    rw [Steps.Holding.use, Raw.Holding.use]
    cases s.refs[j]? with
    | none => rfl
    | some r => exact run_seq (run_replaceValue E r.2 v) fun _ => rfl

theorem Steps.Holding.run_uses {γ : Nat → Nat} : ∀ (us : List (RefUse V)) (s : Holding K V),
    (Steps.Holding.uses E us s : Prog (Cell B K V) _).run γ = us.foldlM (Raw.Holding.use (E.placed γ)) s
  | [], _ => rfl
  | u :: us, s => run_seq (Steps.Holding.run_use s u) fun s => Steps.Holding.run_uses us s

theorem Steps.Holding.run_yield {γ : Nat → Nat} (client : Client V) (s : Holding K V) (r : K × Place) :
    (Steps.Holding.yield E client s r : Prog (Cell B K V) _).run γ = Raw.Holding.yield (E.placed γ) client s r :=
  Steps.Holding.run_uses _ _

theorem Steps.run_act {γ : Nat → Nat} (borrow : K → Q) (f : List (Option (RTree B))) (a : Act B K V Q) :
    (Steps.act E borrow f a).run γ = Act.raw (E.placed γ) borrow f a := by
  cases a with
  | cmd c => exact run_seq (Steps.run_cmd borrow f c) fun _ => rfl
  | update i flt client => exact run_withTree f i _ fun t => run_seq (RTree.run_filterIterMut E borrow flt (Steps.Holding.run_yield client) t _) fun _ => rfl
  | updateAsc i q k client => exact run_withTree f i _ fun t => run_seq (RTree.run_filterFirstAscByMut E _ q.ranking (Steps.Holding.run_yield client) k t _) fun _ => rfl

/-! ### One thread -/

/-- The part of the memory that belongs to the trees `gs`, and nothing else. -/
structure Mine (E : TEnv) (g : Heap (Cell B K V)) (gs : Forest B K V) : Prop where
  has : Has g (own E gs)
  only : ∀ a, Alive g a → a ∈ fps (own E gs)

omit [Bounds B] [Volume B] [Bounded K B] [BEq K] in
theorem Mine.step {g g' : Heap (Cell B K V)} {gs gs' : Forest B K V} (m : Mine E g gs) (t : Tr g (own E gs) g' (own E gs')) : Mine E g' gs' := by
  refine ⟨t.has, fun a ha => Classical.byContradiction fun hn => ?_⟩
  obtain ⟨b, hb⟩ := ha
  have hl := (List.getElem?_eq_some_iff.1 hb).1
  by_cases ho : a ∈ fps (own E gs) ∨ g.length ≤ a
  · rw [t.step.dead a hl hn ho] at hb; cases hb
  · have h1 : a ∉ fps (own E gs) := fun h => ho (.inl h)
    have h2 : a < g.length := Nat.lt_of_not_le fun h => ho (.inr h)
    rw [t.step.frame a h2 h1] at hb
    exact h1 (m.only a ⟨b, hb⟩)

/-- What is known after one command of a thread. -/
structure CmdRel (E : TEnv) (gs : Forest B K V) (r : List (Option (Tree B K V)) × Answer K V × List K × List V)
    (s : List (Option (RTree B)) × ThreadEvent K V) (g' : Heap (Cell B K V)) (gs' : Forest B K V) : Prop where
  abs : r.1 = absF gs'
  raw : s.1 = rawF gs'
  answer : s.2.answer = r.2.1
  good : Good E gs'
  mine : Mine E g' gs'
  keys : (r.2.2.1 ++ (es gs).map (·.1)).Perm (s.2.keys ++ (es gs').map (·.1))
  values : (r.2.2.2 ++ (es gs).map (·.2)).Perm (s.2.answer.returned ++ s.2.values ++ (es gs').map (·.2))

/-- A thread step does what it does on values. -/
def CmdPost (E : TEnv) (gs : Forest B K V) (x : Res (List (Option (Tree B K V)) × Answer K V × List K × List V))
    (y : Res ((List (Option (RTree B)) × ThreadEvent K V) × Heap (Cell B K V))) : Prop :=
  match x with
  | .ok r => ∃ s g' gs', y = .ok (s, g') ∧ CmdRel E gs r s g' gs'
  | .error e => y = .error e ∧ UserPanic e

omit [Bounded Q B] [BEq Q] in
theorem Good.reach {gs : Forest B K V} (hg : Good E gs) : ∀ t, some t ∈ absF gs → ∃ c, Reachable c (fun _ => True) t := by
  intro t ht
  simp only [absF, List.mem_map, Option.map_eq_some_iff] at ht
  obtain ⟨_, ho, t', rfl, rfl⟩ := ht
  exact (hg t' ho).2

omit [Bounds B] [Volume B] [Bounded K B] [BEq K] in
theorem absF_none {sh : Forest B K V} {i : Nat} (hi : ¬ ∃ t, sh[i]? = some (some t)) (t : Tree B K V) : (absF sh)[i]? ≠ some (some t) := by
  intro ht
  simp only [absF, List.getElem?_map, Option.map_eq_some_iff] at ht
  obtain ⟨o, ho, t', rfl, _⟩ := ht
  exact hi ⟨t', ho⟩

omit [Bounds B] [Volume B] [Bounded K B] [BEq K] in
theorem rawF_none {sh : Forest B K V} {i : Nat} (hi : ¬ ∃ t, sh[i]? = some (some t)) (t : RTree B) : (rawF sh)[i]? ≠ some (some t) := by
  intro ht
  simp only [rawF, List.getElem?_map, Option.map_eq_some_iff] at ht
  obtain ⟨o, ho, t', rfl, _⟩ := ht
  exact hi ⟨t', ho⟩

theorem mine_sim (borrow : K → Q) {s g : Heap (Cell B K V)} {sh : List (Option (Tree B K V))} {shr : List (Option (RTree B))} {gs : Forest B K V} (hg : Good E gs)
    (m : Mine E g gs) (v : View s g) (c : Cmd K V Q) (hS : ∀ c', c = .new c' → Sizes E c'.maxChildren) (γ : Nat → Nat) :
    CmdPost E gs ((ThreadCmd.mine c).spec borrow sh (absF gs)) ((Steps.threadCmd E borrow shr (rawF gs) (.mine c)).runOwn s γ g) := by
  have key := cmd_sim (E := E.placed γ) borrow hg.placed (by rw [own_placed]; exact m.has) c (fun c' h => (hS c' h).placed)
  rw [← Steps.run_cmd] at key
  simp only [ThreadCmd.spec, Steps.threadCmd]
  rw [runOwn_bind]
  cases hx : c.spec borrow (absF gs) with
  | error e =>
    have hu := spec_err borrow hg.reach c hx
    rw [hx] at key
    have e1 : (Steps.cmd E borrow (rawF gs) c).run γ g = .error e := by rcases hu with rfl | rfl | rfl | rfl <;> exact key
    have hne : (Steps.cmd E borrow (rawF gs) c).run γ g ≠ .error .ub := by
      rw [e1]; rcases hu with rfl | rfl | rfl | rfl <;> exact fun h => by cases h
    exact ⟨bind_err ((runOwn_run _ v hne).trans e1), hu⟩
  | ok r =>
    rw [hx] at key
    obtain ⟨b, g', e1, gs', st⟩ := key
    refine ⟨(b.1, ⟨.reply b.2.reply, b.2.keys, b.2.values⟩), g', gs', bind_ok ((runOwn_run _ v (by rw [e1]; intro h; cases h)).trans e1), st.abs, st.raw,
      congrArg Answer.reply st.reply, st.good.unplaced, ?_, st.keys, st.values⟩
    have tr := st.tr
    rw [own_placed, own_placed] at tr
    exact m.step tr

/-- Mutable iteration over one of the thread's own trees. -/
theorem act_own (borrow : K → Q) {s g : Heap (Cell B K V)} {gs : Forest B K V} (hg : Good E gs) (m : Mine E g gs) (v : View s g) (a : Act B K V Q)
    (ha : ∀ γ, actFits (E.placed γ) a) (γ : Nat → Nat) :
    CmdPost E gs ((fun r => (r.1, Answer.used r.2.1, r.2.2.1, r.2.2.2)) <$> a.spec borrow (absF gs))
      ((do let r ← Steps.act E borrow (rawF gs) a; pure (r.1, (⟨.used r.2.1, r.2.2.1, r.2.2.2⟩ : ThreadEvent K V))).runOwn s γ g) := by
  have key := act_sim (E := E.placed γ) borrow hg.placed (h := g) (by rw [own_placed]; exact m.has) a (ha γ)
  rw [← Steps.run_act] at key
  rw [runOwn_bind]
  cases hx : a.spec borrow (absF gs) with
  | error e =>
    rw [hx] at key
    have hne : (Steps.act E borrow (rawF gs) a).run γ g ≠ .error .ub := by
      rw [key.1]; rcases key.2 with rfl | rfl | rfl | rfl <;> exact fun h => by cases h
    exact ⟨bind_err ((runOwn_run _ v hne).trans key.1), key.2⟩
  | ok r =>
    rw [hx] at key
    obtain ⟨b, g', gs', e1, st⟩ := key
    have tr := st.tr
    rw [own_placed, own_placed] at tr
    refine ⟨(b.1, ⟨.used b.2.1, b.2.2.1, b.2.2.2⟩), g', gs', bind_ok ((runOwn_run _ v (by rw [e1]; intro h; cases h)).trans e1), st.abs, st.raw,
      congrArg Answer.used st.replies, st.good.unplaced, m.step tr, st.keys, st.values⟩

/-- `&self` on one of the thread's own trees. -/
theorem look_sim (borrow : K → Q) {s g : Heap (Cell B K V)} {sh : List (Option (Tree B K V))} {shr : List (Option (RTree B))} {gs : Forest B K V} (hg : Good E gs)
    (m : Mine E g gs) (v : View s g) (i : Nat) (c : SharedCmd B Q) (γ : Nat → Nat) :
    CmdPost E gs ((ThreadCmd.look i c).spec borrow sh (absF gs)) ((Steps.threadCmd E borrow shr (rawF gs) (.look i c)).runOwn s γ g) := by
  by_cases hi : ∃ t, gs[i]? = some (some t)
  · obtain ⟨t, hi⟩ := hi
    have h1 : (absF gs)[i]? = some (some t.abs) := by simp [absF, hi]
    have h2 : (rawF gs)[i]? = some (some t.rawT) := by simp [rawF, hi]
    obtain ⟨S, cf, hr⟩ := hg t (List.mem_of_getElem? hi)
    have H : Has g (t.own E) := (m.has.perm (own_get hi)).left
    have H' : Has g (t.own (E.placed γ)) := by rw [town_placed]; exact H
    simp only [ThreadCmd.spec, Steps.threadCmd, h1, h2]
    cases c with
    | get q =>
      obtain ⟨⟨r, e1⟩, _⟩ := (C20_no_ub hr).2.2.2.1 Q borrow q
      have key := get_sim t (S.placed (γ := γ)) borrow q H'
      rw [← Steps.RTree.run_get] at key
      obtain ⟨_, _, e2, rfl, rfl⟩ := key.of_ok e1
      have e3 := (runOwn_run _ v (by rw [e2]; intro h; cases h)).trans e2
      simp only [SharedCmd.spec, e1, ok_bind, pure_eq_ok, Steps.sharedCmd]
      rw [runOwn_bind, bind_ok e3]
      exact ⟨_, g, gs, rfl, rfl, rfl, rfl, hg, m, .refl _, .refl _⟩
    | len =>
      obtain ⟨r, e1⟩ := (C20_no_ub hr).2.2.2.2.2.2.2.1
      have key := len_sim t (S.placed (γ := γ)) H'
      rw [← Steps.RTree.run_len] at key
      obtain ⟨_, _, e2, rfl, rfl⟩ := key.of_ok e1
      have e3 := (runOwn_run _ v (by rw [e2]; intro h; cases h)).trans e2
      simp only [SharedCmd.spec, e1, ok_bind, pure_eq_ok, Steps.sharedCmd]
      rw [runOwn_bind, bind_ok e3]
      exact ⟨_, g, gs, rfl, rfl, rfl, rfl, hg, m, .refl _, .refl _⟩
    | isEmpty =>
      simp only [SharedCmd.spec, isEmpty_eq t H, ok_bind, pure_eq_ok, Steps.sharedCmd]
      exact ⟨_, g, gs, rfl, rfl, rfl, rfl, hg, m, .refl _, .refl _⟩
    | clone =>
      obtain ⟨r, e1⟩ := (C20_no_ub hr).2.2.2.2.2.2.2.2.2
      have key := clone_sim t (S.placed (γ := γ)) H'
      rw [← Steps.RTree.run_clone] at key
      obtain ⟨_, h', e2, t', rfl, rfl, ha, tr, he⟩ := key.of_ok e1
      rw [town_placed, town_placed] at tr
      have e3 := (runOwn_run _ v (by rw [e2]; intro h; cases h)).trans e2
      simp only [SharedCmd.spec, e1, ok_bind, pure_eq_ok, Steps.sharedCmd]
      rw [runOwn_bind, bind_ok e3]
      refine ⟨_, h', gs ++ [some t'], rfl, absF_append gs t', rawF_append gs t', rfl, hg.append (by rw [ha]; exact S) (.clone hr e1), m.step ?_, ?_, ?_⟩
      · rw [own_append]
        refine ((Tr.refl m.has).app (own_get hi) tr).perm_right ?_
        rw [List.append_assoc]
        exact ((own_get hi).symm.append_left _).trans List.perm_append_comm
      · rw [es_append, he, List.map_append, t.entries_abs]; exact List.perm_append_comm
      · rw [es_append, he, List.map_append, t.entries_abs]; exact List.perm_append_comm
    | iter =>
      obtain ⟨es, e1, e2⟩ := iter_ok t (S.placed (γ := γ)) H' hr.shape
      rw [← Steps.RTree.run_iter] at e2
      have e3 := (runOwn_run _ v (by rw [e2]; intro h; cases h)).trans e2
      simp only [SharedCmd.spec, e1, ok_bind, pure_eq_ok, Steps.sharedCmd]
      rw [runOwn_bind, bind_ok e3]
      exact ⟨_, g, gs, rfl, rfl, rfl, rfl, hg, m, .refl _, .refl _⟩
    | filterIter f =>
      obtain ⟨es, e1, e2⟩ := filterIter_ok t (S.placed (γ := γ)) borrow f H' hr.shape
      rw [← Steps.RTree.run_filterIter] at e2
      have e3 := (runOwn_run _ v (by rw [e2]; intro h; cases h)).trans e2
      simp only [SharedCmd.spec, e1, ok_bind, pure_eq_ok, Steps.sharedCmd]
      rw [runOwn_bind, bind_ok e3]
      exact ⟨_, g, gs, rfl, rfl, rfl, rfl, hg, m, .refl _, .refl _⟩
  · have h1 := absF_none hi
    have h2 := rawF_none hi
    have e1 : (ThreadCmd.look (V := V) i c).spec borrow sh (absF gs) = .ok (absF gs, .reply .none, [], []) := by
      cases hx : (absF gs)[i]? with
      | none => simp only [ThreadCmd.spec, hx]; rfl
      | some o => cases o with
        | none => simp only [ThreadCmd.spec, hx]; rfl
        | some t => exact absurd hx (h1 t)
    have e2 : Steps.threadCmd E borrow shr (rawF gs) (.look (K := K) (V := V) i c) = pure (rawF gs, ⟨.reply .none, [], []⟩) := by
      cases hx : (rawF gs)[i]? with
      | none => simp only [Steps.threadCmd, hx]
      | some o => cases o with
        | none => simp only [Steps.threadCmd, hx]
        | some t => exact absurd hx (h2 t)
    rw [e1, e2]
    exact ⟨_, g, gs, rfl, rfl, rfl, rfl, hg, m, .refl _, .refl _⟩

omit [Bounds B] [Volume B] [Bounded K B] [BEq K] in
/-- A program that changes only what it makes, on a shared tree. -/
theorem shared_step {s g : Heap (Cell B K V)} {sh gs new : Forest B K V} {i : Nat} {t : GTree B K V} (Hs : Has s (own E sh)) (hi : sh[i]? = some (some t))
    (m : Mine E g gs) (v : View s g) {γ : Nat → Nat} {β : Type} {p : Prog (Cell B K V) β} {R : β → Prop} (hp : p.Fresh s.length R) {b : β} {h' : Heap (Cell B K V)}
    (hr : p.run γ (merge s g) = .ok (b, h')) (tr : Tr (merge s g) (t.own E) h' (own E new ++ t.own E)) :
    ∃ g', p.runOwn s γ g = .ok (b, g') ∧ Mine E g' (gs ++ new) := by
  rw [run_merge p hp v.len] at hr
  cases hx : p.runOwn s γ g with
  | error e => rw [hx] at hr; cases hr
  | ok r =>
    obtain ⟨b', g'⟩ := r
    rw [hx] at hr
    cases hr
    refine ⟨g', rfl, ?_⟩
    have v' : View s g' := v.after hx
    obtain ⟨hlen, hmono⟩ := runOwn_mono p hx
    -- the blocks of the shared tree are alive in `s`
    have hold : ∀ a ∈ fps (t.own E), Alive s a := fun a ha =>
      own_live Hs a ((fps_perm (own_get hi)).mem_iff.2 (by rw [fps_append]; exact List.mem_append_left _ ha))
    have hmy : ∀ a ∈ fps (own E gs), Alive g a := own_live m.has
    have hnewge : ∀ a ∈ fps (own E new), g.length ≤ a := by
      intro a ha
      rcases tr.step.fresh a (by rw [fps_append]; exact List.mem_append_left _ ha) with h | h
      · exfalso
        have hnd := tr.has.nodup
        rw [fps_append, List.nodup_append] at hnd
        exact hnd.2.2 a ha a h rfl
      · simpa using h
    have hnots : ∀ a ∈ fps (own E new), ¬ Alive s a := fun a ha hs => by
      have := hnewge a ha; have := hs.lt; have := v.len; omega
    have hkeep : ∀ a ∈ fps (own E gs), g'[a]? = g[a]? := by
      intro a ha
      have h1 : ¬ Alive s a := fun hs => v.apart a hs (hmy a ha)
      have h2 := tr.step.frame a (by rw [merge_length]; exact (hmy a ha).lt) (fun h => h1 (hold a h))
      rwa [merge_own h1, merge_own h1] at h2
    have e : own E (gs ++ new) = own E gs ++ own E new := by simp [own]
    refine ⟨⟨?_, ?_⟩, ?_⟩
    · intro c hc
      rw [e] at hc
      rcases List.mem_append.1 hc with hc | hc
      · exact c.loc (m.has.holds c hc) fun a ha => hkeep a (mem_fps.2 ⟨c, hc, ha⟩)
      · refine c.loc (tr.has.holds c (List.mem_append_left _ hc)) fun a ha => ?_
        rw [merge_own (hnots a (mem_fps.2 ⟨c, hc, ha⟩))]
    · rw [e, fps_append, List.nodup_append]
      refine ⟨m.has.nodup, tr.has.left.nodup, ?_⟩
      rintro a ha _ hb rfl
      have := hnewge a hb
      have := (hmy a ha).lt
      omega
    · intro a ha
      rw [e, fps_append, List.mem_append]
      refine Classical.byContradiction fun hn => ?_
      have hs : ¬ Alive s a := fun hs => v'.apart a hs ha
      obtain ⟨c, hc⟩ := ha
      rw [← merge_own hs] at hc
      have hl := (List.getElem?_eq_some_iff.1 hc).1
      have hn' : a ∉ fps (own E new ++ t.own E) := by
        rw [fps_append, List.mem_append]
        rintro (h | h)
        · exact hn (.inr h)
        · exact hs (hold a h)
      by_cases ho : a ∈ fps (t.own E) ∨ (merge s g).length ≤ a
      · rw [tr.step.dead a hl hn' ho] at hc; cases hc
      · have h1 : a ∉ fps (t.own E) := fun h => ho (.inl h)
        have h2 : a < (merge s g).length := Nat.lt_of_not_le fun h => ho (.inr h)
        rw [tr.step.frame a h2 h1, merge_own hs] at hc
        exact hn (.inl (m.only a ⟨c, hc⟩))

omit [Bounds B] [Volume B] [Bounded K B] [BEq K] in
theorem has_merge {s g : Heap (Cell B K V)} {sh : Forest B K V} {i : Nat} {t : GTree B K V} (Hs : Has s (own E sh)) (hi : sh[i]? = some (some t))
    (v : View s g) : Has (merge s g) (t.own E) := by
  have H := (Hs.perm (own_get hi)).left
  refine ⟨fun c hc => c.loc (H.holds c hc) fun a ha => merge_shared v.len ?_, H.nodup⟩
  exact own_live Hs a ((fps_perm (own_get hi)).mem_iff.2 (by rw [fps_append]; exact List.mem_append_left _ (mem_fps.2 ⟨c, hc, ha⟩)))

theorem shared_sim (borrow : K → Q) {s g : Heap (Cell B K V)} {sh gs : Forest B K V} (hsh : Good E sh) (Hs : Has s (own E sh))
    (hg : Good E gs) (m : Mine E g gs) (v : View s g) (i : Nat) (c : SharedCmd B Q) (γ : Nat → Nat) :
    CmdPost E gs ((ThreadCmd.shared i c).spec borrow (absF sh) (absF gs))
      ((Steps.threadCmd E borrow (rawF sh) (rawF gs) (.shared i c)).runOwn s γ g) := by
  by_cases hi : ∃ t, sh[i]? = some (some t)
  · obtain ⟨t, hi⟩ := hi
    have h1 : (absF sh)[i]? = some (some t.abs) := by simp [absF, hi]
    have h2 : (rawF sh)[i]? = some (some t.rawT) := by simp [rawF, hi]
    obtain ⟨S, cf, hr⟩ := hsh t (List.mem_of_getElem? hi)
    have H := has_merge Hs hi v
    have H' : Has (merge s g) (t.own (E.placed γ)) := by rw [town_placed]; exact H
    have same : Tr (merge s g) (t.own E) (merge s g) (own E ([] : Forest B K V) ++ t.own E) := Tr.refl H
    simp only [ThreadCmd.spec, Steps.threadCmd, h1, h2]
    cases c with
    | get q =>
      obtain ⟨⟨r, e1⟩, _⟩ := (C20_no_ub hr).2.2.2.1 Q borrow q
      have key := get_sim t (S.placed (γ := γ)) borrow q H'
      rw [← Steps.RTree.run_get] at key
      obtain ⟨_, _, e2, rfl, rfl⟩ := key.of_ok e1
      obtain ⟨g', e3, m'⟩ := shared_step Hs hi m v (Steps.fresh_tget E borrow _ q) e2 same
      simp only [SharedCmd.spec, e1, ok_bind, pure_eq_ok, Steps.sharedCmd]
      rw [runOwn_bind, bind_ok e3]
      rw [List.append_nil] at m'
      exact ⟨_, g', gs, rfl, rfl, rfl, rfl, hg, m', .refl _, .refl _⟩
    | len =>
      obtain ⟨r, e1⟩ := (C20_no_ub hr).2.2.2.2.2.2.2.1
      have key := len_sim t (S.placed (γ := γ)) H'
      rw [← Steps.RTree.run_len] at key
      obtain ⟨_, _, e2, rfl, rfl⟩ := key.of_ok e1
      obtain ⟨g', e3, m'⟩ := shared_step Hs hi m v (Steps.fresh_tlen E _) e2 same
      simp only [SharedCmd.spec, e1, ok_bind, pure_eq_ok, Steps.sharedCmd]
      rw [runOwn_bind, bind_ok e3]
      rw [List.append_nil] at m'
      exact ⟨_, g', gs, rfl, rfl, rfl, rfl, hg, m', .refl _, .refl _⟩
    | isEmpty =>
      simp only [SharedCmd.spec, isEmpty_eq t H, ok_bind, pure_eq_ok, Steps.sharedCmd]
      exact ⟨_, g, gs, rfl, rfl, rfl, rfl, hg, m, .refl _, .refl _⟩
    | clone =>
      obtain ⟨r, e1⟩ := (C20_no_ub hr).2.2.2.2.2.2.2.2.2
      have key := clone_sim t (S.placed (γ := γ)) H'
      rw [← Steps.RTree.run_clone] at key
      obtain ⟨_, h', e2, t', rfl, rfl, ha, tr, he⟩ := key.of_ok e1
      rw [town_placed, town_placed] at tr
      have eo : own E ([some t'] : Forest B K V) = t'.own E := by simp [own]
      obtain ⟨g', e3, m'⟩ := shared_step (new := [some t']) Hs hi m v (Steps.fresh_tclone E _) e2 (by rw [eo]; exact tr)
      simp only [SharedCmd.spec, e1, ok_bind, pure_eq_ok, Steps.sharedCmd]
      rw [runOwn_bind, bind_ok e3]
      refine ⟨_, g', gs ++ [some t'], rfl, absF_append gs t', rawF_append gs t', rfl, hg.append (by rw [ha]; exact S) (.clone hr e1), m', ?_, ?_⟩
      · rw [es_append, he, List.map_append, t.entries_abs]; exact List.perm_append_comm
      · rw [es_append, he, List.map_append, t.entries_abs]; exact List.perm_append_comm
    | iter =>
      obtain ⟨es, e1, e2⟩ := iter_ok t (S.placed (γ := γ)) H' hr.shape
      rw [← Steps.RTree.run_iter] at e2
      obtain ⟨g', e3, m'⟩ := shared_step Hs hi m v (Steps.fresh_titer E _) e2 same
      simp only [SharedCmd.spec, e1, ok_bind, pure_eq_ok, Steps.sharedCmd]
      rw [runOwn_bind, bind_ok e3]
      rw [List.append_nil] at m'
      exact ⟨_, g', gs, rfl, rfl, rfl, rfl, hg, m', .refl _, .refl _⟩
    | filterIter f =>
      obtain ⟨es, e1, e2⟩ := filterIter_ok t (S.placed (γ := γ)) borrow f H' hr.shape
      rw [← Steps.RTree.run_filterIter] at e2
      obtain ⟨g', e3, m'⟩ := shared_step Hs hi m v (Steps.fresh_tfilterIter E borrow f _) e2 same
      simp only [SharedCmd.spec, e1, ok_bind, pure_eq_ok, Steps.sharedCmd]
      rw [runOwn_bind, bind_ok e3]
      rw [List.append_nil] at m'
      exact ⟨_, g', gs, rfl, rfl, rfl, rfl, hg, m', .refl _, .refl _⟩
  · have h1 := absF_none hi
    have h2 := rawF_none hi
    have e1 : (ThreadCmd.shared (V := V) i c).spec borrow (absF sh) (absF gs) = .ok (absF gs, .reply .none, [], []) := by
      cases hx : (absF sh)[i]? with
      | none => simp only [ThreadCmd.spec, hx]; rfl
      | some o => cases o with
        | none => simp only [ThreadCmd.spec, hx]; rfl
        | some t => exact absurd hx (h1 t)
    have e2 : Steps.threadCmd E borrow (rawF sh) (rawF gs) (.shared (K := K) (V := V) i c) = pure (rawF gs, ⟨.reply .none, [], []⟩) := by
      cases hx : (rawF sh)[i]? with
      | none => simp only [Steps.threadCmd, hx]
      | some o => cases o with
        | none => simp only [Steps.threadCmd, hx]
        | some t => exact absurd hx (h2 t)
    rw [e1, e2]
    exact ⟨_, g, gs, rfl, rfl, rfl, rfl, hg, m, .refl _, .refl _⟩

omit [Bounds B] [Volume B] [Bounded K B] [BEq K] in
theorem has_merge_own {s g : Heap (Cell B K V)} {gs : Forest B K V} {i : Nat} {t : GTree B K V} (m : Mine E g gs) (hi : gs[i]? = some (some t))
    (v : View s g) : Has (merge s g) (t.own E) := by
  have H := (m.has.perm (own_get hi)).left
  refine ⟨fun c hc => c.loc (H.holds c hc) fun a ha => merge_own fun hs => v.apart a hs ?_, H.nodup⟩
  exact own_live m.has a ((fps_perm (own_get hi)).mem_iff.2 (by rw [fps_append]; exact List.mem_append_left _ (mem_fps.2 ⟨c, hc, ha⟩)))

omit [Bounds B] [Volume B] [Bounded K B] [BEq K] in
/-- A program that changes nothing. -/
theorem read_step {s g : Heap (Cell B K V)} {gs : Forest B K V} (m : Mine E g gs) (v : View s g) {γ : Nat → Nat} {β : Type} {p : Prog (Cell B K V) β}
    {R : β → Prop} (hp : p.Fresh s.length R) {b : β} (hr : p.run γ (merge s g) = .ok (b, merge s g)) :
    ∃ g', p.runOwn s γ g = .ok (b, g') ∧ Mine E g' gs := by
  rw [run_merge p hp v.len] at hr
  cases hx : p.runOwn s γ g with
  | error e => rw [hx] at hr; cases hr
  | ok r =>
    obtain ⟨b', g'⟩ := r
    rw [hx] at hr
    have hb : b' = b := congrArg (fun x : Res (β × Heap (Cell B K V)) => match x with | .ok r => r.1 | .error _ => b) hr
    have hm : merge s g' = merge s g := congrArg (fun x : Res (β × Heap (Cell B K V)) => match x with | .ok r => r.2 | .error _ => merge s g) hr
    subst hb
    refine ⟨g', rfl, ?_⟩
    have v' : View s g' := v.after hx
    have hsame : ∀ a, ¬ Alive s a → g'[a]? = g[a]? := fun a ha => by rw [← merge_own ha, hm, merge_own ha]
    refine ⟨⟨fun c hc => c.loc (m.has.holds c hc) fun a ha => hsame a fun hs => v.apart a hs ?_, m.has.nodup⟩, fun a ha => m.only a ?_⟩
    · exact own_live m.has a (mem_fps.2 ⟨c, hc, ha⟩)
    · have hs : ¬ Alive s a := fun hs => v'.apart a hs ha
      obtain ⟨b, hb⟩ := ha
      exact ⟨b, by rw [← hsame a hs]; exact hb⟩

omit [Bounds B] [Volume B] [Bounded K B] [BEq K] in
theorem read_fail {s g : Heap (Cell B K V)} (v : View s g) {γ : Nat → Nat} {β : Type} {p : Prog (Cell B K V) β}
    {R : β → Prop} (hp : p.Fresh s.length R) {e : Panic} (hr : p.run γ (merge s g) = .error e) : p.runOwn s γ g = .error e := by
  rw [run_merge p hp v.len] at hr
  cases hx : p.runOwn s γ g with
  | error e' => rw [hx] at hr; cases hr; rfl
  | ok r => rw [hx] at hr; cases hr

/-- A tree a thread can refer to: on values, in memory. -/
theorem treeRef_sim {s g : Heap (Cell B K V)} {sh gs : Forest B K V} (hsh : Good E sh) (Hs : Has s (own E sh))
    (hg : Good E gs) (m : Mine E g gs) (v : View s g) (a : TreeRef) :
    (∃ t : GTree B K V, a.find (absF sh) (absF gs) = some t.abs ∧ a.find (rawF sh) (rawF gs) = some t.rawT ∧ Has (merge s g) (t.own E) ∧
      Sizes E t.alloc.maxChildren ∧ ∃ c, Reachable c (fun _ => True) t.abs) ∨
    (a.find (absF sh) (absF gs) = none ∧ a.find (rawF sh) (rawF gs) = none) := by
  cases a with
  | own i =>
    simp only [TreeRef.find, absF, rawF, List.getElem?_map]
    cases hi : gs[i]? with
    | none => exact .inr ⟨rfl, rfl⟩
    | some o => cases o with
      | none => exact .inr ⟨rfl, rfl⟩
      | some t => exact .inl ⟨t, rfl, rfl, has_merge_own m hi v, (hg t (List.mem_of_getElem? hi)).1, (hg t (List.mem_of_getElem? hi)).2⟩
  | shared i =>
    simp only [TreeRef.find, absF, rawF, List.getElem?_map]
    cases hi : sh[i]? with
    | none => exact .inr ⟨rfl, rfl⟩
    | some o => cases o with
      | none => exact .inr ⟨rfl, rfl⟩
      | some t => exact .inl ⟨t, rfl, rfl, has_merge Hs hi v, (hsh t (List.mem_of_getElem? hi)).1, (hsh t (List.mem_of_getElem? hi)).2⟩

theorem sorted_sim (borrow : K → Q) {s g : Heap (Cell B K V)} {sh gs : Forest B K V} (hsh : Good E sh) (Hs : Has s (own E sh))
    (hg : Good E gs) (m : Mine E g gs) (v : View s g) (a : TreeRef) (q : SortedQuery B K) (k : Nat) (γ : Nat → Nat) :
    CmdPost E gs ((ThreadCmd.sorted a q k).spec borrow (absF sh) (absF gs))
      ((Steps.threadCmd E borrow (rawF sh) (rawF gs) (.sorted a q k)).runOwn s γ g) := by
  simp only [ThreadCmd.spec, Steps.threadCmd]
  rcases treeRef_sim hsh Hs hg m v a with ⟨t, h1, h2, H, S, _⟩ | ⟨h1, h2⟩
  · rw [h1, h2]
    have key := filterFirstAscBy_sim (E := E.placed γ) t S.placed q.heap (r := q.ranking) ⟨q.calmBounds, q.calmKey⟩ k (h := merge s g)
      (by rw [town_placed]; exact H)
    rw [← Steps.RTree.run_filterFirstAscBy] at key
    dsimp only
    rw [runOwn_bind]
    cases hx : t.abs.filterFirstAscBy (q.heap.heap _) q.ranking k with
    | error e =>
      rw [hx] at key
      exact ⟨bind_err (read_fail v (Steps.fresh_tfilterFirstAscBy E _ _ _ _) key.1), key.2⟩
    | ok es =>
      rw [hx] at key
      obtain ⟨g', e3, m'⟩ := read_step m v (Steps.fresh_tfilterFirstAscBy E _ _ _ _) key
      exact ⟨_, g', gs, bind_ok e3, rfl, rfl, rfl, hg, m', .refl _, .refl _⟩
  · rw [h1, h2]
    exact ⟨_, g, gs, rfl, rfl, rfl, rfl, hg, m, .refl _, .refl _⟩

theorem join_sim (borrow : K → Q) {s g : Heap (Cell B K V)} {sh gs : Forest B K V} (hsh : Good E sh) (Hs : Has s (own E sh))
    (hg : Good E gs) (m : Mine E g gs) (v : View s g) (a b : TreeRef) (f : JoinFilter B B Q Q) (γ : Nat → Nat) :
    CmdPost E gs ((ThreadCmd.join a b f).spec borrow (absF sh) (absF gs))
      ((Steps.threadCmd E borrow (rawF sh) (rawF gs) (.join a b f)).runOwn s γ g) := by
  simp only [ThreadCmd.spec, Steps.threadCmd]
  rcases treeRef_sim hsh Hs hg m v a with ⟨t, h1, h2, H, S, _, hr⟩ | ⟨h1, h2⟩
  · rcases treeRef_sim hsh Hs hg m v b with ⟨t', h1', h2', H', S', _, hr'⟩ | ⟨h1', h2'⟩
    · rw [h1, h2, h1', h2']
      obtain ⟨es, e1, e2⟩ := join_ok (E := E.placed γ) t t' S.placed S'.placed borrow f (h := merge s g)
        (by rw [town_placed]; exact H) (by rw [town_placed]; exact H') hr.shape hr'.shape
      rw [← Steps.RTree.run_join] at e2
      obtain ⟨g', e3, m'⟩ := read_step m v (Steps.fresh_tjoin E borrow f _ _) e2
      dsimp only
      rw [runOwn_bind, e1]
      exact ⟨_, g', gs, bind_ok e3, rfl, rfl, rfl, hg, m', .refl _, .refl _⟩
    · rw [h1, h2, h1', h2']
      exact ⟨_, g, gs, rfl, rfl, rfl, rfl, hg, m, .refl _, .refl _⟩
  · rw [h1, h2]
    exact ⟨_, g, gs, rfl, rfl, rfl, rfl, hg, m, .refl _, .refl _⟩

theorem leftJoin_sim (borrow : K → Q) {s g : Heap (Cell B K V)} {sh gs : Forest B K V} (hsh : Good E sh) (Hs : Has s (own E sh))
    (hg : Good E gs) (m : Mine E g gs) (v : View s g) (a b : TreeRef) (f : JoinFilter B B Q Q) (γ : Nat → Nat) :
    CmdPost E gs ((ThreadCmd.leftJoin a b f).spec borrow (absF sh) (absF gs))
      ((Steps.threadCmd E borrow (rawF sh) (rawF gs) (.leftJoin a b f)).runOwn s γ g) := by
  simp only [ThreadCmd.spec, Steps.threadCmd]
  rcases treeRef_sim hsh Hs hg m v a with ⟨t, h1, h2, H, S, _, hr⟩ | ⟨h1, h2⟩
  · rcases treeRef_sim hsh Hs hg m v b with ⟨t', h1', h2', H', S', _, hr'⟩ | ⟨h1', h2'⟩
    · rw [h1, h2, h1', h2']
      obtain ⟨out, e1, _⟩ := C17_left_join_sound hr hr' borrow borrow f hr.iter_eq hr'.iter_eq
      have e2 := leftJoin_ok (E := E.placed γ) t t' S.placed S'.placed borrow f (h := merge s g)
        (by rw [town_placed]; exact H) (by rw [town_placed]; exact H') e1
      rw [← Steps.RTree.run_leftJoin] at e2
      obtain ⟨g', e3, m'⟩ := read_step m v (Steps.fresh_tleftJoin E borrow f _ _) e2
      dsimp only
      rw [runOwn_bind, e1]
      exact ⟨_, g', gs, bind_ok e3, rfl, rfl, rfl, hg, m', .refl _, .refl _⟩
    · rw [h1, h2, h1', h2']
      exact ⟨_, g, gs, rfl, rfl, rfl, rfl, hg, m, .refl _, .refl _⟩
  · rw [h1, h2]
    exact ⟨_, g, gs, rfl, rfl, rfl, rfl, hg, m, .refl _, .refl _⟩

/-- What is known after a thread. -/
structure ThreadRel (E : TEnv) (gs : Forest B K V) (f : List (Option (Tree B K V))) (outs : List (Answer K V × List K × List V))
    (s : List (Option (RTree B)) × List (ThreadEvent K V)) (g' : Heap (Cell B K V)) (gs' : Forest B K V) : Prop where
  abs : f = absF gs'
  raw : s.1 = rawF gs'
  answer : s.2.map ThreadEvent.answer = outs.map (·.1)
  good : Good E gs'
  mine : Mine E g' gs'
  keys : (outs.flatMap (·.2.1) ++ (es gs).map (·.1)).Perm (s.2.flatMap ThreadEvent.keys ++ (es gs').map (·.1))
  values : (outs.flatMap (·.2.2) ++ (es gs).map (·.2)).Perm
    ((s.2.flatMap fun e => e.answer.returned ++ e.values) ++ (es gs').map (·.2))

/-- A thread does what it does on values. -/
def ThreadPost (E : TEnv) (gs : Forest B K V) (x : Res (List (Option (Tree B K V)) × List (Answer K V × List K × List V)))
    (y : Res ((List (Option (RTree B)) × List (ThreadEvent K V)) × Heap (Cell B K V))) : Prop :=
  match x with
  | .ok r => ∃ s g' gs', y = .ok (s, g') ∧ ThreadRel E gs r.1 r.2 s g' gs'
  | .error e => y = .error e ∧ UserPanic e

theorem thread_sim (borrow : K → Q) {s : Heap (Cell B K V)} {sh : Forest B K V} (hsh : Good E sh) (Hs : Has s (own E sh)) (γ : Nat → Nat) :
    ∀ (cs : List (ThreadCmd B K V Q)) {gs : Forest B K V} {g : Heap (Cell B K V)}, Good E gs → Mine E g gs → View s g →
    (∀ c, ThreadCmd.mine (.new c) ∈ cs → Sizes E c.maxChildren) →
    ThreadPost E gs (specThread borrow (absF sh) (absF gs) cs) ((Steps.thread E borrow (rawF sh) (rawF gs) cs).runOwn s γ g)
  | [], gs, g, hg, m, v, _ => ⟨_, g, gs, rfl, rfl, rfl, rfl, hg, m, .refl _, .refl _⟩
  | c :: cs, gs, g, hg, m, v, hS => by
    have h1 : CmdPost E gs (c.spec borrow (absF sh) (absF gs)) ((Steps.threadCmd E borrow (rawF sh) (rawF gs) c).runOwn s γ g) := by
      cases c with
      | mine c => exact mine_sim borrow hg m v c (fun c' hc => hS c' (by rw [hc]; exact List.mem_cons_self)) γ
      | look i c => exact look_sim borrow hg m v i c γ
      | shared i c => exact shared_sim borrow hsh Hs hg m v i c γ
      | sorted a q k => exact sorted_sim borrow hsh Hs hg m v a q k γ
      | join a b f => exact join_sim borrow hsh Hs hg m v a b f γ
      | leftJoin a b f => exact leftJoin_sim borrow hsh Hs hg m v a b f γ
      | update i f client => exact act_own borrow hg m v (.update i f client) (fun _ => trivial) γ
      | updateAsc i q k client => exact act_own borrow hg m v (.updateAsc i q k client) (fun _ => trivial) γ
    rw [specThread, Steps.thread, runOwn_bind]
    cases hx : c.spec borrow (absF sh) (absF gs) with
    | error e =>
      rw [hx] at h1
      exact ⟨bind_err h1.1, h1.2⟩
    | ok r =>
      rw [hx] at h1
      obtain ⟨st, g₁, gs₁, e1, rel⟩ := h1
      obtain ⟨f₁, o⟩ := r
      obtain ⟨rf₁, ev⟩ := st
      obtain rfl : f₁ = absF gs₁ := rel.abs
      obtain rfl : rf₁ = rawF gs₁ := rel.raw
      have ih := thread_sim borrow hsh Hs γ cs rel.good rel.mine (v.after e1) (fun c hc => hS c (List.mem_cons_of_mem _ hc))
      rw [ok_bind, bind_ok e1]
      simp only
      rw [runOwn_bind]
      cases hy : specThread borrow (absF sh) (absF gs₁) cs with
      | error e =>
        rw [hy] at ih
        exact ⟨bind_err ih.1, ih.2⟩
      | ok r =>
        obtain ⟨f, outs⟩ := r
        rw [hy] at ih
        obtain ⟨⟨rf, evs⟩, g₂, gs₂, e2, pr⟩ := ih
        refine ⟨(rf, ev :: evs), g₂, gs₂, by rw [bind_ok e2]; rfl, pr.abs, pr.raw, ?_, pr.good, pr.mine, ?_, ?_⟩
        · have := pr.answer
          simp only at this ⊢
          rw [List.map_cons, List.map_cons, rel.answer, this]
        · have hk1 := rel.keys
          have hk2 := pr.keys
          simp only [List.flatMap_cons] at hk1 hk2 ⊢
          exact program_sim.chain hk1 hk2
        · have hk1 := rel.values
          have hk2 := pr.values
          simp only [List.flatMap_cons] at hk1 hk2 ⊢
          exact program_sim.chain hk1 hk2

end RTree.Raw
