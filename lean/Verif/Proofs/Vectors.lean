import Verif.Model.Vectors
import Verif.Proofs.Distance
/-!
# Vectors
-/

namespace RTree.SVec

variable {N U σ : Type} {D : Nat}

/-- A loop whose steps have no effect on the state. -/
theorem build_pure {f : Nat → Option U} : ∀ {n : Nat} {g : Fin n → U}, build (σ := Unit) (fun _ i => (f i).map fun x => (x, ())) n () = some (g, ()) ↔ ∀ i : Fin n, f i = some (g i)
  | 0, g => by
    rw [build]
    refine ⟨fun _ i => i.elim0, fun _ => ?_⟩
    congr 2
    exact funext fun i => i.elim0
  | n + 1, g => by
    rw [build]
    constructor
    · intro h
      obtain ⟨⟨g', _⟩, h1, h⟩ := Option.bind_eq_some_iff.1 h
      obtain ⟨⟨u, _⟩, h2, h⟩ := Option.bind_eq_some_iff.1 h
      obtain ⟨x, hx, hu⟩ := Option.map_eq_some_iff.1 h2
      injection h with h
      have hg := congrArg Prod.fst h
      simp only at hg
      subst hg
      injection hu with hu _
      subst hu
      intro i
      by_cases hi : i.1 < n
      · simp only [dif_pos hi]; exact build_pure.1 h1 ⟨i.1, hi⟩
      · simp only [dif_neg hi]
        have : i.1 = n := by omega
        rw [this, hx]
    · intro h
      have h1 := (build_pure (f := f) (g := fun i : Fin n => g ⟨i.1, by omega⟩)).2 fun i => h ⟨i.1, by omega⟩
      rw [h1]
      have h2 := h ⟨n, by omega⟩
      simp only at h2
      simp only [Option.bind_eq_bind, Option.bind_some, h2, Option.map_some]
      congr 2
      funext i
      split
      · rfl
      · congr 1; exact Fin.ext (by simp; omega)

theorem build_congr {f f' : σ → Nat → Option (U × σ)} : ∀ {n : Nat} (s : σ), (∀ i, i < n → ∀ s, f s i = f' s i) → build f n s = build f' n s
  | 0, _, _ => rfl
  | n + 1, s, h => by
    rw [build, build, build_congr s fun i hi => h i (by omega)]
    refine congrArg _ (funext fun r => ?_)
    obtain ⟨g, s'⟩ := r
    simp only [h n (by omega)]

/-- Mapping a list with a closure that has a state and may panic. -/
def mapList (f : σ → N → Option (U × σ)) : σ → List N → Option (List U × σ)
  | s, [] => some ([], s)
  | s, x :: xs => do
    let (u, s) ← f s x
    let (us, s) ← mapList f s xs
    some (u :: us, s)

theorem mapList_append (f : σ → N → Option (U × σ)) : ∀ (s : σ) (xs ys : List N), mapList f s (xs ++ ys) =
    (mapList f s xs).bind fun r => (mapList f r.2 ys).map fun r' => (r.1 ++ r'.1, r'.2)
  | s, [], ys => by
    simp only [List.nil_append, mapList, Option.bind_some]
    cases mapList f s ys <;> rfl
  | s, x :: xs, ys => by
    rw [List.cons_append, mapList, mapList]
    cases f s x with
    | none => rfl
    | some r =>
      obtain ⟨u, s'⟩ := r
      simp only [Option.bind_eq_bind, Option.bind_some]
      rw [mapList_append f s' xs ys]
      cases mapList f s' xs with
      | none => rfl
      | some r =>
        simp only [Option.bind_some]
        cases mapList f r.2 ys <;> rfl

theorem ofFn_snoc {X : Type} {n : Nat} (g : Fin n → X) (u : X) :
    List.ofFn (fun i : Fin (n + 1) => if h : i.1 < n then g ⟨i.1, h⟩ else u) = List.ofFn g ++ [u] := by
  rw [List.ofFn_succ_last]
  congr 1
  · refine congrArg _ (funext fun i => ?_)
    simp
  · simp

theorem build_list (f : σ → N → Option (U × σ)) (a : SVec N D) (s : σ) : ∀ (n : Nat) (hn : n ≤ D),
    (build (fun s i => if h : i < D then f s (a.get ⟨i, h⟩) else none) n s).map (fun r => (List.ofFn r.1, r.2)) =
      mapList f s (List.ofFn fun i : Fin n => a.get ⟨i.1, by omega⟩)
  | 0, _ => by simp [build, mapList]
  | n + 1, hn => by
    have ih := build_list f a s n (by omega)
    have e : (List.ofFn fun i : Fin (n + 1) => a.get ⟨i.1, by omega⟩) = (List.ofFn fun i : Fin n => a.get ⟨i.1, by omega⟩) ++ [a.get ⟨n, by omega⟩] := by
      rw [List.ofFn_succ_last]
      rfl
    rw [e, mapList_append, ← ih, build]
    cases build (fun s i => if h : i < D then f s (a.get ⟨i, h⟩) else none) n s with
    | none => rfl
    | some r =>
      obtain ⟨g, s'⟩ := r
      simp only [Option.bind_eq_bind, Option.bind_some, Option.map_some, mapList]
      rw [dif_pos (show n < D by omega)]
      cases f s' (a.get ⟨n, by omega⟩) with
      | none => rfl
      | some r =>
        obtain ⟨u, s''⟩ := r
        simp only [Option.bind_some, Option.map_some, ofFn_snoc]

theorem toList_ofFn (a : SVec N D) : (List.finRange D).map a.get = List.ofFn a.get := by
  rw [List.ofFn_eq_map]

theorem intoMap_list (f : σ → N → Option (U × σ)) (a : SVec N D) (s : σ) :
    (a.intoMap f s).map (fun r => ((List.finRange D).map r.1.get, r.2)) = mapList f s ((List.finRange D).map a.get) := by
  have := build_list f a s D (Nat.le_refl _)
  rw [toList_ofFn, ← this, intoMap]
  cases build (fun s i => if h : i < D then f s (a.get ⟨i, h⟩) else none) D s with
  | none => rfl
  | some r =>
    obtain ⟨g, s'⟩ := r
    simp only [Option.bind_eq_bind, Option.bind_some, Option.map_some, toList_ofFn]

variable [Scalar N]

theorem add_iff {a b c : SVec N D} : a.add b = some c ↔ ∀ i, Scalar.add (a.get i) (b.get i) = some (c.get i) := by
  have e : ∀ g : Fin D → N, build (fun _ i => if h : i < D then (Scalar.add (a.get ⟨i, h⟩) (b.get ⟨i, h⟩)).map fun x => (x, ()) else none) D () = some (g, ()) ↔
      ∀ i, Scalar.add (a.get i) (b.get i) = some (g i) := by
    intro g
    rw [build_congr (f' := fun _ i => ((if h : i < D then Scalar.add (a.get ⟨i, h⟩) (b.get ⟨i, h⟩) else none).map fun x => (x, ()))), build_pure]
    · refine forall_congr' fun i => ?_
      rw [dif_pos i.2]
    · intro i hi _
      rw [dif_pos hi, dif_pos hi]
  rw [add]
  constructor
  · intro h
    obtain ⟨⟨g, _⟩, h1, h⟩ := Option.bind_eq_some_iff.1 h
    injection h with h
    subst h
    exact (e g).1 h1
  · intro h
    rw [(e c.get).2 h]
    rfl

theorem sub_iff {a b c : SVec N D} : a.sub b = some c ↔ ∀ i, Scalar.sub (a.get i) (b.get i) = some (c.get i) := by
  rw [SVec.sub]
  constructor
  · intro h
    split at h
    next hs =>
      injection h with h
      subst h
      intro i
      simp
    next => cases h
  · intro h
    have hs : ∀ i, (Scalar.sub (a.get i) (b.get i)).isSome := fun i => by rw [h i]; rfl
    rw [dif_pos hs]
    congr 1
    refine SVec.ext (funext fun i => ?_)
    simp only
    rw [Option.get_of_eq_some _ (h i)]

/-- What `addAssign` leaves, whether it returns or not. -/
theorem addAssign_get {b : SVec N D} : ∀ (is : List (Fin D)) (a : SVec N D), is.Nodup → ∃ done rest, is = done ++ rest ∧ ((addAssign b is a).2 = true ↔ rest = []) ∧
    (∀ i ∈ done, Scalar.add (a.get i) (b.get i) = some ((addAssign b is a).1.get i)) ∧ (∀ i, i ∉ done → (addAssign b is a).1.get i = a.get i) ∧
    ∀ i ∈ rest.head?, Scalar.add (a.get i) (b.get i) = none
  | [], a, _ => ⟨[], [], rfl, by simp [addAssign], by simp, by simp [addAssign], by simp⟩
  | i :: is, a, hn => by
    rw [List.nodup_cons] at hn
    cases hx : Scalar.add (a.get i) (b.get i) with
    | none => exact ⟨[], i :: is, rfl, by simp [addAssign, hx], by simp, by simp [addAssign, hx], by simpa using hx⟩
    | some x =>
      have e : addAssign b (i :: is) a = addAssign b is ⟨fun j => if j = i then x else a.get j⟩ := by rw [addAssign, hx]
      obtain ⟨done, rest, h1, h2, h3, h4, h5⟩ := addAssign_get is ⟨fun j => if j = i then x else a.get j⟩ hn.2
      have hne : ∀ j ∈ is, j ≠ i := fun j hj e => hn.1 (e ▸ hj)
      have hi : i ∉ done := fun h => hn.1 (h1 ▸ List.mem_append_left _ h)
      rw [e]
      refine ⟨i :: done, rest, by rw [h1]; rfl, h2, ?_, ?_, ?_⟩
      · intro j hj
        rcases List.mem_cons.1 hj with rfl | hj
        · rw [h4 j hi]; simpa using hx
        · have := h3 j hj
          simp only [if_neg (hne j (h1 ▸ List.mem_append_left _ hj))] at this
          exact this
      · intro j hj
        rw [List.mem_cons, not_or] at hj
        rw [h4 j hj.2]
        simp [hj.1]
      · intro j hj
        have hm : j ∈ is := h1 ▸ List.mem_append_right _ (List.mem_of_mem_head? hj)
        have := h5 j hj
        simp only [if_neg (hne j hm)] at this
        exact this

end RTree.SVec
