import Verif.Model.Unwind
import Verif.Proofs.Ghost
/-!
# A logic for computations that can panic

`Spec x s R P F`: started on the place `s`, owning exactly the things `R` (blocks of memory, keys, values), `x` never ends in undefined behaviour; if it returns
`b` then the place `s'` and the things `R'` owned then satisfy `P b s' R'`; if it panics they satisfy `F s' R'`.  Every key and every value owned before or made by
`Clone` is owned after or has been dropped.
-/

namespace RTree.Unwind

open Raw

variable {B K V Q σ τ β γ : Type}

/-- What can be owned. -/
inductive Thing (B K V : Type) where
  | chunk (c : Chunk (UCell B K V))
  | key (k : K)
  | val (v : V)

/-- The blocks. -/
def chunksT (R : List (Thing B K V)) : List (Chunk (UCell B K V)) := R.filterMap fun t => match t with
  | .chunk c => some c
  | _ => none

/-- The keys. -/
def keysT (R : List (Thing B K V)) : List K := R.filterMap fun t => match t with
  | .key k => some k
  | _ => none

/-- The values. -/
def valsT (R : List (Thing B K V)) : List V := R.filterMap fun t => match t with
  | .val v => some v
  | _ => none

section

variable (R R' : List (Thing B K V))

@[simp] theorem chunksT_nil : chunksT ([] : List (Thing B K V)) = [] := rfl
@[simp] theorem keysT_nil : keysT ([] : List (Thing B K V)) = [] := rfl
@[simp] theorem valsT_nil : valsT ([] : List (Thing B K V)) = [] := rfl
@[simp] theorem chunksT_append : chunksT (R ++ R') = chunksT R ++ chunksT R' := List.filterMap_append
@[simp] theorem keysT_append : keysT (R ++ R') = keysT R ++ keysT R' := List.filterMap_append
@[simp] theorem valsT_append : valsT (R ++ R') = valsT R ++ valsT R' := List.filterMap_append
@[simp] theorem chunksT_chunk (c : Chunk (UCell B K V)) : chunksT (.chunk c :: R) = c :: chunksT R := rfl
@[simp] theorem chunksT_key (k : K) : chunksT (.key k :: R) = chunksT R := rfl
@[simp] theorem chunksT_val (v : V) : chunksT (.val v :: R) = chunksT R := rfl
@[simp] theorem keysT_chunk (c : Chunk (UCell B K V)) : keysT (.chunk c :: R) = keysT R := rfl
@[simp] theorem keysT_key (k : K) : keysT (.key k :: R) = k :: keysT R := rfl
@[simp] theorem keysT_val (v : V) : keysT (.val v :: R) = keysT R := rfl
@[simp] theorem valsT_chunk (c : Chunk (UCell B K V)) : valsT (.chunk c :: R) = valsT R := rfl
@[simp] theorem valsT_key (k : K) : valsT (.key k :: R) = valsT R := rfl
@[simp] theorem valsT_val (v : V) : valsT (.val v :: R) = v :: valsT R := rfl

variable {R R'}

theorem chunksT_perm (h : R.Perm R') : (chunksT R).Perm (chunksT R') := h.filterMap _
theorem keysT_perm (h : R.Perm R') : (keysT R).Perm (keysT R') := h.filterMap _
theorem valsT_perm (h : R.Perm R') : (valsT R).Perm (valsT R') := h.filterMap _

@[simp] theorem chunksT_map (cs : List (Chunk (UCell B K V))) : chunksT (cs.map (Thing.chunk (B := B) (K := K) (V := V))) = cs := by
  induction cs with
  | nil => rfl
  | cons c cs ih => rw [List.map_cons, chunksT_chunk, ih]

@[simp] theorem keysT_map (cs : List (Chunk (UCell B K V))) : keysT (cs.map (Thing.chunk (B := B) (K := K) (V := V))) = [] := by
  induction cs with
  | nil => rfl
  | cons c cs ih => rw [List.map_cons, keysT_chunk, ih]

@[simp] theorem valsT_map (cs : List (Chunk (UCell B K V))) : valsT (cs.map (Thing.chunk (B := B) (K := K) (V := V))) = [] := by
  induction cs with
  | nil => rfl
  | cons c cs ih => rw [List.map_cons, valsT_chunk, ih]

end

/-- From owning `R` in world `w` to owning `R'` in world `w'`. -/
structure Go (w : World B K V Q) (R : List (Thing B K V)) (w' : World B K V Q) (R' : List (Thing B K V)) : Prop where
  tr : Tr w.heap (chunksT R) w'.heap (chunksT R')
  keys : (keysT R' ++ w'.keys ++ w.madeKeys).Perm (keysT R ++ w.keys ++ w'.madeKeys)
  values : (valsT R' ++ w'.values ++ w.madeValues).Perm (valsT R ++ w.values ++ w'.madeValues)

namespace Go

variable {w w₁ w₂ : World B K V Q} {R R₁ R₂ : List (Thing B K V)}

theorem refl (H : Has w.heap (chunksT R)) : Go w R w R := ⟨.refl H, .refl _, .refl _⟩

theorem trans (s : Go w R w₁ R₁) (t : Go w₁ R₁ w₂ R₂) : Go w R w₂ R₂ :=
  ⟨s.tr.trans t.tr, by perms [s.keys, t.keys], by perms [s.values, t.values]⟩

theorem perm_left (h : R.Perm R₂) (s : Go w R w₁ R₁) : Go w R₂ w₁ R₁ :=
  ⟨s.tr.perm_left (chunksT_perm h), by perms [s.keys, keysT_perm h], by perms [s.values, valsT_perm h]⟩

theorem perm_right (h : R₁.Perm R₂) (s : Go w R w₁ R₁) : Go w R w₁ R₂ :=
  ⟨s.tr.perm_right (chunksT_perm h), by perms [s.keys, keysT_perm h], by perms [s.values, valsT_perm h]⟩

theorem frame {Fr : List (Thing B K V)} (H : Has w.heap (chunksT (R ++ Fr))) (s : Go w R w₁ R₁) : Go w (R ++ Fr) w₁ (R₁ ++ Fr) := by
  refine ⟨?_, ?_, ?_⟩
  · rw [chunksT_append] at H ⊢
    rw [chunksT_append]
    exact s.tr.frame H
  · rw [keysT_append, keysT_append]; perms [s.keys]
  · rw [valsT_append, valsT_append]; perms [s.values]

end Go

/-- The outcome of a computation; see the head of the file. -/
def Post (P : β → σ → List (Thing B K V) → Prop) (F : σ → List (Thing B K V) → Prop) (w : World B K V Q) (R : List (Thing B K V)) :
    Except Stop β × σ × World B K V Q → Prop
  | (.ok b, s', w') => ∃ R', P b s' R' ∧ Go w R w' R'
  | (.error .panic, s', w') => ∃ R', F s' R' ∧ Go w R w' R'
  | (.error .fatal, _, _) => False

/-- See the head of the file. -/
def Spec (x : U B K V Q σ β) (s : σ) (R : List (Thing B K V)) (P : β → σ → List (Thing B K V) → Prop) (F : σ → List (Thing B K V) → Prop) : Prop :=
  ∀ w, Has w.heap (chunksT R) → Post P F w R (x s w)

variable {x : U B K V Q σ β} {f : β → U B K V Q σ γ} {s : σ} {R R₀ Fr : List (Thing B K V)}

theorem Post.trans {P : β → σ → List (Thing B K V) → Prop} {F : σ → List (Thing B K V) → Prop} {w w₁ : World B K V Q} {R₁ : List (Thing B K V)}
    {r : Except Stop β × σ × World B K V Q} (g : Go w R w₁ R₁) (h : Post P F w₁ R₁ r) : Post P F w R r := by
  obtain ⟨r, s', w'⟩ := r
  cases r with
  | ok b => obtain ⟨R', h1, h2⟩ := h; exact ⟨R', h1, g.trans h2⟩
  | error e =>
    cases e with
    | panic => obtain ⟨R', h1, h2⟩ := h; exact ⟨R', h1, g.trans h2⟩
    | fatal => exact h

theorem bind_apply (x : U B K V Q σ β) (f : β → U B K V Q σ γ) (s : σ) (w : World B K V Q) :
    (x >>= f) s w = match x s w with
      | (.ok b, s', w') => f b s' w'
      | (.error e, s', w') => (.error e, s', w') := rfl

namespace Spec

variable {P₀ : β → σ → List (Thing B K V) → Prop} {F₀ F : σ → List (Thing B K V) → Prop} {P : γ → σ → List (Thing B K V) → Prop}

theorem bind (hx : Spec x s R P₀ F₀) (hc : ∀ b s' R', P₀ b s' R' → Spec (f b) s' R' P F) (hf : ∀ s' R', F₀ s' R' → F s' R') :
    Spec (x >>= f) s R P F := by
  intro w H
  have h := hx w H
  rw [bind_apply]
  rcases hr : x s w with ⟨r, s', w'⟩
  rw [hr] at h
  cases r with
  | ok b =>
    obtain ⟨R', h1, h2⟩ := h
    exact (hc b s' R' h1 w' h2.tr.has).trans h2
  | error e =>
    cases e with
    | panic => obtain ⟨R', h1, h2⟩ := h; exact ⟨R', hf _ _ h1, h2⟩
    | fatal => exact h

theorem perm (hp : R.Perm R₀) (hx : Spec x s R₀ P₀ F₀) : Spec x s R P₀ F₀ := by
  intro w H
  have h := hx w (H.perm (chunksT_perm hp))
  rcases hr : x s w with ⟨r, s', w'⟩
  rw [hr] at h
  cases r with
  | ok b => obtain ⟨R', h1, h2⟩ := h; exact ⟨R', h1, h2.perm_left hp.symm⟩
  | error e =>
    cases e with
    | panic => obtain ⟨R', h1, h2⟩ := h; exact ⟨R', h1, h2.perm_left hp.symm⟩
    | fatal => exact h

theorem mono {P : β → σ → List (Thing B K V) → Prop} (hx : Spec x s R P₀ F₀) (hP : ∀ b s' R', P₀ b s' R' → P b s' R')
    (hF : ∀ s' R', F₀ s' R' → F s' R') : Spec x s R P F := by
  intro w H
  have h := hx w H
  rcases hr : x s w with ⟨r, s', w'⟩
  rw [hr] at h
  cases r with
  | ok b => obtain ⟨R', h1, h2⟩ := h; exact ⟨R', hP _ _ _ h1, h2⟩
  | error e =>
    cases e with
    | panic => obtain ⟨R', h1, h2⟩ := h; exact ⟨R', hF _ _ h1, h2⟩
    | fatal => exact h

theorem frame (Fr : List (Thing B K V)) (hx : Spec x s R P₀ F₀) :
    Spec x s (R ++ Fr) (fun b s' R' => ∃ R₁, R' = R₁ ++ Fr ∧ P₀ b s' R₁) (fun s' R' => ∃ R₁, R' = R₁ ++ Fr ∧ F₀ s' R₁) := by
  intro w H
  have h := hx w (by rw [chunksT_append] at H; exact H.left)
  rcases hr : x s w with ⟨r, s', w'⟩
  rw [hr] at h
  cases r with
  | ok b => obtain ⟨R', h1, h2⟩ := h; exact ⟨_, ⟨R', rfl, h1⟩, h2.frame H⟩
  | error e =>
    cases e with
    | panic => obtain ⟨R', h1, h2⟩ := h; exact ⟨_, ⟨R', rfl, h1⟩, h2.frame H⟩
    | fatal => exact h

/-- A call that uses `R₀` and leaves `Fr` alone. -/
theorem call (hx : Spec x s R₀ P₀ F₀) (hp : R.Perm (R₀ ++ Fr)) (hc : ∀ b s' R₁, P₀ b s' R₁ → Spec (f b) s' (R₁ ++ Fr) P F)
    (hf : ∀ s' R₁, F₀ s' R₁ → F s' (R₁ ++ Fr)) : Spec (x >>= f) s R P F := by
  refine .perm hp (.bind (hx.frame Fr) ?_ ?_)
  · rintro b s' _ ⟨R₁, rfl, h⟩; exact hc b s' R₁ h
  · rintro s' _ ⟨R₁, rfl, h⟩; exact hf s' R₁ h

/-- A call at the end. -/
theorem last {P : β → σ → List (Thing B K V) → Prop} (hx : Spec x s R₀ P₀ F₀) (hp : R.Perm (R₀ ++ Fr)) (hc : ∀ b s' R₁, P₀ b s' R₁ → P b s' (R₁ ++ Fr))
    (hf : ∀ s' R₁, F₀ s' R₁ → F s' (R₁ ++ Fr)) : Spec x s R P F := by
  refine .perm hp ((hx.frame Fr).mono ?_ ?_)
  · rintro b s' _ ⟨R₁, rfl, h⟩; exact hc b s' R₁ h
  · rintro s' _ ⟨R₁, rfl, h⟩; exact hf s' R₁ h

theorem pure {b : β} (h : P₀ b s R) : Spec (Pure.pure b : U B K V Q σ β) s R P₀ F₀ := fun _ H => ⟨R, h, .refl H⟩

theorem place {f : σ → U B K V Q σ γ} (h : Spec (f s) s R P F) : Spec (Unwind.place >>= f) s R P F := h

theorem put {s' : σ} {f : Unit → U B K V Q σ γ} (h : Spec (f ()) s' R P F) : Spec (Unwind.put s' >>= f) s R P F := h

theorem put' {s' : σ} {P₀ : Unit → σ → List (Thing B K V) → Prop} (h : P₀ () s' R) : Spec (Unwind.put s' : U B K V Q σ Unit) s R P₀ F₀ := fun _ H => ⟨R, h, .refl H⟩

theorem place' {P₀ : σ → σ → List (Thing B K V) → Prop} (h : P₀ s s R) : Spec (Unwind.place : U B K V Q σ σ) s R P₀ F₀ := fun _ H => ⟨R, h, .refl H⟩

theorem placeFst {t : τ} {f : σ → U B K V Q (σ × τ) γ} {P : γ → σ × τ → List (Thing B K V) → Prop} {F : σ × τ → List (Thing B K V) → Prop}
    (h : Spec (f s) (s, t) R P F) : Spec (Unwind.onFst Unwind.place >>= f) (s, t) R P F := h

theorem placeSnd {t : τ} {f : τ → U B K V Q (σ × τ) γ} {P : γ → σ × τ → List (Thing B K V) → Prop} {F : σ × τ → List (Thing B K V) → Prop}
    (h : Spec (f t) (s, t) R P F) : Spec (Unwind.onSnd Unwind.place >>= f) (s, t) R P F := h

theorem panic (h : F₀ s R) : Spec (Unwind.panic : U B K V Q σ β) s R P₀ F₀ := fun _ H => ⟨R, h, .refl H⟩

theorem panicIf {c : Prop} [Decidable c] {P₀ : Unit → σ → List (Thing B K V) → Prop} (h1 : ¬ c → P₀ () s R) (h2 : c → F₀ s R) :
    Spec (Unwind.panicIf c : U B K V Q σ Unit) s R P₀ F₀ := by
  rw [Unwind.panicIf]
  split
  next h => exact .panic (h2 h)
  next h => exact .pure (h1 h)

theorem user {g : Code B K V Q → Option β} (h1 : ∀ b, P₀ b s R) (h2 : F₀ s R) : Spec (Unwind.user g) s R P₀ F₀ := by
  intro w H
  have hg : Go w R { w with code := fun n => w.code (n + 1) } R := ⟨.refl H, .refl _, .refl _⟩
  rw [Unwind.user]
  cases (w.code 0).bind g with
  | none => exact ⟨R, h2, hg⟩
  | some b => exact ⟨R, h1 b, hg⟩

/-- A call of user code, then the rest. -/
theorem ask {g : Code B K V Q → Option β} (h1 : ∀ b, Spec (f b) s R P F) (h2 : F s R) : Spec (Unwind.user g >>= f) s R P F :=
  .bind (P₀ := fun _ s' R' => s' = s ∧ R' = R) (F₀ := fun s' R' => s' = s ∧ R' = R) (.user (fun _ => ⟨rfl, rfl⟩) ⟨rfl, rfl⟩)
    (by rintro b _ _ ⟨rfl, rfl⟩; exact h1 b) (by rintro _ _ ⟨rfl, rfl⟩; exact h2)

/-- An operation on memory. -/
theorem mem {y : Raw.M (UCell B K V) β} {cs : List (Chunk (UCell B K V))} {M : β → List (Chunk (UCell B K V)) → Prop}
    (h : ∀ h, Has h cs → match y h with
      | .ok (b, h') => ∃ cs', M b cs' ∧ Tr h cs h' cs'
      | .error e => stopOf e = .panic) :
    Spec (Unwind.mem y : U B K V Q σ β) s (cs.map .chunk) (fun b s' R' => s' = s ∧ ∃ cs', R' = cs'.map .chunk ∧ M b cs')
      (fun s' R' => s' = s ∧ R' = cs.map .chunk) := by
  intro w H
  rw [chunksT_map] at H
  have hh := h w.heap H
  rw [Unwind.mem]
  cases hy : y w.heap with
  | ok r =>
    obtain ⟨b, h'⟩ := r
    rw [hy] at hh
    obtain ⟨cs', hM, t⟩ := hh
    exact ⟨cs'.map .chunk, ⟨rfl, cs', rfl, hM⟩, by simpa using t, by simp, by simp⟩
  | error e =>
    rw [hy] at hh
    change stopOf e = .panic at hh
    change Post _ _ _ _ (Except.error (stopOf e), s, w)
    rw [hh]
    exact ⟨_, ⟨rfl, rfl⟩, .refl (by simpa using H)⟩

/-- An operation on memory that does not panic. -/
theorem memOk {y : Raw.M (UCell B K V) β} {cs : List (Chunk (UCell B K V))} {M : β → List (Chunk (UCell B K V)) → Prop}
    (h : ∀ h, Has h cs → ∃ b h' cs', y h = .ok (b, h') ∧ M b cs' ∧ Tr h cs h' cs') :
    Spec (Unwind.mem y : U B K V Q σ β) s (cs.map .chunk) (fun b s' R' => s' = s ∧ ∃ cs', R' = cs'.map .chunk ∧ M b cs') F₀ := by
  intro w H
  rw [chunksT_map] at H
  obtain ⟨b, h', cs', hy, hM, t⟩ := h w.heap H
  rw [Unwind.mem, hy]
  exact ⟨cs'.map .chunk, ⟨rfl, cs', rfl, hM⟩, by simpa using t, by simp, by simp⟩

/-- Reading memory. -/
theorem read {y : Raw.M (UCell B K V) β} {b : β} (h : ∀ h, Has h (chunksT R) → y h = .ok (b, h)) (hc : Spec (f b) s R P F) :
    Spec (Unwind.mem y >>= f) s R P F := by
  intro w H
  have : (Unwind.mem y >>= f) s w = f b s w := by
    rw [bind_apply, Unwind.mem, h w.heap H]
  rw [this]
  exact hc w H

/-- An operation on memory that panics. -/
theorem fail {y : Raw.M (UCell B K V) β} {e : Panic} (h : ∀ h, Has h (chunksT R) → y h = .error e) (he : stopOf e = .panic) (hc : F s R) :
    Spec (Unwind.mem y >>= f) s R P F := by
  intro w H
  have : (Unwind.mem y >>= f) s w = (.error (stopOf e), s, w) := by
    rw [bind_apply, Unwind.mem, h w.heap H]
  rw [this, he]
  exact ⟨R, hc, .refl H⟩

/-- Reading memory, at the end. -/
theorem read' {y : Raw.M (UCell B K V) β} {b : β} (h : ∀ h, Has h (chunksT R) → y h = .ok (b, h)) (hc : P₀ b s R) :
    Spec (Unwind.mem y : U B K V Q σ β) s R P₀ F₀ := by
  intro w H
  have : (Unwind.mem y : U B K V Q σ β) s w = (.ok b, s, w) := by rw [Unwind.mem, h w.heap H]
  rw [this]
  exact ⟨R, hc, .refl H⟩

theorem lift {y : Res β} {b : β} (h : y = .ok b) (hc : Spec (f b) s R P F) : Spec (Unwind.mem (Raw.lift y) >>= f) s R P F :=
  .read (fun h' _ => by rw [h]; rfl) hc

theorem guarded {cleanup : U B K V Q σ Unit} (hx : Spec x s R P₀ F₀)
    (hc : ∀ s' R', F₀ s' R' → Spec cleanup s' R' (fun _ s'' R'' => F s'' R'') (fun _ _ => False)) : Spec (Unwind.guarded cleanup x) s R P₀ F := by
  intro w H
  have h := hx w H
  rw [Unwind.guarded]
  rcases hr : x s w with ⟨r, s', w'⟩
  rw [hr] at h
  cases r with
  | ok b => exact h
  | error e =>
    cases e with
    | fatal => exact h
    | panic =>
      obtain ⟨R', h1, h2⟩ := h
      have h3 := hc s' R' h1 w' h2.tr.has
      change Post _ _ _ _ (match cleanup s' w' with
        | (.ok _, s'', w'') => ((.error .panic : Except Stop β), s'', w'')
        | (.error _, s'', w'') => (.error .fatal, s'', w''))
      rcases hr' : cleanup s' w' with ⟨r', s'', w''⟩
      rw [hr'] at h3
      cases r' with
      | ok _ => obtain ⟨R'', h4, h5⟩ := h3; exact ⟨R'', h4, h2.trans h5⟩
      | error e =>
        cases e with
        | fatal => exact h3
        | panic => obtain ⟨_, h4, _⟩ := h3; exact h4.elim

theorem withLocal {a : τ} {cleanup : τ → U B K V Q σ Unit} {x : U B K V Q (σ × τ) β} {P : β → σ × τ → List (Thing B K V) → Prop}
    {F₁ : σ × τ → List (Thing B K V) → Prop} (hx : Spec x (s, a) R P F₁)
    (hc : ∀ s' R', F₁ s' R' → Spec (cleanup s'.2) s'.1 R' (fun _ s'' R'' => F s'' R'') (fun _ _ => False)) :
    Spec (Unwind.withLocal a cleanup x) s R (fun b s' R' => P b.1 (s', b.2) R') F := by
  intro w H
  have h := hx w H
  rw [Unwind.withLocal]
  rcases hr : x (s, a) w with ⟨r, s', w'⟩
  rw [hr] at h
  cases r with
  | ok b => exact h
  | error e =>
    cases e with
    | fatal => exact h
    | panic =>
      obtain ⟨R', h1, h2⟩ := h
      have h3 := hc s' R' h1 w' h2.tr.has
      change Post _ _ _ _ (match cleanup s'.2 s'.1 w' with
        | (.ok _, s'', w'') => ((.error .panic : Except Stop (β × τ)), s'', w'')
        | (.error _, s'', w'') => (.error .fatal, s'', w''))
      rcases hr' : cleanup s'.2 s'.1 w' with ⟨r', s'', w''⟩
      rw [hr'] at h3
      cases r' with
      | ok _ => obtain ⟨R'', h4, h5⟩ := h3; exact ⟨R'', h4, h2.trans h5⟩
      | error e =>
        cases e with
        | fatal => exact h3
        | panic => obtain ⟨_, h4, _⟩ := h3; exact h4.elim

theorem onFst {t : τ} (hx : Spec x s R P₀ F₀) :
    Spec (Unwind.onFst x) (s, t) R (fun b p R' => p.2 = t ∧ P₀ b p.1 R') (fun p R' => p.2 = t ∧ F₀ p.1 R') := by
  intro w H
  have h := hx w H
  change Post _ _ _ _ ((x s w).1, ((x s w).2.1, t), (x s w).2.2)
  rcases hr : x s w with ⟨r, s', w'⟩
  rw [hr] at h
  cases r with
  | ok b => obtain ⟨R', h1, h2⟩ := h; exact ⟨R', ⟨rfl, h1⟩, h2⟩
  | error e =>
    cases e with
    | panic => obtain ⟨R', h1, h2⟩ := h; exact ⟨R', ⟨rfl, h1⟩, h2⟩
    | fatal => exact h

theorem onSnd {t : τ} (hx : Spec x s R P₀ F₀) :
    Spec (Unwind.onSnd x) (t, s) R (fun b p R' => p.1 = t ∧ P₀ b p.2 R') (fun p R' => p.1 = t ∧ F₀ p.2 R') := by
  intro w H
  have h := hx w H
  change Post _ _ _ _ ((x s w).1, (t, (x s w).2.1), (x s w).2.2)
  rcases hr : x s w with ⟨r, s', w'⟩
  rw [hr] at h
  cases r with
  | ok b => obtain ⟨R', h1, h2⟩ := h; exact ⟨R', ⟨rfl, h1⟩, h2⟩
  | error e =>
    cases e with
    | panic => obtain ⟨R', h1, h2⟩ := h; exact ⟨R', ⟨rfl, h1⟩, h2⟩
    | fatal => exact h

theorem onRoot {t : UTree B} {x : U B K V Q (UNode B) β} {P₀ : β → UNode B → List (Thing B K V) → Prop} {F₀ : UNode B → List (Thing B K V) → Prop}
    (hx : Spec x t.root R P₀ F₀) :
    Spec (Unwind.onRoot x) t R (fun b t' R' => t' = { t with root := t'.root } ∧ P₀ b t'.root R')
      (fun t' R' => t' = { t with root := t'.root } ∧ F₀ t'.root R') := by
  intro w H
  have h := hx w H
  change Post _ _ _ _ ((x t.root w).1, { t with root := (x t.root w).2.1 }, (x t.root w).2.2)
  rcases hr : x t.root w with ⟨r, s', w'⟩
  rw [hr] at h
  cases r with
  | ok b => obtain ⟨R', h1, h2⟩ := h; exact ⟨R', ⟨rfl, h1⟩, h2⟩
  | error e =>
    cases e with
    | panic => obtain ⟨R', h1, h2⟩ := h; exact ⟨R', ⟨rfl, h1⟩, h2⟩
    | fatal => exact h

end Spec

/-- A computation that neither panics nor changes its place. -/
abbrev Quiet (x : U B K V Q σ β) (R : List (Thing B K V)) (P : β → List (Thing B K V) → Prop) : Prop :=
  ∀ s, Spec x s R (fun b s' R' => s' = s ∧ P b R') (fun _ _ => False)

namespace Quiet

variable {P₀ : β → List (Thing B K V) → Prop} {F : σ → List (Thing B K V) → Prop} {P : γ → σ → List (Thing B K V) → Prop}

/-- A call of a computation that cannot panic. -/
theorem call (hx : Quiet x R₀ P₀) (hp : R.Perm (R₀ ++ Fr)) (hc : ∀ b R₁, P₀ b R₁ → Spec (f b) s (R₁ ++ Fr) P F) : Spec (x >>= f) s R P F :=
  .call (hx s) hp (by rintro b _ R₁ ⟨rfl, h⟩; exact hc b R₁ h) (fun _ _ h => h.elim)

theorem last {P : β → σ → List (Thing B K V) → Prop} (hx : Quiet x R₀ P₀) (hp : R.Perm (R₀ ++ Fr)) (hc : ∀ b R₁, P₀ b R₁ → P b s (R₁ ++ Fr)) :
    Spec x s R P F :=
  .last (hx s) hp (by rintro b _ R₁ ⟨rfl, h⟩; exact hc b R₁ h) (fun _ _ h => h.elim)

end Quiet

/-! ### Keys, values, bounds -/

theorem dropKey_quiet (k : K) : Quiet (dropKey k : U B K V Q σ Unit) [.key k] (fun _ R' => R' = []) := by
  intro s w H
  refine ⟨[], ⟨rfl, rfl⟩, .refl H, ?_, .refl _⟩
  show ([] ++ (k :: w.keys) ++ w.madeKeys).Perm ([k] ++ w.keys ++ w.madeKeys)
  simp

theorem dropValue_quiet (v : V) : Quiet (dropValue v : U B K V Q σ Unit) [.val v] (fun _ R' => R' = []) := by
  intro s w H
  refine ⟨[], ⟨rfl, rfl⟩, .refl H, .refl _, ?_⟩
  show ([] ++ (v :: w.values) ++ w.madeValues).Perm ([v] ++ w.values ++ w.madeValues)
  simp

theorem makeKey_quiet (k : K) : Quiet (makeKey k : U B K V Q σ Unit) [] (fun _ R' => R' = [.key k]) := by
  intro s w H
  refine ⟨[.key k], ⟨rfl, rfl⟩, .refl H, ?_, .refl _⟩
  show ([k] ++ w.keys ++ w.madeKeys).Perm ([] ++ w.keys ++ (k :: w.madeKeys))
  perms

theorem makeValue_quiet (v : V) : Quiet (makeValue v : U B K V Q σ Unit) [] (fun _ R' => R' = [.val v]) := by
  intro s w H
  refine ⟨[.val v], ⟨rfl, rfl⟩, .refl H, .refl _, ?_⟩
  show ([v] ++ w.values ++ w.madeValues).Perm ([] ++ w.values ++ (v :: w.madeValues))
  perms

/-- The memory owned by bounds. -/
def boundC (b : Nat) : Chunk (UCell B K V) where
  fp := [b]
  holds h := ∃ blk, h[b]? = some (some blk)
  loc ho hb := by
    obtain ⟨blk, ho⟩ := ho
    exact ⟨blk, (hb _ (by simp)).trans ho⟩
  alive ho b' hb := by
    obtain rfl : b' = _ := by simpa using hb
    obtain ⟨blk, ho⟩ := ho
    exact (List.getElem?_eq_some_iff.1 ho).1

theorem newBounds_quiet (b : B) : Quiet (newBounds b : U B K V Q σ (Own B)) [] (fun o R' => R' = [.chunk (boundC o.mem)]) := by
  intro s
  refine .bind (F₀ := fun _ _ => False) (.memOk (cs := []) (M := fun (p : Ptr) cs' => cs' = [boundC p.block]) ?_) ?_ (fun _ _ h => h)
  · intro h H
    refine ⟨⟨h.length, 0⟩, h ++ [some ⟨0, []⟩], [boundC h.length], rfl, rfl, ⟨⟨by simp, ?_, ?_, ?_⟩, ?_, by simp [boundC]⟩⟩
    · intro b hb _
      rw [List.getElem?_append_left hb]
    · intro b hb
      obtain rfl : b = h.length := by simpa [boundC] using hb
      exact .inr (Nat.le_refl _)
    · intro b hb hn ho
      have hn : b ≠ h.length := by simpa [boundC] using hn
      have hb : b < h.length + 1 := by simpa using hb
      have ho : h.length ≤ b := by simpa using ho
      omega
    · intro c hc
      obtain rfl := List.mem_singleton.1 hc
      exact ⟨⟨0, []⟩, by simp⟩
  · rintro p _ _ ⟨rfl, _, rfl, rfl⟩
    exact .pure ⟨rfl, rfl⟩

theorem dropBounds_quiet (b : Own B) : Quiet (dropBounds b : U B K V Q σ Unit) [.chunk (boundC b.mem)] (fun _ R' => R' = []) := by
  intro s
  refine (Spec.memOk (cs := [boundC b.mem]) (M := fun _ cs' => cs' = []) ?_).mono ?_ (fun _ _ h => h)
  · intro h H
    obtain ⟨blk, hb⟩ := H.head
    refine ⟨(), h.set b.mem none, [], ?_, rfl, ?_, .nil⟩
    · have : (block ⟨b.mem, 0⟩ : M (UCell B K V) _) h = .ok (blk, h) := by simp [block, hb]
      rw [freeBlock, bind_ok this]; rfl
    · simpa [boundC] using freed_step
  · rintro _ _ _ ⟨rfl, _, rfl, rfl⟩
    exact ⟨rfl, rfl⟩

end RTree.Unwind
