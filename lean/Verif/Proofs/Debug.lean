import Verif.DebugSpec
import Verif.Proofs.Iter
/-!
# Proofs about `Debug` output
-/

namespace RTree.Fmt

variable {B K V α : Type}

theorem bind_apply {x y : M Unit} {k : Sink} {t : List Char} : (x >>= fun _ => y) k t = andThen (fun _ => y) k (x k t) := rfl

theorem after_ok {y : M Unit} {k : Sink} {t : List Char} : andThen (fun _ => y) k (.ok (), t) = y k t := rfl
theorem after_error {y : M Unit} {k : Sink} {e : Stop} {t : List Char} : andThen (fun _ => y) k ((.error e, t) : Except Stop Unit × List Char) = (.error e, t) := rfl


theorem Ends.of {s : List Char} {c : Char} {q : List Char} (h : s = c :: q) (hc : c ∈ [',', ' ', ')', ']', '}']) (r : List Char) : Ends (s ++ r) := by
  rw [h]
  exact hc

theorem Ends.comma_space (r : List Char) : Ends (txt! ", " ++ r) := by simp [Ends]
theorem Ends.children (r : List Char) : Ends (txt! ", node: " ++ r) := by simp [Ends]
theorem Ends.paren (r : List Char) : Ends (txt! ")" ++ r) := by simp [Ends]
theorem Ends.bracket (r : List Char) : Ends (txt! "]" ++ r) := by simp [Ends]

theorem Writes.write (s : List Char) : Writes (Fmt.write s) s := by
  intro k t
  refine ⟨?_, fun h => ?_⟩
  · unfold Fmt.write
    split
    · exact .inl rfl
    · exact .inr ⟨_, List.take_prefix _ _, rfl⟩
  · unfold Fmt.write
    rw [if_pos (h t s)]

theorem Writes.seq {x y : M Unit} {s s' : List Char} (hx : Writes x s) (hy : Writes y s') : Writes (x >>= fun _ => y) (s ++ s') := by
  intro k t
  have e : ∀ t', x k t = (.ok (), t') → (x >>= fun _ => y) k t = y k t' := by
    intro t' h
    rw [bind_apply, h, after_ok]
  refine ⟨?_, fun h => ?_⟩
  · rcases (hx k t).1 with h | ⟨p, h1, h2⟩
    · rw [e _ h]
      rcases (hy k (t ++ s)).1 with h' | ⟨p, h1, h2⟩
      · exact .inl (by rw [h', List.append_assoc])
      · exact .inr ⟨s ++ p, List.prefix_append_right_inj s |>.2 h1, by rw [h2, List.append_assoc]⟩
    · refine .inr ⟨p, h1.trans (List.prefix_append _ _), ?_⟩
      rw [bind_apply, h2, after_error]
  · rw [e _ ((hx k t).2 h), (hy k _).2 h, List.append_assoc]

theorem Writes.of_eq {x : M Unit} {s s' : List Char} (h : Writes x s) (e : s = s') : Writes x s' := e ▸ h

theorem moreEntries_writes {d : α → M Unit} {s : α → List Char} : ∀ (xs : List α), (∀ x ∈ xs, Writes (d x) (s x)) →
    Writes (moreEntries (xs.map d)) (textRest (xs.map s))
  | [], _ => Writes.write _
  | x :: xs, h => by
    have h1 := moreEntries_writes xs fun y hy => h y (List.mem_cons_of_mem _ hy)
    have h2 := (Writes.write (txt! ", ")).seq ((h x List.mem_cons_self).seq h1)
    exact h2.of_eq (by rw [List.map_cons, textRest, List.append_assoc])

theorem debugList_writes {d : α → M Unit} {s : α → List Char} (xs : List α) (h : ∀ x ∈ xs, Writes (d x) (s x)) :
    Writes (debugList (xs.map d)) (textList (xs.map s)) := by
  cases xs with
  | nil => exact ((Writes.write (txt! "[")).seq (Writes.write (txt! "]"))).of_eq rfl
  | cons x xs =>
    have h1 := moreEntries_writes xs fun y hy => h y (List.mem_cons_of_mem _ hy)
    have h2 := (Writes.write (txt! "[")).seq ((h x List.mem_cons_self).seq h1)
    exact h2.of_eq (by rw [List.map_cons, textList, List.append_assoc])

theorem debugPair_writes {dk : K → M Unit} {dv : V → M Unit} {sk : K → List Char} {sv : V → List Char} (hk : ∀ x, Writes (dk x) (sk x))
    (hv : ∀ x, Writes (dv x) (sv x)) (e : K × V) : Writes (debugPair dk dv e) (textPair sk sv e) := by
  have h := (Writes.write (txt! "(")).seq ((hk e.1).seq ((Writes.write (txt! ", ")).seq ((hv e.2).seq (Writes.write (txt! ")")))))
  exact h.of_eq (by simp only [textPair, List.append_assoc])

theorem debugStruct_one {name f : List Char} {x : M Unit} {s : List Char} (h : Writes x s) :
    Writes (debugStruct name (f, x) []) ((name ++ (txt! " { " ++ (f ++ (txt! ": " ++ (s ++ txt! " }")))))) :=
  (Writes.write _).seq ((Writes.write _).seq ((Writes.write _).seq ((Writes.write _).seq (h.seq (Writes.write _)))))

theorem debugStruct_two {name f g : List Char} {x y : M Unit} {s s' : List Char} (h : Writes x s) (h' : Writes y s') :
    Writes (debugStruct name (f, x) [(g, y)]) ((name ++ (txt! " { " ++ (f ++ (txt! ": " ++ (s ++
      (txt! ", " ++ (g ++ (txt! ": " ++ (s' ++ txt! " }")))))))))) :=
  (Writes.write _).seq ((Writes.write _).seq ((Writes.write _).seq ((Writes.write _).seq (h.seq ((Writes.write _).seq ((Writes.write _).seq ((Writes.write _).seq
    (h'.seq (Writes.write _)))))))))

theorem lift_ok {x : α} {f : α → M Unit} : (lift (.ok x) >>= f) = f x := rfl

section

variable {db : B → M Unit} {dk : K → M Unit} {dv : V → M Unit} {sb : B → List Char} {sk : K → List Char} {sv : V → List Char}

theorem textNodes_eq (sb : B → List Char) (sk : K → List Char) (sv : V → List Char) : ∀ cs : List (Node B K V), textNodes sb sk sv cs = cs.map (textNode sb sk sv)
  | [] => by rw [textNodes]; rfl
  | c :: cs => by rw [textNodes, textNodes_eq, List.map_cons]

theorem debugNode_writes (hb : ∀ x, Writes (db x) (sb x)) (hk : ∀ x, Writes (dk x) (sk x)) (hv : ∀ x, Writes (dv x) (sv x)) :
    ∀ (l : Nat) (n : Node B K V), Shape l n → Writes (debugNode db dk dv l n) (textNode sb sk sv n)
  | 0, .leaf b es, _ => by
    have h := debugStruct_two (name := txt! "Node") (f := txt! "bounds") (g := txt! "node") (hb b) (debugList_writes es fun e _ => debugPair_writes hk hv e)
    exact h.of_eq (by simp only [textNode, textParts, List.append_assoc, List.cons_append, List.nil_append])
  | l + 1, .inner b cs, hs => by
    have hs' : ∀ c ∈ cs, Shape l c := hs
    have h := debugStruct_two (name := txt! "Node") (f := txt! "bounds") (g := txt! "node") (hb b) (debugList_writes (s := textNode sb sk sv) cs
      fun c hc => debugNode_writes hb hk hv l c (hs' c hc))
    exact h.of_eq (by simp only [textNode, textNodes_eq, textParts, List.append_assoc, List.cons_append, List.nil_append])
  | 0, .inner _ _, hs => hs.elim
  | _ + 1, .leaf _ _, hs => hs.elim

theorem debugTree_writes (hb : ∀ x, Writes (db x) (sb x)) (hk : ∀ x, Writes (dk x) (sk x)) (hv : ∀ x, Writes (dv x) (sv x)) {t : Tree B K V}
    (h : Shape t.level t.root) : Writes (debugTree db dk dv t) (textTree sb sk sv t) :=
  (debugStruct_one (name := txt! "RTree") (f := txt! "root") (debugNode_writes hb hk hv t.level t.root h)).of_eq (by simp only [textTree, List.append_assoc, List.cons_append, List.nil_append])

end

/-! ## User code that fails -/

/-- Not a panic or undefined behaviour of the crate. -/
def Clean (x : M Unit) : Prop := ∀ k t p, (x k t).1 ≠ .error (.own p)

theorem Clean.write (s : List Char) : Clean (Fmt.write s) := by
  intro k t p
  unfold Fmt.write
  split <;> exact fun h => by cases h

theorem Clean.seq {x y : M Unit} (hx : Clean x) (hy : Clean y) : Clean (x >>= fun _ => y) := by
  intro k t p
  have := hx k t p
  rw [bind_apply]
  generalize x k t = r at this ⊢
  obtain ⟨r, t'⟩ := r
  cases r with
  | ok a => exact hy _ _ _
  | error e => exact this

theorem moreEntries_clean : ∀ (xs : List (M Unit)), (∀ x ∈ xs, Clean x) → Clean (moreEntries xs)
  | [], _ => Clean.write _
  | x :: xs, h => (Clean.write _).seq ((h x List.mem_cons_self).seq (moreEntries_clean xs fun y hy => h y (List.mem_cons_of_mem _ hy)))

theorem debugList_clean (xs : List (M Unit)) (h : ∀ x ∈ xs, Clean x) : Clean (debugList xs) := by
  cases xs with
  | nil => exact (Clean.write _).seq (Clean.write _)
  | cons x xs => exact (Clean.write _).seq ((h x List.mem_cons_self).seq (moreEntries_clean xs fun y hy => h y (List.mem_cons_of_mem _ hy)))

theorem debugStruct_two_clean {name f g : List Char} {x y : M Unit} (hx : Clean x) (hy : Clean y) : Clean (debugStruct name (f, x) [(g, y)]) :=
  (Clean.write _).seq ((Clean.write _).seq ((Clean.write _).seq ((Clean.write _).seq (hx.seq ((Clean.write _).seq ((Clean.write _).seq ((Clean.write _).seq
    (hy.seq (Clean.write _)))))))))

theorem debugNode_clean {db : B → M Unit} {dk : K → M Unit} {dv : V → M Unit} (hb : ∀ x, Clean (db x)) (hk : ∀ x, Clean (dk x)) (hv : ∀ x, Clean (dv x)) :
    ∀ (l : Nat) (n : Node B K V), Shape l n → Clean (debugNode db dk dv l n)
  | 0, .leaf b es, _ => debugStruct_two_clean (hb b) (debugList_clean _ fun x hx => by
      obtain ⟨e, _, rfl⟩ := List.mem_map.1 hx
      exact (Clean.write _).seq ((hk _).seq ((Clean.write _).seq ((hv _).seq (Clean.write _)))))
  | l + 1, .inner b cs, hs => debugStruct_two_clean (hb b) (debugList_clean _ fun x hx => by
      obtain ⟨c, hc, rfl⟩ := List.mem_map.1 hx
      exact debugNode_clean hb hk hv l c ((show ∀ c ∈ cs, Shape l c from hs) c hc))
  | 0, .inner _ _, hs => hs.elim
  | _ + 1, .leaf _ _, hs => hs.elim

theorem debugTree_clean {db : B → M Unit} {dk : K → M Unit} {dv : V → M Unit} (hb : ∀ x, Clean (db x)) (hk : ∀ x, Clean (dk x)) (hv : ∀ x, Clean (dv x))
    {t : Tree B K V} (h : Shape t.level t.root) : Clean (debugTree db dk dv t) :=
  (Clean.write _).seq ((Clean.write _).seq ((Clean.write _).seq ((Clean.write _).seq ((debugNode_clean hb hk hv _ _ h).seq (Clean.write _)))))

/-! ## Entries in order -/

theorem InOrder.before {ss : List (List Char)} {t : List Char} (a : List Char) (h : InOrder ss t) : InOrder ss (a ++ t) := by
  cases ss with
  | nil => trivial
  | cons s ss =>
    obtain ⟨x, y, rfl, h⟩ := h
    exact ⟨a ++ x, y, by simp, h⟩

theorem InOrder.append {ss ss' : List (List Char)} : ∀ {t t' : List Char}, InOrder ss t → InOrder ss' t' → InOrder (ss ++ ss') (t ++ t') := by
  induction ss with
  | nil => exact fun {t t'} _ h => h.before t
  | cons s ss ih =>
    rintro t t' ⟨a, b, rfl, h⟩ h'
    exact ⟨a, b ++ t', by simp, ih h h'⟩

theorem InOrder.one (s : List Char) : InOrder [s] s := ⟨[], [], by simp, trivial⟩

theorem InOrder.then {ss : List (List Char)} {t : List Char} (h : InOrder ss t) (b : List Char) : InOrder ss (t ++ b) := by
  have := h.append (ss' := []) (t' := b) trivial
  rwa [List.append_nil] at this

theorem textRest_inOrder {s : α → List Char} {f : α → List (List Char)} : ∀ (xs : List α), (∀ x ∈ xs, InOrder (f x) (s x)) → InOrder (xs.flatMap f) (textRest (xs.map s))
  | [], _ => trivial
  | x :: xs, h => by
    rw [List.flatMap_cons, List.map_cons, textRest]
    exact ((h x List.mem_cons_self).before _).append (textRest_inOrder xs fun y hy => h y (List.mem_cons_of_mem _ hy))

theorem textList_inOrder {s : α → List Char} {f : α → List (List Char)} (xs : List α) (h : ∀ x ∈ xs, InOrder (f x) (s x)) : InOrder (xs.flatMap f) (textList (xs.map s)) := by
  cases xs with
  | nil => trivial
  | cons x xs =>
    rw [List.flatMap_cons, List.map_cons, textList]
    exact ((h x List.mem_cons_self).before _).append (textRest_inOrder xs fun y hy => h y (List.mem_cons_of_mem _ hy))

theorem entriesList_flatMap : ∀ cs : List (Node B K V), entriesList cs = cs.flatMap Node.entries
  | [] => by rw [entriesList]; rfl
  | c :: cs => by rw [entriesList, entriesList_flatMap, List.flatMap_cons]

theorem textNode_inOrder (sb : B → List Char) (sk : K → List Char) (sv : V → List Char) : ∀ (l : Nat) (n : Node B K V), Shape l n →
    InOrder (n.entries.map (textPair sk sv)) (textNode sb sk sv n)
  | 0, .leaf b es, _ => by
    rw [textNode, Node.entries]
    have h : InOrder (es.flatMap fun e => [textPair sk sv e]) (textList (es.map (textPair sk sv))) := textList_inOrder es fun e _ => InOrder.one _
    have e : es.flatMap (fun e => [textPair sk sv e]) = es.map (textPair sk sv) := by rw [List.map_eq_flatMap]
    rw [e] at h
    exact (h.before _).then _
  | l + 1, .inner b cs, hs => by
    rw [textNode, Node.entries, textNodes_eq, entriesList_flatMap, List.map_flatMap]
    exact ((textList_inOrder cs fun c hc => textNode_inOrder sb sk sv l c ((show ∀ c ∈ cs, Shape l c from hs) c hc)).before _).then _
  | 0, .inner _ _, hs => hs.elim
  | _ + 1, .leaf _ _, hs => hs.elim

/-! ## Reading the text back -/

theorem readable_of_plain {s : α → List Char} (h1 : ∀ x, ∀ c ∈ s x, c ∉ [',', ' ', ')', ']', '}']) (h2 : ∀ x y, s x = s y → x = y) : Readable s := by
  intro x y r r' hr hr' h
  have key : ∀ (a b : List Char), (∀ c ∈ a, c ∉ [',', ' ', ')', ']', '}']) → (∀ c ∈ b, c ∉ [',', ' ', ')', ']', '}']) → a ++ r = b ++ r' → a = b := by
    intro a
    induction a with
    | nil =>
      intro b _ hb e
      cases b with
      | nil => rfl
      | cons c b =>
        rw [List.nil_append] at e
        subst e
        exact absurd hr (hb c List.mem_cons_self)
    | cons c a ih =>
      intro b ha hb e
      cases b with
      | nil =>
        rw [List.nil_append] at e
        subst e
        exact absurd hr' (ha c List.mem_cons_self)
      | cons d b =>
        rw [List.cons_append, List.cons_append, List.cons.injEq] at e
        rw [e.1, ih b (fun z hz => ha z (List.mem_cons_of_mem _ hz)) (fun z hz => hb z (List.mem_cons_of_mem _ hz)) e.2]
  have e := key _ _ (h1 x) (h1 y) h
  refine ⟨h2 x y e, ?_⟩
  rw [e] at h
  exact List.append_cancel_left h

theorem textRest_inj {s : α → List Char} {r r' : List Char} : ∀ (xs ys : List α),
    (∀ x ∈ xs, ∀ y ∈ ys, ∀ r r', Ends r → Ends r' → s x ++ r = s y ++ r' → x = y ∧ r = r') → textRest (xs.map s) ++ r = textRest (ys.map s) ++ r' → xs = ys ∧ r = r'
  | [], [], _, h => ⟨rfl, List.append_cancel_left h⟩
  | [], y :: ys, _, h => by
    have h' : ']' :: r = ',' :: (' ' :: (s y ++ textRest (ys.map s) ++ r')) := h
    simp at h'
  | x :: xs, [], _, h => by
    have h' : ',' :: (' ' :: (s x ++ textRest (xs.map s) ++ r)) = ']' :: r' := h
    simp at h'
  | x :: xs, y :: ys, hs, h => by
    simp only [List.map_cons, textRest, List.append_assoc] at h
    have h1 := List.append_cancel_left h
    have ends : ∀ (zs : List α) r, Ends (textRest (zs.map s) ++ r) := fun zs r => by
      cases zs with
      | nil => show ']' ∈ _; simp
      | cons z zs => show ',' ∈ _; simp
    obtain ⟨e1, e2⟩ := hs x List.mem_cons_self y List.mem_cons_self _ _ (ends _ _) (ends _ _) h1
    obtain ⟨e3, e4⟩ := textRest_inj xs ys (fun a ha b hb => hs a (List.mem_cons_of_mem _ ha) b (List.mem_cons_of_mem _ hb)) e2
    exact ⟨by rw [e1, e3], e4⟩

theorem ends_rest (xs : List (List Char)) (r : List Char) : Ends (textRest xs ++ r) := by
  cases xs with
  | nil => show ']' ∈ _; simp
  | cons x xs => show ',' ∈ _; simp

/-- No text of an element starts like the end of the list. -/
theorem textList_inj {s : α → List Char} {r r' : List Char} (xs ys : List α) (h0 : ∀ x ∈ xs, ∀ q, s x ≠ ']' :: q ∧ s x ≠ []) (h0' : ∀ x ∈ ys, ∀ q, s x ≠ ']' :: q ∧ s x ≠ [])
    (hs : ∀ x ∈ xs, ∀ y ∈ ys, ∀ r r', Ends r → Ends r' → s x ++ r = s y ++ r' → x = y ∧ r = r') (h : textList (xs.map s) ++ r = textList (ys.map s) ++ r') :
    xs = ys ∧ r = r' := by
  have absurd' : ∀ (x : α) (a b : List Char), (∀ q, s x ≠ ']' :: q ∧ s x ≠ []) → s x ++ a ≠ ']' :: b := by
    intro x a b hx e
    cases hq : s x with
    | nil => exact (hx []).2 hq
    | cons c q =>
      rw [hq, List.cons_append, List.cons.injEq] at e
      exact (hx q).1 (by rw [hq, e.1])
  cases xs with
  | nil =>
    cases ys with
    | nil => exact ⟨rfl, List.append_cancel_left h⟩
    | cons y ys =>
      have h' : '[' :: (']' :: r) = '[' :: (s y ++ textRest (ys.map s) ++ r') := h
      rw [List.cons.injEq, List.append_assoc] at h'
      exact absurd h'.2.symm (absurd' y _ _ fun q => h0' y List.mem_cons_self q)
  | cons x xs =>
    cases ys with
    | nil =>
      have h' : '[' :: (s x ++ textRest (xs.map s) ++ r) = '[' :: (']' :: r') := h
      rw [List.cons.injEq, List.append_assoc] at h'
      exact absurd h'.2 (absurd' x _ _ fun q => h0 x List.mem_cons_self q)
    | cons y ys =>
      simp only [List.map_cons, textList, List.append_assoc] at h
      have h1 := List.append_cancel_left h
      obtain ⟨e1, e2⟩ := hs x List.mem_cons_self y List.mem_cons_self _ _ (ends_rest _ _) (ends_rest _ _) h1
      obtain ⟨e3, e4⟩ := textRest_inj xs ys (fun a ha b hb => hs a (List.mem_cons_of_mem _ ha) b (List.mem_cons_of_mem _ hb)) e2
      exact ⟨by rw [e1, e3], e4⟩

theorem textPair_inj {sk : K → List Char} {sv : V → List Char} (hk : Readable sk) (hv : Readable sv) : Readable (textPair sk sv) := by
  rintro ⟨k, v⟩ ⟨k', v'⟩ r r' _ _ h
  simp only [textPair, List.append_assoc] at h
  have h1 := List.append_cancel_left h
  obtain ⟨rfl, h2⟩ := hk k k' _ _ (Ends.comma_space _) (Ends.comma_space _) h1
  have h3 := List.append_cancel_left h2
  obtain ⟨rfl, h4⟩ := hv v v' _ _ (Ends.paren _) (Ends.paren _) h3
  exact ⟨rfl, List.append_cancel_left h4⟩

section

variable {sb : B → List Char} {sk : K → List Char} {sv : V → List Char}

theorem textPair_start (e : K × V) (q : List Char) : textPair sk sv e ≠ ']' :: q ∧ textPair sk sv e ≠ [] := by
  have h : textPair sk sv e = '(' :: (sk e.1 ++ txt! ", " ++ sv e.2 ++ txt! ")") := by simp [textPair]
  rw [h]
  simp

theorem textNode_head (n : Node B K V) : ∃ q, textNode sb sk sv n = 'N' :: q := by
  cases n with
  | leaf b es => simp only [textNode, textParts, List.cons_append]; exact ⟨_, rfl⟩
  | inner b cs => simp only [textNode, textParts, List.cons_append]; exact ⟨_, rfl⟩

theorem textNode_start (n : Node B K V) (q : List Char) : textNode sb sk sv n ≠ ']' :: q ∧ textNode sb sk sv n ≠ [] := by
  obtain ⟨q', h⟩ := textNode_head (sb := sb) (sk := sk) (sv := sv) n
  rw [h]
  simp

/-- The text of a node, up to the list. -/
theorem node_split (hb : Readable sb) {b b' : B} {x x' r r' : List Char}
    (h : textParts (sb b) x ++ r = textParts (sb b') x' ++ r') :
    b = b' ∧ x ++ (txt! " }" ++ r) = x' ++ (txt! " }" ++ r') := by
  simp only [textParts, List.append_assoc] at h
  have h1 := List.append_cancel_left h
  obtain ⟨e, h2⟩ := hb b b' _ _ (Ends.children _) (Ends.children _) h1
  exact ⟨e, List.append_cancel_left h2⟩

/-- Nodes at the same level with the same text are the same. -/
theorem textNode_inj (hb : Readable sb) (hk : Readable sk) (hv : Readable sv) : ∀ (l : Nat) (n n' : Node B K V), Shape l n → Shape l n' →
    ∀ r r', textNode sb sk sv n ++ r = textNode sb sk sv n' ++ r' → n = n' ∧ r = r'
  | 0, .leaf b es, .leaf b' es', _, _, r, r', h => by
    rw [textNode, textNode] at h
    obtain ⟨rfl, h1⟩ := node_split hb h
    obtain ⟨rfl, h2⟩ := textList_inj es es' (fun e _ => textPair_start e) (fun e _ => textPair_start e) (fun x _ y _ => textPair_inj hk hv x y) h1
    exact ⟨rfl, List.append_cancel_left h2⟩
  | l + 1, .inner b cs, .inner b' cs', hs, hs', r, r', h => by
    rw [textNode, textNode, textNodes_eq, textNodes_eq] at h
    obtain ⟨rfl, h1⟩ := node_split hb h
    obtain ⟨rfl, h2⟩ := textList_inj cs cs' (fun e _ => textNode_start e) (fun e _ => textNode_start e)
      (fun x hx y hy r r' _ _ => textNode_inj hb hk hv l x y ((show ∀ c ∈ cs, Shape l c from hs) x hx) ((show ∀ c ∈ cs', Shape l c from hs') y hy) r r') h1
    exact ⟨rfl, List.append_cancel_left h2⟩
  | 0, .inner _ _, _, hs, _, _, _, _ => hs.elim
  | 0, .leaf _ _, .inner _ _, _, hs, _, _, _ => hs.elim
  | _ + 1, .leaf _ _, _, hs, _, _, _, _ => hs.elim
  | _ + 1, .inner _ _, .leaf _ _, _, hs, _, _, _ => hs.elim

theorem textRest_rel {s : α → List Char} {R : α → α → Prop} {r r' : List Char} : ∀ (xs ys : List α),
    (∀ x ∈ xs, ∀ y ∈ ys, ∀ r r', Ends r → Ends r' → s x ++ r = s y ++ r' → R x y ∧ r = r') → textRest (xs.map s) ++ r = textRest (ys.map s) ++ r' →
    List.Forall₂ R xs ys ∧ r = r'
  | [], [], _, h => ⟨.nil, List.append_cancel_left h⟩
  | [], y :: ys, _, h => by
    have h' : ']' :: r = ',' :: (' ' :: (s y ++ textRest (ys.map s) ++ r')) := h
    simp at h'
  | x :: xs, [], _, h => by
    have h' : ',' :: (' ' :: (s x ++ textRest (xs.map s) ++ r)) = ']' :: r' := h
    simp at h'
  | x :: xs, y :: ys, hs, h => by
    simp only [List.map_cons, textRest, List.append_assoc] at h
    have h1 := List.append_cancel_left h
    obtain ⟨e1, e2⟩ := hs x List.mem_cons_self y List.mem_cons_self _ _ (ends_rest _ _) (ends_rest _ _) h1
    obtain ⟨e3, e4⟩ := textRest_rel xs ys (fun a ha b hb => hs a (List.mem_cons_of_mem _ ha) b (List.mem_cons_of_mem _ hb)) e2
    exact ⟨.cons e1 e3, e4⟩

theorem flatMap_eq_of_forall₂ {β : Type} {f : α → List β} : ∀ {xs ys : List α}, List.Forall₂ (fun x y => f x = f y) xs ys → xs.flatMap f = ys.flatMap f
  | _, _, .nil => rfl
  | _, _, .cons h h' => by rw [List.flatMap_cons, List.flatMap_cons, h, flatMap_eq_of_forall₂ h']

/-- Nodes with the same text have the same entries, whatever their levels are. -/
theorem textNode_entries (hb : Readable sb) (hk : Readable sk) (hv : Readable sv) : ∀ (l l' : Nat) (n n' : Node B K V), Shape l n → Shape l' n' →
    ∀ r r', textNode sb sk sv n ++ r = textNode sb sk sv n' ++ r' → n.entries = n'.entries ∧ r = r'
  | 0, 0, n, n', hs, hs', r, r', h => by
    obtain ⟨rfl, e⟩ := textNode_inj hb hk hv 0 n n' hs hs' r r' h
    exact ⟨rfl, e⟩
  | l + 1, l' + 1, .inner b (c :: cs), .inner b' (c' :: cs'), hs, hs', r, r', h => by
    rw [textNode, textNode, textNodes_eq, textNodes_eq] at h
    obtain ⟨rfl, h1⟩ := node_split hb h
    simp only [List.map_cons, textList, List.append_assoc] at h1
    have h2 := List.append_cancel_left h1
    have hsc : ∀ x ∈ c :: cs, Shape l x := hs
    have hsc' : ∀ x ∈ c' :: cs', Shape l' x := hs'
    obtain ⟨e1, h3⟩ := textNode_entries hb hk hv l l' c c' (hsc c List.mem_cons_self) (hsc' c' List.mem_cons_self) _ _ h2
    obtain ⟨e2, h4⟩ := textRest_rel (R := fun x y => x.entries = y.entries) cs cs' (fun x hx y hy r r' _ _ h =>
      textNode_entries hb hk hv l l' x y (hsc x (List.mem_cons_of_mem _ hx)) (hsc' y (List.mem_cons_of_mem _ hy)) r r' h) h3
    refine ⟨?_, List.append_cancel_left h4⟩
    rw [Node.entries, Node.entries, entriesList_flatMap, entriesList_flatMap]
    exact flatMap_eq_of_forall₂ (.cons e1 e2)
  | l + 1, l' + 1, .inner b [], .inner b' [], _, _, r, r', h => by
    rw [textNode, textNode, textNodes] at h
    obtain ⟨rfl, h1⟩ := node_split hb h
    exact ⟨rfl, List.append_cancel_left (List.append_cancel_left h1)⟩
  | l + 1, l' + 1, .inner b [], .inner b' (c :: cs), _, _, r, r', h => by
    rw [textNode, textNode, textNodes, textNodes_eq] at h
    obtain ⟨rfl, h1⟩ := node_split hb h
    obtain ⟨q, hq⟩ := textNode_head (sb := sb) (sk := sk) (sv := sv) c
    rw [List.map_cons, hq] at h1
    have h2 : '[' :: ']' :: (txt! " }" ++ r) = '[' :: 'N' :: (q ++ textRest (cs.map (textNode sb sk sv)) ++ (txt! " }" ++ r')) := h1
    simp at h2
  | l + 1, l' + 1, .inner b (c :: cs), .inner b' [], _, _, r, r', h => by
    rw [textNode, textNode, textNodes_eq, textNodes] at h
    obtain ⟨rfl, h1⟩ := node_split hb h
    obtain ⟨q, hq⟩ := textNode_head (sb := sb) (sk := sk) (sv := sv) c
    rw [List.map_cons, hq] at h1
    have h2 : '[' :: 'N' :: (q ++ textRest (cs.map (textNode sb sk sv)) ++ (txt! " }" ++ r)) = '[' :: ']' :: (txt! " }" ++ r') := h1
    simp at h2
  | 0, l' + 1, .leaf b [], .inner b' [], _, _, r, r', h => by
    rw [textNode, textNode, textNodes] at h
    obtain ⟨rfl, h1⟩ := node_split hb h
    exact ⟨rfl, List.append_cancel_left (List.append_cancel_left h1)⟩
  | l + 1, 0, .inner b [], .leaf b' [], _, _, r, r', h => by
    rw [textNode, textNode, textNodes] at h
    obtain ⟨rfl, h1⟩ := node_split hb h
    exact ⟨rfl, List.append_cancel_left (List.append_cancel_left h1)⟩
  | 0, l' + 1, .leaf b (e :: es), .inner b' [], _, _, r, r', h => by
    rw [textNode, textNode, textNodes] at h
    obtain ⟨rfl, h1⟩ := node_split hb h
    have h2 : '[' :: '(' :: (sk e.1 ++ txt! ", " ++ sv e.2 ++ txt! ")" ++ textRest (es.map (textPair sk sv)) ++ (txt! " }" ++ r)) = '[' :: ']' :: (txt! " }" ++ r') := h1
    simp at h2
  | l + 1, 0, .inner b [], .leaf b' (e :: es), _, _, r, r', h => by
    rw [textNode, textNode, textNodes] at h
    obtain ⟨rfl, h1⟩ := node_split hb h
    have h2 : '[' :: ']' :: (txt! " }" ++ r) = '[' :: '(' :: (sk e.1 ++ txt! ", " ++ sv e.2 ++ txt! ")" ++ textRest (es.map (textPair sk sv)) ++ (txt! " }" ++ r')) := h1
    simp at h2
  | 0, l' + 1, .leaf b es, .inner b' (c' :: cs'), _, _, r, r', h => by
    rw [textNode, textNode, textNodes_eq] at h
    obtain ⟨rfl, h1⟩ := node_split hb h
    obtain ⟨q, hq⟩ := textNode_head (sb := sb) (sk := sk) (sv := sv) c'
    rw [List.map_cons, hq] at h1
    cases es with
    | nil =>
      have h2 : '[' :: ']' :: (txt! " }" ++ r) = '[' :: 'N' :: (q ++ textRest (cs'.map (textNode sb sk sv)) ++ (txt! " }" ++ r')) := h1
      simp at h2
    | cons e es =>
      have h2 : '[' :: '(' :: (sk e.1 ++ txt! ", " ++ sv e.2 ++ txt! ")" ++ textRest (es.map (textPair sk sv)) ++ (txt! " }" ++ r)) =
        '[' :: 'N' :: (q ++ textRest (cs'.map (textNode sb sk sv)) ++ (txt! " }" ++ r')) := h1
      simp at h2
  | l + 1, 0, .inner b (c :: cs), .leaf b' es, _, _, r, r', h => by
    rw [textNode, textNode, textNodes_eq] at h
    obtain ⟨rfl, h1⟩ := node_split hb h
    obtain ⟨q, hq⟩ := textNode_head (sb := sb) (sk := sk) (sv := sv) c
    rw [List.map_cons, hq] at h1
    cases es with
    | nil =>
      have h2 : '[' :: 'N' :: (q ++ textRest (cs.map (textNode sb sk sv)) ++ (txt! " }" ++ r)) = '[' :: ']' :: (txt! " }" ++ r') := h1
      simp at h2
    | cons e es =>
      have h2 : '[' :: 'N' :: (q ++ textRest (cs.map (textNode sb sk sv)) ++ (txt! " }" ++ r)) =
        '[' :: '(' :: (sk e.1 ++ txt! ", " ++ sv e.2 ++ txt! ")" ++ textRest (es.map (textPair sk sv)) ++ (txt! " }" ++ r')) := h1
      simp at h2
  | 0, _ + 1, .inner _ _, _, hs, _, _, _, _ => hs.elim
  | 0, _ + 1, _, .leaf _ _, _, hs, _, _, _ => hs.elim
  | _ + 1, _, .leaf _ _, _, hs, _, _, _, _ => hs.elim
  | _ + 1, 0, _, .inner _ _, _, hs, _, _, _ => hs.elim
  | _ + 1, _ + 1, _, .leaf _ _, _, hs, _, _, _ => hs.elim

/-- Every inner node has a child. -/
def Full (n : Node B K V) : Prop := ∀ m ∈ n :: n.descendants, 1 ≤ m.fanout ∨ ∃ b es, m = .leaf b es

/-- Nodes with the same text have the same level, if no inner node is empty. -/
theorem textNode_level (hb : Readable sb) : ∀ (l l' : Nat) (n n' : Node B K V), Shape l n → Shape l' n' → Full n → Full n' →
    ∀ r r', textNode sb sk sv n ++ r = textNode sb sk sv n' ++ r' → l = l'
  | 0, 0, _, _, _, _, _, _, _, _, _ => rfl
  | l + 1, l' + 1, .inner b (c :: cs), .inner b' (c' :: cs'), hs, hs', hf, hf', r, r', h => by
    rw [textNode, textNode, textNodes_eq, textNodes_eq] at h
    obtain ⟨rfl, h1⟩ := node_split hb h
    simp only [List.map_cons, textList, List.append_assoc] at h1
    have h2 := List.append_cancel_left h1
    have := textNode_level hb l l' c c' ((show ∀ x ∈ c :: cs, Shape l x from hs) c List.mem_cons_self) ((show ∀ x ∈ c' :: cs', Shape l' x from hs') c' List.mem_cons_self)
      (fun m hm => hf m (by rw [Node.descendants, descendantsList]; simp at hm ⊢; tauto)) (fun m hm => hf' m (by rw [Node.descendants, descendantsList]; simp at hm ⊢; tauto)) _ _ h2
    rw [this]
  | 0, l' + 1, .leaf b es, .inner b' (c' :: cs'), _, _, _, _, r, r', h => by
    rw [textNode, textNode, textNodes_eq] at h
    obtain ⟨rfl, h1⟩ := node_split hb h
    obtain ⟨q, hq⟩ := textNode_head (sb := sb) (sk := sk) (sv := sv) c'
    rw [List.map_cons, hq] at h1
    cases es with
    | nil =>
      have h2 : '[' :: ']' :: (txt! " }" ++ r) = '[' :: 'N' :: (q ++ textRest (cs'.map (textNode sb sk sv)) ++ (txt! " }" ++ r')) := h1
      simp at h2
    | cons e es =>
      have h2 : '[' :: '(' :: (sk e.1 ++ txt! ", " ++ sv e.2 ++ txt! ")" ++ textRest (es.map (textPair sk sv)) ++ (txt! " }" ++ r)) =
        '[' :: 'N' :: (q ++ textRest (cs'.map (textNode sb sk sv)) ++ (txt! " }" ++ r')) := h1
      simp at h2
  | l + 1, 0, .inner b (c :: cs), .leaf b' es, _, _, _, _, r, r', h => by
    rw [textNode, textNode, textNodes_eq] at h
    obtain ⟨rfl, h1⟩ := node_split hb h
    obtain ⟨q, hq⟩ := textNode_head (sb := sb) (sk := sk) (sv := sv) c
    rw [List.map_cons, hq] at h1
    cases es with
    | nil =>
      have h2 : '[' :: 'N' :: (q ++ textRest (cs.map (textNode sb sk sv)) ++ (txt! " }" ++ r)) = '[' :: ']' :: (txt! " }" ++ r') := h1
      simp at h2
    | cons e es =>
      have h2 : '[' :: 'N' :: (q ++ textRest (cs.map (textNode sb sk sv)) ++ (txt! " }" ++ r)) =
        '[' :: '(' :: (sk e.1 ++ txt! ", " ++ sv e.2 ++ txt! ")" ++ textRest (es.map (textPair sk sv)) ++ (txt! " }" ++ r')) := h1
      simp at h2
  | l + 1, _, .inner b [], _, _, _, hf, _, _, _, _ => by
    rcases hf _ List.mem_cons_self with h | ⟨_, _, h⟩
    · simp [Node.fanout] at h
    · cases h
  | _, l' + 1, _, .inner b [], _, _, _, hf, _, _, _ => by
    rcases hf _ List.mem_cons_self with h | ⟨_, _, h⟩
    · simp [Node.fanout] at h
    · cases h
  | 0, _ + 1, .inner _ _, _, hs, _, _, _, _, _, _ => hs.elim
  | 0, _ + 1, _, .leaf _ _, _, hs, _, _, _, _, _ => hs.elim
  | _ + 1, _, .leaf _ _, _, hs, _, _, _, _, _, _ => hs.elim
  | _ + 1, 0, _, .inner _ _, _, hs, _, _, _, _, _ => hs.elim
  | _ + 1, _ + 1, _, .leaf _ _, _, hs, _, _, _, _, _ => hs.elim

end

/-! ## Numbers, vectors, boxes -/

/-- The number written by some digits. -/
def number (ds : List Char) : Nat := ds.foldl (fun n d => n * 10 + (d.toNat - 48)) 0

theorem digit_toNat {n : Nat} (h : n < 10) : (Char.ofNat (48 + n)).toNat - 48 = n ∧ Char.ofNat (48 + n) ∉ [',', ' ', ')', ']', '}', '-'] := by
  have : ∀ m : Fin 10, (Char.ofNat (48 + m.1)).toNat - 48 = m.1 ∧ Char.ofNat (48 + m.1) ∉ [',', ' ', ')', ']', '}', '-'] := by decide +kernel
  exact this ⟨n, h⟩

theorem number_decimal : ∀ (fuel n : Nat), n < 10 ^ fuel → number (decimal fuel n) = n
  | 0, n, h => by
    have : n = 0 := by simpa using h
    subst this; rfl
  | fuel + 1, n, h => by
    rw [decimal]
    split
    next hn =>
      show 0 * 10 + ((Char.ofNat (48 + n)).toNat - 48) = n
      rw [(digit_toNat hn).1]; omega
    next hn =>
      have hlt : n / 10 < 10 ^ fuel := by
        rw [Nat.div_lt_iff_lt_mul (by omega)]
        rwa [← pow_succ]
      have ih := number_decimal fuel (n / 10) hlt
      unfold number at ih ⊢
      rw [List.foldl_append, ih]
      show n / 10 * 10 + ((Char.ofNat (48 + n % 10)).toNat - 48) = n
      rw [(digit_toNat (Nat.mod_lt n (by omega))).1]
      omega

theorem decimal_plain : ∀ (fuel n : Nat), ∀ c ∈ decimal fuel n, c ∉ [',', ' ', ')', ']', '}', '-']
  | 0, _, c, hc => by simp [decimal] at hc
  | fuel + 1, n, c, hc => by
    rw [decimal] at hc
    split at hc
    next hn => rw [List.mem_singleton] at hc; subst hc; exact (digit_toNat hn).2
    next hn =>
      rcases List.mem_append.1 hc with hc | hc
      · exact decimal_plain fuel _ c hc
      · rw [List.mem_singleton] at hc; subst hc; exact (digit_toNat (Nat.mod_lt n (by omega))).2

/-- The text of an `i32`. -/
def textI32 (x : I32) : List Char := if x.1 < 0 then '-' :: decimal 10 x.1.natAbs else decimal 10 x.1.natAbs

theorem debugI32_writes (x : I32) : Writes (debugI32 x) (textI32 x) := Writes.write _

theorem readable_i32 : Readable textI32 := by
  have weak : ∀ {c : Char}, c ∉ [',', ' ', ')', ']', '}', '-'] → c ∉ [',', ' ', ')', ']', '}'] := fun h h' => h (by
    simp only [List.mem_cons, List.not_mem_nil, or_false] at h' ⊢
    tauto)
  refine readable_of_plain (fun x ch hc => ?_) fun x y h => ?_
  · unfold textI32 at hc
    split at hc
    · rcases List.mem_cons.1 hc with rfl | hc
      · decide
      · exact weak (decimal_plain _ _ _ hc)
    · exact weak (decimal_plain _ _ _ hc)
  · have hx : number (decimal 10 x.1.natAbs) = x.1.natAbs := number_decimal 10 _ (by have := x.2; norm_num; omega)
    have hy : number (decimal 10 y.1.natAbs) = y.1.natAbs := number_decimal 10 _ (by have := y.2; norm_num; omega)
    have minus : ∀ n q, decimal 10 n ≠ '-' :: q := fun n q e => decimal_plain 10 n '-' (by rw [e]; simp) (by simp)
    unfold textI32 at h
    refine Subtype.ext ?_
    by_cases h1 : x.1 < 0
    · by_cases h2 : y.1 < 0
      · rw [if_pos h1, if_pos h2, List.cons.injEq] at h
        rw [h.2, hy] at hx
        omega
      · rw [if_pos h1, if_neg h2] at h
        exact absurd h.symm (minus _ _)
    · by_cases h2 : y.1 < 0
      · rw [if_neg h1, if_pos h2] at h
        exact absurd h (minus _ _)
      · rw [if_neg h1, if_neg h2] at h
        rw [h, hy] at hx
        omega

/-- The text of a vector. -/
def textSVec {N : Type} {D : Nat} (sn : N → List Char) (v : SVec N D) : List Char := textList (v.toList.map sn)

/-- The text of a box. -/
def textBox {N : Type} {D : Nat} (sn : N → List Char) (b : AABB N D) : List Char :=
  txt! "AABB { min: " ++ textSVec sn b.min ++ txt! ", max: " ++ textSVec sn b.max ++ txt! " }"

theorem debugSVec_writes {N : Type} {D : Nat} {dn : N → M Unit} {sn : N → List Char} (h : ∀ x, Writes (dn x) (sn x)) (v : SVec N D) :
    Writes (debugSVec dn v) (textSVec sn v) := debugList_writes _ fun x _ => h x

theorem debugBox_writes {N : Type} {D : Nat} {dn : N → M Unit} {sn : N → List Char} (h : ∀ x, Writes (dn x) (sn x)) (b : AABB N D) :
    Writes (debugBox dn b) (textBox sn b) :=
  (debugStruct_two (name := txt! "AABB") (f := txt! "min") (g := txt! "max") (debugSVec_writes h b.min) (debugSVec_writes h b.max)).of_eq
    (by simp only [textBox, List.append_assoc, List.cons_append, List.nil_append])

theorem readable_svec {N : Type} {D : Nat} {sn : N → List Char} (h : Readable sn) (h0 : ∀ x q, sn x ≠ ']' :: q ∧ sn x ≠ []) : Readable (textSVec sn : SVec N D → List Char) := by
  intro x y r r' _ _ e
  obtain ⟨e1, e2⟩ := textList_inj x.toList y.toList (fun z _ => h0 z) (fun z _ => h0 z) (fun a _ b _ => h a b) e
  refine ⟨SVec.ext (funext fun i => ?_), e2⟩
  have hg : ∀ v : SVec N D, v.toList[i.1]? = some (v.get i) := fun v => by
    simp [SVec.toList]
  have h1 := hg x
  rw [e1, hg y] at h1
  exact (Option.some.inj h1).symm

theorem readable_box {N : Type} {D : Nat} {sn : N → List Char} (h : Readable sn) (h0 : ∀ x q, sn x ≠ ']' :: q ∧ sn x ≠ []) : Readable (textBox sn : AABB N D → List Char) := by
  rintro ⟨a, b⟩ ⟨a', b'⟩ r r' _ _ e
  simp only [textBox, List.append_assoc] at e
  have e1 := List.append_cancel_left e
  obtain ⟨rfl, e2⟩ := readable_svec h h0 a a' _ _ (by simp [Ends]) (by simp [Ends]) e1
  have e3 := List.append_cancel_left e2
  obtain ⟨rfl, e4⟩ := readable_svec h h0 b b' _ _ (by simp [Ends]) (by simp [Ends]) e3
  exact ⟨rfl, List.append_cancel_left e4⟩

theorem textI32_start (x : I32) (q : List Char) : textI32 x ≠ ']' :: q ∧ textI32 x ≠ [] := by
  constructor
  · intro e
    unfold textI32 at e
    split at e
    · simp at e
    · exact decimal_plain 10 _ ']' (by rw [e]; simp) (by simp)
  · intro e
    unfold textI32 at e
    split at e
    · simp at e
    · rw [decimal] at e
      split at e <;> simp at e

end RTree.Fmt
