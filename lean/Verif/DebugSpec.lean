import Verif.Model.Debug
import Verif.Spec
/-!
# What the `Debug` output of a tree should be

Texts are lists of characters.
-/

namespace RTree.Fmt

variable {B K V α : Type}

/-- The rest of a list in brackets. -/
def textRest : List (List Char) → List Char
  | [] => txt! "]"
  | x :: xs => txt! ", " ++ x ++ textRest xs

/-- A list in brackets, separated by commas. -/
def textList : List (List Char) → List Char
  | [] => txt! "[]"
  | x :: xs => txt! "[" ++ x ++ textRest xs

/-- The text of a node with these texts for its bounds and for the list of its children. -/
def textParts (bounds children : List Char) : List Char := txt! "Node { bounds: " ++ bounds ++ txt! ", node: " ++ children ++ txt! " }"

section

variable (sb : B → List Char) (sk : K → List Char) (sv : V → List Char)

/-- A pair in parentheses. -/
def textPair (e : K × V) : List Char := txt! "(" ++ sk e.1 ++ txt! ", " ++ sv e.2 ++ txt! ")"

mutual
/-- A node: its bounds, and its entries or its children. -/
def textNode : Node B K V → List Char
  | .leaf b es => textParts (sb b) (textList (es.map (textPair sk sv)))
  | .inner b cs => textParts (sb b) (textList (textNodes cs))
/-- The texts of some nodes. -/
def textNodes : List (Node B K V) → List (List Char)
  | [] => []
  | c :: cs => textNode c :: textNodes cs
end

/-- A tree: its root. -/
def textTree (t : Tree B K V) : List Char := txt! "RTree { root: " ++ textNode sb sk sv t.root ++ txt! " }"

end

/-- This computation writes this text: all of it if it returns; some beginning of it if the sink stops taking characters; and it does return if the sink takes
    everything. -/
def Writes (x : M Unit) (s : List Char) : Prop :=
  ∀ (k : Sink) (t : List Char),
    (x k t = (.ok (), t ++ s) ∨ ∃ p, p <+: s ∧ x k t = (.error .err, t ++ p)) ∧ ((∀ t s, s.length ≤ k t s) → x k t = (.ok (), t ++ s))

/-- These texts occur one after the other, in this order, in the text. -/
def InOrder : List (List Char) → List Char → Prop
  | [], _ => True
  | s :: ss, t => ∃ a b, t = a ++ s ++ b ∧ InOrder ss b

/-- Nothing, or something that starts with one of the characters that end the text of a value in a list, a pair or a struct. -/
def Ends : List Char → Prop
  | [] => True
  | c :: _ => c ∈ [',', ' ', ')', ']', '}']

/-- Different values have different texts, also if it is not said where the text ends. -/
def Readable (s : α → List Char) : Prop := ∀ x y r r', Ends r → Ends r' → s x ++ r = s y ++ r' → x = y ∧ r = r'

end RTree.Fmt
