import Verif.Model.PrebuildArgs
import Verif.Spec.PrebuildNames
/-!
# Specification for C77: conditions in the caps

Independent of the model, except for `lower` and `isWs` (white space).
-/
namespace Ccpp.CD
open PB (IsName IsDigits joined)

/-- An element of a condition: a standard name, a number, an operator (also a logical constant or a parenthesis), a blank -/
inductive Tok where
  | name (n : List Char)
  | num (d : List Char)
  | op (o : String)
  | blank
deriving DecidableEq

/-- The operators of Fortran for logical conditions, in lower case -/
def operators : List String :=
  ["(", ")", "==", "/=", "<=", ">=", "<", ">", ".eqv.", ".neqv.", ".true.", ".false.", ".lt.", ".le.", ".eq.", ".ge.", ".gt.", ".ne.", ".not.",
   ".and.", ".or.", ".xor."]

/-- The text of an element -/
def Tok.text : Tok → List Char
  | .name n => n
  | .num d => d
  | .op o => o.toList
  | .blank => [' ']

/-- An integer literal: digits, with or without a kind (or Python's groups of digits) -/
def IsNumber (s : List Char) : Prop := ∃ l, l ≠ [] ∧ (∀ d ∈ l, IsDigits d) ∧ s = joined '_' l

/-- The element is legal. -/
def Tok.Ok : Tok → Prop
  | .name n => IsName n
  | .num d => IsNumber d
  | .op o => o ∈ operators
  | .blank => True

/-- A name or a number -/
def Tok.Word : Tok → Prop
  | .name _ => True
  | .num _ => True
  | _ => False

/-- Two elements can stand side by side: two words need something between them, and `<` or `>` followed by `==` would be read as another operator. -/
def Apart (a b : Tok) : Prop := ¬ (a.Word ∧ b.Word) ∧ ¬ ((a = .op "<" ∨ a = .op ">") ∧ b = .op "==")

/-- A condition: legal elements that can stand side by side -/
def Condition : List Tok → Prop
  | [] => True
  | [a] => a.Ok
  | a :: b :: l => a.Ok ∧ Apart a b ∧ Condition (b :: l)

/-- The text of a condition -/
def text (l : List Tok) : List Char := l.flatMap Tok.text

/-- The names in a condition, in lower case, in order -/
def names : List Tok → List (List Char)
  | [] => []
  | .name n :: l => lower n :: names l
  | _ :: l => names l

/-- The element as it is written for the compiler: the local name for a name, all else as it is -/
def Tok.out (loc : List Char → List Char) : Tok → List Char
  | .name n => loc (lower n)
  | t => t.text

/-- The condition as it is written for the compiler -/
def written (loc : List Char → List Char) (l : List Tok) : List Char := l.flatMap (Tok.out loc)

/-- Elements that are each followed by white space, or none -/
def spaced (l : List (Tok × List Char)) : List Char := l.flatMap fun p => p.1.text ++ p.2

/-- The elements of such a text with one blank for white space between them -/
def tidy : List (Tok × List Char) → List Tok
  | [] => []
  | [p] => [p.1]
  | p :: q :: l => if p.2 = [] then p.1 :: tidy (q :: l) else p.1 :: .blank :: tidy (q :: l)

/-- Letters, digits and other characters that are never lost -/
def solid (c : Char) : Bool := c.isAlphanum || c == '_' || c == '\'' || c == ' ' || c == '(' || c == ')' || c == '<' || c == '>'

/-- The parentheses are balanced. -/
def Closed (l : List Tok) : Prop :=
  (∀ p, p <+: l → p.count (.op ")") ≤ p.count (.op "(")) ∧ l.count (.op "(") = l.count (.op ")")

/-- An if statement for a condition -/
def IfStmt (s : List Char) (loc : List Char → List Char) (l : List Tok) : Prop := s = "if (".toList ++ written loc l ++ ") then".toList

end Ccpp.CD
