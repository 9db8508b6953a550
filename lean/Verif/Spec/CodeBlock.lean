/-!
# Specification for C23: templates

A template line is a sequence of pieces; `text` is how it is written down, `value` what it stands for.
-/
namespace Ccpp.CB

/-- Literal text, an escaped brace, or a replacement field. -/
inductive Piece where
  | lit (s : List Char)
  | lbrace
  | rbrace
  | var (name : List Char)

/-- Literal text has no braces; the name of a field is an identifier. -/
def Piece.Wf : Piece → Prop
  | .lit s => ∀ c ∈ s, c ≠ '{' ∧ c ≠ '}'
  | .lbrace | .rbrace => True
  | .var n => ∃ c cs, n = c :: cs ∧ c.isAlpha = true ∧
      ∀ x ∈ cs, x.isAlphanum = true ∨ x = '_'

def Piece.text : Piece → List Char
  | .lit s => s
  | .lbrace => ['{', '{']
  | .rbrace => ['}', '}']
  | .var n => ['{'] ++ n ++ ['}']

def Piece.value (d : List Char → Option (List Char)) : Piece → List Char
  | .lit s => s
  | .lbrace => ['{']
  | .rbrace => ['}']
  | .var n => (d n).getD []

def text (ps : List Piece) : List Char := ps.flatMap Piece.text

def value (d : List Char → Option (List Char)) (ps : List Piece) : List Char :=
  ps.flatMap (Piece.value d)

/-- The names used in a line. -/
def names : List Piece → List (List Char)
  | [] => []
  | .var n :: ps => n :: names ps
  | _ :: ps => names ps

end Ccpp.CB
