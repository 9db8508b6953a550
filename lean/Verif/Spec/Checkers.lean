/-!
# Specification for C26, C27, C48–C50
-/
namespace Ccpp.Chk

/-- The text with every character of a character literal (delimiters included) blanked out; `q` is the
delimiter of the literal the text starts in. -/
def mask (q : Option Char) : List Char → List Char
  | [] => []
  | c :: s =>
    match q with
    | none => if c = '"' ∨ c = '\'' then ' ' :: mask (some c) s else c :: mask none s
    | some k => ' ' :: mask (if c = k then none else some k) s

/-- Open minus closed parentheses in a text. -/
def balance (t : List Char) : Int := (t.count '(' : Int) - t.count ')'

/-- Position `i` holds an opening parenthesis and no parenthesis comes before it. -/
def FirstOpen (t : List Char) (i : Nat) : Prop :=
  t[i]? = some '(' ∧ ∀ k, k < i → t[k]? ≠ some '(' ∧ t[k]? ≠ some ')'

/-- The parenthesis opened at `i` is closed at `j`. -/
def Matching (t : List Char) (i j : Nat) : Prop :=
  i < j ∧ j < t.length ∧ balance ((t.drop i).take (j + 1 - i)) = 0 ∧
    ∀ k, i < k → k ≤ j → 0 < balance ((t.drop i).take (k - i))

/-- A legal Fortran name, disregarding its length. -/
def IsName (s : List Char) : Prop :=
  ∃ c cs, s = c :: cs ∧ c.isAlpha = true ∧ ∀ x ∈ cs, x.isAlphanum = true ∨ x = '_'

/-- Python's `digit (["_"] digit)*`. -/
inductive DigitSeq : List Char → Prop
  | one {c} : c.isDigit = true → DigitSeq [c]
  | more {c s} : c.isDigit = true → DigitSeq s → DigitSeq (c :: s)
  | underscore {c s} : c.isDigit = true → DigitSeq s → DigitSeq (c :: '_' :: s)

/-- An integer as accepted by Python. -/
def IsInt (s : List Char) : Prop :=
  DigitSeq s ∨ ∃ t, (s = '+' :: t ∨ s = '-' :: t) ∧ DigitSeq t

/-- A component of a dimension: an integer, or a name of at most maxLen characters (if that is
positive). -/
def DimPart (maxLen : Nat) (t : List Char) : Prop :=
  IsInt t ∨ (IsName t ∧ (maxLen = 0 ∨ t.length ≤ maxLen))

end Ccpp.Chk
