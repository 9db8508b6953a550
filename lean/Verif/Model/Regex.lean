import Verif.Model.Text
/-!
# Python regular expressions without groups

A regular expression as data and a matcher by derivatives. (Python library: re)
-/
namespace Ccpp.Rx

/-- Regular expressions: a character of a class, sequence, alternative, repetition. (Python library: re) -/
inductive Re where
  | none
  | eps
  | chr (p : Char → Bool)
  | seq (a b : Re)
  | alt (a b : Re)
  | star (a : Re)

/-- Does the expression match the empty text? (Python library: re) -/
def Re.nullable : Re → Bool
  | .none => false
  | .eps => true
  | .chr _ => false
  | .seq a b => a.nullable && b.nullable
  | .alt a b => a.nullable || b.nullable
  | .star _ => true

/-- What is left to match after the character c. (Python library: re) -/
def Re.deriv (c : Char) : Re → Re
  | .none => .none
  | .eps => .none
  | .chr p => if p c then .eps else .none
  | .seq a b => if a.nullable then .alt (.seq (a.deriv c) b) (b.deriv c) else .seq (a.deriv c) b
  | .alt a b => .alt (a.deriv c) (b.deriv c)
  | .star a => .seq (a.deriv c) (.star a)

/-- Does the expression match the whole text? (Python library: re.fullmatch) -/
def Re.full (r : Re) : List Char → Bool
  | [] => r.nullable
  | c :: s => (r.deriv c).full s

/-- `re.match(r + "$", s) is not None`: `$` also matches before a newline at the end. (Python library: re) -/
def Re.dollar (r : Re) (s : List Char) : Bool :=
  r.full s || (s.getLast? == some '\n' && r.full s.dropLast)

/-- A literal character. (Python library: re) -/
def Re.lit (c : Char) : Re := .chr (· == c)

/-- A literal text. (Python library: re) -/
def Re.text : List Char → Re
  | [] => .eps
  | c :: s => .seq (.lit c) (Re.text s)

/-- `r+` (Python library: re) -/
def Re.plus (r : Re) : Re := .seq r (.star r)

/-- `r?` (Python library: re) -/
def Re.opt (r : Re) : Re := .alt .eps r

/-- `r{0,n}` (Python library: re) -/
def Re.upTo (r : Re) : Nat → Re
  | 0 => .eps
  | n + 1 => .alt .eps (.seq r (r.upTo n))

end Ccpp.Rx
