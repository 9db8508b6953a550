import Verif.Model.LongName
/-!
# Specification for C100: the long name of a standard name
-/
namespace Ccpp.LongName

/-- There is a digit at this place. -/
def DigitAt (s : Str) (i : Nat) : Prop := ∃ c, s[i]? = some c ∧ c.isDigit = true

/-- The p between two digits at place `i`, which stands for a decimal point. -/
def PointAt (s : Str) (i : Nat) : Prop := 0 < i ∧ s[i]? = some 'p' ∧ DigitAt s (i - 1) ∧ DigitAt s (i + 1)

/-- The long name: of the same length; the first character is a capital, underscores are blanks, a p between digits is a
point, and all else is as in the name. -/
structure IsLongName (s l : Str) : Prop where
  length : l.length = s.length
  first : ∀ c, s[0]? = some c → l[0]? = some c.toUpper
  blank : ∀ i, 0 < i → s[i]? = some '_' → l[i]? = some ' '
  point : ∀ i, PointAt s i → l[i]? = some '.'
  other : ∀ i c, 0 < i → s[i]? = some c → c ≠ '_' → ¬ PointAt s i → l[i]? = some c

end Ccpp.LongName
