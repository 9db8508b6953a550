import Verif.Model.SourcePlace
/-!
# Specification of places in messages

Lines of messages are counted from one; a place may be a file without a line.
-/
namespace Ccpp.PL

/-- The last part of the path. -/
def LastPart (f b : Str) : Prop := '/' ∉ b ∧ ∃ d, f = d ++ b ∧ (d = [] ∨ ∃ e, d = e ++ ['/'])

/-- The text is the one of the place: the file, and after a colon the decimal number of the line, if there is one. -/
def PlaceText (file : Str) (line : Option Nat) (t : Str) : Prop :=
  (line = none ∧ t = file) ∨ ∃ n, line = some n ∧ t = file ++ [':'] ++ Nat.toDigits 10 n

/-- The number of the line, counted from one, after these steps from the line `l`, counted from one (none: no line so far). -/
def LineAfter (l : Option Nat) (steps : List Nat) : Option Nat :=
  match l, steps with
  | none, [] => none
  | none, s :: r => some (1 + (s :: r).sum)
  | some n, r => some (n + r.sum)

end Ccpp.PL
