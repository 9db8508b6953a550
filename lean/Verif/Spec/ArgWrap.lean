import Verif.Model.ArgWrap
import Verif.Spec.VarRef
/-!
# Specification for C94: what a Fortran compiler sees of a continued argument list
-/
namespace Ccpp.ArgW

/-- The statement without continuations and without blanks (which do not matter between names). -/
def logical : Str → Str
  | '&' :: '\n' :: s => logical s
  | ' ' :: s => logical s
  | c :: s => c :: logical s
  | [] => []

/-- A name of an argument. -/
def Plain (a : Str) : Prop := a ≠ [] ∧ ' ' ∉ a ∧ '&' ∉ a ∧ '\n' ∉ a ∧ ',' ∉ a

/-- No line of the text has more than `n` characters. -/
def LinesAtMost (n : Nat) (text : Str) : Prop :=
  ∀ before line after, text = before ++ line ++ after → '\n' ∉ line → line.length ≤ n

end Ccpp.ArgW
