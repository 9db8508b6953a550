import Verif.Model.ErrorVars
/-!
# Specification of the error variables of the constituent routines
-/
namespace Ccpp.EV

/-- Actual arguments that are given by keywords. -/
inductive Keywords : Str → List (Str × Str) → Prop where
  | one {k a : Str} : Keywords (k ++ ['='] ++ a) [(k, a)]
  | cons {k a t : Str} {l : List (Str × Str)} : Keywords t l → Keywords (k ++ ['='] ++ a ++ [',', ' '] ++ t) ((k, a) :: l)

/-- The dictionary knows the variables by their standard names. -/
def ByName (find : Str → Option Var) : Prop := ∀ n v, find n = some v → v.std = n

/-- The local name of the variable with this standard name. -/
def Known (find : Str → Option Var) (std lname : Str) : Prop := lname ≠ [] ∧ ∃ v, find std = some v ∧ v.lname = lname

end Ccpp.EV
