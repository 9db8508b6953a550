import Verif.Model.LoopActions
/-!
# Specification for C96: what the written statements do
-/
namespace Ccpp.LoopAct

/-- A Fortran name. -/
def IsName (x : Str) : Prop := (∃ c, x.head? = some c ∧ isLetter c = true) ∧ ∀ c ∈ x, isWordC c = true

/-- A Fortran assignment, the name of its left-hand side and the value of its right-hand side. -/
inductive Means : Str → Str → ((Str → Int) → Int) → Prop
  | one (x : Str) : IsName x → Means (x ++ " = 1".toList) x fun _ => 1
  | copy (x y : Str) : IsName x → IsName y → Means (x ++ " = ".toList ++ y) x fun env => env y
  | size (x a b : Str) : IsName x → IsName a → IsName b →
      Means (x ++ " = ".toList ++ a ++ " - ".toList ++ b ++ " + 1".toList) x fun env => env a - env b + 1

/-- Execution of statements, one after the other. -/
inductive Runs : List Str → (Str → Int) → (Str → Int) → Prop
  | nil (env : Str → Int) : Runs [] env env
  | cons (text : Str) (rest : List Str) (x : Str) (f : (Str → Int) → Int) (env env' : Str → Int) : Means text x f →
      Runs rest (fun y => if y = x then f env else env y) env' → Runs (text :: rest) env env'

/-- The local name of a variable in a group. -/
def Named (g : Grp) (std local_ : Str) : Prop := (std, local_) ∈ g.own ∨ (std, local_) ∈ g.args

/-- What the loop variable `std` computed by a group must be, given the values of the local names. -/
def Right (g : Grp) (env : Str → Int) (std x : Str) : Prop :=
  (std = "horizontal_loop_extent".toList → ∃ b e, Named g "horizontal_loop_begin".toList b ∧
    Named g "horizontal_loop_end".toList e ∧ env x = env e - env b + 1) ∧
  (std = "horizontal_loop_begin".toList → env x = 1) ∧
  (std = "horizontal_loop_end".toList → ∃ n, Named g "horizontal_loop_extent".toList n ∧ env x = env n)

/-- A scalar that is needed. -/
def IsNeed : Event → Prop
  | .need _ => True
  | .create _ _ => False

end Ccpp.LoopAct
