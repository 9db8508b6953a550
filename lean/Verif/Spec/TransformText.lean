import Verif.Model.TransformText
import Verif.Props.Units
import Verif.Spec.VarRef
/-!
# Specification for C93: Fortran assignments and what they compute
-/
namespace Ccpp.TText

/-- Fortran expressions with real values. -/
inductive Expr where
  | ref (name : Str) (idx : List Str)
  | real (e : Expr) (kind : Str)
  | lit (digits kind : Str)
  | bin (op : Char) (l r : Expr)

/-- A reference to a variable, with subscripts if there are any. -/
def refText (name : Str) (idx : List Str) : Str :=
  if idx = [] then name else name ++ "(".toList ++ VRef.sepBy ",".toList idx ++ ")".toList

/-- The text of an expression. -/
def Expr.text : Expr → Str
  | .ref n idx => refText n idx
  | .real e k => "real(".toList ++ e.text ++ ", ".toList ++ k ++ ")".toList
  | .lit d k => d ++ if k = [] then [] else '_' :: k
  | .bin op l r => l.text ++ [op] ++ r.text

/-- The value of an expression; `x` is the value of the only variable. -/
def Expr.value (x : Rat) : Expr → Option Rat
  | .ref _ _ => some x
  | .real e _ => e.value x
  | .lit d _ => Units.literal d
  | .bin op l r =>
    match l.value x, r.value x with
    | some a, some b =>
      if op = '*' then some (a * b) else if op = '/' then (if b = 0 then none else some (a / b))
      else if op = '+' then some (a + b) else if op = '-' then some (a - b) else none
    | _, _ => none

/-- The variables that occur. -/
def Expr.refs : Expr → List (Str × List Str)
  | .ref n idx => [(n, idx)]
  | .real e _ => e.refs
  | .lit _ _ => []
  | .bin _ l r => l.refs ++ r.refs

/-- The expression has the kind `k`, without mixing kinds; `kv` is the kind of the variable and `same` says that two
names of kinds are the same kind. -/
def Expr.HasKind (same : Str → Str → Prop) (kv k : Str) : Expr → Prop
  | .ref _ _ => same kv k
  | .real _ k' => k' ≠ [] ∧ same k' k
  | .lit _ k' => same k' k
  | .bin _ l r => l.HasKind same kv k ∧ r.HasKind same kv k

/-- The text is an assignment to `(lname, lidx)` of a value computed from `(rname, ridx)` of kind `kv`, of kind `k`,
and `f` is what is computed. -/
def Converts (same : Str → Str → Prop) (lname : Str) (lidx : List Str) (rname : Str) (ridx : List Str) (kv k : Str)
    (f : Rat → Rat → Prop) (text : Str) : Prop :=
  ∃ e : Expr, text = refText lname lidx ++ " = ".toList ++ e.text ∧ e.refs = [(rname, ridx)] ∧
    e.HasKind same kv k ∧ ∀ x, ∃ y, e.value x = some y ∧ f x y

/-- Two kinds are the same: equal, or their specifications in the framework's kind table are equal. -/
def SameKind (spec : Option Str → Option Str) (a b : Str) : Prop :=
  (spec (some a)).getD a = (spec (some b)).getD b

/-- `y` in units `u2` is the same quantity as `x` in units `u1`. -/
def SameQuantity (u1 u2 : Str) (x y : Rat) : Prop :=
  ((u1 = u2 ∨ lower u1 = "none".toList ∧ lower u2 = "none".toList) ∧ y = x) ∨
    ∃ w1 w2, Units.StandsFor u1 w1 ∧ Units.StandsFor u2 w2 ∧ w1.2.dim = w2.2.dim ∧ w2.2.base y = w1.2.base x

end Ccpp.TText
