import Verif.Model.Text
/-!
# Specification for C39 and C53
-/
namespace Ccpp.Env

/-- `kind` is the text `name = spec`, with white space around the parts and no other `=`. -/
def IsKind (kind name spec : List Char) : Prop :=
  ∃ l r, kind = l ++ '=' :: r ∧ '=' ∉ l ∧ '=' ∉ r ∧ strip l = name ∧ strip r = spec

/-- The last specification given for `name`. -/
def LastSpec (kinds : List (List Char)) (name spec : List Char) : Prop :=
  ∃ before k after, kinds = before ++ k :: after ∧ IsKind k name spec ∧
    ∀ k' ∈ after, ∀ s, ¬ IsKind k' name s

/-- A definition item: `-DNAME`, `NAME`, `-DNAME=value` or `NAME=value`. -/
def IsDef (item name : List Char) (value : Option (List Char)) : Prop :=
  ∃ key, (name = key ∧ key.take 2 ≠ "-D".toList ∨ key = "-D".toList ++ name) ∧
    match value with
    | none => strip item = key ∧ '=' ∉ item
    | some v => ∃ l r, item = l ++ '=' :: r ∧ '=' ∉ l ∧ strip l = key ∧ strip r = v

/-- `sep.join(items)`. -/
def joinC (sep : Char) : List (List Char) → List Char
  | [] => []
  | [x] => x
  | x :: xs => x ++ sep :: joinC sep xs

end Ccpp.Env
