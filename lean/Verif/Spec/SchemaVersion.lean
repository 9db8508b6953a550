import Verif.Model.SchemaVersion
import Verif.Spec.Checkers
import Verif.Spec.FortranDecl
/-!
# Specification of versions and schema files
-/
namespace Ccpp.SV

/-- The digits `s`, with single underscores between them, after the number `acc` give the number `n`. -/
inductive Value : Nat → Str → Nat → Prop
  | one {acc c} : c.isDigit = true → Value acc [c] (10 * acc + (c.toNat - '0'.toNat))
  | more {acc c s n} : c.isDigit = true → Value (10 * acc + (c.toNat - '0'.toNat)) s n → Value acc (c :: s) n
  | underscore {acc c s n} : c.isDigit = true → Value (10 * acc + (c.toNat - '0'.toNat)) s n → Value acc (c :: '_' :: s) n

/-- An integer: digits with or without a sign, maybe with blanks around it. -/
def IntText (s : Str) (k : Int) : Prop :=
  ∃ a t b, FDecl.Blank a ∧ FDecl.Blank b ∧ s = a ++ t ++ b ∧
    ∃ n : Nat, (Value 0 t n ∧ k = n) ∨ ∃ u, Value 0 u n ∧ ((t = '+' :: u ∧ k = n) ∨ (t = '-' :: u ∧ k = -n))

/-- A version: two integers with a period between them, the first one positive and the second one not negative. -/
def IsVersion (s : Str) (a b : Int) : Prop :=
  ∃ x y, s = x ++ '.' :: y ∧ '.' ∉ x ∧ '.' ∉ y ∧ IntText x a ∧ IntText y b ∧ 0 < a ∧ 0 ≤ b

/-- The schema file of a version: `root_vA_B.xsd` with decimal numbers, in the directory. -/
def SchemaPath (root dir : Str) (a b : Nat) (f : Str) : Prop :=
  let name := root ++ "_v".toList ++ Nat.toDigits 10 a ++ "_".toList ++ Nat.toDigits 10 b ++ ".xsd".toList
  (dir = [] ∧ f = name) ∨
  (∃ d, dir = d ++ "/".toList ∧ f = d ++ "/".toList ++ name) ∨ (dir ≠ [] ∧ (∀ d, dir ≠ d ++ "/".toList) ∧ f = dir ++ "/".toList ++ name)

end Ccpp.SV
