import Verif.Model.Preproc
/-!
# Specification of the spelling of preprocessor directives and of the table of definitions (C43)
-/
namespace Ccpp.Preproc.Spec
open Ccpp.Preproc

/-- Only white space (possibly nothing). -/
def White (s : List Char) : Prop := ∀ c ∈ s, isWs c = true

/-- At least one white-space character. -/
def Gap (s : List Char) : Prop := s ≠ [] ∧ White s

/-- A preprocessor symbol. -/
def Symbol (k : List Char) : Prop := k ≠ [] ∧ ∀ c ∈ k, isWordC c = true

/-- Text without white space at either end. -/
def Trimmed (c : List Char) : Prop :=
  (∃ a r, c = a :: r ∧ isWs a = false) ∧ ∃ r z, c = r ++ [z] ∧ isWs z = false

/-- What may follow a word: nothing, or text that does not continue the word. -/
def Stop (r : List Char) : Prop := ∀ a t, r = a :: t → isWordC a = false

/-- `Spelled d s`: the line `s` (without surrounding white space) is a spelling of the directive `d`. -/
inductive Spelled : Dir → List Char → Prop where
  | ifdef {g g' k} : White g → Gap g' → Symbol k →
      Spelled (.ifdef k) ('#' :: (g ++ ("ifdef".toList ++ (g' ++ k))))
  | ifndef {g g' k} : White g → Gap g' → Symbol k →
      Spelled (.ifndef k) ('#' :: (g ++ ("ifndef".toList ++ (g' ++ k))))
  | ifc {g g' c} : White g → Gap g' → Trimmed c →
      Spelled (.ifc (some c)) ('#' :: (g ++ ("if".toList ++ (g' ++ c))))
  | elifc {g g' c} : White g → Gap g' → Trimmed c →
      Spelled (.elifc c) ('#' :: (g ++ ("elif".toList ++ (g' ++ c))))
  | els {g r} : White g → Stop r → Spelled .els ('#' :: (g ++ ("else".toList ++ r)))
  | endif {g r} : White g → Stop r → Spelled .endif ('#' :: (g ++ ("endif".toList ++ r)))
  /-- the value is the first word after the symbol; what follows it (a comment) is not part of it -/
  | define {g g' k g'' v r} : White g → Gap g' → Symbol k → Gap g'' → v ≠ [] →
      (∀ c ∈ v, isWs c = false) → (∀ a t, r = a :: t → isWs a = true) →
      Spelled (.define k v) ('#' :: (g ++ ("define".toList ++ (g' ++ (k ++ (g'' ++ (v ++ r)))))))
  | undef {g g' k r} : White g → Gap g' → Symbol k → Stop r →
      Spelled (.undef k) ('#' :: (g ++ ("undef".toList ++ (g' ++ (k ++ r)))))

end Ccpp.Preproc.Spec
