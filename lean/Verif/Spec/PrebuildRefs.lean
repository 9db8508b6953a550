import Verif.Model.PrebuildRefs
import Verif.Spec.PrebuildNames
/-!
# Specification: what a local name of the host refers to

Shared with the model: nothing but the definitions of names, literals and lists of texts of Spec/PrebuildNames.lean.
-/
namespace Ccpp.PA
open PB (IsName IsLiteral joined)

mutual
/-- A reference: a name, with or without indices, or a component of a reference.  An index is a bound, or several bounds with colons
between them. -/
inductive IsRef : List Char → Prop
  | name {x : List Char} : IsName x → IsRef x
  | index {x : List Char} {is : List (List (List Char))} : IsName x → is ≠ [] →
      (∀ bs ∈ is, bs ≠ []) → (∀ bs ∈ is, ∀ b ∈ bs, IsBound b) →
      IsRef (x ++ '(' :: (joined ',' (is.map (joined ':')) ++ [')']))
  | member {a b : List Char} : IsRef a → IsRef b → IsRef (a ++ '%' :: b)
/-- A bound is empty, a literal or a reference. -/
inductive IsBound : List Char → Prop
  | empty : IsBound []
  | literal {b : List Char} : IsLiteral b → IsBound b
  | ref {b : List Char} : IsRef b → IsBound b
end

/-- What is special in a reference. -/
def special : List Char := ['(', ')', ',', ':', '%']

/-- The reference begins with this name. -/
def Root (s x : List Char) : Prop := IsName x ∧ ∃ v, s = x ++ v ∧ (v = [] ∨ ∃ r, v = '(' :: r ∨ v = '%' :: r)

/-- In an index, at any depth, stands a reference that begins with this name. -/
def IndexRoot (s x : List Char) : Prop :=
  IsName x ∧ ∃ u c v, s = u ++ c :: (x ++ v) ∧ c ∈ ['(', ',', ':'] ∧ (v = [] ∨ ∃ d r, v = d :: r ∧ d ∈ special)

end Ccpp.PA
