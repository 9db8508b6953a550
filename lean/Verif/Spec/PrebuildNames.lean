import Verif.Model.PrebuildNames
import Verif.Spec.PrebuildMatch
/-!
# Specification for C71: the local names of the variables of the host

The input: the tables of the files of the host, and the configured prefixes by module and type.  Shared with the model: the
records, and the look up of a module and a type in the configuration (`lookup`).
-/
namespace Ccpp.PB

/-- Blanks. -/
def Blanks (s : List Char) : Prop := ∀ c ∈ s, isWs c = true

/-- The variable is defined in module `m`, in type `ty` (the module itself for variables of the module). -/
def Place (v : Var) (m ty : List Char) : Prop :=
  ' ' ∉ m ∧ ((v.container = some ("MODULE_".toList ++ m) ∧ ty = m) ∨
    (' ' ∉ ty ∧ v.container = some ("MODULE_".toList ++ m ++ " TYPE_".toList ++ ty)))

/-- Digits. -/
def IsDigits (s : List Char) : Prop := s ≠ [] ∧ ∀ c ∈ s, c.isDigit = true
/-- A literal: digits, with or without a sign. -/
def IsLiteral (s : List Char) : Prop := ∃ sign d, (sign = [] ∨ sign = ['-'] ∨ sign = ['+']) ∧ s = sign ++ d ∧ IsDigits d
/-- A standard name. -/
def IsName (s : List Char) : Prop := (∃ c r, s = c :: r ∧ c.isAlpha = true) ∧ ∀ c ∈ s, c.isAlphanum = true ∨ c = '_'

/-- The texts with a separator between them. -/
def joined (sep : Char) : List (List Char) → List Char
  | [] => []
  | [x] => x
  | x :: xs => x ++ [sep] ++ joined sep xs

/-- The element `t` of an index becomes `o`: a literal stays, a standard name is replaced by the name that `F` gives. -/
def DimRep (F : List Char → List Char → Prop) (t o : List Char) : Prop :=
  ∃ a s b, Blanks a ∧ Blanks b ∧ t = a ++ s ++ b ∧ ((IsLiteral s ∧ o = s) ∨ (IsName s ∧ F s o))

/-- The index `t` becomes `o`: a colon, or elements separated by colons. -/
def RangeRep (F : List Char → List Char → Prop) (t o : List Char) : Prop :=
  (∃ a b, Blanks a ∧ Blanks b ∧ t = a ++ [':'] ++ b ∧ o = [':']) ∨
  ∃ ts os, ts ≠ [] ∧ t = joined ':' ts ∧ o = joined ':' os ∧ List.Forall₂ (DimRep F) ts os

/-- The local name `loc` becomes `out`: what is not an array reference stays; in an array reference the indices are replaced. -/
def Replaced (F : List Char → List Char → Prop) (loc out : List Char) : Prop :=
  ('(' ∉ loc ∧ out = loc) ∨
  ∃ base ts os, '(' ∉ base ∧ ts ≠ [] ∧ loc = base ++ ['('] ++ joined ',' ts ++ [')'] ∧
    out = base ++ ['('] ++ joined ',' os ++ [')'] ∧ List.Forall₂ (RangeRep F) ts os

/-- A local name of the metadata: a name, or an array reference with literals, standard names, and colons. -/
def LocalName (loc : List Char) : Prop := ∃ out, Replaced (fun _ _ => True) loc out

/-- The final name of the variable `k` among `vs` is `n`, where at most `d` variables refer to each other by indices. -/
def FinalIn (vs : List Var) (td : Typedefs) : Nat → List Char → List Char → Prop
  | 0, _, _ => False
  | d + 1, k, n => ∃ v m ty, v ∈ vs ∧ v.std = k ∧ Place v m ty ∧
    ((lookup m td = none ∧ n = v.loc) ∨
     ∃ ts p o, lookup m td = some ts ∧ lookup ty ts = some p ∧ Replaced (FinalIn vs td d) v.loc o ∧
      n = if p = [] then o else p ++ ['%'] ++ o)

/-- The final name of a variable: unchanged in a module that is not configured; otherwise the prefix of its type, a percent sign
unless the prefix is empty, and its local name, in which the indices are replaced by the final names of their variables. -/
def Final (vs : List Var) (td : Typedefs) (k n : List Char) : Prop := ∃ d, FinalIn vs td d k n

/-- The error variables are as they should be. -/
def ErrorsOk (v : Var) : Prop :=
  (v.std = "ccpp_error_message".toList → v.type = "character".toList ∧ v.dims = [] ∧ ∃ r, v.kind = "len=".toList ++ r) ∧
  (v.std = "ccpp_error_code".toList → v.type = "integer".toList ∧ v.dims = [] ∧ v.kind = [])

/-- The variables of the host are legal: they have different names, and those for errors are as they should be. -/
def LegalHost (files : List (List (List Var))) : Prop :=
  files.flatten.flatten.Pairwise (fun a b => a.std ≠ b.std) ∧ ∀ v ∈ files.flatten.flatten, ErrorsOk v

/-- The texts are those of metadata: every variable has a place, and local names in configured modules are names or array references. -/
def TextsOk (vs : List Var) (td : Typedefs) : Prop :=
  ∀ v ∈ vs, ∃ m ty, Place v m ty ∧ (lookup m td = none ∨ LocalName v.loc)

end Ccpp.PB
