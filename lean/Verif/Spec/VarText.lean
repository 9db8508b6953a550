import Verif.Spec.FortranDecl
import Verif.Spec.RefCheck
import Verif.Model.VarText
/-!
# Specification for C90: what the declaration of a variable has to say
-/
namespace Ccpp.VText

open Ccpp.FDecl

/-- The kind of a variable of an intrinsic type: a name, or a character length. -/
def KindOk (type kind : List Char) : Prop :=
  kind = [] ∧ IntrinsicWord type ∨ KindName kind ∧ IntrinsicWord type ∨
    (lower type = "character".toList ∧ ∃ l, LengthText l ∧ kind = "len=".toList ++ l)

/-- A local name: a name `n`, or a reference to a part of the array `n`. -/
def LocalName (s n : List Char) : Prop :=
  (s = n ∧ Chk.IsName n) ∨ ∃ ds, ds.length ≤ 7 ∧ RC.Ref n ds s

/-- The intent of a variable as a dummy argument: a protected variable must not be changed. -/
def intentOf (v : Info) (a : Args) : Option (List Char) :=
  if v.prot then some "in".toList else if v.intent.isSome then v.intent else a.addIntent

/-- The variable is good: an intrinsic type with its kind, or a type name; a local name; an intent of letters, and a
list of dimensions that can be declared. -/
structure Good (v : Info) (a : Args) (n : List Char) : Prop where
  type : if v.ddt then Chk.IsName v.kind else KindOk v.type v.kind
  name : LocalName v.name n
  intent : ∀ i, v.intent = some i ∨ a.addIntent = some i → i ≠ [] ∧ ∀ c ∈ i, c.isAlpha = true
  dims : ∀ d, a.dimstring = some d → ∃ t, d = '(' :: (t ++ [')']) ∧ DimText t ∧ '!' ∉ t ∧ ¬ [':', ':'] <:+: t

/-- The type and the kind of a variable. -/
def typeOf (v : Info) : TypeMeaning :=
  if v.ddt then ⟨true, v.kind, some v.kind⟩ else ⟨false, v.type, if v.kind = [] then none else some v.kind⟩

/-- The dimensions that are declared: none for a scalar, colons for an allocatable variable or dummy argument,
otherwise the given ones. -/
def dimsOf (v : Info) (a : Args) : Option (List Char) :=
  if v.rank = 0 then none
  else if a.allocatable ∨ a.dummy then some ('(' :: (commaJoin (List.replicate v.rank [':']) ++ [')']))
  else a.dimstring

/-- An intent that lets the procedure change the variable: `out` or `inout`. -/
def Output (i : List Char) : Prop := ∃ p, lower i = p ++ "out".toList

/-- The attributes the variable should have: a dummy argument its intent, and optional if the variable is; allocatable
if the caller says so, or for an allocatable dummy argument that is an output; target if the variable or the caller
says so, or if it is an optional dummy argument (pointers are associated with it). -/
inductive Wanted (v : Info) (a : Args) : Attr → Prop
  | intent {i} : a.dummy = true → intentOf v a = some i → Wanted v a (.intent (lower i))
  | allocatable : a.allocatable = true → Wanted v a (.flag "allocatable".toList)
  | output {i} : a.dummy = true → v.allocatable = true → v.prot = false → intentOf v a = some i → Output i →
      Wanted v a (.flag "allocatable".toList)
  | optional : a.dummy = true → v.optional = true → Wanted v a (.flag "optional".toList)
  | target : v.target = true ∨ a.target = true ∨ (a.dummy = true ∧ v.optional = true) → Wanted v a (.flag "target".toList)

/-- The cases the code handles: a variable that is to be allocatable has dimensions or is polymorphic, and is no dummy
argument; the caller asks for a target only if the variable is allocatable, and does not have this attribute
already; an optional dummy argument is not protected, no allocatable output, and not declared as target. -/
structure Handled (v : Info) (a : Args) : Prop where
  alloc : a.allocatable = true → (0 < v.rank ∨ v.polymorphic = true) ∧ a.dummy = false
  target : a.target = true → (a.allocatable = true ↔ v.target = false)
  optional : a.dummy = true → v.optional = true → v.prot = false ∧ v.target = false ∧
    ∀ i, intentOf v a = some i → Output i → v.allocatable = false

end Ccpp.VText
