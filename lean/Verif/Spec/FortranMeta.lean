import Verif.Model.FortranMeta
/-!
# Specification for C61
-/
namespace Ccpp.FM

/-- Equal but for letter case. -/
def Same (a b : List Char) : Prop := lower a = lower b

/-- Two optional texts, equal but for letter case. -/
def SameOpt : Option (List Char) → Option (List Char) → Prop
  | none, none => True
  | some a, some b => Same a b
  | _, _ => False

/-- The rank of a variable. -/
def HasRank (v : Arg) (n : Nat) : Prop := ∃ ds, v.dims = some ds ∧ ds.length = n

/-- The metadata variable `m` describes the Fortran variable `f`, up to dimension names and the optional
attribute. -/
structure Describes (m f : Arg) : Prop where
  name : Same m.name f.name
  type : Same m.type f.type
  kind : SameOpt m.kind f.kind
  rank : ∃ n, HasRank m n ∧ HasRank f n

/-- No two variables have the same name. -/
def DistinctNames (vs : List Arg) : Prop := vs.Pairwise fun a b => ¬ Same a.name b.name

/-- Every element of a dimension of `f` is an integer, absent, or a variable of the metadata table. -/
def DimsKnown (vars : List Arg) (f : Arg) : Prop :=
  ∀ ds, f.dims = some ds → ∀ d ∈ ds, ∀ x ∈ Chk.splitOn ':' d,
    Chk.isPyInt (strip x) = true ∨ x = [] ∨ ∃ v ∈ vars, Same v.name x

/-- The argument list of a scheme in the metadata and the one in Fortran agree: same arguments in the same
order (Fortran may have more arguments at the end, if they are optional). -/
structure ArgsAgree (vars fvars : List Arg) : Prop where
  split : ∃ front extra, fvars = front ++ extra ∧ (∀ e ∈ extra, e.optional = true) ∧
    vars.length = front.length ∧
    ∀ (i : Nat) m f, vars[i]? = some m → front[i]? = some f →
      Describes m f ∧ SameOpt m.intent f.intent ∧ m.optional = f.optional

/-- No variable is a reference to an array element. -/
def NoRefs (vars : List Arg) : Prop := ∀ m ∈ vars, '(' ∉ m.name

end Ccpp.FM
