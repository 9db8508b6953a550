import Verif.Model.ReadMetadata
import Verif.Spec.SchemeTables
import Verif.Spec.MetadataFile
/-!
# Specification for C80: the variables of a metadata table for ccpp_prebuild

Only the data types of the model are used.
-/
namespace Ccpp.RM

/-- The variables of the table in the file, in order -/
def tableVars (ts : List NTable) (table : List Char) : List NVar :=
  ts.flatMap fun t => t.sects.flatMap fun s => if s.title = table then s.vars else []

/-- The stages in which arrays have the full horizontal dimension -/
def FullStage (table : List Char) : Prop := "_init".toList <:+ table ∨ "_finalize".toList <:+ table

/-- The stage in which arrays have the horizontal extent of a chunk -/
def ChunkStage (table : List Char) : Prop := "_run".toList <:+ table

/-- What is not allowed: `x` is not mentioned as a variable or dimension. -/
def Without (x : List Char) (v : NVar) : Prop := v.std ≠ x ∧ x ∉ v.dims

/-- A variable of a scheme that is allowed in the table -/
def SchemeOk (table : List Char) (v : NVar) : Prop :=
  (FullStage table → Without "horizontal_loop_extent".toList v) ∧ (ChunkStage table → Without "horizontal_dimension".toList v) ∧
  lower v.active = ".true.".toList

/-- A variable of the host model that is allowed -/
def HostOk (v : NVar) : Prop := "horizontal_dimension".toList ∉ v.dims ∧ v.optional = false ∧ v.active ≠ []

def VarOk (scheme : Option (List Char)) (table : List Char) (v : NVar) : Prop :=
  match scheme with
  | some _ => SchemeOk table v
  | none => HostOk v

/-- A condition without superfluous blanks: the words separated by one blank each -/
def OneBlank (s r : List Char) : Prop := ∃ ws, ST.Words s ws ∧ r = [' '].intercalate ws

/-- The condition of a variable: T, F, or the text -/
def ActiveText (a r : List Char) : Prop :=
  (lower a = ".true.".toList ∧ r = ['T']) ∨ (lower a = ".false.".toList ∧ r = ['F']) ∨
  (lower a ≠ ".true.".toList ∧ lower a ≠ ".false.".toList ∧ OneBlank a r)

/-- Where the variable comes from -/
def Container (m table : List Char) (scheme : Option (List Char)) (c : List Char) : Prop :=
  match scheme with
  | some s => c = "MODULE_".toList ++ m ++ " SCHEME_".toList ++ s ++ " SUBROUTINE_".toList ++ table
  | none => (table = m ∧ c = "MODULE_".toList ++ m) ∨ (table ≠ m ∧ c = "MODULE_".toList ++ m ++ " TYPE_".toList ++ table)

/-- The variable of ccpp_prebuild for a variable of the table -/
structure Converted (m table : List Char) (scheme : Option (List Char)) (v : NVar) (p : PVar) : Prop where
  std : p.std = v.std
  long : p.long = v.long
  units : p.units = v.units
  loc : p.loc = v.loc
  typ : p.typ = lower v.typ
  dims : p.dims = v.dims
  container : Container m table scheme p.container
  kind : p.kind = if v.ddt = true then [] else v.kind
  intent : p.intent = v.intent
  active : ActiveText v.active p.active
  optional : p.optional = if v.optional = true then ['T'] else ['F']

/-- The path of a dependency -/
def DepPath (path d r : List Char) : Prop :=
  (("/".toList <+: d ∨ path = []) ∧ r = d) ∨
  (¬"/".toList <+: d ∧ path ≠ [] ∧ ((∃ p, path = p ++ ['/'] ∧ r = path ++ d) ∨ ((∀ p, path ≠ p ++ ['/']) ∧ r = path ++ '/' :: d)))

/-- The dependencies that go with the table -/
def tableDeps (ts : List NTable) (table : List Char) : List (List Char × List Char) :=
  ts.flatMap fun t => t.sects.flatMap fun s => if s.title = table then t.deps.map fun d => (t.path, d) else []

end Ccpp.RM
