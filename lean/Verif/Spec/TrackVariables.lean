import Verif.Spec.MetadataFile
/-!
# Specification for C78: the report of ccpp_track_variables

The meaning of metadata files is that of C62 (`FileText`, `FileMeans`); tables and sections are its results.
-/
namespace Ccpp.TV
open MF (Table Section Props FileText FileMeans TableDoc valuesOf)

/-- The value of a property that is a text (empty if it is none) -/
def prop (p : Props) (k : String) : List Char :=
  match p k.toList with
  | some (.text s) => s
  | _ => []

/-- The variable in a section -/
def useOf (var : List Char) (s : Section) : Option Props := s.vars.find? fun p => prop p "standard_name" == var

/-- The sections of a table that use the variable, with its intent, in order -/
def mentions (var : List Char) (t : Table) : List (List Char × List Char) :=
  t.sects.filterMap fun s => (useOf var s).map fun p => (s.title, prop p "intent")

/-- The names in a section that contain the text -/
def similar (var : List Char) (s : Section) : List (List Char) := (s.vars.map fun p => prop p "standard_name").filter fun n => decide (var <:+: n)

/-- A file of the directory that can be read: its lines are not continued, every table has one name, and the file does not end with a table without
section; `read` gives its tables. -/
def FileOk (env : MF.Env) (read : List Char → Option (List Table)) (f : List Char × List (List Char)) : Prop :=
  (∀ l ∈ f.2, (rstrip l).getLast? ≠ some '\\') ∧
  ∃ docs ty ts, FileText (f.2.map rstrip) docs ∧ FileMeans env ty docs ts ∧ read f.1 = some ts ∧
    (∀ d ∈ docs, (valuesOf d.entries "name".toList).length = 1) ∧ (∀ d, docs.getLast? = some d → d.sects ≠ [])

/-- A file of the directory has the table of the scheme. -/
def Owner (files : List (List Char × List (List Char))) (read : List Char → Option (List Table)) (scheme : List Char) (t : Table) : Prop :=
  ∃ f ∈ files, ∃ ts, read f.1 = some ts ∧ t ∈ ts ∧ t.name = some scheme

end Ccpp.TV
