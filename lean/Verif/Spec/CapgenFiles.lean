import Verif.Spec.MetadataFile
import Verif.Model.CapgenFiles
/-!
# Specification for C87: the metadata files of a host or of a collection of schemes

Shared with the model: `Source` (a metadata file) and `FortSrc` (a Fortran file, as far as it matters); from C62 the
text and the meaning of one metadata file (`FileText`, `FileMeans`).
-/
namespace Ccpp.CF

open Ccpp.MF

/-- `path` is `name` with everything after its last dot replaced by `ext`; a name without dot gets a dot. -/
def Replaces (name ext path : List Char) : Prop :=
  (∃ p q, name = p ++ '.' :: q ∧ '.' ∉ q ∧ path = p ++ '.' :: ext) ∨
  ('.' ∉ name ∧ path = name ++ '.' :: ext)

/-- The Fortran file of a metadata file: the first of the files with extension F90, f90, F and f that exists. -/
def FortranOf (exist : List Char → Prop) (name path : List Char) : Prop :=
  ∃ (i : Nat) (ext : List Char), ["F90".toList, "f90".toList, "F".toList, "f".toList][i]? = some ext ∧ Replaces name ext path ∧ exist path ∧
    ∀ (j : Nat) (e p : List Char), j < i → ["F90".toList, "f90".toList, "F".toList, "f".toList][j]? = some e → Replaces name e p → ¬ exist p

/-- A file with the tables that it contains and the derived types that its Fortran file registers. -/
structure Read where
  file : Source
  tables : List Table
  fort : List (List Char)

/-- All tables of the files. -/
def allTables (rs : List Read) : List Table := rs.flatMap (·.tables)

/-- All sections of the files. -/
def allSections (rs : List Read) : List Section := rs.flatMap fun r => r.tables.flatMap (·.sects)

/-- The derived types that are known after some files: those that have a table; and those that are registered. -/
def typesAfter (registered : List (List Char)) (rs : List Read) : Types :=
  ⟨ddtNames (allTables rs), registered ++ rs.flatMap fun r => ddtSections r.tables ++ r.fort⟩

/-- A file is read: it contains the tables, where the types of the files before it are known, and its Fortran
file exists and agrees with its sections. -/
structure Reads (world : List Char → Option FortSrc) (before : Types) (r : Read) : Prop where
  text : ∃ docs, FileText (PO.logical r.file.lines) docs ∧ FileMeans r.file.env before docs r.tables
  fortran : ∃ path src, FortranOf (fun n => world n ≠ none) r.file.name path ∧ world path = some src ∧
    src (fun n => decide (n ∈ before.registered ∨ n ∈ ddtSections r.tables)) (r.tables.flatMap (·.sects)) = some r.fort

/-- All files are read, and no two tables have the same name and no two sections the same title. -/
structure AllRead (world : List Char → Option FortSrc) (registered : List (List Char)) (rs : List Read) : Prop where
  reads : ∀ (i : Nat) r, rs[i]? = some r → Reads world (typesAfter registered (rs.take i)) r
  tables : ((allTables rs).map (·.name)).Nodup
  sections : ((allSections rs).map (·.title)).Nodup

end Ccpp.CF
