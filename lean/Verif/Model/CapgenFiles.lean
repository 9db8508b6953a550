import Verif.Model.MetadataFile
import Verif.Props.ParseObject
/-!
# Model of `scripts/ccpp_capgen.py`: reading the lists of host and scheme metadata files

`parse_host_model_files` and `parse_scheme_files` have the same loop over the files (ccpp_capgen.py:480-520 and
540-578).  A metadata file is read by the model of C62.
-/
namespace Ccpp.CF

open Ccpp.FDecl (Str)
open Ccpp.MF (Env Types Table Section)

/-- What a Fortran file is to this loop (parse_fortran_file and check_fortran_against_metadata,
ccpp_capgen.py:484-497, 546-560): from the registered derived types and the sections of the metadata file to
the derived types that parsing registers (metadata_table.py:711-713), or `none` if the file cannot be parsed or
does not agree with the sections.  (What is accepted: C59, C60 and C61.) -/
abbrev FortSrc := (Str → Bool) → List Section → Option (List Str)

/-- A metadata file: its name, its lines and what its parser takes from the rest of the framework,
ccpp_capgen.py:480-483 -/
structure Source where
  name : Str
  lines : List Str
  env : Env

/-- Everything up to and including the last dot; `none` if there is no dot.  (`filename[0:rfind('.')+1]`,
ccpp_capgen.py:102-107) -/
def uptoDot : Str → Option Str
  | [] => none
  | c :: s =>
    match uptoDot s with
    | some p => some (c :: p)
    | none => if c = '.' then some ['.'] else none

/-- _FORTRAN_FILENAME_EXTENSIONS, ccpp_capgen.py:41 -/
def extensions : List Str := ["F90".toList, "f90".toList, "F".toList, "f".toList]

/-- find_associated_fortran_file, ccpp_capgen.py:97-120; `none` is the CCPPError. -/
def findFortran (exist : Str → Bool) (name : Str) : Option Str :=
  let base := match uptoDot name with
    | some b => b
    | none => name ++ ['.']
  (extensions.map (base ++ ·)).find? exist

/-- The exceptions that are not errors of the framework (KeyError, UnboundLocalError, AttributeError),
ccpp_capgen.py:500-503, 562-565, 466 -/
inductive Crash where
  | key
  | unbound
  | attribute
deriving DecidableEq

/-- How reading ends, ccpp_capgen.py:457-578 -/
inductive Outcome (α : Type) where
  | ok (a : α)
  /-- A file is refused: metadata_table.py:183-222, ccpp_capgen.py:116, 430-456. -/
  | refused (file : Str)
  /-- duplicate_item_error for a header, ccpp_capgen.py:457-468 -/
  | duplicate (title file original : Str)
  | crash (c : Crash)

/-- Sequencing (Python exceptions): Notation. -/
def Outcome.bind {α β : Type} : Outcome α → (α → Outcome β) → Outcome β
  | .ok a, f => f a
  | .refused n, _ => .refused n
  | .duplicate t n o, _ => .duplicate t n o
  | .crash c, _ => .crash c

/-- The state of the loop: table_dict, header_dict (with the file name of the context of the header),
known_ddts and the registered types, and the title of the last value of the loop variable `header`,
ccpp_capgen.py:475-480, 533-538 -/
structure St where
  tables : List (Option Str × Table) := []
  headers : List (Str × Section × Str) := []
  types : Types
  header : Option Str := none

/-- The call of duplicate_item_error for a table, ccpp_capgen.py:500-503 and 562-565: the argument is
`table_dict[header.title]` with the variable `header` of the other loop; a MetadataTable has no attribute
`context` (466; metadata_table.py:266-520). -/
def tableDuplicate (s : St) : Crash :=
  match s.header with
  | none => .unbound
  | some t => if s.tables.any (fun e => e.1 == some t) then .attribute else .key

/-- The loop over the tables of a file, ccpp_capgen.py:498-507 and 561-569 -/
def addTables (s : St) : List Table → Outcome St
  | [] => .ok s
  | t :: ts =>
    if s.tables.any (fun e => e.1 == t.name) then .crash (tableDuplicate s)
    else addTables { s with tables := s.tables ++ [(t.name, t)] } ts

/-- The loop over the headers of a file, ccpp_capgen.py:508-520 and 570-580 -/
def addHeaders (file : Str) (s : St) : List Section → Outcome St
  | [] => .ok s
  | h :: hs =>
    match s.headers.find? (fun e => e.1 == h.title) with
    | some e => .duplicate h.title file e.2.2
    | none => addHeaders file
        { s with headers := s.headers ++ [(h.title, h, file)], header := some h.title,
                 types := { s.types with
                   known := if h.type = "ddt".toList then s.types.known ++ [h.title] else s.types.known } } hs

/-- The sections of the tables of a file, ccpp_capgen.py:487-490 and 549-552 -/
def sectionsOf (ts : List Table) : List Section := ts.flatMap (·.sects)

/-- One iteration of the loop over the files, ccpp_capgen.py:480-520 and 540-580.  The types of ddt tables are
known (metadata_table.py:210-212, 439-441) and the sections registered (metadata_table.py:711-713) by parseFile. -/
def readFile (world : Str → Option FortSrc) (s : St) (f : Source) : Outcome St :=
  match MF.parseFile f.env s.types (PO.logical f.lines) with
  | none => .refused f.name
  | some (ts, ty) =>
    match findFortran (fun n => (world n).isSome) f.name with
    | none => .refused f.name
    | some ff =>
      match (world ff).bind (fun src => src (fun n => decide (n ∈ ty.registered)) (sectionsOf ts)) with
      | none => .refused f.name
      | some reg =>
        (addTables { s with types := ⟨ty.known, ty.registered ++ reg⟩ } ts).bind fun s' =>
          addHeaders f.name s' (sectionsOf ts)

/-- The loop over the files, ccpp_capgen.py:480-520 and 540-580 -/
def readFiles (world : Str → Option FortSrc) : St → List Source → Outcome St
  | s, [] => .ok s
  | s, f :: fs => (readFile world s f).bind fun s' => readFiles world s' fs

/-- parse_host_model_files up to the construction of the host model and parse_scheme_files,
ccpp_capgen.py:470-580; `registered` are the types registered before (parse_checkers.py:1079-1086; the registry is
global). -/
def readAll (world : Str → Option FortSrc) (registered : List Str) (fs : List Source) : Outcome St :=
  readFiles world { types := ⟨[], registered⟩ } fs

end Ccpp.CF
