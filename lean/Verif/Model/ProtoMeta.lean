import Verif.Model.Checkers
import Verif.Model.VarDictionary
/-!
# Model of `scripts/ccpp_fortran_to_metadata.py`: the prototype metadata file
-/
namespace Ccpp.Proto

/-- Notation: a Python string. -/
abbrev Str := List Char

/-- A variable of a parsed Fortran table with the properties that are written, ccpp_fortran_to_metadata.py:113-157;
`none` is None. -/
structure FVar where
  lname : Str
  std : Str
  units : Option Str
  type : Str
  kind : Option Str
  dims : List Str
  intent : Option Str

/-- A section (MetadataSection), ccpp_fortran_to_metadata.py:106-113 -/
structure FSection where
  title : Str
  type : Str
  vars : List FVar

/-- A table (MetadataTable), ccpp_fortran_to_metadata.py:94-106 -/
structure FTable where
  name : Str
  type : Str
  sections : List FSection

/-- `sep.join(list)` (Python library), ccpp_fortran_to_metadata.py:148, 152 -/
def joinWith (sep : Char) : List Str → Str
  | [] => []
  | [t] => t
  | t :: ts => t ++ sep :: joinWith sep ts

/-- unique_standard_name, parse_source.py:16-36 -/
def uniqueName (n : Nat) : Str × Nat := ("enter_standard_name_".toList ++ VD.dec (n + 1), n + 1)

/-- `d.get(k)` of the dictionary `lname_dict`, newest entry first (Python library, dict),
ccpp_fortran_to_metadata.py:141 -/
def lookup (d : List (Str × Str)) (k : Str) : Option Str := (d.find? fun p => p.1 == k).map (·.2)

/-- The loop over the parts of a dimension, ccpp_fortran_to_metadata.py:139-147 -/
def dimParts (d : List (Str × Str)) : List Str → Nat → List Str × Nat
  | [], n => ([], n)
  | p :: ps, n =>
    let r := match lookup d p with
      | some s => if p.isEmpty then uniqueName n else (s, n)
      | none => uniqueName n
    let rs := dimParts d ps r.2
    (r.1 :: rs.1, rs.2)

/-- The loop over the dimensions, ccpp_fortran_to_metadata.py:136-149 -/
def dimList (d : List (Str × Str)) : List Str → Nat → List Str × Nat
  | [], n => ([], n)
  | dim :: dims, n =>
    let r := dimParts d (Chk.splitOn ':' dim) n
    let rs := dimList d dims r.2
    (joinWith ':' r.1 :: rs.1, rs.2)

/-- `tprop == kprop`, and the text of type and kind, ccpp_fortran_to_metadata.py:122-132; an empty kind is not written. -/
def typeLine (v : FVar) : Str :=
  if some v.type = v.kind then "  type = ".toList ++ v.type
  else "  type = ".toList ++ lower v.type ++
    (match v.kind with
     | some k => if k.isEmpty then [] else " | kind = ".toList ++ lower k
     | none => [])

/-- The lines of a variable, ccpp_fortran_to_metadata.py:113-157, with the dictionary and the counter after it. -/
def varLines (scheme : Bool) (d : List (Str × Str)) (v : FVar) (n : Nat) : List Str × List (Str × Str) × Nat :=
  let d := (v.lname, v.std) :: d
  let units := match v.units with
    | some u => if u.isEmpty then "enter_units".toList else u
    | none => "enter_units".toList
  let dims := dimList d v.dims n
  (["[ ".toList ++ v.lname ++ " ]".toList,
    "  standard_name = ".toList ++ v.std,
    "  units = ".toList ++ units,
    typeLine v,
    "  dimensions = ".toList ++ '(' :: (joinWith ',' dims.1 ++ [')'])] ++
   (if scheme then ["  intent = ".toList ++ v.intent.getD "None".toList] else []), d, dims.2)

/-- The loop over the variables, ccpp_fortran_to_metadata.py:113-158 -/
def varsLines (scheme : Bool) : List (Str × Str) → List FVar → Nat → List Str × Nat
  | _, [], n => ([], n)
  | d, v :: vs, n =>
    let r := varLines scheme d v n
    let rs := varsLines scheme r.2.1 vs r.2.2
    (r.1 ++ rs.1, rs.2)

/-- The lines of a section, ccpp_fortran_to_metadata.py:106-158; `sep` is the separator, which is written from the
first table on. -/
def sectionLines (sep : Str) (s : FSection) (n : Nat) : List Str × Nat :=
  let r := varsLines (s.type == "scheme".toList) [("1".toList, "ccpp_constant_one".toList)] s.vars n
  ([sep, "[ccpp-arg-table]".toList, "  name  = ".toList ++ s.title, "  type  = ".toList ++ s.type] ++ r.1, r.2)

/-- The loop over the sections, ccpp_fortran_to_metadata.py:106-159 -/
def sectionsLines (sep : Str) : List FSection → Nat → List Str × Nat
  | [], n => ([], n)
  | s :: ss, n =>
    let r := sectionLines sep s n
    let rs := sectionsLines sep ss r.2
    (r.1 ++ rs.1, rs.2)

/-- The loop over the tables, ccpp_fortran_to_metadata.py:91-160; `last` is `table_name`, and `first` tells that
`header_sep` is still empty. -/
def tablesLines (sep : Str) : Bool → Str → List FTable → Nat → List Str × Nat
  | _, _, [], n => ([], n)
  | first, last, t :: ts, n =>
    let new := last.isEmpty || last != t.name
    let head := if new then (if first then [] else [sep]) ++
      ["[ccpp-table-properties]".toList, "  name = ".toList ++ t.name, "  type = ".toList ++ t.type] else []
    let r := sectionsLines sep t.sections n
    let rs := tablesLines sep (if new then false else first) (if new then t.name else last) ts r.2
    (head ++ r.1 ++ rs.1, rs.2)

/-- write_metadata_file, ccpp_fortran_to_metadata.py:85-160, after reset_standard_name_counter and `n` names. -/
def writeMetadataFile (tables : List FTable) (sep : Str) (n : Nat) : List Str := (tablesLines sep true [] tables n).1

end Ccpp.Proto
