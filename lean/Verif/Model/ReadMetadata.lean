import Verif.Model.SchemeTables
import Verif.Model.PrebuildNames
/-!
# Model of the conversion of metadata for ccpp_prebuild

`read_new_metadata` (scripts/metadata_parser.py:104-250), `encode_container` (scripts/common.py:130-142).

A raised exception is `none`.  The tables of the file are given (parse_metadata_file, see C62); a variable is given by the values of
`get_prop_value` (metavar.py:511-531).  Not modelled: the cache NEW_METADATA_SAVE (the file is read once), the test that the file exists.
-/
namespace Ccpp.RM
open FDecl (Str)

/-- A variable of the metadata parser: the properties that are used, metadata_parser.py:156-238 -/
structure NVar where
  std : Str
  long : Str
  units : Str
  loc : Str
  typ : Str
  dims : List Str
  kind : Str
  ddt : Bool
  intent : Option Str
  active : Str
  optional : Bool

/-- A section of a table, metadata_parser.py:125 -/
structure NSect where
  title : Str
  vars : List NVar

/-- A table, metadata_parser.py:124, 139-143 -/
structure NTable where
  path : Str
  deps : List Str
  sects : List NSect

/-- A variable of ccpp_prebuild, metadata_parser.py:232-243, mkcap.py:24-39 -/
structure PVar where
  std : Str
  long : Str
  units : Str
  loc : Str
  typ : Str
  dims : List Str
  container : Str
  kind : Str
  intent : Option Str
  active : Str
  optional : Str
deriving DecidableEq

/-- encode_container for three names, common.py:134-135 -/
def encode3 (m s r : Str) : Str := "MODULE_".toList ++ m ++ " SCHEME_".toList ++ s ++ " SUBROUTINE_".toList ++ r
/-- encode_container for two names, common.py:136-137 -/
def encode2 (m t : Str) : Str := "MODULE_".toList ++ m ++ " TYPE_".toList ++ t
/-- encode_container for one name, common.py:138-139 -/
def encode1 (m : Str) : Str := "MODULE_".toList ++ m

/-- `s.endswith(p)` (Python library) -/
def endsWith (s p : Str) : Bool := p.isSuffixOf s

/-- The tests for `horizontal_loop_extent` and `horizontal_dimension` as variable, metadata_parser.py:164-181 -/
def nameTest (scheme : Bool) (table : Str) (v : NVar) : Bool :=
  if v.std = "horizontal_loop_extent".toList ∧ scheme ∧ (endsWith table "_init".toList ∨ endsWith table "_finalize".toList) then false
  else if v.std = "horizontal_dimension".toList ∧ scheme ∧ endsWith table "_run".toList then false
  else true

/-- The tests for `horizontal_loop_extent` and `horizontal_dimension` as dimension, metadata_parser.py:184-201 -/
def dimTest (scheme : Bool) (table : Str) (v : NVar) : Bool :=
  if scheme ∧ (endsWith table "_init".toList ∨ endsWith table "_finalize".toList) ∧ "horizontal_loop_extent".toList ∈ v.dims then false
  else if scheme ∧ endsWith table "_run".toList ∧ "horizontal_dimension".toList ∈ v.dims then false
  else if !scheme ∧ "horizontal_dimension".toList ∈ v.dims then false
  else true

/-- The attribute `active`, metadata_parser.py:204-215 -/
def activeOf (scheme : Bool) (a : Str) : Option Str :=
  if a.isEmpty then none
  else if scheme ∧ lower a ≠ ".true.".toList then none
  else if lower a = ".true.".toList then some ['T']
  else if lower a = ".false.".toList then some ['F']
  else some (PB.joinSp (ST.words a))

/-- The attribute `optional`, metadata_parser.py:217-225 -/
def optionalOf (scheme : Bool) (o : Bool) : Option Str :=
  if !scheme ∧ o then none else if o then some ['T'] else some ['F']

/-- The kind; none for derived types, metadata_parser.py:230-233 -/
def kindOf (v : NVar) : Str := if v.ddt ∧ !v.kind.isEmpty then [] else v.kind

/-- One variable, metadata_parser.py:156-243 -/
def convert (scheme : Bool) (table container : Str) (v : NVar) : Option PVar :=
  if nameTest scheme table v && dimTest scheme table v then
    (activeOf scheme v.active).bind fun a => (optionalOf scheme v.optional).map fun o =>
      ⟨v.std, v.long, v.units, v.loc, lower v.typ, v.dims, container, kindOf v, v.intent, a, o⟩
  else none

/-- The variable is added to the dictionary, metadata_parser.py:244-247 -/
def addNew (scheme : Bool) (table container : Str) (md : List (Str × PVar)) (v : NVar) : Option (List (Str × PVar)) :=
  (convert scheme table container v).bind fun p => if (md.map (·.1)).contains v.std then none else some (md ++ [(v.std, p)])

/-- `os.path.join(a, b)` (Python library) -/
def pathJoin (a b : Str) : Str :=
  if b.head? = some '/' then b else if a.isEmpty ∨ a.getLast? = some '/' then a ++ b else a ++ '/' :: b

/-- The dependencies of a table, metadata_parser.py:139-143, 152-155 -/
def depsOf (t : NTable) : List Str := if t.path.isEmpty then t.deps else t.deps.map (pathJoin t.path)

/-- The container of the variables, metadata_parser.py:134-137, 150 -/
def containerOf (m table : Str) : Option Str → Str
  | some s => encode3 m s table
  | none => if table = m then encode1 m else encode2 m table

/-- One section, metadata_parser.py:125-247 -/
def doSect (m table : Str) (scheme : Option Str) (deps : List Str) (st : List (Str × PVar) × List Str) (s : NSect) :
    Option (List (Str × PVar) × List Str) :=
  if s.title ≠ table then some st
  else (s.vars.foldlM (addNew scheme.isSome table (containerOf m table scheme)) st.1).map fun md => (md, st.2 ++ deps)

/-- read_new_metadata, metadata_parser.py:104-250; `scheme` is not the empty text. -/
def readNew (ts : List NTable) (m table : Str) (scheme : Option Str) : Option (List (Str × PVar) × List Str) :=
  ts.foldlM (fun st t => t.sects.foldlM (doSect m table scheme (depsOf t)) st) ([], [])

end Ccpp.RM
