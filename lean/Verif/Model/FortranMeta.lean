import Verif.Model.Checkers
/-!
# Model of `scripts/ccpp_capgen.py`: comparing metadata tables with Fortran tables

An argument table is a list of variables with the values of the properties that are compared
(`get_prop_value`, which includes default values).  Messages are modelled by their kind; where they are
raised, not their text.
-/
namespace Ccpp.FM

/-- Notation: a Python string. -/
abbrev Str := List Char

/-- A variable of a table, with the properties compared in ccpp_capgen.py:182-247 and 310-398; `dims` is
`none` if the dimensions are invalid (`get_dimensions`, metavar.py:935-938). -/
structure Arg where
  name : Str
  std : Str := []
  type : Str := []
  kind : Option Str := none
  intent : Option Str := none
  optional : Bool := false
  dims : Option (List Str) := some []
deriving DecidableEq

/-- A table (metadata section or Fortran routine, module or type), metadata_table.py:1020-1030 and
1280-1301 -/
structure Table where
  title : Str
  htype : Str
  vars : List Arg
deriving DecidableEq

/-- How the comparison ends abnormally: a CCPPError, or another Python exception.,
ccpp_capgen.py:154-456 -/
inductive Exc where
  | error
  | crash
deriving DecidableEq

/-- The messages collected, ccpp_capgen.py:256-399 and 206-247 -/
inductive Msg where
  | count
  | optionalInFortran (name : Str)
  | optionalInMetadata (name : Str)
  | noVariable (name : Str)
  | order (name : Str)
  | differ (property name : Str)
  | rank (name : Str)
  | dim (name : Str)
deriving DecidableEq

/-- SCHEME_HEADER_TYPE, metadata_table.py (imported in ccpp_capgen.py:26) -/
def scheme : Str := "scheme".toList

/-- _EXTRA_VARIABLE_TABLE_TYPES, ccpp_capgen.py:44 -/
def extraTypes : List Str := ["module".toList, "host".toList, "ddt".toList]

/-- is_arrayspec, ccpp_capgen.py:154-157 -/
def isArrayRef (name : Str) : Bool := name.contains '('

/-- find_var_in_list, ccpp_capgen.py:160-179; `none` is the index -1. -/
def findVar (name : Str) (l : List Arg) : Option (Nat × Arg) :=
  match l.findIdx? (fun v => lower v.name == lower name) with
  | some i => l[i]?.map fun v => (i, v)
  | none => none

/-- The text of a dimension after the translation to standard names, metadata_table.py:1119-1131 -/
def joinColon : List Str → Str
  | [] => []
  | [a] => a
  | a :: l => a ++ ':' :: joinColon l

/-- Standard name of the constant 1, metadata_table.py:1077-1080, 1086-1089; metavar.py:44-47 -/
def constantOne : Str := "ccpp_constant_one".toList

/-- One element of a dimension, metadata_table.py:1083-1118.  With a logger, an unknown element is a crash:
the message refers to a variable that is only set in another branch (1061, 1113). -/
def convertItem (logger : Bool) (meta1 : List Arg) (item : Str) : Except Exc Str :=
  if Chk.isPyInt (strip item) then .ok (if item = ['1'] then constantOne else item)
  else if item = [] then .ok []
  else match findVar item meta1 with
    | some (_, v) => .ok v.std
    | none => .error (if logger then .crash else .error)

/-- The elements of one dimension, metadata_table.py:1083-1125 -/
def convertItems (logger : Bool) (meta1 : List Arg) : List Str → Except Exc (List Str)
  | [] => .ok []
  | i :: l =>
    match convertItem logger meta1 i with
    | .error e => .error e
    | .ok a =>
      match convertItems logger meta1 l with
      | .error e => .error e
      | .ok r => .ok (a :: r)

/-- MetadataSection.convert_dims_to_standard_names, metadata_table.py:1044-1133, for valid dimensions -/
def convertDims (logger : Bool) (meta1 : List Arg) : List Str → Except Exc (List Str)
  | [] => .ok []
  | d :: l =>
    match convertItems logger meta1 (Chk.splitOn ':' d) with
    | .error e => .error e
    | .ok items =>
      match convertDims logger meta1 l with
      | .error e => .error e
      | .ok r => .ok (joinColon ((if ':' ∈ d then [] else [constantOne]) ++ items) :: r)

/-- A dimension without blanks around colons, in lower case, ccpp_capgen.py:224-235 -/
def normDim (d : Str) : Str :=
  lower (if ':' ∈ d then joinColon ((Chk.splitOn ':' d).map strip) else d)

/-- The loop over the dimensions, ccpp_capgen.py:222-246: the test is `fdim in (':', fdim)`. -/
def dimErrors (name : Str) : List Str → List Str → List Msg
  | m :: ms, f :: fs =>
    let _mdim := normDim m
    let fdim := normDim (strip f)
    (if [":".toList, fdim].contains fdim then [] else [Msg.dim name]) ++ dimErrors name ms fs
  | _, _ => []

/-- dims_comp, ccpp_capgen.py:206-247; invalid Fortran dimensions raise a CCPPError
(metadata_table.py:1051-1072), invalid metadata dimensions a TypeError (`len(None)`). -/
def dimsComp (logger : Bool) (meta1 : List Arg) (m f : Arg) : Except Exc (List Msg) :=
  match f.dims with
  | none => .error .error
  | some fd =>
    match convertDims logger meta1 fd with
    | .error e => .error e
    | .ok fdims =>
      match m.dims with
      | none => .error .crash
      | some mdims => .ok (if mdims.length = fdims.length then dimErrors m.name mdims fdims else [.rank m.name])

/-- var_comp on a text property, ccpp_capgen.py:182-203 -/
def propComp (prop : String) (m : Arg) (a b : Option Str) : List Msg :=
  if a.map lower = b.map lower then [] else [.differ prop.toList m.name]

/-- The comparison of one metadata variable with its Fortran variable, ccpp_capgen.py:372-396 -/
def compareVar (logger : Bool) (isScheme : Bool) (meta1 : List Arg) (m f : Arg) : Except Exc (List Msg) :=
  match propComp "local_name" m (some m.name) (some f.name) with
  | e :: es => .ok (e :: es)
  | [] =>
    match dimsComp logger meta1 m f with
    | .error e => .error e
    | .ok ds =>
      .ok (propComp "type" m (some m.type) (some f.type) ++ propComp "kind" m m.kind f.kind ++
        (if isScheme then propComp "intent" m m.intent f.intent else []) ++ ds)

/-- Messages about the optional attribute, ccpp_capgen.py:318-337: the index of the variable is used as a
truth value, so it is not checked at position 0 and reads a property of None at position -1. -/
def optionalComp (m : Arg) (found : Option (Nat × Arg)) : Except Exc (List Msg) :=
  match found with
  | none => if m.optional then .error .crash else .ok []
  | some (i, f) =>
    .ok ((if i ≠ 0 ∧ m.optional ∧ !f.optional then [Msg.optionalInFortran m.name] else []) ++
      (if f.optional ∧ !m.optional then [Msg.optionalInMetadata m.name] else []))

/-- One iteration of the loop over the metadata variables, ccpp_capgen.py:310-398 -/
def checkVar (logger : Bool) (mt ft : Table) (flen mind : Nat) (m : Arg) : Except Exc (List Msg) :=
  let found := findVar m.name ft.vars
  match optionalComp m found with
  | .error e => .error e
  | .ok o =>
    if mind ≥ flen then
      .ok (o ++ if isArrayRef m.name then [] else if found.isNone then [.noVariable m.name] else [])
    else if !isArrayRef m.name && found.isNone then .ok (o ++ [.noVariable m.name])
    else if ft.htype = scheme ∧ found.map (·.1) ≠ some mind then .ok (o ++ [.order m.name])
    else if isArrayRef m.name then .ok o
    else match found with
      | none => .error .crash
      | some (_, f) =>
        match compareVar logger (mt.htype == scheme) mt.vars m f with
        | .error e => .error e
        | .ok es => .ok (o ++ es)

/-- The loop over the metadata variables, ccpp_capgen.py:310-398 -/
def checkVars (logger : Bool) (mt ft : Table) (flen : Nat) : Nat → List Arg → Except Exc (List Msg)
  | _, [] => .ok []
  | i, m :: ms =>
    match checkVar logger mt ft flen i m with
    | .error e => .error e
    | .ok a =>
      match checkVars logger mt ft flen (i + 1) ms with
      | .error e => .error e
      | .ok b => .ok (a ++ b)

/-- The number of Fortran variables that need metadata, ccpp_capgen.py:270-292 -/
def neededLen (mt ft : Table) (mlen : Nat) : Nat :=
  if ft.vars.length > mlen then
    ft.vars.length - (ft.vars.filter fun f => (findVar f.name mt.vars).isNone && f.optional).length
  else ft.vars.length

/-- compare_fheader_to_mheader, ccpp_capgen.py:249-399 -/
def compare (logger : Bool) (mt ft : Table) : Except Exc (List Msg) :=
  if mt.htype ≠ ft.htype then
    if mt.htype ≠ "host".toList ∨ ft.htype ∉ ["module".toList, scheme] then .error .error else .ok []
  else
    let mlen := (mt.vars.filter fun m => !isArrayRef m.name).length
    let flen := neededLen mt ft mlen
    let count := if mlen = flen ∨ (ft.htype ∈ extraTypes ∧ flen > mlen) then [] else [Msg.count]
    match checkVars logger mt ft flen 0 mt.vars with
    | .error e => .error e
    | .ok es => .ok (count ++ es)

/-- The first loop of check_fortran_against_metadata: the Fortran table of every metadata table and the
tables that remain, ccpp_capgen.py:409-428 -/
def pairTables : List Table → List Table → Option (List (Table × Table) × List Table)
  | [], fs => some ([], fs)
  | m :: ms, fs =>
    match fs.find? (fun f => f.title == m.title) with
    | none => none
    | some f =>
      match pairTables ms (fs.eraseP fun f => f.title == m.title) with
      | none => none
      | some (ps, rest) => some ((m, f) :: ps, rest)

/-- The comparison of all pairs, ccpp_capgen.py:443-448 -/
def compareAll (logger : Bool) : List (Table × Table) → Except Exc (List Msg)
  | [] => .ok []
  | (m, f) :: ps =>
    match compare logger m f with
    | .error e => .error e
    | .ok a =>
      match compareAll logger ps with
      | .error e => .error e
      | .ok b => .ok (a ++ b)

/-- check_fortran_against_metadata, ccpp_capgen.py:401-456: `ok` if nothing is raised. -/
def check (logger : Bool) (meta1 fort : List Table) : Except Exc Unit :=
  match pairTables meta1 fort with
  | none => .error .error
  | some (ps, rest) =>
    if rest.any fun f => !f.vars.isEmpty then .error .error
    else match compareAll logger ps with
      | .error e => .error e
      | .ok [] => .ok ()
      | .ok (_ :: _) => .error .error

end Ccpp.FM
