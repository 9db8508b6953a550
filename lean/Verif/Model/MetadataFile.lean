import Verif.Model.FortranScheme
import Verif.Model.StateMachine
import Verif.Model.Checkers
/-!
# Model of the metadata file parser, `scripts/metadata_table.py`

The model works on the logical lines of the file (C24: trailing blanks removed, continuation lines
joined); lines contain no newline.  Every error ends in an exception (add_syntax_err is followed by a
CCPPError at the end of the table, metadata_table.py:435-438), so an error is `none`; messages are not
modelled.  `skip_ddt_check` is False, as in ccpp_capgen.py.
-/
namespace Ccpp.MF

open Ccpp.FDecl (Str dropWord?)
open Ccpp.FSub (kw ident)

/-- blank_metadata_line, metadata_table.py:150-156 -/
def isBlank (s : Str) : Bool :=
  s.isEmpty || (match lstrip s with
    | '#' :: _ => true
    | ';' :: _ => true
    | _ => false)

/-- One item of _parse_config_line with the uses of its result: key and value,
metadata_table.py:170-176, 388-389, 753-754, 854-855 -/
def configItem (item : Str) : Option (Str × Str) :=
  if '=' ∈ item then
    some (lower (strip (item.takeWhile (· != '='))), strip ((item.dropWhile (· != '=')).drop 1))
  else none

/-- _parse_config_line, metadata_table.py:160-181; `none` is the ParseSyntaxError. -/
def configLine (s : Str) : Option (List (Str × Str)) :=
  if isBlank s then some [] else (Chk.splitOn '|' (strip s)).mapM configItem

/-- The regular expression `\s*\[\s*word\s*\]`, case-insensitive, with the test for blank lines,
metadata_table.py:271, 506-516, 617, 1319-1328 -/
def bracket (w s : Str) : Bool :=
  !isBlank s && ((((kw ['['] s).bind (kw w)).bind (kw [']'])).isSome)

/-- MetadataTable.table_start, metadata_table.py:506-516 -/
def tableStart (s : Str) : Bool := bracket "ccpp-table-properties".toList s

/-- MetadataSection.header_start, metadata_table.py:1319-1328 -/
def headerStart (s : Str) : Bool := bracket "ccpp-arg-table".toList s

/-- __FORT_DIM, parse_checkers.py:214-216 -/
def isDim (s : Str) : Bool :=
  s == [':'] || (match s with
    | [] => false
    | c :: t => (isLetter c && t.all isWordC) || (c.isDigit && t.all Char.isDigit))

/-- FORTRAN_SCALAR_REF at the beginning of a text: the two groups and what follows,
parse_checkers.py:217-221 -/
def refGroups (s : Str) : Option (Str × Str × Str) :=
  (ident s).bind fun r =>
    match lstrip r.2 with
    | '(' :: t =>
      let u := lstrip t
      let inner := u.takeWhile (· != ')')
      let items := (Chk.splitOn ',' inner).map strip
      if ')' ∈ u ∧ items.all isDim ∧ items.length ≤ 7 then
        some (r.1, inner, (u.dropWhile (· != ')')).drop 1)
      else none
    | _ => none

/-- `\s*\]$`, the end of a line that starts a variable, metadata_table.py:619-621 -/
def closes (s : Str) : Bool := lstrip s == [']']

/-- variable_start, metadata_table.py:619-621, 1177-1202 (the test is_scalar_reference, 1330-1333, always
succeeds for the names built here) -/
def varStart (s : Str) : Option Str :=
  match s with
  | '[' :: t =>
    match (ident (lstrip t)).filter (fun r => closes r.2) with
    | some r => some r.1
    | none =>
      ((refGroups (lstrip t)).filter (fun r => closes r.2.2)).map
        (fun r => r.1 ++ '(' :: (r.2.1 ++ [')']))
  | _ => none

/-- The lines before the first line that satisfies `p`, and each of these with the lines up to the next
one.  The nested loops of the parser (metadata_table.py:201-222, 371-434, 747-787, 810-834, 862-873) end
at the first line that starts a variable, a section or a table and hand this line to the enclosing
loop. -/
def chunks (p : Str → Bool) : List Str → List Str × List (Str × List Str)
  | [] => ([], [])
  | l :: ls =>
    if p l then ([], (l, (chunks p ls).1) :: (chunks p ls).2)
    else (l :: (chunks p ls).1, (chunks p ls).2)

/-- The property items of a list of lines, metadata_table.py:386, 751, 876 -/
def entries (ls : List Str) : Option (List (Str × Str)) := (ls.mapM configLine).map List.flatten

/-- A property value: text, logical, number or list, var_props.py:675-765 -/
inductive Val where
  | text (s : Str)
  | flag (b : Bool)
  | number (s : Str)
  | list (l : List Str)
  deriving DecidableEq

/-- A property dictionary of a variable, metadata_table.py:862 (the order of insertion is not modelled). -/
abbrev Props := Str → Option Val

/-- What the parser takes from the rest of the framework: the accepted form of a property value
(`Var.get_prop(name)` and `valid_value`, metavar.py:433-441, var_props.py:675-765; `none` if the property does
not exist or the value is not valid), the test for intrinsic types (check_fortran_intrinsic), whether `Var`
accepts the properties (metavar.py:264-375; it depends on the kind of section and on the registered type
names), whether the dictionary of the section accepts a further variable (metavar.py:1561-1620), and the
library functions used for the path of a dependency (os.path). -/
structure Env where
  value : Str → Str → Option Val
  intrinsic : Str → Bool
  accept : Str → (Str → Bool) → Props → Bool
  addOk : List Props → Props → Bool
  join : Str → Str → Str
  abspath : Str → Str
  dirname : Str
  defaultModule : Str

/-- "dimensions" are turned into ranges, metadata_table.py:909-920.  (The property is of type list.) -/
def dimRange (d : Str) : Str := if ':' ∈ d then d else "ccpp_constant_one:".toList ++ d

/-- metadata_table.py:909-920 -/
def rangesOf (pname : Str) (v : Val) : Val :=
  if pname = "dimensions".toList then
    match v with
    | .list l => .list (l.map dimRange)
    | w => w
  else v

/-- Assignment to the dictionary, metadata_table.py:862, 922, 930 -/
def Props.set (d : Props) (k : Str) (v : Val) : Props := fun j => if j = k then some v else d j

/-- One property of a variable, metadata_table.py:876-924 -/
def varProp (env : Env) (known : List Str) (d : Props) (e : Str × Str) : Option Props :=
  if e.1 = "type".toList ∧ env.intrinsic e.2 = false then
    if e.2 ∈ known then some (d.set "ddt_type".toList (.text e.2)) else none
  else (env.value e.1 e.2).map fun v => d.set e.1 (rangesOf e.1 v)

/-- metadata_table.py:876-924 for all items -/
def varProps (env : Env) (known : List Str) : Props → List (Str × Str) → Option Props
  | d, [] => some d
  | d, e :: es => (varProp env known d e).bind fun d' => varProps env known d' es

/-- `', '.join` (Python library) -/
def commaSep : List Str → Str
  | [] => []
  | [x] => x
  | x :: xs => x ++ [',', ' '] ++ commaSep xs

/-- check_array_reference, metadata_table.py:947-1015: `none` is an exception, `some none` no array
reference. -/
def arrayReference (name : Str) (d : Props) : Option (Option Str) :=
  if Chk.fidMatch name then some none
  else match refGroups name with
    | some (g1, g2, []) =>
      let rdims := (Chk.splitOn ',' g2).map strip
      match d "dimensions".toList with
      | some (.list vdims) =>
        if (rdims.filter (· == [':'])).length = vdims.length then some (some (g1 ++ '(' :: (commaSep rdims ++ [')'])))
        else none
      | _ => none
    | _ => none

/-- parse_variable, metadata_table.py:841-945, for the line that starts the variable and the lines up to
the next start. -/
def parseVariable (env : Env) (stype : Str) (known reg : List Str) (c : Str × List Str) : Option Props :=
  (varStart c.1).bind fun name =>
  (entries c.2).bind fun es =>
  (varProps env known (Props.set (fun _ => none) "local_name".toList (.text name)) es).bind fun d =>
  (arrayReference name d).bind fun sub =>
    let d' := match sub with
      | some n => d.set "local_name".toList (.text n)
      | none => d
    if env.accept stype (fun n => decide (n ∈ reg)) d' then some d' else none

/-- The loop over the variables of a section, metadata_table.py:815-839 -/
def parseVariables (env : Env) (stype : Str) (known reg : List Str) : List Props → List (Str × List Str) → Option (List Props)
  | done, [] => some done
  | done, c :: cs =>
    (parseVariable env stype known reg c).bind fun v =>
      if env.addOk done v then parseVariables env stype known reg (done ++ [v]) cs else none

/-- _SINGLETON_TABLE_TYPES, metadata_table.py:145 -/
def singletonTypes : List Str := ["ddt".toList, "host".toList, "module".toList]
/-- TABLE_TYPES, metadata_table.py:146 -/
def tableTypes : List Str := singletonTypes ++ ["scheme".toList]
/-- HEADER_TYPES, metadata_table.py:147 -/
def headerTypes : List Str := tableTypes ++ ["local".toList]

/-- The header of a section, metadata_table.py:739-746 -/
structure SectHead where
  title : Option Str := none
  type : Option Str := none
  module : Option Str := none
  process : Str := "UNKNOWN".toList

/-- One property of a section header, metadata_table.py:752-785 -/
def sectProp (h : SectHead) (e : Str × Str) : Option SectHead :=
  if e.1 = "name".toList then some { h with title := some e.2 }
  else if e.1 = "type".toList then
    if e.2 ∈ headerTypes then some { h with type := some e.2 } else none
  else if e.1 = "module".toList then
    if e.2 ≠ "None".toList then some { h with module := some e.2 } else none
  else if e.1 = "process".toList then some { h with process := e.2 }
  else none

/-- The loop over the section header, metadata_table.py:747-787 -/
def sectProps : SectHead → List (Str × Str) → Option SectHead
  | h, [] => some h
  | h, e :: es => (sectProp h e).bind fun h' => sectProps h' es

/-- A parsed section, metadata_table.py:739-839 -/
structure Section where
  title : Str
  type : Str
  module : Str
  process : Str
  vars : List Props

/-- section_table_mismatch (True for a match), metadata_table.py:1140-1174 -/
def matchesTable (title type : Str) (tname ttype : Option Str) : Bool :=
  let func := if type = "scheme".toList then
      match SM.functionMatch SM.ccppMachine title with
      | some r => r.1
      | none => title
    else title
  ttype == some type && tname == some func

/-- The section without its variables: the checks of metadata_table.py:788-812 -/
def sectHead (tname ttype : Option Str) (h : SectHead) : Option (Str × Str) :=
  match h.title, h.type with
  | some title, some type =>
    if type ≠ "scheme".toList ∧ h.process ≠ "UNKNOWN".toList then none
    else if matchesTable title type tname ttype then some (title, type) else none
  | _, _ => none

/-- State shared between the tables: the known derived types (`known_ddts`) and the registered ones, metadata_table.py:192-222,
711-713 -/
structure Types where
  known : List Str
  registered : List Str

/-- MetadataSection.__init_from_file with the registration of 711-713, metadata_table.py:711-839, for the
lines after the one that starts the section -/
def parseSection (env : Env) (tname ttype : Option Str) (ty : Types) (body : List Str) : Option (Section × Types) :=
  let c := chunks (fun l => (varStart l).isSome) body
  (entries c.1).bind fun es =>
  (sectProps {} es).bind fun h =>
  (sectHead tname ttype h).bind fun tt =>
    let known := if tt.2 = "ddt".toList then ty.known ++ [tt.1] else ty.known
    (parseVariables env tt.2 known ty.registered [] c.2).bind fun vs =>
      let reg := if tt.2 = "ddt".toList then ty.registered ++ [tt.1] else ty.registered
      some (⟨tt.1, tt.2, h.module.getD env.defaultModule, h.process, vs⟩, ⟨known, reg⟩)

/-- The header of a table, metadata_table.py:386-424; `deps = none` is the declaration `dependencies = None`. -/
structure TableHead where
  name : Option Str := none
  type : Option Str := none
  deps : Option (List Str) := some []
  path : Option Str := none

/-- The items of a dependencies property, metadata_table.py:413-415 -/
def depItems (v : Str) : List Str := ((Chk.splitOn ',' v).filter (fun x => strip x ≠ [])).map strip

/-- The effect of one dependencies property, metadata_table.py:396-416 -/
def depStep (deps : Option (List Str)) (v : Str) : Option (Option (List Str)) :=
  if lower v = "none".toList then
    match deps with
    | some (_ :: _) => none
    | _ => some none
  else match deps with
    | none => none
    | some ds => some (some (ds ++ depItems v))

/-- One property of a table header, metadata_table.py:386-424 -/
def tableProp (h : TableHead) (e : Str × Str) : Option TableHead :=
  if e.1 = "name".toList then some { h with name := some e.2 }
  else if e.1 = "type".toList then
    if e.2 ∈ tableTypes then some { h with type := some e.2 } else none
  else if e.1 = "dependencies".toList then
    (depStep h.deps e.2).map fun d => { h with deps := d }
  else if e.1 = "relative_path".toList then some { h with path := some e.2 }
  else none

/-- The loop over the table header, metadata_table.py:386-424 -/
def tableProps : TableHead → List (Str × Str) → Option TableHead
  | h, [] => some h
  | h, e :: es => (tableProp h e).bind fun h' => tableProps h' es

/-- The loop over the sections of a table with the test for singleton tables, metadata_table.py:400-434 -/
def sections (env : Env) (tname ttype : Option Str) : Types → List Section → List (Str × List Str) →
    Option (List Section × Types)
  | ty, done, [] => some (done, ty)
  | ty, done, c :: cs =>
    (parseSection env tname ttype ty c.2).bind fun r =>
      if done.length = 1 ∧ (∃ t ∈ ttype, t ∈ singletonTypes) then none
      else sections env tname ttype r.2 (done ++ [r.1]) cs

/-- A parsed table, metadata_table.py:348-445 -/
structure Table where
  name : Option Str
  type : Option Str
  deps : List Str
  path : Option Str
  sects : List Section

/-- Absolute paths of the dependencies, metadata_table.py:355-361 -/
def resolve (env : Env) (path : Option Str) (deps : List Str) : List Str :=
  let dir := match path with
    | some p => if p = [] then env.dirname else env.join env.dirname p
    | none => env.dirname
  deps.map fun d => env.abspath (env.join dir d)

/-- MetadataTable.__init_from_file, metadata_table.py:348-445, for the lines after the one that starts the
table.  (`known_ddts.append(None)` for a table without name has no effect on later lookups.) -/
def parseTable (env : Env) (ty : Types) (body : List Str) : Option (Table × Types) :=
  let c := chunks headerStart body
  (entries c.1).bind fun es =>
  (tableProps {} es).bind fun h =>
  (sections env h.name h.type ty [] c.2).bind fun r =>
    let known := if h.type = some "ddt".toList then r.2.known ++ h.name.toList else r.2.known
    some (⟨h.name, h.type, resolve env h.path (h.deps.getD []), h.path, r.1⟩, ⟨known, r.2.registered⟩)

/-- The loop over the tables, metadata_table.py:199-223 -/
def tables (env : Env) : Types → List Table → List (Str × List Str) → Option (List Table × Types)
  | ty, done, [] => some (done, ty)
  | ty, done, c :: cs =>
    (parseTable env ty c.2).bind fun r =>
      if r.1.name ∈ done.map (·.name) then none else tables env r.2 (done ++ [r.1]) cs

/-- parse_metadata_file, metadata_table.py:185-224, on the logical lines -/
def parseFile (env : Env) (ty : Types) (lines : List Str) : Option (List Table × Types) :=
  let c := chunks tableStart lines
  if c.1.all isBlank then tables env ty [] c.2 else none

end Ccpp.MF
