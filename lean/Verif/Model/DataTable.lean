import Verif.Model.XmlFile
import Verif.Model.ReqVars
/-!
# Model of `scripts/ccpp_datafile.py`: the data table of capgen and the reports about it

The data table is written by PrettyElementTree and read by read_xml_file (`XmlFile.lean`).  An error is `none`.

Simplifications: objects are seen through the properties and methods used here; the properties of a variable with a
true value are texts; the parent of an object is the object that contains it; a table without the section
`var_dictionaries` has no dictionaries (Python raises an exception, but this section is always written); the report
`show` is not modelled here.
-/
namespace Ccpp.DT
open XF

/-- A variable: standard name, intent, local name and the other properties with a true value in the order of
prop_list, ccpp_datafile.py:865-896 -/
structure Var where
  name : Str
  intent : Option Str
  localName : Str
  props : List (Str × Str)
  dims : List Str
  sourceType : Str
  sourceName : Str

/-- A variable dictionary: names of its sub-dictionaries and its variables, ccpp_datafile.py:995-1012 -/
structure Dict where
  subs : List Str
  vars : List Var

/-- A scheme in a group, ccpp_datafile.py:899-992.  `hasRun` is scheme._has_run_phase: there is a routine for the phase of
the group. -/
structure Scheme where
  name : Str
  dict : Dict
  callList : Dict
  hasRun : Bool
  subroutine : Str
  filename : Str

/-- The objects in a group: schemes, and loops or time splits with a name and a dictionary, suite_objects.py:1880-2075 -/
inductive Obj where
  | scheme (s : Scheme)
  | timeSplit (name : Str) (dict : Dict) (parts : List Obj)
  | subcycle (name loop : Str) (dict : Dict) (parts : List Obj)
  | verticalLoop (name dim : Str) (dict : Dict) (parts : List Obj)

/-- A group: its phase, dictionary, call list and parts, suite_objects.py:2110-2180 -/
structure Group where
  name : Str
  phase : Str
  dict : Dict
  callList : Dict
  parts : List Obj

/-- A suite with the name of its suite definition file, ccpp_suite.py:60-125 -/
structure Suite where
  name : Str
  sdf : Str
  dict : Dict
  groups : List Group

/-- A metadata header of a scheme routine; no process type stands for UNKNOWN and no module for an empty
one, ccpp_datafile.py:958-975 -/
structure Header where
  title : Str
  process : Option Str
  module_ : Option Str

/-- The arguments of generate_ccpp_datatable, ccpp_datafile.py:1098-1101.  The dependencies are in the order in which Python
enumerates the sets. -/
structure Data where
  kinds : Str
  sourceDir : Str
  hostFiles : List Str
  suiteFiles : List Str
  headers : List Header
  suites : List Suite
  hostName : Str
  host : Dict
  apiName : Str
  api : Dict
  hostDeps : List Str
  schemeDeps : List Str

/-! ## Writing -/

/-- An element without text (ET.SubElement), ccpp_datafile.py:881 -/
def node (tag : Str) (attrs : List (Str × Str)) (kids : List Elem) : Elem := .mk tag attrs [] kids []

/-- An element with a text, ccpp_datafile.py:893-895 -/
def leaf (tag text : Str) : Elem := .mk tag [] text [] []

/-- str.join (Python library), ccpp_datafile.py:737 -/
def join (sep : Str) : List Str → Str
  | [] => []
  | [x] => x
  | x :: y :: l => x ++ sep ++ join sep (y :: l)

/-- _new_var_entry, ccpp_datafile.py:847-897 -/
def varEntry (full : Bool) (v : Var) : Elem :=
  node "var".toList
    (("name".toList, v.name) :: (match v.intent with | some i => [("intent".toList, i)] | none => []) ++
      ("local_name".toList, v.localName) :: (if full then v.props else []))
    (if full then
      (if v.dims = [] then [] else [leaf "dimensions".toList (join [' '] v.dims)]) ++
        [leaf "source_type".toList v.sourceType, leaf "source_name".toList v.sourceName]
     else [])

/-- The attributes of a dictionary, ccpp_datafile.py:998-1003 -/
def dictAttrs (name type : Str) (parent : Option Str) : List (Str × Str) :=
  [("name".toList, name), ("type".toList, type)] ++ (match parent with | some p => [("parent".toList, p)] | none => [])

/-- _new_variable_dictionary, ccpp_datafile.py:995-1012 -/
def dictEntry (name type : Str) (parent : Option Str) (d : Dict) : Elem :=
  node "var_dictionary".toList (dictAttrs name type parent)
    ((if d.subs = [] then [] else [leaf "sub_dictionaries".toList (join [' '] d.subs)]) ++
      [node "variables".toList [] (d.vars.map (varEntry true))])

/-- The name of a call list, suite_objects.py:221 -/
def callName (n : Str) : Str := n ++ "_call_list".toList

/-- The dictionary of an object and that of its call list, if it has variables, ccpp_datafile.py:1020-1027 -/
def ownDicts (name type parent : Str) (d : Dict) (callList : Dict) : List Elem :=
  dictEntry name type (some parent) d ::
    (if callList.vars = [] then [] else [dictEntry (callName name) (type ++ "_call_list".toList) (some parent) callList])

mutual
/-- _add_suite_object_dictionaries, ccpp_datafile.py:1015-1031 -/
def objDicts (parent : Str) : Obj → List Elem
  | .scheme s => ownDicts s.name "scheme".toList parent s.dict s.callList
  | .timeSplit n d ps => dictEntry n "timesplit".toList (some parent) d :: objsDicts n ps
  | .subcycle n _ d ps => dictEntry n "subcycle".toList (some parent) d :: objsDicts n ps
  | .verticalLoop n _ d ps => dictEntry n "verticalloop".toList (some parent) d :: objsDicts n ps
/-- The loop over the parts, ccpp_datafile.py:1028-1030 -/
def objsDicts (parent : Str) : List Obj → List Elem
  | [] => []
  | o :: os => objDicts parent o ++ objsDicts parent os
end

/-- _add_suite_object_dictionaries for a group, ccpp_datafile.py:1015-1031 -/
def groupDicts (suite : Str) (g : Group) : List Elem :=
  ownDicts g.name "group".toList suite g.dict g.callList ++ objsDicts g.name g.parts

/-- os.path.basename (Python library), ccpp_suite.py:108 -/
def basename (f : Str) : Str := (f.reverse.takeWhile (· != '/')).reverse

/-- os.path.splitext(...)[0] (Python library), ccpp_suite.py:108 -/
def stem (b : Str) : Str :=
  let pre := ((b.reverse.dropWhile (· != '.')).drop 1).reverse
  if pre.all (· == '.') then b else pre

/-- The name of the parent of a suite, its dictionary of constituents, ccpp_suite.py:108-109 -/
def Suite.parent (s : Suite) : Str := stem (basename s.sdf) ++ "_constituents".toList

/-- Dictionaries of a suite, ccpp_datafile.py:1154-1158 -/
def suiteDicts (s : Suite) : List Elem :=
  dictEntry s.name "suite".toList (some s.parent) s.dict :: s.groups.flatMap (groupDicts s.name)

mutual
/-- _add_suite_object, ccpp_datafile.py:1079-1095 -/
def objEntry : Obj → Elem
  | .scheme s => node "scheme".toList [("name".toList, s.name)] []
  | .timeSplit n _ ps => node "timesplit".toList [("name".toList, n)] (objEntries ps)
  | .subcycle n l _ ps => node "subcycle".toList [("name".toList, n), ("loop".toList, l)] (objEntries ps)
  | .verticalLoop n d _ ps => node "verticalloop".toList [("name".toList, n), ("dimension_name".toList, d)] (objEntries ps)
/-- The loop over the parts, ccpp_datafile.py:1093-1095 -/
def objEntries : List Obj → List Elem
  | [] => []
  | o :: os => objEntry o :: objEntries os
end

/-- _add_suite_object for a group, ccpp_datafile.py:1079-1095 -/
def groupEntry (g : Group) : Elem :=
  node "group".toList [("name".toList, g.name), ("phase".toList, g.phase)] (objEntries g.parts)

/-- The entry of a suite: groups without parts are skipped, ccpp_datafile.py:1136-1145 -/
def suiteEntry (s : Suite) : Elem :=
  node "suite".toList [("name".toList, s.name), ("filename".toList, s.sdf)]
    ((s.groups.filter fun g => !g.parts.isEmpty).map groupEntry)

/-- os.path.join (Python library) with a relative second path, ccpp_datafile.py:1061-1066 -/
def pathJoin (d f : Str) : Str :=
  if d = [] then f else if d.getLast? = some '/' then d ++ f else d ++ '/' :: f

/-- The utility files, ccpp_datafile.py:1058-1066 -/
def utilities (d : Data) : List Str :=
  [d.kinds, pathJoin d.sourceDir "ccpp_constituent_prop_mod.F90".toList, pathJoin d.sourceDir "ccpp_hashable.F90".toList,
    pathJoin d.sourceDir "ccpp_hash_table.F90".toList]

/-- _add_generated_files, ccpp_datafile.py:1048-1076 -/
def filesEntry (d : Data) : Elem :=
  node "ccpp_files".toList []
    [node "utilities".toList [] ((utilities d).map (leaf "file".toList)),
     node "host_files".toList [] (d.hostFiles.map (leaf "file".toList)),
     node "suite_files".toList [] (d.suiteFiles.map (leaf "file".toList))]

mutual
/-- SuiteObject.schemes, suite_objects.py:324-330, 1842-1844 -/
def Obj.schemes : Obj → List Scheme
  | .scheme s => [s]
  | .timeSplit _ _ ps => schemesOf ps
  | .subcycle _ _ _ ps => schemesOf ps
  | .verticalLoop _ _ _ ps => schemesOf ps
/-- The loop over the parts, suite_objects.py:327-329 -/
def schemesOf : List Obj → List Scheme
  | [] => []
  | o :: os => o.schemes ++ schemesOf os
end

/-- The tag of an element (xml.etree.ElementTree), ccpp_datafile.py:290 -/
def tagOf : Elem → Str | .mk tag _ _ _ _ => tag
/-- The attributes of an element (xml.etree.ElementTree), ccpp_datafile.py:336 -/
def attrsOf : Elem → List (Str × Str) | .mk _ attrs _ _ _ => attrs
/-- The sub-elements of an element (xml.etree.ElementTree), ccpp_datafile.py:289 -/
def kidsOf : Elem → List Elem | .mk _ _ _ kids _ => kids
/-- The text of an element, if there is one (xml.etree.ElementTree), ccpp_datafile.py:291 -/
def textOf : Elem → Option Str | .mk _ _ text _ _ => if text = [] then none else some text

/-- Element.find (xml.etree.ElementTree): the first sub-element with this tag, ccpp_datafile.py:250 -/
def find (e : Elem) (tag : Str) : Option Elem := (kidsOf e).find? fun k => tagOf k == tag

/-- Element.get (xml.etree.ElementTree), ccpp_datafile.py:336 -/
def get (e : Elem) (key : Str) : Option Str := ((attrsOf e).find? fun a => a.1 == key).map (·.2)

/-- Element.set (xml.etree.ElementTree), ccpp_datafile.py:990 -/
def setAttr (attrs : List (Str × Str)) (k v : Str) : List (Str × Str) :=
  if attrs.any (fun a => a.1 == k) then attrs.map fun a => if a.1 == k then (k, v) else a else attrs ++ [(k, v)]

/-- The element of a phase of a scheme, ccpp_datafile.py:950-983 -/
def phaseEntry (tag : Str) (s : Scheme) (h : Header) : Elem :=
  node tag ([("name".toList, s.name), ("subroutine_name".toList, s.subroutine), ("filename".toList, s.filename)] ++
      (match h.module_ with | some m => [("module".toList, m)] | none => []))
    [node "call_list".toList [] (s.callList.vars.map (varEntry false))]

/-- The tag of a phase: the name of the group in the run phase, ccpp_datafile.py:931-935 -/
def phaseTag (g : Group) : Str := if g.phase = "run".toList then g.name else g.phase

/-- The rest of _new_scheme_entry for the element of the scheme, ccpp_datafile.py:931-991 -/
def addPhase (headers : List Header) (g : Group) (s : Scheme) : Elem → Option Elem
  | .mk tag attrs text kids tail =>
    if phaseTag g = [] then none
    else if (match kids.find? fun k => tagOf k == phaseTag g with
        | some p => !(kidsOf p).isEmpty && get p "name".toList != some s.name
        | none => false) then none
    else if !s.hasRun then some (.mk tag attrs text kids tail)
    else match headers.find? fun h => h.title == s.subroutine with
      | none => none
      | some h =>
        some (.mk tag (match h.process with | some p => setAttr attrs "process".toList p | none => attrs) text
          (kids ++ [phaseEntry (phaseTag g) s h]) tail)

/-- The first element with the tag is replaced, ccpp_datafile.py:925 -/
def replaceFirst (tag : Str) (new : Elem) : List Elem → List Elem
  | [] => []
  | e :: es => if tagOf e == tag then new :: es else e :: replaceFirst tag new es

/-- _new_scheme_entry: the elements under `schemes`, ccpp_datafile.py:920-992.  An element without sub-elements counts as
false. -/
def addScheme (headers : List Header) (g : Group) (s : Scheme) (es : List Elem) : Option (List Elem) :=
  let fresh := (addPhase headers g s (node "scheme".toList [("name".toList, s.name)] [])).map fun e => es ++ [e]
  match es.find? fun e => tagOf e == s.name with
  | some e => if (kidsOf e).isEmpty then fresh else (addPhase headers g s e).map fun e' => replaceFirst s.name e' es
  | none => fresh

/-- The loops over the schemes of all groups, ccpp_datafile.py:1124-1131 -/
def addSchemes (headers : List Header) : List (Group × Scheme) → List Elem → Option (List Elem)
  | [], es => some es
  | (g, s) :: l, es => (addScheme headers g s es).bind (addSchemes headers l)

/-- All schemes with their groups, ccpp_datafile.py:1124-1128 -/
def uses (d : Data) : List (Group × Scheme) :=
  d.suites.flatMap fun s => s.groups.flatMap fun g => (schemesOf g.parts).map fun x => (g, x)

/-- No title occurs twice, ccpp_datafile.py:1115-1122 -/
def uniqueTitles : List Header → Bool
  | [] => true
  | h :: hs => hs.all (fun x => x.title != h.title) && uniqueTitles hs

/-- All variable dictionaries, ccpp_datafile.py:1147-1161 -/
def allDicts (d : Data) : List Elem :=
  dictEntry d.hostName "host".toList none d.host :: dictEntry d.apiName "api".toList (some d.hostName) d.api ::
    d.suites.flatMap suiteDicts

/-- generate_ccpp_datatable: the element tree, ccpp_datafile.py:1098-1182 -/
def generate (d : Data) : Option Elem :=
  if uniqueTitles d.headers then
    (addSchemes d.headers (uses d) []).map fun schemes =>
      node "ccpp_datatable".toList [("version".toList, "1.0".toList)]
        [filesEntry d, node "schemes".toList [] schemes,
         node "api".toList [] [node "suites".toList [] (d.suites.map suiteEntry)],
         node "var_dictionaries".toList [] (allDicts d),
         node "dependencies".toList [] ((d.hostDeps ++ d.schemeDeps).map (leaf "dependency".toList))]
  else none

/-- generate_ccpp_datatable: the text of the file, ccpp_datafile.py:1098-1184 -/
def file (d : Data) : Option Str := (generate d).bind write

/-! ## Reports -/

/-- All or nothing (Python's str.join refuses None), ccpp_datafile.py:737 -/
def allSome : List (Option Str) → Option (List Str)
  | [] => some []
  | none :: _ => none
  | some x :: l => (allSome l).map (x :: ·)

/-- sorted(set(...)) (Python library), ccpp_datafile.py:370, 408, 680 -/
def sortedSet (l : List Str) : List Str := RV.sorted l.eraseDups

/-- _retrieve_ccpp_files, ccpp_datafile.py:260-297 -/
def files (table : Elem) (type : Option Str) : Option (List (Option Str)) :=
  (find table "ccpp_files".toList).bind fun sec =>
    let entries := ((kidsOf sec).filter fun k => match type with | none => true | some t => tagOf k == t).flatMap kidsOf
    if entries.all fun k => tagOf k == "file".toList then some (entries.map textOf) else none

/-- The line of a process, ccpp_datafile.py:330 -/
def procLine (p : Str) (n : Option Str) : Str :=
  p ++ '=' :: n.getD "None".toList

/-- _retrieve_process_list, ccpp_datafile.py:300-335.  An empty process is false. -/
def processList (table : Elem) : Option (List Str) :=
  (find table "schemes".toList).map fun schemes =>
    RV.sorted ((kidsOf schemes).filterMap fun s =>
      match get s "process".toList with
      | some p => if p = [] then none else some (procLine p (get s "name".toList))
      | none => none)

/-- _retrieve_module_list, ccpp_datafile.py:338-371 -/
def moduleList (table : Elem) : Option (List Str) :=
  (find table "schemes".toList).map fun schemes =>
    sortedSet ((kidsOf schemes).flatMap fun s => (kidsOf s).filterMap fun p => get p "module".toList)

/-- _retrieve_dependencies, ccpp_datafile.py:374-409 -/
def dependencies (table : Elem) : Option (List Str) :=
  (find table "dependencies".toList).map fun deps => sortedSet ((kidsOf deps).filterMap textOf)

/-- _find_var_dictionary, ccpp_datafile.py:412-456 -/
def findDict (table : Elem) (name type : Option Str) : Option Elem :=
  (find table "var_dictionaries".toList).bind fun ds => (kidsOf ds).find? fun d =>
    (match name with | none => true | some n => get d "name".toList == some n) &&
      (match type with | none => true | some t => get d "type".toList == some t)

/-- The suites of the table, ccpp_datafile.py:474-479 -/
def suitesOf (table : Elem) : List Elem :=
  match (find table "api".toList).bind fun a => find a "suites".toList with
  | some s => kidsOf s
  | none => []

/-- _retrieve_suite_list, ccpp_datafile.py:459-485 -/
def suiteList (table : Elem) : List (Option Str) := (suitesOf table).map fun s => get s "name".toList

/-- _retrieve_suite_group_names, ccpp_datafile.py:488-520 -/
def groupNames (table : Elem) (suite : Str) : List (Option Str) :=
  ((suitesOf table).filter fun s => get s "name".toList == some suite).flatMap fun s =>
    ((kidsOf s).filter fun k => tagOf k == "group".toList).map fun k => get k "name".toList

/-- The variables of a dictionary, ccpp_datafile.py:538-540 -/
def varsOf (dict : Elem) : List Elem :=
  match find dict "variables".toList with
  | some v => kidsOf v
  | none => []

/-- Whether the variable is protected in this dictionary, ccpp_datafile.py:538-546 -/
def protectedIn (dict : Elem) (v : Str) : Bool :=
  match (varsOf dict).find? fun x => get x "name".toList == some v with
  | some x => get x "protected".toList == some "True".toList
  | none => false

/-- The parent of a dictionary, ccpp_datafile.py:548-553 -/
def parentDict (table dict : Elem) : Option Elem :=
  (get dict "parent".toList).bind fun p => findDict table (some p) none

/-- _is_variable_protected, ccpp_datafile.py:523-555.  The first argument bounds the number of iterations of the while loop;
`none`: not finished. -/
def isProtected (table : Elem) (v : Str) : Nat → Option Elem → Option Bool
  | _, none => some false
  | 0, some _ => none
  | n + 1, some dict => if protectedIn dict v then some true else isProtected table v n (parentDict table dict)

/-- The kinds of variable lists, ccpp_datafile.py:609-620 -/
inductive IntentType where
  | any
  | input
  | output

/-- allowed_intents, ccpp_datafile.py:609-617 -/
def allowed : IntentType → List Str
  | .any => ["in".toList, "out".toList, "inout".toList]
  | .input => ["in".toList, "inout".toList]
  | .output => ["out".toList, "inout".toList]

/-- The test of the intent, ccpp_datafile.py:670-674 -/
def intentAllowed (it : IntentType) : Option Str → Bool
  | some i => decide (i ∈ allowed it)
  | none => false

/-- The names of the variables of a list for which the (possibly unfinished) test is false, ccpp_datafile.py:626-641, 651-668 -/
def keepIf (test : Str → Option Bool) : List Str → Option (List Str)
  | [] => some []
  | v :: vs => (test v).bind fun b => (keepIf test vs).map fun l => if b then l else v :: l

/-- The names of the variables of a dictionary; every variable has a name, ccpp_datafile.py:627, 652 -/
def namesOf (vars : List Elem) : List Str := vars.filterMap fun x => get x "name".toList

/-- The variables of the host that are not excluded (intent_type host), ccpp_datafile.py:621-645 -/
def hostVariables (fuel : Nat) (table : Elem) (exclude : Bool) : Option (List Str) :=
  match findDict table none (some "host".toList) with
  | none => some []
  | some h =>
    (keepIf (fun v => if exclude then isProtected table v fuel (some h) else some false) (namesOf (varsOf h))).map sortedSet

/-- The protected variables of the host (excl_vars), ccpp_datafile.py:621-645 -/
def hostProtected (fuel : Nat) (table : Elem) : Option (List Str) :=
  match findDict table none (some "host".toList) with
  | none => some []
  | some h => keepIf (fun v => (isProtected table v fuel (some h)).map (!·)) (namesOf (varsOf h))

/-- The variables of one group, ccpp_datafile.py:649-676 -/
def groupVariables (fuel : Nat) (table : Elem) (exclude : Bool) (it : IntentType) (excl : List Str) (group : Str) :
    Option (List Str) :=
  match findDict table (some (callName group)) (some "group_call_list".toList) with
  | none => some []
  | some gd =>
    (keepIf (fun v => if exclude then (if v ∈ excl then some true else isProtected table v fuel (some gd)) else some false)
      (namesOf (varsOf gd))).map fun kept =>
        (namesOf ((varsOf gd).filter fun x => intentAllowed it (get x "intent".toList))).filter fun v => v ∈ kept

/-- The union over the groups, ccpp_datafile.py:648-678 -/
def unionAll (f : Str → Option (List Str)) : List Str → Option (List Str)
  | [] => some []
  | g :: gs => (f g).bind fun a => (unionAll f gs).map (a ++ ·)

/-- _retrieve_variable_list for a suite, ccpp_datafile.py:558-680 -/
def variableList (fuel : Nat) (table : Elem) (suite : Str) (it : IntentType) (exclude : Bool) : Option (List Str) :=
  (if exclude then hostProtected fuel table else some []).bind fun excl =>
    (allSome (groupNames table suite)).bind fun gs =>
      (unionAll (groupVariables fuel table exclude it excl) gs).map sortedSet

/-- The reports, ccpp_datafile.py:41-81 -/
inductive Action where
  | ccppFiles | hostFiles | suiteFiles | utilityFiles | processList | moduleList | dependencies | suiteList
  | varList (it : IntentType) (suite : Str)
  | hostVariables

/-- The items of a report, ccpp_datafile.py:697-734 -/
def items (fuel : Nat) (table : Elem) (exclude : Bool) : Action → Option (List Str)
  | .ccppFiles => (files table none).bind allSome
  | .hostFiles => (files table (some "host_files".toList)).bind allSome
  | .suiteFiles => (files table (some "suite_files".toList)).bind allSome
  | .utilityFiles => (files table (some "utilities".toList)).bind allSome
  | .processList => processList table
  | .moduleList => moduleList table
  | .dependencies => dependencies table
  | .suiteList => allSome (suiteList table)
  | .varList it s => variableList fuel table s it exclude
  | .hostVariables => hostVariables fuel table exclude

/-- datatable_report: the report for the text of the file, ccpp_datafile.py:683-739 -/
def report (fuel : Nat) (text : Str) (a : Action) (sep : Str) (exclude : Bool) : Option Str :=
  if sep = [] then none
  else (read text).bind fun table => (items fuel table exclude a).map (join sep)

end Ccpp.DT
