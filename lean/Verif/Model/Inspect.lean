import Verif.Model.ReqVars
import Verif.Model.VarDictionary
/-!
# Model of `scripts/ccpp_suite.py`: the inspection routines of the host cap
-/
namespace Ccpp.Inspect

/-- Notation: a Python string. -/
abbrev Str := List Char

/-- A scheme, or a suite object with parts (subcycle, time split, ...), suite_objects.py:213-232, 1125-1139 -/
inductive Part where
  | scheme (name : Str)
  | sub (parts : List Part)

mutual
/-- SuiteObject.schemes and Scheme.schemes, suite_objects.py:324-330, 1842-1844 -/
def Part.schemes : Part → List Str
  | .scheme n => [n]
  | .sub ps => schemesList ps
/-- The loop of SuiteObject.schemes, suite_objects.py:327-329 -/
def schemesList : List Part → List Str
  | [] => []
  | p :: ps => p.schemes ++ schemesList ps
end

/-- A group with its name and parts (after analysis), suite_objects.py:2146-2175 -/
structure Grp where
  name : Str
  parts : List Part

/-- A suite: its name, its groups, and the names of the groups that are no run groups, ccpp_suite.py:201-254 -/
structure Suite where
  name : Str
  groups : List Grp
  reserved : List Str

/-- `parent.name + '_' + group_xml.get('name')`, suite_objects.py:2150 -/
def groupName (suite name : Str) : Str := suite ++ '_' :: name

/-- Suite.parse: the groups for the phases around those of the suite definition file, ccpp_suite.py:73-81, 209-254;
`phase` gives the schemes of the groups for the phases (see C64). -/
def mkSuite (name : Str) (run : List (Str × List Part)) (phase : Str → List Part) : Suite :=
  let g := fun (p : Str) => (⟨groupName name p, phase p⟩ : Grp)
  { name := name
    groups := [g "register".toList, g "initialize".toList, g "timestep_initial".toList] ++
      run.map (fun r => ⟨groupName name r.1, r.2⟩) ++ [g "timestep_final".toList, g "finalize".toList]
    reserved := ["register".toList, "initialize".toList, "timestep_initial".toList, "finalize".toList,
      "timestep_final".toList].map (groupName name) }

/-- Suite.part_list with is_run_group, ccpp_suite.py:487-492, 504-512 -/
def partList (s : Suite) : List Str :=
  (s.groups.filter fun g => !s.reserved.contains g.name).map fun g => g.name.drop (s.name.length + 1)

/-- The assignments of write_var_set_loop, ccpp_suite.py:778-786 -/
def setLines (nm : Str) : Nat → List Str → List Str
  | _, [] => []
  | i, v :: vs => (nm ++ "(".toList ++ VD.dec i ++ ") = '".toList ++ v ++ "'".toList) :: setLines nm (i + 1) vs

/-- write_var_set_loop with its defaults, ccpp_suite.py:767-786 -/
def writeVarSetLoop (nm : Str) (vars : List Str) : List Str :=
  ("allocate(".toList ++ nm ++ "(".toList ++ VD.dec vars.length ++ "))".toList) :: setLines nm 1 (RV.sorted vars)

/-- The branches of write_suite_part_list_sub and write_suite_schemes_sub, ccpp_suite.py:802-806, 1153-1163;
`first` tells that `else_str` is empty. -/
def branches (nm : Str) (vars : Suite → List Str) : Bool → List Suite → List Str
  | _, [] => []
  | first, s :: ss =>
    ((if first then [] else "else ".toList) ++ "if(trim(suite_name) == '".toList ++ s.name ++ "') then".toList) ::
      (writeVarSetLoop nm (vars s) ++ branches nm vars false ss)

/-- The statements of both subroutines after the declarations, ccpp_suite.py:797-813, 1148-1170; `mn` and `en` are the
names of the error variables. -/
def inspectBody (nm mn en : Str) (vars : Suite → List Str) (suites : List Suite) : List Str :=
  [en ++ " = 0".toList, mn ++ " = ''".toList] ++ branches nm vars true suites ++
  ["else".toList, "write(".toList ++ mn ++ ", '(3a)')'No suite named ', trim(suite_name), ' found'".toList,
    en ++ " = 1".toList, "end if".toList]

/-- `set.update` (Python library), ccpp_suite.py:1157-1160 -/
def toSet : List Str → List Str
  | [] => []
  | x :: l => if x ∈ l then toSet l else x :: toSet l

/-- The names of the schemes of a suite, ccpp_suite.py:1156-1160 -/
def suiteSchemes (s : Suite) : List Str := toSet (s.groups.flatMap fun g => schemesList g.parts)

/-- write_suite_part_list_sub, ccpp_suite.py:785-814 -/
def partBody (mn en : Str) (suites : List Suite) : List Str := inspectBody "part_list".toList mn en partList suites

/-- write_suite_schemes_sub, ccpp_suite.py:1134-1171 -/
def schemeBody (mn en : Str) (suites : List Suite) : List Str := inspectBody "scheme_list".toList mn en suiteSchemes suites

/-- The loop of the list of suites, ccpp_suite.py:1181-1183 -/
def suiteLines : Nat → List Suite → List Str
  | _, [] => []
  | i, s :: ss => ("suites(".toList ++ VD.dec (i + 1) ++ ") = '".toList ++ s.name ++ "'".toList) :: suiteLines (i + 1) ss

/-- The subroutine for the list of suites, ccpp_suite.py:1173-1184 -/
def suiteBody (suites : List Suite) : List Str :=
  ("allocate(suites(".toList ++ VD.dec suites.length ++ "))".toList) :: suiteLines 0 suites

end Ccpp.Inspect
