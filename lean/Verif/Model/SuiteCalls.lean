import Verif.Model.StateMachine
/-!
# Model of the path from the suite definition file to the scheme calls of the suite cap

`scripts/ccpp_suite.py` (API.__init__, Suite.parse, Suite.analyze, Suite.write) and
`scripts/suite_objects.py` (new_suite_object, Group, TimeSplit, Subcycle, VerticalLoop, Scheme: __init__, analyze,
write).  Only the structure of the generated code and the imported routines are modelled: the analysis of the
variables is reduced to the question which vertical loop indices a routine needs (`needs`, by routine; C38 models
match_dimensions) and which local name the extent of such a loop has (`extent`); variables that are not found or
not compatible end in an error and are not considered (see C54).  An error is `none`.
-/
namespace Ccpp.Seq

/-- Notation: text. -/
abbrev Str := List Char

/-- An element of a group in the suite definition file: `<scheme>`, `<subcycle loop=…>`, `<time_split>` or anything
else, suite_objects.py:55-70 -/
inductive Xml where
  | scheme (name : Str)
  | subcycle (loop : Str) (items : List Xml)
  | timeSplit (items : List Xml)
  | other (tag : Str)

/-- The objects made from the elements, suite_objects.py:1122-1139, 1976-2000, 2046-2057 -/
inductive Obj where
  | scheme (name : Str)
  | subcycle (loop : Str) (items : List Obj)
  | timeSplit (items : List Obj)

mutual
/-- new_suite_object with the constructors of Subcycle, TimeSplit and Scheme, suite_objects.py:55-70, 1125-1139,
1979-2000, 2052-2057.  A subcycle whose extent is not a number ends in an error: `self.loop` evaluates itself
(1991, 2034-2042). -/
def newObject : Xml → Option Obj
  | .scheme n => some (.scheme n)
  | .subcycle l items =>
    if l ≠ [] ∧ l.all Char.isDigit then (newObjects items).map (.subcycle l) else none
  | .timeSplit items => (newObjects items).map .timeSplit
  | .other _ => none
/-- The loops over the sub-elements, suite_objects.py:1996-1999, 2054-2057, 2168-2171 -/
def newObjects : List Xml → Option (List Obj)
  | [] => some []
  | x :: xs => (newObject x).bind fun o => (newObjects xs).map (o :: ·)
end

/-- Group.__init__ for a run group, suite_objects.py:2146-2171: unless the first element is a `time_split`, all
elements are put into one.  (A first element `process_split` is refused by new_suite_object.) -/
def runGroup (items : List Xml) : Option (List Obj) :=
  match items with
  | .timeSplit _ :: _ => newObjects items
  | _ => (newObjects items).map fun os => [.timeSplit os]

mutual
/-- schemes (the names), suite_objects.py:324-330, 1842-1844 -/
def Obj.schemes : Obj → List Str
  | .scheme n => [n]
  | .subcycle _ items => schemesOf items
  | .timeSplit items => schemesOf items
/-- suite_objects.py:326-329 -/
def schemesOf : List Obj → List Str
  | [] => []
  | o :: os => o.schemes ++ schemesOf os
end

/-- A metadata section of a scheme: the name of the routine and its module, metadata_table.py:739-839 -/
structure Header where
  title : Str
  module : Str
  deriving DecidableEq

/-- The library of schemes: for each scheme name the routines by phase (`none` for titles that match no phase),
ccpp_suite.py:651-654 -/
abbrev Library := List (Option Str × List (Option Str × Header))

/-- Scheme name and phase of a routine, ccpp_suite.py:671-672 -/
def headerKey (h : Header) : Option Str × Option Str :=
  match SM.functionMatch SM.ccppMachine h.title with
  | some (n, _, ph) => (some n, some ph)
  | none => (none, none)

/-- Entry of a dictionary (Python library). -/
def look {α β : Type} [DecidableEq α] (l : List (α × β)) (k : α) : Option β := (l.find? fun p => p.1 = k).map (·.2)

/-- One step of the construction of the library, ccpp_suite.py:673-683 -/
def addHeader (lib : Library) (h : Header) : Option Library :=
  let k := headerKey h
  let lib := if (look lib k.1).isSome then lib else lib ++ [(k.1, [])]
  match look lib k.1 with
  | some entry =>
    if (look entry k.2).isSome then none
    else some (lib.map fun p => if p.1 = k.1 then (p.1, p.2 ++ [(k.2, h)]) else p)
  | none => none

/-- The construction of the library, ccpp_suite.py:666-684 -/
def library : Library → List Header → Option Library
  | lib, [] => some lib
  | lib, h :: hs => (addHeader lib h).bind fun lib' => library lib' hs

/-- A group of a suite: its name, its phase and its parts, ccpp_suite.py:169-186 -/
structure Group where
  name : Str
  phase : Str
  parts : List Obj

/-- An element of a suite: a group or anything else, ccpp_suite.py:234-254 -/
inductive SuiteItem where
  | group (name : Str) (items : List Xml)
  | other (tag : Str)

/-- The groups of the suite definition file, ccpp_suite.py:234-254.  Any other element ends in an error, because the
tuple returned by function_match is neither None nor a phase (241-252). -/
def runGroups : List SuiteItem → Option (List (Str × List Obj))
  | [] => some []
  | .group n items :: rest =>
    (runGroup items).bind fun os => (runGroups rest).map ((n, os) :: ·)
  | .other _ :: _ => none

/-- The phases other than run in the order of `_full_phases`, ccpp_suite.py:216-225 -/
def fullPhases : List Str :=
  ["register".toList, "initialize".toList, "finalize".toList, "timestep_initial".toList, "timestep_final".toList]

/-- One step of the loop over the scheme library, ccpp_suite.py:425-447.  `has_item` compares the title of the routine
with the names of the parts (suite_objects.py:984-997). -/
def addPart (used : List Str) (phase : Str) (parts : List Str) (p : Option Str × List (Option Str × Header)) : List Str :=
  match p.1, look p.2 (some phase) with
  | some n, some h => if n ∈ used ∧ h.title ∉ parts then parts ++ [n] else parts
  | _, _ => parts

/-- The parts of the group of a phase other than run: the loop over the scheme library, ccpp_suite.py:421-448. -/
def fullParts (used : List Str) (phase : Str) : List Str → Library → List Str
  | parts, [] => parts
  | parts, p :: rest => fullParts used phase (addPart used phase parts p) rest

/-- An analysed part: the call of a routine (`none` if the scheme has no routine of the phase), possibly in a vertical
loop (index and extent), subcycles and other parts, suite_objects.py:1174-1296, 1878-1957 -/
inductive Part where
  | call (routine : Option Header)
  | vloop (index extent : Str) (routine : Header)
  | subcycle (loop : Str) (parts : List Part)
  | timeSplit (parts : List Part)

/-- What the analysis of the variables is reduced to (suite_objects.py:731-743, 1928-1944). -/
structure Vars where
  /-- The vertical indices a routine needs because an argument has no vertical dimension and its source has, in
  the order of the arguments, suite_objects.py:731-743 -/
  needs : Str → List Str
  /-- The local name of the extent of a vertical loop over an index, suite_objects.py:1928-1944 -/
  extent : Str → Option Str

/-- Scheme.analyze with the vertical loop that it may cause, suite_objects.py:240-307, 1174-1296, 1918-1957.  `idx`
are the loop indices that the group already has (1924-1927): a routine that needs such an index finds it (735-741)
and is not put into a loop.  A routine that still needs another index inside its loop is analysed again and again
(1288-1294, the recursion ends in an error).  An existing loop is never extended (275-286): during the analysis the
last part of the parent is not a vertical loop. -/
def analyzeScheme (vs : Vars) (lib : Library) (phase : Str) (idx : List Str) (n : Str) : Option (Part × List Str) :=
  (look lib (some n)).bind fun entry =>
    match look entry (some phase) with
    | none => some (.call none, idx)
    | some h =>
      match (vs.needs h.title).find? (fun i => i ∉ idx) with
      | none => some (.call (some h), idx)
      | some i =>
        (vs.extent i).bind fun e =>
          match (vs.needs h.title).find? (fun j => j ∉ idx ++ [i]) with
          | none => some (.vloop i e h, idx ++ [i])
          | some _ => none

mutual
/-- analyze of Subcycle and TimeSplit, suite_objects.py:2002-2022, 2059-2072 -/
def analyzeObj (vs : Vars) (lib : Library) (phase : Str) : List Str → Obj → Option (Part × List Str)
  | idx, .scheme n => analyzeScheme vs lib phase idx n
  | idx, .subcycle l items => (analyzeObjs vs lib phase idx items).map fun r => (.subcycle l r.1, r.2)
  | idx, .timeSplit items => (analyzeObjs vs lib phase idx items).map fun r => (.timeSplit r.1, r.2)
/-- The loops over the parts, suite_objects.py:2015-2021, 2065-2071, 2296-2304 -/
def analyzeObjs (vs : Vars) (lib : Library) (phase : Str) : List Str → List Obj → Option (List Part × List Str)
  | idx, [] => some ([], idx)
  | idx, o :: os =>
    (analyzeObj vs lib phase idx o).bind fun r =>
      (analyzeObjs vs lib phase r.2 os).map fun rs => (r.1 :: rs.1, rs.2)
end

mutual
/-- The (module, routine) pairs collected by analyze, suite_objects.py:1197-1199, 2014-2021, 2297-2304 -/
def Part.uses : Part → List (Str × Str)
  | .call none => []
  | .call (some h) => [(h.module, h.title)]
  | .vloop _ _ h => [(h.module, h.title)]
  | .subcycle _ ps => usesOf ps
  | .timeSplit ps => usesOf ps
/-- suite_objects.py:2297-2304 -/
def usesOf : List Part → List (Str × Str)
  | [] => []
  | p :: ps => p.uses ++ usesOf ps
end

/-- Generated statements: `if (errcode == 0) then … end if` with the call or without, and do loops (the index is
`none` for a subcycle: its name does not matter), suite_objects.py:1742-1840, 1959-1968, 2024-2032 -/
inductive Stmt where
  | ifOk (routine : Option Str)
  | loop (index : Option Str) (bound : Str) (body : List Stmt)

mutual
/-- write of Scheme, VerticalLoop, Subcycle and TimeSplit, suite_objects.py:1742-1840, 1959-1968, 2024-2032,
2074-2079.  `loop` is the property Subcycle.loop (2034-2042). -/
def Part.write (loop : Str → Option Str) : Part → Option (List Stmt)
  | .call none => some [.ifOk none]
  | .call (some h) => some [.ifOk (some h.title)]
  | .vloop i e h => some [.loop (some i) e [.ifOk (some h.title)]]
  | .subcycle l ps => (loop l).bind fun b => (writeParts loop ps).map fun ss => [.loop none b ss]
  | .timeSplit ps => writeParts loop ps
/-- The loops over the parts, suite_objects.py:1964-1966, 2028-2030, 2077-2079, 2604-2606 -/
def writeParts (loop : Str → Option Str) : List Part → Option (List Stmt)
  | [] => some []
  | p :: ps => (p.write loop).bind fun s => (writeParts loop ps).map (s ++ ·)
end

/-- Subcycle.loop as it is written: the property evaluates itself, which ends in an error,
suite_objects.py:2034-2042 -/
def loopProperty : Str → Option Str := fun _ => none

/-- A generated subroutine: its name, the imported routines and its body, suite_objects.py:2360-2649 -/
structure Sub where
  name : Str
  phase : Str
  uses : List (Str × Str)
  body : List Stmt

/-- The groups of a suite in their order, ccpp_suite.py:213-257, 421-448 -/
def groupsOf (lib : Library) (suite : Str) (runs : List (Str × List Obj)) : List Group :=
  let used := runs.flatMap fun r => schemesOf r.2
  let full := fun ph => (⟨suite ++ '_' :: ph, ph, (fullParts used ph [] lib).map .scheme⟩ : Group)
  [full "register".toList, full "initialize".toList, full "timestep_initial".toList] ++
  runs.map (fun r => ⟨suite ++ '_' :: r.1, "run".toList, r.2⟩) ++
  [full "timestep_final".toList, full "finalize".toList]

/-- Analysis and writing of one group, ccpp_suite.py:454-473, suite_objects.py:2285-2309, 2360-2649.  A run group with the
name of a phase is refused (ccpp_suite.py:455-458, suite_objects.py:2290-2294). -/
def genGroup (loop : Str → Option Str) (vs : Vars) (lib : Library) (suite : Str) (g : Group) : Option Sub :=
  if g.phase = "run".toList ∧ g.name ∈ fullPhases.map (fun ph => suite ++ '_' :: ph) then none
  else (analyzeObjs vs lib g.phase [] g.parts).bind fun r =>
    (writeParts loop r.1).map fun ss => ⟨g.name, g.phase, usesOf r.1, ss⟩

/-- The subroutines of the suite cap for the metadata `hs` of the schemes and the suite definition,
ccpp_suite.py:200-258, 412-484, 537-594, 666-689 -/
def generate (loop : Str → Option Str) (vs : Vars) (hs : List Header) (suite : Str) (items : List SuiteItem) :
    Option (List Sub) :=
  (library [] hs).bind fun lib =>
  (runGroups items).bind fun runs =>
    (groupsOf lib suite runs).mapM (genGroup loop vs lib suite)

/-! ## Execution of the generated statements when no routine reports an error -/

/-- The call of a routine with the indices of the enclosing loops, outermost first (Fortran semantics of the text
written at suite_objects.py:1742-1840). -/
abbrev Event := Str × List (Option Str × Nat)

mutual
/-- Fortran semantics of the statements generated at suite_objects.py:1742-1840, 1959-1968, 2024-2032: the calls of one
statement.  `val` are the values of the bounds. -/
def Stmt.exec (val : Str → Nat) : List (Option Str × Nat) → Stmt → List Event
  | env, .ifOk (some t) => [(t, env)]
  | _, .ifOk none => []
  | env, .loop i b body => (List.range (val b)).flatMap fun k => execAll val (env ++ [(i, k + 1)]) body
/-- A sequence of statements (suite_objects.py:2604-2606). -/
def execAll (val : Str → Nat) : List (Option Str × Nat) → List Stmt → List Event
  | _, [] => []
  | env, s :: ss => s.exec val env ++ execAll val env ss
end

end Ccpp.Seq
