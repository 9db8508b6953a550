import Verif.Model.VarDictionary
/-!
# Model of the loop calculations of a group: `scripts/metavar.py`, class VarLoopSubst, and
`scripts/suite_objects.py`, their registration and output
-/
namespace Ccpp.LoopAct

/-- Notation: a Python string. -/
abbrev Str := List Char

/-- VarLoopSubst.__init__, metavar.py:1339-1357 -/
structure Subst where
  missing : Str
  required : List Str
  pre : Str
  action : Str
deriving DecidableEq

/-- CCPP_VAR_LOOP_SUBSTS, metavar.py:1470-1491 -/
def table : List Subst :=
  [⟨"horizontal_loop_extent".toList, ["horizontal_loop_begin".toList, "horizontal_loop_end".toList], "ncol".toList,
     "{horizontal_loop_extent} = {horizontal_loop_end} - {horizontal_loop_begin} + 1".toList⟩,
   ⟨"horizontal_loop_begin".toList, ["ccpp_constant_one".toList], "one".toList, "{horizontal_loop_begin} = 1".toList⟩,
   ⟨"horizontal_loop_end".toList, ["horizontal_loop_extent".toList], "ncol".toList,
     "{horizontal_loop_end} = {horizontal_loop_extent}".toList⟩,
   ⟨"vertical_layer_dimension".toList, ["vertical_layer_index".toList], "layer_index".toList, []⟩,
   ⟨"vertical_interface_dimension".toList, ["vertical_interface_index".toList], "level_index".toList, []⟩]

/-- VarDictionary.loop_var_match, metavar.py:1956-1971 (for the name of an argument, without a colon) -/
def loopVarMatch (std : Str) : Option Subst := table.find? fun s => s.missing == std

/-- A group during the analysis: its own variables and its arguments, with standard name and local name, and
`_loop_var_matches`, suite_objects.py:2168-2179 -/
structure Grp where
  own : List (Str × Str)
  args : List (Str × Str)
  loops : List Subst
deriving DecidableEq

/-- `d.get(name)` on such a list (Python library, dict), metavar.py:1802 -/
def get (d : List (Str × Str)) (std : Str) : Option Str := (d.find? fun p => p.1 == std).map (·.2)

/-- CCPP_CONSTANT_VARS, metavar.py:2109-2112 -/
def one : Str := "ccpp_constant_one".toList

/-- find_variable of one dictionary, metavar.py:1796-1803: constants are found everywhere. -/
def findHere (d : List (Str × Str)) (std : Str) : Option Str := if std == one then some "1".toList else get d std

/-- find_variable with any_scope from the group, suite_objects.py:784-840: constants, the group's own variables, then
`outer`, the suite and the host model (a loop variable is never one of the suite, ccpp_suite.py:296-299). -/
def find (outer : Str → Option Str) (g : Grp) (std : Str) : Option Str :=
  match findHere g.own std with
  | some l => some l
  | none => outer std

/-- add_call_list_variable of the group for a variable with the local name `l`, suite_objects.py:413-466: not for
constants and variables of the group; `exists_ok`. -/
def addArg (g : Grp) (std l : Str) : Grp :=
  if (findHere g.own std).isSome then g
  else if (get g.args std).isSome then g
  else { g with args := g.args ++ [(std, l)] }

/-- VarLoopSubst.has_subst, metavar.py:1359-1375, with the names found -/
def hasSubst (outer : Str → Option Str) (g : Grp) (s : Subst) : Option (List (Str × Str)) :=
  s.required.mapM fun r => (find outer g r).map fun l => (r, l)

/-- VarLoopSubst.equiv, metavar.py:1389-1406 -/
def equiv (s t : Subst) : Bool := t.missing == s.missing && (t.required.zip s.required).all fun p => p.1 == p.2

/-- VarAction.add_to_list, metavar.py:1315-1329 -/
def addToList (s : Subst) (l : List Subst) : List Subst := if l.any fun t => equiv t s then l else l ++ [s]

/-- new_internal_variable_name in the group's dictionary, metavar.py:2076-2104: fresh among the own variables only. -/
def newName (g : Grp) (pre : Str) : Option Str :=
  VD.nameLoop ((g.own.map fun p => lower p.2).filter fun x => VC.hasSub pre x) 63 (g.own.length + 100) pre 0

/-- Group.register_action and VarLoopSubst.add_local, suite_objects.py:2209-2219, metavar.py:1377-1387 -/
def register (g : Grp) (s : Subst) : Option Grp :=
  let loops := addToList s g.loops
  if (get g.own s.missing).isSome then some { g with loops := loops }
  else match newName g s.pre with
    | none => none
    | some l => some { g with own := g.own ++ [(s.missing, l)], loops := loops }

/-- What schemes do to a run-phase group: need a scalar, or create a variable, suite_objects.py:842-885, 1203-1268 -/
inductive Event where
  | need (std : Str)
  | create (std l : Str)

/-- The treatment of one argument, suite_objects.py:876-881, 504-531, 2221-2283; `none` is an error. -/
def step (outer : Str → Option Str) (g : Grp) : Event → Option Grp
  | .need std =>
    match find outer g std with
    | some l => some (addArg g std l)
    | none =>
      match loopVarMatch std with
      | none => none
      | some s =>
        match hasSubst outer g s with
        | none => none
        | some svars => register (svars.foldl (fun g p => addArg g p.1 p.2) g) s
  | .create std l =>
    match find outer g std with
    | some l => some (addArg g std l)
    | none => some { g with own := g.own ++ [(std, l)] }

/-- All arguments of a group, suite_objects.py:2295-2303; `none` is an error. -/
def analyze (outer : Str → Option Str) : Grp → List Event → Option Grp
  | g, [] => some g
  | g, e :: es =>
    match step outer g e with
    | none => none
    | some g => analyze outer g es

/-- `template.format(**d)` (Python library), metavar.py:1433.  The first argument is the current field name. -/
def format (d : Str → Option Str) : Option Str → Str → Option Str
  | none, [] => some []
  | some _, [] => none
  | none, c :: s => if c = '{' then format d (some []) s else (format d none s).map (c :: ·)
  | some n, c :: s =>
    if c = '}' then (d n).bind fun v => (format d none s).map (v ++ ·) else format d (some (n ++ [c])) s

/-- VarLoopSubst.write_action with the group and its call list, metavar.py:1408-1433; `none` is the CCPPError or a
KeyError. -/
def writeAction (g : Grp) (s : Subst) : Option Str :=
  if s.action.isEmpty then some []
  else
    match s.required.mapM (fun r => ((findHere g.own r).or (findHere g.args r)).map fun l => (r, l)) with
    | none => none
    | some d =>
      match findHere g.own s.missing with
      | none => none
      | some l => format (get ((s.missing, l) :: d)) none s.action

/-- The loop calculations of Group.write, suite_objects.py:2573-2580 -/
def writeLoops (g : Grp) : List Subst → Option (List Str)
  | [] => some []
  | s :: ss =>
    match writeAction g s, writeLoops g ss with
    | some a, some as => some (if a.isEmpty then as else a :: as)
    | _, _ => none

end Ccpp.LoopAct
