import Verif.Model.Text
/-!
# Model of the physics routines of the host cap: dummy arguments, local variables and calls (`scripts/host_cap.py`)
-/
namespace Ccpp.HCall

/-- Notation: a Python string. -/
abbrev Str := List Char

/-- A variable in the host's own dictionary, metavar.py:1500-1562, with its module (host_variable_module,
host_model.py:140-150) and the property protected. -/
structure HVar where
  std : Str
  lname : Str
  module : Option Str
  prot : Bool

/-- The host model, host_model.py:18-110: its own variables and the standard names of the components of its derived types
(the dictionary of line 222). -/
structure Host where
  vars : List HVar
  fields : List Str

/-- An argument of a suite part, suite_objects.py:53-106 -/
structure PVar where
  std : Str
  lname : Str
  type : Str

/-- A suite part: its name and its call list, suite_objects.py:1985-2010 -/
structure Part where
  name : Str
  args : List PVar

/-- A suite with its parts of one stage, as suite_part_list lists them (host_cap.py:65-79). -/
structure Suite where
  name : Str
  parts : List Part

/-- `in CCPP_CONSTANT_VARS`, metavar.py:2109-2112 -/
def isConst (s : Str) : Bool := s = "ccpp_constant_one".toList

/-- `in CCPP_LOOP_VAR_STDNAMES`, metavar.py:86-88 -/
def isLoop (s : Str) : Bool :=
  s ∈ ["horizontal_loop_extent".toList, "horizontal_loop_begin".toList, "horizontal_loop_end".toList,
    "vertical_layer_index".toList, "vertical_interface_index".toList]

/-- VarDictionary.include_var_in_list, metavar.py:1575-1590 -/
def includeVar (std : Str) (stdVars loopVars consts : Bool) : Bool :=
  let inc := (consts && isConst std) || (isLoop std && loopVars)
  if !inc then stdVars && !(isLoop std || isConst std) else inc

/-- The type ccpp_constituent_properties_t, host_cap.py:513 -/
def propsType : Str := "ccpp_constituent_properties_t".toList

/-- Where a variable is found, host_cap.py:519-527: in the host model or among the constituents. -/
inductive Src
  | host
  | const
deriving DecidableEq

/-- `HostModel.find_variable(any_scope=False) is not None`, host_model.py:207-228 with metavar.py:1800-1803 -/
def hostHas (h : Host) (s : Str) : Bool := isConst s || h.vars.any (fun v => v.std = s) || h.fields.contains s

/-- The loop of suite_part_call_list over the two dictionaries, host_cap.py:519-527; `cs`: the standard names in the
dictionary of the constituents. -/
def findSrc (h : Host) (cs : List Str) (s : Str) : Option Src :=
  if hostHas h s then some .host else if isConst s || cs.contains s then some .const else none

/-- The loop of suite_part_call_list, host_cap.py:506-534.  `ref src std run` is the text of var_call_string (line 530) with
the loop variables of the host if `run`; what it is, is C67. -/
def callArgs (ref : Src → Str → Bool → Str) (h : Host) (cs : List Str) (run dyn : Bool) : List PVar → Option (List Str)
  | [] => some []
  | a :: as =>
    if a.type = propsType then
      (callArgs ref h cs run dyn as).map fun r => if dyn then (a.lname ++ '=' :: a.lname) :: r else r
    else match findSrc h cs a.std with
      | none => none
      | some src => (callArgs ref h cs run dyn as).map fun r =>
        if isConst a.std then r else (a.lname ++ '=' :: ref src a.std run) :: r

/-- suite_part_call_list, host_cap.py:495-534; variable_list: metavar.py:1592-1609.  The arguments are not yet joined. -/
def suitePartCallList (ref : Src → Str → Bool → Str) (h : Host) (cs : List Str) (p : Part) (run dyn : Bool) :
    Option (List Str) :=
  callArgs ref h cs run dyn (p.args.filter fun a => includeVar a.std true run true)

/-- VarDictionary.add_variable for host_local_vars, metavar.py:1619-1692: the standard name and the local name must be new;
a variable with the name of a constant is not compatible with it. -/
def addLocal (ls : List PVar) (v : PVar) : Option (List PVar) :=
  if ls.any (fun w => w.std = v.std) then none
  else if isConst v.std then none
  else if ls.any (fun w => lower w.lname = lower v.lname) then none
  else some (ls ++ [v])

/-- The loop over the variables of a part, host_cap.py:613-639 -/
def checkArgs (h : Host) (cs : List Str) (register : Bool) : List PVar → List PVar → Option (List PVar)
  | [], ls => some ls
  | a :: as, ls =>
    if a.type = propsType then
      if register then
        match addLocal ls a with
        | none => none
        | some ls' => checkArgs h cs register as ls'
      else none
    else if (findSrc h cs a.std).isSome then checkArgs h cs register as ls
    else none

/-- The loops over suites and parts, host_cap.py:610-642 -/
def checkParts (h : Host) (cs : List Str) (register : Bool) : List Part → List PVar → Option (List PVar)
  | [], ls => some ls
  | p :: ps, ls =>
    match checkArgs h cs register p.args ls with
    | none => none
    | some ls' => checkParts h cs register ps ls'

/-- The counters that are declared with dynamic constituents, host_cap.py:644-654 -/
def counters : List PVar :=
  [⟨"unused_count".toList, "num_dyn_consts".toList, "integer".toList⟩,
   ⟨"unused_index".toList, "const_index".toList, "integer".toList⟩]

/-- Local variables of the routine, host_cap.py:606-655: any variable that checkParts adds has set has_dyn_consts. -/
def stageLocals (h : Host) (cs : List Str) (register : Bool) (ps : List Part) : Option (List PVar) :=
  match checkParts h cs register ps [] with
  | none => none
  | some [] => some []
  | some ls =>
    match addLocal ls ⟨"unused_count".toList, "num_dyn_consts".toList, "integer".toList⟩ with
    | none => none
    | some ls' => addLocal ls' ⟨"unused_index".toList, "const_index".toList, "integer".toList⟩

/-- A dummy argument with its intent, host_cap.py:656-683 -/
structure Dummy where
  name : Str
  intent : Str
deriving DecidableEq

/-- HostModel.call_list, host_model.py:310-320 -/
def hostCallList (h : Host) (run : Bool) : List HVar :=
  (h.vars.filter fun v => includeVar v.std true run false).filter fun v => v.module = none

/-- The dummy arguments, host_cap.py:656-683; the intent of suite_name and suite_part: lines 43-53. -/
def stageDummies (h : Host) (run : Bool) : List Dummy :=
  let api := [⟨"suite_name".toList, "in".toList⟩] ++ (if run then [⟨"suite_part".toList, "in".toList⟩] else [])
  api ++ (hostCallList h run).map fun v => ⟨v.lname, if v.prot || isLoop v.std then "in".toList else "inout".toList⟩

/-- One physics routine of the host cap, host_cap.py:604-790 -/
structure Routine where
  dummies : List Dummy
  locals : List Str
  /-- the calls of the suite parts -/
  calls : List (Str × List Str)
  /-- for every suite the arrays of whose sizes the register routine takes the sum -/
  sizes : List (Str × List Str)

/-- The calls for a list of parts, host_cap.py:721-790. -/
def stageCalls (ref : Src → Str → Bool → Str) (h : Host) (cs : List Str) (run dyn : Bool) :
    List Part → Option (List (Str × List Str))
  | [] => some []
  | p :: ps =>
    match suitePartCallList ref h cs p run dyn with
    | none => none
    | some as => (stageCalls ref h cs run dyn ps).map fun r => (p.name, as) :: r

/-- `run_stage`, host_cap.py:656 -/
def runStage (stage : Str) : Bool := stage = "run".toList

/-- `spart.phase() == 'register'` and `stage == 'register'`, host_cap.py:619, 738 -/
def registerStage (stage : Str) : Bool := stage = "register".toList

/-- The part of write_host_cap for one stage, host_cap.py:604-790. Use statements, declarations and the constructs around
the calls are not part of this model (see C45, C68). -/
def stageRoutine (ref : Src → Str → Bool → Str) (h : Host) (cs : List Str) (stage : Str) (suites : List Suite) :
    Option Routine :=
  let run := runStage stage
  let register := registerStage stage
  let ps := suites.flatMap (·.parts)
  match stageLocals h cs register ps with
  | none => none
  | some ls =>
    match stageCalls ref h cs run register ps with
    | none => none
    | some cl => some {
        dummies := stageDummies h run
        locals := ls.map (·.lname)
        calls := cl
        sizes := if register then suites.map fun s => (s.name, (ls.filter fun v => v.type = propsType).map (·.lname)) else [] }

/-- The dummy arguments of the subroutine of a suite part, CallList.call_string, suite_objects.py:108-150: constants are
not among them. -/
def partHeader (p : Part) : List PVar := p.args.filter fun a => !isConst a.std

end Ccpp.HCall
