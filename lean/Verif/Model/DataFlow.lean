/-!
# Model of the data-flow analysis of a suite

`scripts/ccpp_suite.py`: Suite.analyze (second half), Suite.find_variable;
`scripts/suite_objects.py`: Scheme.analyze, SuiteObject.find_variable, match_variable,
Group.manage_variable, Group.analyze; and the execution of the group subroutines they describe
(Group.write).

Simplifications: variables are standard names (types, units, kinds, local names and the matching of
dimensions are modelled in `VarCompat.lean`, `VarDictionary.lean` and `MatchDims.lean` and are assumed
not to raise an error here); vertical loops and constituents are not modelled; `host` contains every
standard name the parents of the suite provide, including ccpp_constant_one.
-/
namespace Ccpp.DF

/-- Notation: a standard name. -/
abbrev Name := String

/-- metavar.py:98-262 (the intent property) -/
inductive Intent where
  | «in» | out | inout
deriving DecidableEq, Repr

/-- One argument of a scheme: its standard name, intent, whether its metadata have a default value,
whether it has dimensions. suite_objects.py:1203-1209 -/
structure Arg where
  std : Name
  intent : Intent
  default : Bool
  array : Bool
deriving DecidableEq

/-- The arguments of one scheme routine, in metadata order, suite_objects.py:1204. -/
abbrev Call := List Arg

/-- The parts of a group: schemes, sequences, and subcycles (suite_objects.py:1976-2108: Subcycle,
TimeSplit, ProcessSplit). -/
inductive Body where
  | empty
  | call (c : Call)
  | seq (a b : Body)
  | loop (b : Body)

/-- The phases, ccpp_state_machine.py:11-28 -/
inductive Phase where
  | register | initialize | tsInitial | run | tsFinal | finalize
deriving DecidableEq, Repr

/-- Group: phase and parts, suite_objects.py:2110-2182 -/
structure Group where
  phase : Phase
  body : Body

/-- A suite: the bodies of the five phase groups and of the run groups, ccpp_suite.py:206-257. -/
structure Suite where
  reg : Body
  ini : Body
  tsi : Body
  runs : List Body
  tsf : Body
  fin : Body

/-- The groups in the order of `self.groups`, ccpp_suite.py:224-257. -/
def Suite.groups (s : Suite) : List Group :=
  [⟨.register, s.reg⟩, ⟨.initialize, s.ini⟩, ⟨.tsInitial, s.tsi⟩] ++
    s.runs.map (fun b => ⟨.run, b⟩) ++ [⟨.tsFinal, s.tsf⟩, ⟨.finalize, s.fin⟩]

/-- The schemes of a body in the order in which they are analyzed, suite_objects.py:2295-2303
(Group.analyze) and 2002-2022 (Subcycle.analyze). -/
def Body.flat : Body → List Call
  | .empty => []
  | .call c => [c]
  | .seq a b => a.flat ++ b.flat
  | .loop b => b.flat

/-- A variable created by a group: persistence is 'timestep' or 'run', suite_objects.py:2255-2259. -/
structure Var where
  std : Name
  array : Bool
  timestep : Bool
deriving DecidableEq

/-- State of the analysis: the suite's dictionary, `__gvar_stdnames` (names with the number of the
group), each group's dictionary, and each group's `_loop_var_matches` that have an action.
ccpp_suite.py:100-128, suite_objects.py:2176-2182 -/
structure St where
  suite : List Var
  gvars : List (Name × Nat)
  dict : Nat → List Var
  loops : Nat → List (Name × List Name)

/-- Before the analysis, ccpp_suite.py:100-128 -/
def St.init : St := ⟨[], [], fun _ => [], fun _ => []⟩

/-- CCPP_LOOP_VAR_STDNAMES, metavar.py:86-88 -/
def loopNames : List Name :=
  ["horizontal_loop_extent", "horizontal_loop_begin", "horizontal_loop_end", "vertical_layer_index",
   "vertical_interface_index"]

/-- CCPP_VAR_LOOP_SUBSTS, metavar.py:1470-1491: required names, and whether the substitution has an
action (the vertical ones have an empty one). -/
def substs : List (Name × List Name × Bool) :=
  [("horizontal_loop_extent", ["horizontal_loop_begin", "horizontal_loop_end"], true),
   ("horizontal_loop_begin", ["ccpp_constant_one"], true),
   ("horizontal_loop_end", ["horizontal_loop_extent"], true),
   ("vertical_layer_dimension", ["vertical_layer_index"], false),
   ("vertical_interface_dimension", ["vertical_interface_index"], false)]

/-- loop_var_match, metavar.py:1956-1971 (names here have no colon). -/
def subst? (n : Name) : Option (List Name × Bool) := (substs.find? fun p => p.1 == n).map (·.2)

/-- `standard_name in dict` Python library, metavar.py:1802 -/
def hasVar (l : List Var) (n : Name) : Bool := l.any fun v => v.std == n

/-- find_variable (any_scope) from a scheme of group `g`, suite_objects.py:784-840 and
ccpp_suite.py:272-356: the group's dictionary, the suite and its parents, then promotion of a variable
created by an earlier group.  (If a recorded variable is not in its group any more, the code raises
an error; that does not happen.) -/
def find (host : Name → Bool) (g : Nat) (st : St) (n : Name) : Bool × St :=
  if hasVar (st.dict g) n then (true, st)
  else if hasVar st.suite n then (true, st)
  else if host n then (true, st)
  else match st.gvars.find? (fun p => p.1 == n) with
    | none => (false, st)
    | some p =>
      if loopNames.contains n then (false, st)
      else match (st.dict p.2).find? (fun v => v.std == n) with
        | none => (false, st)
        | some v =>
          (true, { st with
                   suite := st.suite ++ [v]
                   gvars := st.gvars.filter fun q => q.1 != n
                   dict := fun k => if k = p.2 then (st.dict k).filter fun w => w.std != n
                                    else st.dict k })

/-- has_subst, metavar.py:1359-1375 -/
def findAll (host : Name → Bool) (g : Nat) : St → List Name → Bool × St
  | st, [] => (true, st)
  | st, n :: ns =>
    match find host g st n with
    | (true, st') => findAll host g st' ns
    | (false, st') => (false, st')

/-- Is this one of the timestep phases?  suite_objects.py:375-379 -/
def Phase.timestep : Phase → Bool
  | .tsInitial => true
  | .tsFinal => true
  | _ => false

/-- Add a variable to a group's dictionary unless the name is there, suite_objects.py:2276 and
metavar.py:1700-1702. -/
def St.create (st : St) (g : Nat) (v : Var) : St :=
  { st with dict := fun k => if k = g then
      (if hasVar (st.dict g) v.std then st.dict g else st.dict g ++ [v]) else st.dict k }

/-- Group.manage_variable, suite_objects.py:2221-2283 -/
def manage (g : Nat) (ph : Phase) (st : St) (a : Arg) : St :=
  st.create g ⟨a.std, a.array, ph.timestep⟩

/-- Group.register_action and VarLoopSubst.add_local, suite_objects.py:2209-2219,
metavar.py:1377-1387 -/
def registerLoop (g : Nat) (st : St) (n : Name) (req : List Name) (action : Bool) : St :=
  let st := st.create g ⟨n, false, false⟩
  if action && !(st.loops g).any (fun p => p.1 == n) then
    { st with loops := fun k => if k = g then st.loops g ++ [(n, req)] else st.loops k }
  else st

/-- The part of Scheme.analyze for one argument, suite_objects.py:1203-1268, with the decision of
match_variable (842-905) on whether there is a source; `none` is the CCPPError "Input argument not
found". -/
def analyzeArg (host : Name → Bool) (g : Nat) (ph : Phase) (st : St) (a : Arg) : Option St :=
  match find host g st a.std with
  | (true, st') => some st'
  | (false, st') =>
    let vmatch := if a.array then none else if ph = .run then subst? a.std else none
    let viaLoop : Option St := match vmatch with
      | none => none
      | some (req, action) =>
        match findAll host g st' req with
        | (true, st'') => some (registerLoop g st'' a.std req action)
        | (false, _) => none
    match viaLoop with
    | some st'' => some st''
    | none =>
      let st'' := match vmatch with
        | none => st'
        | some (req, _) => (findAll host g st' req).2
      if a.intent = .out then some (manage g ph st'' a)
      else if a.default then some (manage g ph st'' a)
      else none

/-- All arguments of the schemes of a group, suite_objects.py:1203-1282, 2295-2303 -/
def analyzeArgs (host : Name → Bool) (g : Nat) (ph : Phase) : St → List Arg → Option St
  | st, [] => some st
  | st, a :: as =>
    match analyzeArg host g ph st a with
    | none => none
    | some st' => analyzeArgs host g ph st' as

/-- The end of the loop body in Suite.analyze: remember the variables the group created,
ccpp_suite.py:477-484. -/
def recordVars (g : Nat) (st : St) : St :=
  let add := fun (l : List (Name × Nat)) (v : Var) =>
    if l.any (fun p => p.1 == v.std) then l else l ++ [(v.std, g)]
  { st with gvars := (st.dict g).foldl add st.gvars }

/-- The loop over the groups in Suite.analyze, ccpp_suite.py:459-485 -/
def analyzeFrom (host : Name → Bool) : Nat → St → List Group → Option St
  | _, st, [] => some st
  | g, st, grp :: gs =>
    match analyzeArgs host g grp.phase st grp.body.flat.flatten with
    | none => none
    | some st' => analyzeFrom host (g + 1) (recordVars g st') gs

/-- Suite.analyze, ccpp_suite.py:359-485; `none` is an error. -/
def analyze (host : Name → Bool) (s : Suite) : Option St := analyzeFrom host 0 St.init s.groups

/-! ## Execution of the generated group subroutines -/

/-- Where a name of group `g` is stored: a suite module variable, a local variable of the group
subroutine, or the host. suite_objects.py:108-190 -/
inductive Loc where
  | suite (n : Name)
  | loc (g : Nat) (n : Name)
  | host (n : Name)
deriving DecidableEq

/-- The storage of a name in the code of group `g`: the dictionaries are searched from the group
outwards, suite_objects.py:1742-1875 (Scheme.write), 108-190 (call_string). -/
def loc (st : St) (g : Nat) (n : Name) : Loc :=
  if hasVar (st.dict g) n then .loc g n else if hasVar st.suite n then .suite n else .host n

/-- The set of defined storage locations.  Notation: program state. -/
abbrev Mem := Loc → Bool

/-- Notation: a location becomes defined. -/
def Mem.set (m : Mem) (l : Loc) : Mem := fun x => if x = l then true else m x

/-- One scheme call: every argument that is read must be defined (`none`: undefined value read); the
arguments written become defined.  Fortran language semantics, suite_objects.py:1802 -/
def execCall (st : St) (g : Nat) (m : Mem) (c : Call) : Option Mem :=
  if c.all fun a => decide (a.intent = .out) || m (loc st g a.std) then
    some (c.foldl (fun m a => if a.intent = .in then m else m.set (loc st g a.std)) m)
  else none

/-- A sequence of scheme calls. suite_objects.py:2612-2615 -/
def execCalls (st : St) (g : Nat) : Mem → List Call → Option Mem
  | m, [] => some m
  | m, c :: cs =>
    match execCall st g m c with
    | none => none
    | some m' => execCalls st g m' cs

/-- Statements `missing = expression in required` at the beginning of a group,
suite_objects.py:2574-2580: the variable is defined if what it is computed from is. -/
def execLoops (st : St) (g : Nat) (m : Mem) : Mem :=
  (st.loops g).foldl
    (fun m p => if p.2.all fun r => m (loc st g r) then m.set (loc st g p.1) else m) m

/-- The suite arrays of the given persistence become undefined: allocation and deallocation,
suite_objects.py:2596-2611 and 2634-2646 (whether they are allocated is modelled in
`SuiteCap.lean`). -/
def forget (st : St) (timestep : Bool) (m : Mem) : Mem := fun l =>
  match l with
  | .suite n => if st.suite.any (fun v => v.std == n && v.array && v.timestep == timestep) then false
      else m l
  | _ => m l

/-- Suite arrays are allocated at the beginning of these phases, suite_objects.py:2596-2611 -/
def forgetIn (st : St) (ph : Phase) (m : Mem) : Mem :=
  match ph with
  | .initialize => forget st false m
  | .tsInitial => forget st true m
  | _ => m

/-- Suite arrays are deallocated at the end of these phases, suite_objects.py:2634-2646 -/
def forgetOut (st : St) (ph : Phase) (m : Mem) : Mem :=
  match ph with
  | .tsFinal => forget st true m
  | .finalize => forget st false m
  | _ => m

/-- The local variables of a subroutine are undefined when it is entered (Fortran language semantics),
suite_objects.py:2499-2516 -/
def forgetLocal (g : Nat) (m : Mem) : Mem := fun l =>
  match l with
  | .loc k n => if k = g then false else m (.loc k n)
  | l => m l

/-- One call of the subroutine of group `g` (Group.write, suite_objects.py:2360-2650 and
ccpp_suite.py:566-585) in which the schemes `calls` are executed, without an error return. -/
def execGroup (st : St) (g : Nat) (ph : Phase) (calls : List Call) (m : Mem) : Option Mem :=
  match execCalls st g (forgetIn st ph (execLoops st g (forgetLocal g m))) calls with
  | none => none
  | some m => some (forgetOut st ph m)

end Ccpp.DF
