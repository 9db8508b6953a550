import Verif.Model.PrebuildSuite
/-!
# Model of the caps and of the static API that `scripts/ccpp_prebuild.py` writes

`API.write`, `Suite.write`, `Group.write` (`scripts/mkstatic.py`): which functions are written, what they test, call and set; and
the execution of these functions (Fortran).

A function of a group cap is the list of its statements; the function of a suite cap is the list of the functions it calls; a
subroutine of the API is a switch.  Functions and modules are found by their names.

Simplifications: the arguments of the calls, allocation and conversion of variables, messages, and the debugging tests are not
modelled.  Whether a scheme has a routine with arguments for a stage is given (`has`).  A scheme returns an error code that may
depend on the whole history; it changes neither the loop counter nor the loop extent.  The error code of the host is the component
`errflg` of its variable of type `ccpp_t`.
-/
namespace Ccpp.SA

/-- A text (Python library). -/
abbrev Str := List Char

/-- CCPP_STAGES, in order, common.py:15-20 -/
inductive Stage where
  | tsInit | tsFinal | init | run | final
deriving DecidableEq

/-- All stages in the order of the dictionary, common.py:15-20 -/
def allStages : List Stage := [.tsInit, .tsFinal, .init, .run, .final]

/-- The name of a stage, common.py:15-20 -/
def Stage.full : Stage → Str
  | .tsInit => "timestep_init".toList
  | .tsFinal => "timestep_finalize".toList
  | .init => "init".toList
  | .run => "run".toList
  | .final => "finalize".toList

/-- The abbreviation of a stage, common.py:15-20 -/
def Stage.abbr : Stage → Str
  | .tsInit => "tsinit".toList
  | .tsFinal => "tsfinal".toList
  | .init => "init".toList
  | .run => "run".toList
  | .final => "final".toList

/-- A statement of the function of a group cap, mkstatic.py:1004-1044, 1843-1900 -/
inductive Stmt where
  /-- `if (initialized(i)) return`, mkstatic.py:1005-1007 -/
  | returnIfInit
  /-- `if (.not.initialized(i)) ...; flag = 1; return`, mkstatic.py:1008-1028 -/
  | errorIfNotInit
  /-- `if (.not.initialized(i)) return`, mkstatic.py:1029-1031 -/
  | returnIfNotInit
  /-- `initialized(i) = .true.`, mkstatic.py:1035-1037 -/
  | setInit
  /-- `initialized = .false.`, mkstatic.py:1041-1043 -/
  | clearInit
  /-- The loop extent is set, mkstatic.py:1871-1883 -/
  | extent (n : Int)
  /-- The loop counter is set, mkstatic.py:1894-1896 -/
  | counter (n : Int)
  /-- Calls of routines, each followed by the test of the error code, mkstatic.py:1843-1860 -/
  | calls (rs : List Str)
  /-- `do cnt=1,n` around calls, mkstatic.py:1885-1893 -/
  | doLoop (n : Int) (rs : List Str)
deriving DecidableEq

/-- The test block of a stage, mkstatic.py:1004-1032 -/
def testBlock : Stage → List Stmt
  | .init => [.returnIfInit]
  | .final => [.returnIfNotInit]
  | _ => [.errorIfNotInit]

/-- The set block of a stage, mkstatic.py:1034-1044 -/
def setBlock : Stage → List Stmt
  | .init => [.setInit]
  | .final => [.clearInit]
  | _ => []

/-- The name of the routine of a scheme, mkstatic.py:1119 -/
def routine (s : Str) (st : Stage) : Str := s ++ '_' :: st.full

/-- The routines of a subcycle that are called, mkstatic.py:1111-1123 -/
def subCalls (has : Str → Stage → Bool) (st : Stage) (schemes : List Str) : List Str :=
  (schemes.filter fun s => has s st).map fun s => routine s st

/-- The statements of a subcycle, mkstatic.py:1110, 1864-1900 -/
def subBody (has : Str → Stage → Bool) (st : Stage) (sub : Int × List Str) : List Stmt :=
  let rs := subCalls has st sub.2
  if rs = [] then [] else
  .extent (if st = .run then sub.1 else 1) ::
    (if 1 < sub.1 ∧ st = .run then [.doLoop sub.1 rs] else [.counter 1, .calls rs])

/-- The arguments of the function are not empty: a routine is called, or the stage is `init`, mkstatic.py:1902-1916, 1925-1932 -/
def hasArgs (has : Str → Stage → Bool) (g : PB.Group) (st : Stage) : Bool :=
  decide (st = .init) || g.subs.any fun sub => !(subCalls has st sub.2).isEmpty

/-- The elements `init` and `finalize` have only one stage, mkstatic.py:1087-1090 -/
def inStage (g : PB.Group) (st : Stage) : Bool :=
  match g.tag with
  | .init => decide (st = .init)
  | .finalize => decide (st = .final)
  | .group => true

/-- The function of a group cap, mkstatic.py:977-995, 1925-1948 -/
def groupBody (has : Str → Stage → Bool) (g : PB.Group) (st : Stage) : List Stmt :=
  (if hasArgs has g st then testBlock st else []) ++ (g.subs.map (subBody has st)).flatten ++ setBlock st

/-- The name of a group as it is printed, mkstatic.py:1080 -/
def groupName (g : PB.Group) : Str := g.name.getD "None".toList

/-- The name of a function of a group cap, mkstatic.py:1920, 440, 876 -/
def groupFn (s : Str) (g : PB.Group) (st : Stage) : Str := s ++ '_' :: groupName g ++ '_' :: st.abbr ++ "_cap".toList
/-- The name of a function of a suite cap, mkstatic.py:880, 457 -/
def suiteFn (s : Str) (st : Stage) : Str := s ++ '_' :: st.abbr ++ "_cap".toList
/-- The module of a group cap, mkstatic.py:1080 -/
def groupModule (s : Str) (g : PB.Group) : Str := "ccpp_".toList ++ s ++ '_' :: groupName g ++ "_cap".toList
/-- The module of a suite cap, mkstatic.py:834 -/
def suiteModule (s : Str) : Str := "ccpp_".toList ++ s ++ "_cap".toList

/-- The functions of a group cap, with their module, mkstatic.py:1085-1948 -/
def groupFns (has : Str → Stage → Bool) (s : Str) (g : PB.Group) : List (Str × (Str × List Stmt)) :=
  (allStages.filter (inStage g)).map fun st => (groupFn s g st, groupModule s g, groupBody has g st)

/-- The functions of a suite cap: the functions that are called one after another, mkstatic.py:856-888 -/
def suiteFns (s : PB.Suite) : List (Str × List Str) :=
  allStages.map fun st => (suiteFn s.name st, (s.groups.filter fun g => inStage g st).map fun g => groupFn s.name g st)

/-- A case of the switch over suites: the name, the cases of the switch over groups, the function of the suite,
mkstatic.py:424-473 -/
structure Case where
  name : Str
  groups : List (Str × Str)
  whole : Str

/-- The switch of a stage, mkstatic.py:422-473 -/
def apiSwitch (suites : List PB.Suite) (st : Stage) : List Case :=
  suites.map fun s => ⟨s.name, (s.groups.filter fun g => inStage g st).map (fun g => (groupName g, groupFn s.name g st)), suiteFn s.name st⟩

/-- The switch over groups begins with `if`; without groups it would begin with `else`, mkstatic.py:433-453 -/
def switchOk (suites : List PB.Suite) : Bool := allStages.all fun st => (apiSwitch suites st).all fun c => !c.groups.isEmpty

/-- What is written, mkstatic.py:335-480, 830-945, 1060-1995 -/
structure Program where
  groupFns : List (Str × (Str × List Stmt))
  suiteFns : List (Str × List Str)
  api : Stage → List Case

/-- generate_suite_and_group_caps and generate_static_api, ccpp_prebuild.py:539-575 -/
def program (has : Str → Stage → Bool) (suites : List PB.Suite) : Program :=
  ⟨(suites.map fun s => (s.groups.map (groupFns has s.name)).flatten).flatten, (suites.map suiteFns).flatten, apiSwitch suites⟩

/-! ## Execution -/

/-- A call of a routine of a scheme: the routine, the instance, the loop counter and the loop extent, mkstatic.py:1843-1850 -/
structure Event where
  routine : Str
  inst : Nat
  counter : Int
  extent : Int
deriving DecidableEq

/-- The state: `initialized` of the modules, mkstatic.py:972, and all calls so far. -/
structure World where
  flag : Str → Nat → Bool
  trace : List Event

/-- The variables of a function: the result, whether it has returned, the error code of the host, loop counter and extent, mkstatic.py:977-995 -/
structure Frame where
  ierr : Int
  returned : Bool
  errflg : Int
  counter : Int
  extent : Int

/-- A call and the test of the error code, mkstatic.py:1843-1860; `beh` gives the error code, from all calls so far -/
def callOne (beh : List Event → Int) (i : Nat) (fw : Frame × World) (r : Str) : Frame × World :=
  if fw.1.returned then fw else
  let tr := fw.2.trace ++ [⟨r, i, fw.1.counter, fw.1.extent⟩]
  let code := beh tr
  ({ fw.1 with errflg := code, ierr := if code = 0 then fw.1.ierr else code, returned := code != 0 }, { fw.2 with trace := tr })

/-- Calls, mkstatic.py:1843-1860 -/
def callAll (beh : List Event → Int) (i : Nat) (fw : Frame × World) (rs : List Str) : Frame × World := rs.foldl (callOne beh i) fw

/-- `do cnt=1,n` (Fortran): `k` iterations are left, the counter of the next is `c`, mkstatic.py:1885-1893 -/
def iterate (beh : List Event → Int) (i : Nat) (rs : List Str) : Nat → Int → Frame × World → Frame × World
  | 0, _, fw => fw
  | k + 1, c, fw =>
    if fw.1.returned then fw else
    iterate beh i rs k (c + 1) (callAll beh i ({ fw.1 with counter := c }, fw.2) rs)

/-- A statement, mkstatic.py:1004-1044, 1843-1900 -/
def execStmt (beh : List Event → Int) (m : Str) (i : Nat) (fw : Frame × World) (s : Stmt) : Frame × World :=
  if fw.1.returned then fw else
  match s with
  | .returnIfInit => ({ fw.1 with returned := fw.2.flag m i }, fw.2)
  | .returnIfNotInit => ({ fw.1 with returned := !fw.2.flag m i }, fw.2)
  | .errorIfNotInit => if fw.2.flag m i then fw else ({ fw.1 with errflg := 1, returned := true }, fw.2)
  | .setInit => (fw.1, { fw.2 with flag := fun m' i' => if m' = m ∧ i' = i then true else fw.2.flag m' i' })
  | .clearInit => (fw.1, { fw.2 with flag := fun m' i' => if m' = m then false else fw.2.flag m' i' })
  | .extent n => ({ fw.1 with extent := n }, fw.2)
  | .counter n => ({ fw.1 with counter := n }, fw.2)
  | .calls rs => callAll beh i fw rs
  | .doLoop n rs => iterate beh i rs n.toNat 1 fw

/-- A function of a group cap, mkstatic.py:977-995: the result and the error code of the host -/
def execGroup (beh : List Event → Int) (m : Str) (i : Nat) (body : List Stmt) (w : World) : Int × Int × World :=
  let r := body.foldl (execStmt beh m i) (⟨0, false, 0, 1, 1⟩, w)
  (r.1.ierr, r.1.errflg, r.2)

/-- `d[k]` (Python library); the first function of a name. -/
def find (k : Str) : List (Str × α) → Option α
  | [] => none
  | e :: d => if e.1 = k then some e.2 else find k d

/-- A call of a function of a group cap; a function that does not exist is an error of the linker, not of the execution, mkstatic.py:866-869, 440-445 -/
def callGroup (p : Program) (beh : List Event → Int) (i : Nat) (f : Str) (w : World) : Int × Int × World :=
  match find f p.groupFns with
  | some (m, body) => execGroup beh m i body w
  | none => (0, 0, w)

/-- The function of a suite cap: the groups until the first error, mkstatic.py:862-878 -/
def callSuite (p : Program) (beh : List Event → Int) (i : Nat) : List Str → World → Int × World
  | [], w => (0, w)
  | f :: fs, w =>
    let r := callGroup p beh i f w
    if r.1 = 0 then callSuite p beh i fs r.2.2 else (r.1, r.2.2)

/-- `trim` (Fortran), mkstatic.py:439, 466 -/
def trim (s : Str) : Str := (s.reverse.dropWhile (· == ' ')).reverse

/-- The first case of the switch over suites, mkstatic.py:461-473 -/
def findCase (k : Str) : List Case → Option Case
  | [] => none
  | c :: cs => if c.name = k then some c else findCase k cs

/-- A call of the API by the host: the stage, the suite, the group, the instance, mkstatic.py:296-306 -/
structure Call where
  stage : Stage
  suite : Str
  group : Option Str
  inst : Nat

/-- A subroutine of the API, mkstatic.py:296-322, 424-478: the value of `ierr`, which is also the error code of the host at the end -/
def callApi (p : Program) (beh : List Event → Int) (c : Call) (w : World) : Int × World :=
  match findCase (trim c.suite) (p.api c.stage) with
  | none => (1, w)
  | some k =>
    match c.group with
    | some g =>
      match find (trim g) k.groups with
      | none => (1, w)
      | some f => let r := callGroup p beh c.inst f w; (r.1, r.2.2)
    | none =>
      match find k.whole p.suiteFns with
      | none => (0, w)
      | some fs => callSuite p beh c.inst fs w

/-- A history of calls of the subroutines of mkstatic.py:296-322: the results and the state -/
def callMany (p : Program) (beh : List Event → Int) : List Call → World → List Int × World
  | [], w => ([], w)
  | c :: cs, w =>
    let r := callApi p beh c w
    let q := callMany p beh cs r.2
    (r.1 :: q.1, q.2)

/-- The state at the beginning, mkstatic.py:972 -/
def start : World := ⟨fun _ _ => false, []⟩

end Ccpp.SA
