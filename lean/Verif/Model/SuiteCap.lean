import Verif.Model.StateMachine
/-!
# Model of the generated suite cap

A small Fortran statement language, the generator of `scripts/suite_objects.py` /
`scripts/ccpp_suite.py` that emits it, and an interpreter of the generated code.
-/
namespace Ccpp.Cap

/-- Notation: an identifier. -/
abbrev Name := List Char

/-- The phases of ccpp_state_machine.py:16-27. -/
inductive Phase where
  | register | initialize | timestepInitial | run | timestepFinal | finalize
deriving DecidableEq, Repr

/-- The transition name of a phase, ccpp_state_machine.py:16-27, and the group names of
ccpp_suite.py:73-81. -/
def Phase.name : Phase → Name
  | .register => "register".toList
  | .initialize => "initialize".toList
  | .timestepInitial => "timestep_initial".toList
  | .run => "run".toList
  | .timestepFinal => "timestep_final".toList
  | .finalize => "finalize".toList

/-- CCPP_STATE_MACH.initial_state(phase), state_machine.py:94-96 -/
def initialState (p : Phase) : Name := ((SM.ccppMachine.get? p.name).map (·.init)).getD []
/-- CCPP_STATE_MACH.final_state(phase), state_machine.py:98-100 -/
def finalState (p : Phase) : Name := ((SM.ccppMachine.get? p.name).map (·.final)).getD []

/-- One externally visible step of the generated code: a debug check of an argument
array of a scheme (suite_objects.py:1556-1572) or the call of a scheme subroutine. -/
inductive Step where
  | check (c : Name)
  | call (s : Name)
deriving DecidableEq, Repr

/-- Generated Fortran statements (only those that influence control flow, the error
code, the suite state and the allocation status of suite variables; argument
lists, unit transforms, local arrays and pointers are left out). suite_objects.py:2360-2649 -/
inductive Stmt where
  | skip
  | seq (a b : Stmt)
  /-- `errcode = 0` (suite_objects.py:2556) -/
  | errZero
  /-- Group.__thread_check (suite_objects.py:2131-2137) -/
  | threadCheck
  /-- Suite.check_suite_state (ccpp_suite.py:130-150) -/
  | stateCheck (prev : Name)
  /-- `if (errcode == 0) then … end if` (suite_objects.py:1756, 1839) -/
  | ifOk (b : Stmt)
  /-- the size check emitted by write_var_debug_check (suite_objects.py:1556-1572):
  sets `errcode = 1` and returns when it fails -/
  | check (c : Name)
  /-- `call scheme(...)` (suite_objects.py:1802) -/
  | call (s : Name)
  /-- `do i = 1, n … end do` -/
  | loop (n : Nat) (b : Stmt)
  /-- `allocate(v(...))` of a suite variable (suite_objects.py:2606) -/
  | alloc (v : Name)
  /-- `deallocate(v)` of a suite variable (suite_objects.py:2642) -/
  | dealloc (v : Name)
  /-- `ccpp_suite_state = '…'` (ccpp_suite.py:161) -/
  | setState (s : Name)
deriving Repr

/-! ## Generator -/

mutual
/-- Parts of a group (suite_objects.py): `Scheme` with its debug checks (empty unless
capgen ran in debug mode), `VerticalLoop` with its trip count, `Subcycle`
with its loop attribute, and `TimeSplit`. suite_objects.py:1122-2108 -/
inductive Item where
  | scheme (checks : List Name) (name : Name)
  | vloop (n : Nat) (body : Items)
  | subcycle (n : Nat) (body : Items)
  | timesplit (body : Items)
/-- suite_objects.py:1030 (parts) -/
inductive Items where
  | nil
  | cons (x : Item) (xs : Items)
end

/-- Errors of the generator. suite_objects.py:2360-2649 -/
inductive GenErr where
  /-- Python RecursionError -/
  | recursion
deriving DecidableEq, Repr

/-- suite_objects.py:1756, 1428-1588 -/
def checkStmts : List Name → Stmt
  | [] => .skip
  | c :: cs => .seq (.check c) (checkStmts cs)

mutual
/-- `write` of the suite parts: Scheme.write (suite_objects.py:1742-1839, skipping the
argument text), VerticalLoop.write (:1958-1967), Subcycle.write (:2019-2026) whose
`self.loop` property (:2028-2037) refers to itself, so it never returns, and
TimeSplit.write (:2069-2074). -/
def Item.write : Item → Except GenErr Stmt
  | .scheme cs n => .ok (.ifOk (.seq (checkStmts cs) (.call n)))
  | .vloop n b => (b.write).map (Stmt.loop n)
  | .subcycle _ _ => .error .recursion
  | .timesplit b => b.write
/-- suite_objects.py:2030-2032, 2076-2081 -/
def Items.write : Items → Except GenErr Stmt
  | .nil => .ok .skip
  | .cons x xs =>
    match x.write with
    | .error e => .error e
    | .ok a => (xs.write).map (Stmt.seq a)
end

/-- `persistence` of a suite variable. metavar.py:98-262 (the persistence property) -/
inductive Pers where
  | run | timestep
deriving DecidableEq, Repr

/-- A suite-owned variable: local name, whether it has dimensions, persistence.
ccpp_suite.py:566-578 -/
structure SVar where
  name : Name
  hasDims : Bool
  pers : Pers
deriving DecidableEq, Repr

/-- group_type, suite_objects.py:2366-2370 with timestep_phase (:375-379). -/
def groupType : Phase → Pers
  | .timestepInitial => .timestep
  | .timestepFinal => .timestep
  | _ => .run

/-- The `allocate` argument, ccpp_suite.py:566-575: the beginning groups except the
register group. -/
def allocates : Phase → Bool
  | .initialize => true
  | .timestepInitial => true
  | _ => false

/-- The `deallocate` argument, ccpp_suite.py:576-578. -/
def deallocates : Phase → Bool
  | .finalize => true
  | .timestepFinal => true
  | _ => false

/-- The variables (de)allocated by a group, suite_objects.py:2598-2610, 2635-2645 -/
def managed (vars : List SVar) (p : Phase) : List Name :=
  (vars.filter (fun v => v.hasDims && decide (v.pers = groupType p))).map (·.name)

/-- ccpp_suite.py:566-575 -/
def allocStmts : List Name → Stmt
  | [] => .skip
  | v :: vs => .seq (.alloc v) (allocStmts vs)

/-- ccpp_suite.py:576-578 -/
def deallocStmts : List Name → Stmt
  | [] => .skip
  | v :: vs => .seq (.dealloc v) (deallocStmts vs)

/-- set_suite_state, ccpp_suite.py:152-163 -/
def setStateStmt (p : Phase) : Stmt :=
  if initialState p = finalState p then .skip else .setState (finalState p)

/-- Group.write, suite_objects.py:2360-2649: the executable part of the subroutine, given the
code of its parts. -/
def groupBody (vars : List SVar) (p : Phase) (parts : Stmt) : Stmt :=
  .seq .errZero <|
  .seq (if p = .run then .skip else .threadCheck) <|
  .seq (.stateCheck (initialState p)) <|
  .seq (if allocates p then allocStmts (managed vars p) else .skip) <|
  .seq parts <|
  .seq (if deallocates p then deallocStmts (managed vars p) else .skip) <|
  setStateStmt p

/-! ## Interpreter -/

/-- The behaviour of everything outside the generated code: after the given sequence of
steps (all calls of the program so far, the last one being the current one),
the error code the last step leaves (for a check: nonzero iff it fails).  An
arbitrary function, hence arbitrary, history-dependent scheme behaviour.
Notation: everything outside the generated code. -/
abbrev Beh := List Step → Int

/-- Notation: state of a program that uses the cap of ccpp_suite.py:525-592. -/
structure St where
  err : Int
  css : Name
  alloc : Name → Bool
  trace : List Step
  /-- an allocate of an allocated or a deallocate of an unallocated variable happened -/
  fault : Bool
  /-- a `return` was executed -/
  ret : Bool
  /-- omp_get_thread_num() of the caller (0 without OpenMP) -/
  thread : Nat

/-- Fortran language semantics of a do loop, suite_objects.py:2024-2032. -/
def iter (f : St → St) : Nat → St → St
  | 0, s => s
  | n + 1, s => iter f n (f s)

/-- Semantics of the generated statements. Fortran language semantics; no lines of /repo. -/
def exec (beh : Beh) : Stmt → St → St
  | .skip, s => s
  | .seq a b, s => let s1 := exec beh a s; if s1.ret then s1 else exec beh b s1
  | .errZero, s => { s with err := 0 }
  | .threadCheck, s => if s.thread > 1 then { s with err := 1, ret := true } else s
  | .stateCheck prev, s => if s.css ≠ prev then { s with err := 1, ret := true } else s
  | .ifOk b, s => if s.err = 0 then exec beh b s else s
  | .check c, s =>
    if beh (s.trace ++ [.check c]) ≠ 0
    then { s with trace := s.trace ++ [.check c], err := 1, ret := true }
    else { s with trace := s.trace ++ [.check c] }
  | .call n, s =>
    { s with trace := s.trace ++ [.call n], err := beh (s.trace ++ [.call n]) }
  | .loop n b, s => iter (fun s => if s.ret then s else exec beh b s) n s
  | .alloc v, s =>
    { s with alloc := fun w => if w = v then true else s.alloc w, fault := s.fault || s.alloc v }
  | .dealloc v, s =>
    { s with alloc := fun w => if w = v then false else s.alloc w,
             fault := s.fault || !s.alloc v }
  | .setState st, s => { s with css := st }

/-- A call of one of the group subroutines by the host: phase, the code of the group's
parts and the calling thread. suite_objects.py:2360-2649 -/
structure Call where
  phase : Phase
  parts : Stmt
  thread : Nat

/-- Execution of one call of a group subroutine of the cap. suite_objects.py:2360-2649 -/
def callGroup (beh : Beh) (vars : List SVar) (s : St) (c : Call) : St :=
  exec beh (groupBody vars c.phase c.parts) { s with ret := false, thread := c.thread }

/-- Initial program state: ccpp_suite.py:66, 69-71, 551-554 and no suite variable allocated. -/
def St.init : St :=
  { err := 0, css := "uninitialized".toList, alloc := fun _ => false, trace := [],
    fault := false, ret := false, thread := 0 }

/-- A whole history of calls. Notation: a sequence of the calls; no lines of /repo. -/
def runCalls (beh : Beh) (vars : List SVar) (s : St) (cs : List Call) : St :=
  cs.foldl (callGroup beh vars) s

end Ccpp.Cap
