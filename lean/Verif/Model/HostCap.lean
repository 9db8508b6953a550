import Verif.Model.SuiteCap
/-!
# Model of the generated host cap (`scripts/host_cap.py`, write_host_cap)
-/
namespace Ccpp.Cap

/-- What the host cap knows about a suite: its name, suite variables, the code of the
non-run groups by phase and of the run groups by part name. host_cap.py:713-795 -/
structure SuiteDef where
  name : Name
  vars : List SVar
  full : Phase → Stmt
  groups : List (Name × Stmt)

/-- Fortran character comparison `trim(a) == 'b'`: trailing blanks are not significant.
Fortran language semantics of the test written at host_cap.py:713-795 -/
def padEq (a b : Name) : Bool :=
  (a.reverse.dropWhile (· == ' ')) == (b.reverse.dropWhile (· == ' '))

/-- The program state: each suite's module state, the allocation status of each suite's
dynamic constituents array, and whether an allocate of an allocated array happened.
Notation: program state behind host_cap.py:713-795 and constituents.py:686-697. -/
structure Host where
  caps : Name → St
  dyn : Name → Bool
  fault : Bool
  err : Int

/-- Initial values: ccpp_suite.py:66 (suite state); arrays are not allocated, constituents.py:686-697. -/
def Host.init : Host := { caps := fun _ => St.init, dyn := fun _ => false, fault := false, err := 0 }

/-- `call <suite>_<group>(...)`. host_cap.py:713-795 -/
def callSuite (beh : Beh) (h : Host) (s : SuiteDef) (c : Call) : Host :=
  let st := callGroup beh s.vars (h.caps s.name) c
  { h with caps := fun n => if n = s.name then st else h.caps n, err := st.err }

/-- The body of `<host>_ccpp_physics_<stage>`, host_cap.py:713-795: the chain of
`if (trim(suite_name) == '…')` tests, for the run stage a chain of suite part tests
(:722-740), for the register stage the allocation of the dynamic constituents array
after a successful call (:741-762; packing of the constituents is left out), for the others
the call alone (:780-785). -/
def hostPhase (beh : Beh) (suites : List SuiteDef) (h : Host) (p : Phase)
    (suiteName partName : Name) (thread : Nat) : Host :=
  match suites.find? (fun s => padEq suiteName s.name) with
  | none => { h with err := 1 }
  | some s =>
    match p with
    | .run =>
      match s.groups.find? (fun g => padEq partName g.1) with
      | none => { h with err := 1 }
      | some g => callSuite beh { h with err := 0 } s ⟨.run, g.2, thread⟩
    | .register =>
      let h' := callSuite beh { h with err := 0 } s ⟨.register, s.full .register, thread⟩
      if h'.err ≠ 0 then h'
      else { h' with dyn := fun n => if n = s.name then true else h'.dyn n,
                     fault := h'.fault || h'.dyn s.name }
    | p => callSuite beh { h with err := 0 } s ⟨p, s.full p, thread⟩

/-- The cleanup routine, constituents.py:686-697: deallocates every allocated dynamic
constituents array. -/
def hostCleanup (h : Host) : Host := { h with dyn := fun _ => false }

end Ccpp.Cap
