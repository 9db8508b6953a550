import Verif.Model.PrebuildSuite
import Verif.Spec.PrebuildMatch
/-!
# Specification for C70: what prebuild takes from the suites and what it keeps of the schemes

Shared with the model: the records of the suite definition files and of the variables.
-/
namespace Ccpp.PB

/-- The scheme is in a group of the suite. -/
def InGroup (x : SuiteXml) (n : List Char) : Prop := ∃ c ∈ x.children, c.tag = .group ∧ ∃ sx ∈ c.subs, n ∈ sx.schemes

/-- The scheme is the one for the initialization of the whole suite. -/
def IsInit (x : SuiteXml) (n : List Char) : Prop := ∃ c ∈ x.children, c.tag = .init ∧ c.text = n
/-- The scheme is the one for the finalization of the whole suite. -/
def IsFinalize (x : SuiteXml) (n : List Char) : Prop := ∃ c ∈ x.children, c.tag = .finalize ∧ c.text = n

/-- The scheme is in the suite. -/
def InSuite (x : SuiteXml) (n : List Char) : Prop := InGroup x n ∨ IsInit x n ∨ IsFinalize x n

/-- The stages. -/
def IsStage (st : List Char) : Prop :=
  st = "timestep_init".toList ∨ st = "timestep_finalize".toList ∨ st = "init".toList ∨ st = "run".toList ∨ st = "finalize".toList

/-- The suite calls the scheme `n` at the stage `st`. -/
def CallsAt (x : SuiteXml) (n st : List Char) : Prop :=
  (InGroup x n ∧ IsStage st) ∨ (IsInit x n ∧ st = "init".toList) ∨ (IsFinalize x n ∧ st = "finalize".toList)

/-- The name fits the file and is not too long. -/
def NameOk (x : SuiteXml) : Prop :=
  (x.file = x.name ++ ".xml".toList ∨ x.file = "suite_".toList ++ x.name ++ ".xml".toList) ∧ x.name.length ≤ 37

/-- Every child has a name, every subcycle has a scheme and the number of its loops. -/
def Regular (x : SuiteXml) : Prop :=
  ∀ c ∈ x.children, c.name ≠ none ∧ (c.tag = .group → ∀ sx ∈ c.subs, sx.loop ≠ none ∧ sx.schemes ≠ [])

/-- The group that a child stands for. -/
def groupOf (c : Child) : Group :=
  match c.tag with
  | .init => ⟨some "init".toList, .init, [(1, [c.text])]⟩
  | .finalize => ⟨some "finalize".toList, .finalize, [(1, [c.text])]⟩
  | .group => ⟨c.name, .group, c.subs.map fun sx => (sx.loop.getD 0, sx.schemes)⟩

/-- The sequence of the schemes of a group, all loops carried out. -/
def unrolled (c : Child) : List (List Char) :=
  match c.tag with
  | .group => c.subs.flatMap fun sx => (List.replicate (sx.loop.getD 0).toNat sx.schemes).flatten
  | _ => []

/-- `p` occurs in `s`. -/
def Occurs (p s : List Char) : Prop := ∃ a b, s = a ++ p ++ b

/-- A name of a scheme that is not mangled: it does not contain the long names of stages, and does not end like the beginning
of one. -/
def Clean (n : List Char) : Prop :=
  ¬ Occurs "timestep_init".toList n ∧ ¬ Occurs "timestep_finalize".toList n ∧ ¬ Occurs "finalize".toList n ∧
  (∀ a, n ≠ a ++ "timestep".toList) ∧ ' ' ∉ n ∧ ¬ Occurs "SUBROUTINE".toList n

/-- The variable is requested by the stage `st` of the scheme `n` (in module `m`). -/
def From (v : Var) (n st : List Char) : Prop :=
  ∃ m, ' ' ∉ m ∧ ¬ Occurs "SUBROUTINE".toList m ∧
    v.container = some ("MODULE_".toList ++ m ++ " SCHEME_".toList ++ n ++ " SUBROUTINE_".toList ++ n ++ "_".toList ++ st)

/-- A variable of a scheme with a clean name. -/
def CleanVar (v : Var) : Prop := ∃ n st, Clean n ∧ IsStage st ∧ From v n st

/-- A variable of a scheme that is called by one of the suites. -/
def CalledVar (xs : List SuiteXml) (v : Var) : Prop := ∃ n st, Clean n ∧ IsStage st ∧ From v n st ∧ ∃ x ∈ xs, CallsAt x n st

/-- The suites are those of the files. -/
def Parsed (xs : List SuiteXml) (ss : List Suite) : Prop :=
  List.Forall₂ (fun x s => parseSuite false x = some (some s)) xs ss

/-- The suites have no scheme for the finalization of the whole suite. -/
def NoFinalize (xs : List SuiteXml) : Prop := ∀ x ∈ xs, ∀ c ∈ x.children, c.tag ≠ .finalize

/-- `R` gives the requests that count: all those of a name that a called scheme requests, and those of the suites. -/
def Counts (xs : List SuiteXml) (files : List (List (List Var))) (R : List Char → List Var) : Prop :=
  ∀ k, ((∃ v ∈ reqs files.flatten.flatten k, CalledVar xs v) → R k = reqs files.flatten.flatten k) ∧
    (¬ (∃ v ∈ reqs files.flatten.flatten k, CalledVar xs v) → R k = suiteReq k)

/-- The condition under which the variables are matched. -/
structure AcceptableFor (host : Dict) (R : List Char → List Var) (files : List (List (List Var))) : Prop where
  legal : ∀ f ∈ files, LegalFile f
  firsts : FirstsAgree files
  provided : ∀ k r l, R k = r :: l → ∃ h, get host k = some [h] ∧ Compat r h
  units : ∀ k r h, r ∈ R k → get host k = some [h] → Convertible h.units r

end Ccpp.PB
