import Verif.Model.DataTable
import Verif.Spec.XmlFile
/-!
# Specification for C66: the reports about a data table are what capgen put into it

Shared with the model: the data (`Data`), the kinds of reports (`Action`), the order of strings (`RV.leStr`), `join` and
`pathJoin` of the Python library and the name of the parent of a suite.
-/
namespace Ccpp.DT
open XF

/-- The scheme is part of the object. -/
inductive Contains : Obj → Scheme → Prop
  | scheme {s} : Contains (.scheme s) s
  | timeSplit {n d ps o s} : o ∈ ps → Contains o s → Contains (.timeSplit n d ps) s
  | subcycle {n l d ps o s} : o ∈ ps → Contains o s → Contains (.subcycle n l d ps) s
  | verticalLoop {n i d ps o s} : o ∈ ps → Contains o s → Contains (.verticalLoop n i d ps) s

/-- A scheme of some group of some suite. -/
def Used (d : Data) (x : Scheme) : Prop := ∃ s ∈ d.suites, ∃ g ∈ s.groups, ∃ o ∈ g.parts, Contains o x

/-- The header of a routine. -/
def HeaderOf (d : Data) (x : Scheme) (h : Header) : Prop := h ∈ d.headers ∧ h.title = x.subroutine

/-- The variable is protected. -/
def Var.Prot (v : Var) : Prop := ("protected".toList, "True".toList) ∈ v.props

/-- The dictionary has a protected variable of this name. -/
def Dict.Prot (D : Dict) (n : List Char) : Prop := ∃ v ∈ D.vars, v.name = n ∧ v.Prot

/-- The intents of a kind of list. -/
def IntentOk : IntentType → Option (List Char) → Prop
  | .any, i => i = some "in".toList ∨ i = some "out".toList ∨ i = some "inout".toList
  | .input, i => i = some "in".toList ∨ i = some "inout".toList
  | .output, i => i = some "out".toList ∨ i = some "inout".toList

/-- The variable is an argument of a group (with parts) of the suite, with such an intent; if protected variables are
excluded, it is protected neither in the host nor in the suite nor in the group. -/
def Needs (d : Data) (it : IntentType) (suite : List Char) (exclude : Bool) (n : List Char) : Prop :=
  ∃ s ∈ d.suites, s.name = suite ∧ ∃ g ∈ s.groups, g.parts ≠ [] ∧ ∃ v ∈ g.callList.vars, v.name = n ∧ IntentOk it v.intent ∧
    (exclude = true → ¬ d.host.Prot n ∧ ¬ s.dict.Prot n ∧ ¬ g.callList.Prot n)

/-- In the order of the code points. -/
def Ordered (l : List (List Char)) : Prop := l.Pairwise fun a b => RV.leStr a b = true

/-- In order, without repetitions, and exactly those with the property. -/
def SortedSetOf (l : List (List Char)) (P : List Char → Prop) : Prop := Ordered l ∧ l.Nodup ∧ ∀ n, n ∈ l ↔ P n

/-- What a report returns. -/
def Returns (d : Data) (exclude : Bool) : Action → List (List Char) → Prop
  | .utilityFiles, l => l = d.kinds :: (["ccpp_constituent_prop_mod.F90", "ccpp_hashable.F90", "ccpp_hash_table.F90"].map
      fun f => pathJoin d.sourceDir f.toList)
  | .hostFiles, l => l = d.hostFiles
  | .suiteFiles, l => l = d.suiteFiles
  | .ccppFiles, l => l = d.kinds :: (["ccpp_constituent_prop_mod.F90", "ccpp_hashable.F90", "ccpp_hash_table.F90"].map
      fun f => pathJoin d.sourceDir f.toList) ++ d.hostFiles ++ d.suiteFiles
  | .suiteList, l => l = d.suites.map (·.name)
  | .processList, l => Ordered l ∧ ∀ n, n ∈ l ↔ ∃ x h p, Used d x ∧ x.hasRun = true ∧ HeaderOf d x h ∧ h.process = some p ∧
      n = p ++ "=".toList ++ x.name
  | .moduleList, l => SortedSetOf l fun n => ∃ x h, Used d x ∧ x.hasRun = true ∧ HeaderOf d x h ∧ h.module_ = some n
  | .dependencies, l => SortedSetOf l fun n => n ∈ d.hostDeps ∨ n ∈ d.schemeDeps
  | .varList it s, l => SortedSetOf l (Needs d it s exclude)
  | .hostVariables, l => SortedSetOf l fun n => ∃ v ∈ d.host.vars, v.name = n ∧ (exclude = true → ¬ v.Prot)

/-! ## Assumptions -/

/-- Without slash. -/
def NoSlash (s : List Char) : Prop := '/' ∉ s

/-- A file name: not empty and without blanks at the ends. -/
def FileName (f : List Char) : Prop := f ≠ [] ∧ XF.strip f = f

/-- A variable: property names are names and distinct. -/
structure Var.Ok (v : Var) : Prop where
  name : NoSlash v.name
  intent : ∀ i, v.intent = some i → NoSlash i
  localName : NoSlash v.localName
  props : ∀ a ∈ v.props, Name a.1 ∧ a.1 ≠ "name".toList ∧ a.1 ≠ "intent".toList ∧ a.1 ≠ "local_name".toList
  nodup : (v.props.map (·.1)).Nodup

/-- A dictionary: standard names are distinct. -/
structure Dict.Ok (D : Dict) : Prop where
  vars : ∀ v ∈ D.vars, v.Ok
  nodup : (D.vars.map (·.name)).Nodup

/-- The name, dictionary and parts of an object are fine; the scheme has a metadata header and is not called `scheme`. -/
inductive Obj.Ok (headers : List Header) : Obj → Prop
  | scheme {s} : NoSlash s.name → s.name ≠ "scheme".toList → s.dict.Ok → s.callList.Ok →
      (s.hasRun = true → ∃ h ∈ headers, h.title = s.subroutine) → Obj.Ok headers (.scheme s)
  | timeSplit {n D ps} : NoSlash n → D.Ok → (∀ o ∈ ps, Obj.Ok headers o) → Obj.Ok headers (.timeSplit n D ps)
  | subcycle {n l D ps} : NoSlash n → NoSlash l → D.Ok → (∀ o ∈ ps, Obj.Ok headers o) → Obj.Ok headers (.subcycle n l D ps)
  | verticalLoop {n i D ps} : NoSlash n → NoSlash i → D.Ok → (∀ o ∈ ps, Obj.Ok headers o) →
      Obj.Ok headers (.verticalLoop n i D ps)

/-- A group: names, dictionaries and parts are fine. -/
structure Group.Ok (headers : List Header) (g : Group) : Prop where
  name : Name g.name
  noSlash : NoSlash g.name
  phase : Name g.phase
  noSlashPhase : NoSlash g.phase
  dict : g.dict.Ok
  callList : g.callList.Ok
  parts : ∀ o ∈ g.parts, Obj.Ok headers o

/-- The name of a dictionary in the object. -/
inductive DictName : Obj → List Char → Prop
  | scheme {s} : DictName (.scheme s) s.name
  | callList {s} : DictName (.scheme s) (s.name ++ "_call_list".toList)
  | timeSplit {n D ps} : DictName (.timeSplit n D ps) n
  | subcycle {n l D ps} : DictName (.subcycle n l D ps) n
  | verticalLoop {n i D ps} : DictName (.verticalLoop n i D ps) n
  | inTimeSplit {n D ps o m} : o ∈ ps → DictName o m → DictName (.timeSplit n D ps) m
  | inSubcycle {n l D ps o m} : o ∈ ps → DictName o m → DictName (.subcycle n l D ps) m
  | inVerticalLoop {n i D ps o m} : o ∈ ps → DictName o m → DictName (.verticalLoop n i D ps) m

/-- The name of a dictionary of the suite. -/
def Suite.DictName (s : Suite) (n : List Char) : Prop :=
  n = s.name ∨ ∃ g ∈ s.groups, n = g.name ∨ n = g.name ++ "_call_list".toList ∨ ∃ o ∈ g.parts, DT.DictName o n

/-- The data of a run. -/
structure Data.Ok (d : Data) : Prop where
  kinds : FileName d.kinds
  sourceDir : ∀ f : String, f ∈ ["ccpp_constituent_prop_mod.F90", "ccpp_hashable.F90", "ccpp_hash_table.F90"] →
    FileName (pathJoin d.sourceDir f.toList)
  hostFiles : ∀ f ∈ d.hostFiles, FileName f
  suiteFiles : ∀ f ∈ d.suiteFiles, FileName f
  hostDeps : ∀ f ∈ d.hostDeps, FileName f
  schemeDeps : ∀ f ∈ d.schemeDeps, FileName f
  headers : (d.headers.map (·.title)).Nodup
  process : ∀ h ∈ d.headers, h.process ≠ some []
  host : d.host.Ok
  api : d.api.Ok
  dicts : ∀ s ∈ d.suites, s.dict.Ok
  groups : ∀ s ∈ d.suites, ∀ g ∈ s.groups, g.Ok d.headers
  /-- Every suite has a group with parts. -/
  filled : ∀ s ∈ d.suites, ∃ g ∈ s.groups, g.parts ≠ []

/-- The names of dictionaries do not coincide: groups have different names; the name of a suite is not that of a dictionary
written before; the name of its dictionary of constituents is not that of a dictionary. -/
structure Data.Distinct (d : Data) : Prop where
  groups : (d.suites.flatMap fun s => s.groups.map (·.name)).Nodup
  before : ∀ a s b, d.suites = a ++ s :: b → s.name ≠ d.hostName ∧ s.name ≠ d.apiName ∧ ∀ t ∈ a, ¬ t.DictName s.name
  parents : ∀ s ∈ d.suites, s.parent ≠ d.hostName ∧ s.parent ≠ d.apiName ∧ ∀ t ∈ d.suites, ¬ t.DictName s.parent

end Ccpp.DT
