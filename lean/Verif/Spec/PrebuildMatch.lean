import Verif.Model.PrebuildMatch
import Verif.Spec.DataTable
/-!
# Specification for C69: matching of requested and provided variables by prebuild

The input: the variables of the host model by standard name (`host`), and the scheme files, each a list of tables, each a list of
variables.  Shared with the model: the records, the look up of a standard name in the dictionary of the host (`get`), and the
table of unit conversions with the names of its entries (`conversion`).
-/
namespace Ccpp.PB

/-- The kinds agree: equal, or both lengths of characters, one of them assumed. -/
def KindOk (a b : Var) : Prop :=
  a.kind = b.kind ∨ a.type = "character".toList ∧
    ((a.kind = "len=*".toList ∧ ∃ r, b.kind = "len=".toList ++ r) ∨ (b.kind = "len=*".toList ∧ ∃ r, a.kind = "len=".toList ++ r))

/-- Two variables agree. -/
def Compat (a b : Var) : Prop := a.std = b.std ∧ a.type = b.type ∧ a.dims.length = b.dims.length ∧ KindOk a b

/-- The requests of a standard name in a list of variables, in order. -/
def reqs (l : List Var) (k : List Char) : List Var := l.filter fun v => v.std = k

/-- The variables that a suite always needs. -/
def suiteReq (k : List Char) : List Var := reqs suiteVars k

/-- All requests of a standard name: those of the schemes; without any, that of the suite. -/
def allReqs (files : List (List (List Var))) (k : List Char) : List Var :=
  if reqs files.flatten.flatten k = [] then suiteReq k else reqs files.flatten.flatten k


/-- A table of a scheme is legal: every name once, and the error variables unless the table is empty. -/
def LegalTable (t : List Var) : Prop :=
  t.Pairwise (fun a b => a.std ≠ b.std) ∧
  (t = [] ∨ (∃ v ∈ t, v.std = "ccpp_error_message".toList) ∧ ∃ v ∈ t, v.std = "ccpp_error_code".toList)

/-- A file is legal: its tables are, and all its requests of the same name agree with each other. -/
def LegalFile (f : List (List Var)) : Prop :=
  (∀ t ∈ f, LegalTable t) ∧ f.flatten.Pairwise fun a b => a.std = b.std → Compat a b

/-- The first request of a name agrees with the first one in every other file. -/
def FirstsAgree (files : List (List (List Var))) : Prop :=
  ∀ k a l f b m, reqs files.flatten.flatten k = a :: l → f ∈ files → reqs f.flatten k = b :: m → Compat a b

/-- The conversions that a request needs for the units of the host exist. -/
def Convertible (u : List Char) (v : Var) : Prop :=
  v.units ≠ u →
    ((v.intent = "in".toList ∨ v.intent = "inout".toList) → (conversion u v.units).isSome) ∧
    ((v.intent = "out".toList ∨ v.intent = "inout".toList) → (conversion v.units u).isSome)

/-- What is recorded for a request that is matched with the variable `h` of the host. -/
def Matched (h v w : Var) : Prop :=
  w.target = some h.loc ∧
  w.actIn = (if v.units ≠ h.units ∧ (v.intent = "in".toList ∨ v.intent = "inout".toList) then conversion h.units v.units
    else v.actIn) ∧
  w.actOut = (if v.units ≠ h.units ∧ (v.intent = "out".toList ∨ v.intent = "inout".toList) then conversion v.units h.units
    else v.actOut) ∧
  w.kind = (if v.type = "character".toList ∧ v.kind = "len=*".toList then h.kind else v.kind) ∧
  w.std = v.std ∧ w.units = v.units ∧ w.loc = v.loc ∧ w.type = v.type ∧ w.dims = v.dims ∧ w.intent = v.intent ∧
  w.active = v.active ∧ w.container = v.container

/-- The dictionary of a host: the variables are filed under their names, those of a module or of a type in a module. -/
structure HostOk (host : Dict) : Prop where
  names : ∀ k l, get host k = some l → l ≠ [] ∧ ∀ h ∈ l, h.std = k
  containers : ∀ k l, get host k = some l → ∀ h ∈ l, ∃ m, ' ' ∉ m ∧
    (h.container = some ("MODULE_".toList ++ m) ∨ ∃ t, ' ' ∉ t ∧ h.container = some ("MODULE_".toList ++ m ++ " TYPE_".toList ++ t))

/-- The variable `h` is in module `m`. -/
def InModule (h : Var) (m : List Char) : Prop :=
  ' ' ∉ m ∧ (h.container = some ("MODULE_".toList ++ m) ∨
    ∃ t, ' ' ∉ t ∧ h.container = some ("MODULE_".toList ++ m ++ " TYPE_".toList ++ t))

/-- The condition under which the variables are matched. -/
structure Acceptable (host : Dict) (files : List (List (List Var))) : Prop where
  legal : ∀ f ∈ files, LegalFile f
  firsts : FirstsAgree files
  provided : ∀ k r l, allReqs files k = r :: l → ∃ h, get host k = some [h] ∧ Compat r h
  units : ∀ k r h, r ∈ allReqs files k → get host k = some [h] → Convertible h.units r

/-- The result of the matching of the requests `R` (by standard name): the modules of the matched variables, and for every
requested name its requests in order, each with what is recorded. -/
structure Result (host : Dict) (R : List Char → List Var) (ms : List (List Char)) (md : Dict) : Prop where
  modules : DT.SortedSetOf ms fun m => ∃ k h, R k ≠ [] ∧ get host k = some [h] ∧ InModule h m
  names : DT.SortedSetOf (keys md) fun k => R k ≠ []
  entries : ∀ k h, R k ≠ [] → get host k = some [h] → ∃ l, get md k = some l ∧ List.Forall₂ (Matched h) (R k) l

end Ccpp.PB
