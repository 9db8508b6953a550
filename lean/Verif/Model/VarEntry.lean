import Verif.Model.RefCheck
import Verif.Model.MetadataFile
import Mathlib.Data.Rat.Defs
/-!
# Model of one variable of a metadata table

`VariableProperty.valid_value`, the table of the properties and the constructor of `Var`, and `MetadataSection.parse_variable` from the key and
value pairs of its lines on (scripts/var_props.py:675-765, metavar.py:169-375, 443-451, metadata_table.py:846-958).

Simplifications: text is ASCII; `float()` of Python is a parameter (any function from texts to numbers); the type `int` of a property is not
modelled (no property has it); the number of errors that are collected is not limited here (C47); messages are not modelled.
-/
namespace Ccpp.VE

open MF (Val)

/-- Notation: a Python string. -/
abbrev Str := List Char

/-- Exceptions that are not CCPPErrors: ValueError of float(), ParseInternalError, IndexError, TypeError, UnboundLocalError.
parse_source.py:120-150 -/
inductive Exc where
  | value
  | internal
  | index
  | typeErr
  | unbound
deriving DecidableEq

/-- A number as `float()` gives it (Python library). -/
inductive Num where
  | fin (q : Rat)
  | inf (neg : Bool)
  | nan
deriving DecidableEq

/-- `x < 0.0` (Python library) parse_checkers.py:980 -/
def Num.neg : Num → Bool
  | .fin q => decide (q < 0)
  | .inf n => n
  | .nan => false

/-- `x > _MAX_MOLAR_MASS`, parse_checkers.py:23 and 980 -/
def Num.big : Num → Bool
  | .fin q => decide (10000 < q)
  | .inf n => !n
  | .nan => false

/-- The check function of a property, metavar.py:172-201, 214, 225 -/
inductive Check where
  | none
  | localName
  | standardName
  | units
  | dimensions
  | type
  | diagnostic
  | diagnosticFixed
  | default
  | molarMass
deriving DecidableEq

/-- The type of a property, var_props.py:600-603 -/
inductive PType where
  | str
  | list
  | bool
  | float
deriving DecidableEq

/-- A VariableProperty: name, type, valid values, check function, and whether it may be missing, var_props.py:597-631 -/
structure VProp where
  name : Str
  ptype : PType
  values : Option (List Str) := none
  check : Check := .none
  optional : Bool := true
deriving DecidableEq

/-- __spec_props, metavar.py:171-213 -/
def specProps : List VProp :=
  [{ name := "local_name".toList, ptype := .str, check := .localName, optional := false },
   { name := "standard_name".toList, ptype := .str, check := .standardName, optional := false },
   { name := "long_name".toList, ptype := .str },
   { name := "units".toList, ptype := .str, check := .units, optional := false },
   { name := "dimensions".toList, ptype := .list, check := .dimensions, optional := false },
   { name := "type".toList, ptype := .str, check := .type, optional := false },
   { name := "kind".toList, ptype := .str },
   { name := "state_variable".toList, ptype := .bool },
   { name := "protected".toList, ptype := .bool },
   { name := "allocatable".toList, ptype := .bool },
   { name := "diagnostic_name".toList, ptype := .str, check := .diagnostic },
   { name := "diagnostic_name_fixed".toList, ptype := .str, check := .diagnosticFixed },
   { name := "default_value".toList, ptype := .str, check := .default },
   { name := "persistence".toList, ptype := .str, values := some ["timestep".toList, "run".toList] },
   { name := "active".toList, ptype := .str },
   { name := "polymorphic".toList, ptype := .bool },
   { name := "top_at_one".toList, ptype := .bool },
   { name := "optional".toList, ptype := .bool },
   { name := "target".toList, ptype := .bool }]

/-- __var_props, metavar.py:222-223 -/
def varProps : List VProp :=
  [{ name := "intent".toList, ptype := .str, values := some ["in".toList, "out".toList, "inout".toList], optional := false }]

/-- __constituent_props, metavar.py:228-234 -/
def constituentProps : List VProp :=
  [{ name := "advected".toList, ptype := .bool }, { name := "molar_mass".toList, ptype := .float, check := .molarMass },
   { name := "constituent".toList, ptype := .bool }]

/-- Var.get_prop, metavar.py:241-263 and 443-451 -/
def getProp (n : Str) : Option VProp := (specProps ++ varProps ++ constituentProps).find? fun p => p.name == n

/-- A property dictionary in the order of insertion, metadata_table.py:870-871 -/
abbrev Dict := List (Str × Val)

/-- `d[k]` (Python library) -/
def Dict.get (d : Dict) (k : Str) : Option Val := d.lookup k

/-- `d[k] = v`: a new key comes last (Python library) -/
def Dict.set (d : Dict) (k : Str) (v : Val) : Dict :=
  match d with
  | [] => [(k, v)]
  | (j, w) :: d => if j = k then (k, v) :: d else (j, w) :: Dict.set d k v

/-- `del d[k]` (Python library) -/
def Dict.del (d : Dict) (k : Str) : Dict := d.filter fun e => e.1 != k

/-- The text of a property, empty if it is missing, parse_checkers.py:435-444 -/
def Dict.text (d : Dict) (k : Str) : Str := match d.get k with | some (.text s) => s | _ => []

/-- How valid_value ends: a value, None, a CCPPError or another exception, var_props.py:675-765 -/
inductive Chkd where
  | val (v : Val)
  | none
  | error
  | crash (e : Exc)
deriving DecidableEq

/-- The result of a checker of `parse_checkers.py` on a text, var_props.py:759 -/
def ofOut : RC.Out → Chkd
  | .ok (some s) => .val (.text s)
  | .ok none => .none
  | .error => .error
  | .internal => .crash .internal
  | .index => .crash .index
  | .typeErr => .crash .typeErr

/-- What check_default_value returns, parse_checkers.py:732-794 -/
def ofLit : Lit.Out (Option Str) → Chkd
  | .ok (some s) => .val (.text s)
  | .ok none => .none
  | .error => .error
  | .internal => .crash .internal
  | .index => .crash .index

/-- Truth value of a property value; `fl` is `float()`, var_props.py:758 and metavar.py:322 -/
def truthy (fl : Str → Option Num) : Val → Bool
  | .text s => !s.isEmpty
  | .flag b => b
  | .list l => !l.isEmpty
  | .number s => fl s != some (.fin 0)

/-- The properties that check_local_name sees, parse_checkers.py:430-445 -/
def nameProps (fl : Str → Option Num) (d : Option Dict) : RC.NameProps :=
  match d with
  | none => ⟨false, [], []⟩
  | some d => ⟨(d.get "protected".toList).any (truthy fl), d.text "type".toList, d.text "kind".toList⟩

/-- A property with a text, parse_checkers.py:763-770, 825, 913 -/
def textOf (d : Dict) (k : Str) : Option Str := match d.get k with | some (.text s) => some s | _ => none

/-- The check functions, with the values that their property can have, var_props.py:758-759 -/
def runCheck (fl : Str → Option Num) (reg : List Str) (c : Check) (v : Val) (d : Option Dict) (error : Bool) : Chkd :=
  match c, v with
  | .localName, .text s => ofOut (RC.localName s (nameProps fl d) error 0)
  | .standardName, .text s =>
    match Chk.cfStandardName s error with
    | .val t => .val (.text t)
    | .none => .none
    | .raise => .error
  | .units, .text s => ofOut (RC.units s error)
  | .dimensions, .list l =>
    match Chk.dimensions l error 0 with
    | .val t => .val (.list t)
    | .none => .none
    | .raise => .error
  | .type, .text s => ofOut (RC.fortranType reg s error)
  | .diagnostic, .text s =>
    ofOut (RC.diagId s (d.map fun d => ⟨textOf d "diagnostic_name".toList, textOf d "diagnostic_name_fixed".toList⟩) error)
  | .diagnosticFixed, .text s =>
    ofOut (RC.diagFixed s (d.map fun d => ⟨textOf d "diagnostic_name".toList, textOf d "diagnostic_name_fixed".toList⟩) error)
  | .default, .text s => ofLit (Lit.defaultValue s (d.map fun d => ⟨textOf d "type".toList, textOf d "kind".toList, true⟩) error)
  | .molarMass, .number s =>
    match fl s with
    | some x => if x.neg || x.big then (if error then .error else .none) else .val (.number s)
    | none => if error then .error else .none
  | _, v => .val v

/-- The value of a list; one empty item is a scalar, var_props.py:707-724 -/
def listVal : Option (List Str) → Option Val
  | some [[]] => some (.list [])
  | some l => some (.list l)
  | none => none

/-- The value before the check function is called, var_props.py:681-756: `none` is None -/
def convert (fl : Str → Option Num) (p : VProp) (v : Val) : Except Exc (Option Val) :=
  match p.ptype, v with
  | .float, .text s => match fl s with | some _ => .ok (some (.number s)) | none => .error .value
  | .float, .number s => .ok (some (.number s))
  | .float, .flag _ => .error .typeErr
  | .float, .list _ => .error .typeErr
  | .list, .text s => .ok (listVal (Chk.listMatch s))
  | .list, .list l => .ok (some (.list l))
  | .list, _ => .ok none
  | .bool, .text s =>
    if lower s ∈ ["t".toList, "true".toList, ".true.".toList] then .ok (some (.flag true))
    else if lower s ∈ ["f".toList, "false".toList, ".false.".toList] then .ok (some (.flag false))
    else .ok none
  | .bool, v => .ok (some (.flag (truthy fl v)))
  | .str, .text s =>
    match p.values with
    | some vs => if s ∈ vs then .ok (some (.text s)) else .ok none
    | none => .ok (some (.text s))
  | .str, _ => .ok none

/-- valid_value, var_props.py:675-765 -/
def validValue (fl : Str → Option Num) (reg : List Str) (p : VProp) (v : Val) (d : Option Dict) (error : Bool) : Chkd :=
  match convert fl p v with
  | .error e => .crash e
  | .ok (some w) => if truthy fl w && p.check != .none then runCheck fl reg p.check w d error else .val w
  | .ok none => if error then .error else .none

/-- How the reading of a variable ends: a variable (its properties, whether its type is intrinsic, whether it is a constituent), a recorded
syntax error, a CCPPError that is raised, another exception.  metadata_table.py:940-958 -/
inductive Res where
  | var (d : Dict) (intrinsic constituent : Bool)
  | reported
  | raised
  | crash (e : Exc)
deriving DecidableEq

/-- The special case of derived types, metavar.py:300-317 -/
def ddtCase (d : Dict) : Dict × Bool :=
  match d.get "ddt_type".toList with
  | none => (d, true)
  | some t =>
    let d := if (d.get "type".toList).isSome then d else d.set "type".toList t
    let d := if (d.get "units".toList).isSome then d else d.set "units".toList (.text [])
    ((d.set "kind".toList t).del "ddt_type".toList, false)

/-- The required properties, metavar.py:245-261 and 281-290 -/
def required (scheme : Bool) : List Str :=
  ((specProps ++ if scheme then varProps else []).filter fun p => !p.optional).map VProp.name

/-- Is one of the constituent properties not the default? metavar.py:342-350 -/
def isConstituent (fl : Str → Option Num) (d : Dict) : Bool :=
  constituentProps.any fun p => (d.get p.name).any (truthy fl)

/-- The loop that validates all properties, metavar.py:366-370 -/
def validate (fl : Str → Option Num) (reg : List Str) (all : Dict) : Dict → Chkd
  | [] => .none
  | (k, v) :: d =>
    match getProp k with
    | none => .crash .typeErr
    | some p =>
      match validValue fl reg p v (some all) true with
      | .crash e => .crash e
      | .error => .error
      | _ => validate fl reg all d

/-- Is it marked protected with another intent than in? metavar.py:331-339 -/
def protectedMismatch (fl : Str → Option Num) (d : Dict) : Bool :=
  match d.get "intent".toList, d.get "protected".toList with
  | some (.text i), some p => lower i != "in".toList && truthy fl p
  | _, _ => false

/-- The constructor of Var; a ParseSyntaxError is `reported` by the caller, metavar.py:265-377 and metadata_table.py:950-955 -/
def newVar (fl : Str → Option Num) (scheme : Bool) (reg : List Str) (d0 : Dict) : Res :=
  let d := (ddtCase d0).1
  if d.any (fun e => (getProp e.1).isNone) then .reported
  else if (required scheme).any (fun k => (d.get k).isNone) then .reported
  else if protectedMismatch fl d then .reported
  else
    match validate fl reg d d with
    | .crash e => .crash e
    | .error => .reported
    | _ => .var d (ddtCase d0).2 (isConstituent fl d)

/-- The state of the loop over the properties: the dictionary, var_ok, the variable `pval` (unbound, None or a value) and the registered derived
types.  metadata_table.py:850-940 -/
structure St where
  dict : Dict
  ok : Bool := true
  pval : Option (Option Val) := none
  reg : List Str

/-- Add the property if there was no error, metadata_table.py:922-940 -/
def St.add (s : St) (k : Str) (v : Val) : St :=
  if s.ok then { s with dict := s.dict.set k (MF.rangesOf k v) } else s

/-- One property; `Res` is an exception.  metadata_table.py:885-940 -/
def step (fl : Str → Option Num) (skip : Bool) (known : List Str) (s : St) (e : Str × Str) : Except Res St :=
  if e.1 = "type".toList ∧ RC.isIntrinsic e.2 = false then
    if skip || known.contains e.2 then
      .ok (({ s with pval := some (some (.text e.2)), reg := if skip then RC.registerDdt s.reg e.2 else s.reg }).add "ddt_type".toList (.text e.2))
    else .ok { s with ok := false }
  else
    match getProp e.1 with
    | none =>
      match s.pval with
      | none => .error (.crash .unbound)
      | some _ => .ok { s with ok := false }
    | some p =>
      match validValue fl s.reg p (.text e.2) none false with
      | .crash x => .error (.crash x)
      | .error => .error .raised
      | .none => .ok { s with ok := false, pval := some none }
      | .val v => .ok (({ s with pval := some (some v) }).add e.1 v)

/-- The loop over the properties, metadata_table.py:873-942 -/
def steps (fl : Str → Option Num) (skip : Bool) (known : List Str) : St → List (Str × Str) → Except Res St
  | s, [] => .ok s
  | s, e :: es => (step fl skip known s e).bind fun s => steps fl skip known s es

/-- parse_variable for the local name of the first line and the keys and values of the others (the keys in lower case, both without blanks around
them), metadata_table.py:846-958; the registered derived types are changed only if skip_ddt_check is True. -/
def parse (fl : Str → Option Num) (scheme skip : Bool) (known reg : List Str) (name : Str) (es : List (Str × Str)) : Res :=
  match steps fl skip known { dict := [("local_name".toList, .text name)], reg := reg } es with
  | .error r => r
  | .ok s =>
    if s.ok then
      match MF.arrayReference name s.dict.get with
      | none => .crash .internal
      | some none => newVar fl scheme s.reg s.dict
      | some (some n) => newVar fl scheme s.reg (s.dict.set "local_name".toList (.text n))
    else .reported

end Ccpp.VE
