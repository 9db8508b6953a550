import Verif.Model.VarCompat
import Mathlib.Data.Nat.Digits.Defs
/-!
# Model of `scripts/metavar.py`: VarDictionary and Var.adjust_intent, and of CallList
(`scripts/suite_objects.py`)

Simplifications: a variable is its standard name, local name, intent, protected flag and a tag
standing for all other properties; `cmp` (the model in `VarCompat.lean`) decides compatibility; the
parent link of array references (metavar.py:1691-1698) is not modelled; log messages are omitted.
Objects are values here: sharing of one Var object between several dictionaries is not modelled in this
file.
-/
namespace Ccpp.VD

/-- Notation: a Python string. -/
abbrev Str := List Char

/-- metavar.py:98-262 (the intent property) -/
inductive Intent where
  | «in» | out | inout
deriving DecidableEq, Repr

/-- metavar.py:98-375, the properties used by the dictionary -/
structure DVar where
  std : Str
  lname : Str
  intent : Option Intent
  prot : Bool
  tag : Nat
deriving DecidableEq

/-- The dict itself (in insertion order) and `__local_names`, metavar.py:1495, 1542. -/
structure Dict where
  entries : List (Str × DVar)
  lnames : List (Str × Str)

/-- metavar.py:1532-1564 -/
def Dict.empty : Dict := ⟨[], []⟩

/-- CCPP_CONSTANT_VARS, metavar.py:2110-2114 -/
def constName : Str := "ccpp_constant_one".toList
/-- metavar.py:2110-2114 -/
def constVar : DVar := ⟨constName, "1".toList, none, true, 0⟩

/-- `self[standard_name]` / `standard_name in self`.
Python library (OrderedDict), metavar.py:1800-1804 -/
def Dict.get? (d : Dict) (s : Str) : Option DVar := (d.entries.find? fun p => p.1 == s).map (·.2)
/-- Python library (OrderedDict), metavar.py:1632-1674 -/
def Dict.has (d : Dict) (s : Str) : Bool := d.entries.any fun p => p.1 == s

/-- find_variable with any_scope=False, metavar.py:1800-1804, 1812 -/
def Dict.findHere (d : Dict) (s : Str) : Option DVar :=
  if s = constName then some constVar else d.get? s

/-- find_variable in a dictionary with chain of parents `ps` (innermost first),
metavar.py:1771-1819, without `clone` -/
def find : Dict → List Dict → Str → Bool → Option DVar
  | d, ps, s, any =>
    if s = constName then some constVar
    else if d.has s then d.get? s
    else if any then
      match ps with
      | [] => none
      | p :: ps => find p ps s any
    else none
  termination_by _ ps => ps.length

/-- Python library (dict), metavar.py:1821-1834 -/
def lookupName (l : List (Str × Str)) (k : Str) : Option Str := (l.find? fun p => p.1 == k).map (·.2)

/-- find_local_name with any_scope=False, metavar.py:1821-1834 -/
def Dict.findLocal (d : Dict) (l : Str) : Except String (Option DVar) :=
  match lookupName d.lnames (lower l) with
  | none => .ok none
  | some s =>
    match d.findHere s with
    | none => .error "ParseInternalError: should have standard_name"
    | some v => .ok (some v)

/-- `str(int)` (Python library). -/
def dec (n : Nat) : Str := if n = 0 then "0".toList else ((Nat.digits 10 n).map Nat.digitChar).reverse

/-- The loop of new_internal_variable_name, metavar.py:2089-2103; `fuel` bounds the number of
iterations (`none`: not finished). -/
def nameLoop (taken : List Str) (maxLen : Nat) : Nat → Str → Nat → Option Str
  | 0, _, _ => none
  | f + 1, p, i =>
    let cand := if i = 0 then p else p ++ dec i
    if cand.length > maxLen then nameLoop taken maxLen f p.dropLast (i + 1)
    else if cand ∈ taken then nameLoop taken maxLen f p (i + 1)
    else some cand

/-- new_internal_variable_name with a prefix, metavar.py:2076-2104 -/
def Dict.newName (d : Dict) (pre : Str) (maxLen : Nat) (fuel : Nat) : Option Str :=
  nameLoop ((d.lnames.map (·.1)).filter fun x => VC.hasSub pre x) maxLen fuel pre 0

/-- Var.adjust_intent, metavar.py:409-440 -/
def adjustIntent (c v : DVar) : Except String DVar :=
  let sv := v.intent.getD .in
  if sv ≠ .in && c.prot then .error "Attempt to set intent of protected variable"
  else match c.intent with
    | some i => .ok { c with intent := some (if i ≠ sv then .inout else i) }
    | none => .ok { c with intent := some sv }

/-- metavar.py:1612-1614 (arguments) -/
structure Flags where
  existsOk : Bool
  genUnique : Bool
  adjust : Bool

/-- Replace the stored variable (mutation of the Var object). metavar.py:409-440 -/
def Dict.set (d : Dict) (s : Str) (v : DVar) : Dict :=
  { d with entries := d.entries.map fun p => if p.1 == s then (s, v) else p }

/-- The compatibility part of add_variable, metavar.py:1632-1674 -/
def checkExisting (cmp : DVar → DVar → Except String Bool) (fl : Flags) (d : Dict) (v : DVar) :
    Except String Dict :=
  match d.findHere v.std with
  | none => .ok d
  | some c =>
    match cmp c v with
    | .error e => .error e
    | .ok false => .error "incompatible"
    | .ok true =>
      if c.intent = v.intent then .ok d
      else if fl.adjust then
        if (c.intent = some .in ∧ (v.intent = some .inout ∨ v.intent = some .out)) ∨
           (c.intent = some .out ∧ (v.intent = some .inout ∨ v.intent = some .in)) then
          match adjustIntent c v with
          | .error e => .error e
          | .ok c' => .ok (d.set v.std c')
        else .ok d
      else .error "intent mismatch"

/-- The local name part of add_variable, metavar.py:1677-1689; fuel for the name search is the number
of registered names plus 100. -/
def localPart (fl : Flags) (d : Dict) (v : DVar) : Except String DVar :=
  match d.findLocal v.lname with
  | .error e => .error e
  | .ok none => .ok v
  | .ok (some _) =>
    if fl.genUnique then
      match d.newName v.lname 63 (d.lnames.length + 100) with
      | none => .error "no unused name found"
      | some n => .ok { v with lname := n }
    else if !fl.existsOk then .error "local_name already registered"
    else .ok v

/-- metavar.py:1699-1709.  The old local name is registered, not the generated one. -/
def insert (d : Dict) (v : DVar) (oldName : Str) : Dict :=
  { entries := if d.has v.std then d.entries else d.entries ++ [(v.std, v)]
    lnames := if (lookupName d.lnames (lower oldName)).isSome then d.lnames
      else d.lnames ++ [(lower oldName, v.std)] }

/-- VarDictionary.add_variable, metavar.py:1612-1709: the dictionary afterwards, and the error if an
exception was raised. -/
def add (cmp : DVar → DVar → Except String Bool) (fl : Flags) (d : Dict) (v : DVar) :
    Dict × Option String :=
  if d.has v.std && !fl.existsOk then (d, some "duplicate standard name")
  else match checkExisting cmp fl d v with
    | .error e => (d, some e)
    | .ok d1 =>
      match localPart fl d1 v with
      | .error e => (d1, some e)
      | .ok v' => (insert d1 v' v.lname, none)

/-- remove_variable, metavar.py:1711-1717 -/
def remove (d : Dict) (s : Str) : Dict := { d with entries := d.entries.filter fun p => p.1 != s }

/-- CallList.add_variable, suite_objects.py:92-106 -/
def callAdd (cmp : DVar → DVar → Except String Bool) (fl : Flags) (d : Dict) (v : DVar) :
    Dict × Option String :=
  add cmp fl d (if v.intent = none then { v with intent := some .in } else v)

/-- A history of operations; an operation that raises leaves what it had changed.
metavar.py:1612-1717, suite_objects.py:92-106 -/
inductive Op where
  | add (fl : Flags) (v : DVar)
  | remove (s : Str)

/-- metavar.py:1612-1717, suite_objects.py:92-106 -/
def step (cmp : DVar → DVar → Except String Bool) (d : Dict) : Op → Dict
  | .add fl v => (add cmp fl d v).1
  | .remove s => remove d s

/-- Notation: a sequence of the calls of metavar.py:1612-1717. -/
def runOps (cmp : DVar → DVar → Except String Bool) (d : Dict) (ops : List Op) : Dict :=
  ops.foldl (step cmp) d

end Ccpp.VD
