import Verif.Spec.RefCheck
import Verif.Model.VarEntry
/-!
# Specification for C86: one variable of a metadata table

What may be written in a metadata table for one variable, and what it means.  `fl` is the reading of numbers.
-/
namespace Ccpp.VE

open MF (Val)

/-- Ordinary text: ASCII, and no newline at the end. -/
def Clean (s : Str) : Prop := s.getLast? ≠ some '\n' ∧ ∀ c ∈ s, c.val < 128

/-- Words for true and false. -/
def Logical (s : Str) (b : Bool) : Prop :=
  (b = true ∧ lower s ∈ ["t".toList, "true".toList, ".true.".toList]) ∨ (b = false ∧ lower s ∈ ["f".toList, "false".toList, ".false.".toList])

/-- An intrinsic type (or something that begins like double precision, see C85). -/
def Intrinsic (t : Str) : Prop :=
  lower (strip t) ∈ ["integer".toList, "real".toList, "logical".toList, "complex".toList, "character".toList] ∨
    ∃ b r, (∀ c ∈ b, RC.White c) ∧ lower (strip t) = "double".toList ++ b ++ "precision".toList ++ r

/-- A dimension: up to three parts between colons, each of them empty, a name or an integer. -/
def DimOk (d : Str) : Prop := (Chk.splitOn ':' d).length ≤ 3 ∧ ∀ t ∈ Chk.splitOn ':' d, t ≠ [] → Chk.DimPart 0 (strip t)

/-- While a table is read, `size(…)` is also accepted. -/
def WeakDim (d : Str) : Prop := (Chk.splitOn ':' d).length ≤ 3 ∧ ∀ t ∈ Chk.splitOn ':' d, t ≠ [] → Chk.DimPart 0 (strip t) ∨
  ((lower (strip t)).take 4 = "size".toList ∧ ∃ i j, Chk.balancedParen ((strip t).drop 4) 0 = (some i, some j))

/-- A dimension without a lower bound begins at one. -/
def fromOne (d : Str) : Str := if ':' ∈ d then d else "ccpp_constant_one:".toList ++ d

/-- The names of the properties that are true or false. -/
def flagNames : List Str :=
  ["state_variable".toList, "protected".toList, "allocatable".toList, "polymorphic".toList, "top_at_one".toList, "optional".toList,
   "target".toList, "advected".toList, "constituent".toList]

/-- A number that may be a molar mass. -/
def MassOk (x : Num) : Prop := x = .nan ∨ ∃ q, x = .fin q ∧ 0 ≤ q ∧ q ≤ 10000

/-- A name or a reference to an array with one to seven subscripts. -/
def RefOk (s : Str) : Prop := Chk.IsName s ∨ ∃ n ds, ds.length ≤ 7 ∧ RC.Ref n ds s

/-- `Means fl k s v`: for the property `k` the text `s` may be written, and it means `v`. -/
inductive Means (fl : Str → Option Num) : Str → Str → Val → Prop
  | free {k s} : k ∈ ["long_name".toList, "kind".toList, "active".toList, "default_value".toList] → Means fl k s (.text s)
  | persistence {s} : s = "timestep".toList ∨ s = "run".toList → Means fl "persistence".toList s (.text s)
  | intent {s} : s = "in".toList ∨ s = "out".toList ∨ s = "inout".toList → Means fl "intent".toList s (.text s)
  | flag {k s b} : k ∈ flagNames → Logical s b → Means fl k s (.flag b)
  | localName {s} : s = [] ∨ RefOk s → Means fl "local_name".toList s (.text s)
  | standardName {s} : s = [] ∨ Chk.IsName s → Means fl "standard_name".toList s (.text (s.map Char.toLower))
  | units {s} : s = [] ∨ strip s = ['1'] ∨ RC.UnitList (strip s) ∨ RC.Joined (strip s) → Means fl "units".toList s (.text s)
  | type {s} : Intrinsic s → Means fl "type".toList s (.text s)
  | scalar {s} : Chk.listMatch s = some [[]] → Means fl "dimensions".toList s (.list [])
  | array {s l} : Chk.listMatch s = some l → l ≠ [[]] → (∀ d ∈ l, WeakDim d) → Means fl "dimensions".toList s (.list (l.map fromOne))
  | diagnostic {s} : RC.Diag s → Means fl "diagnostic_name".toList s (.text s)
  | diagnosticFixed {s} : s = [] ∨ Chk.IsName s → Means fl "diagnostic_name_fixed".toList s (.text s)
  | molarMass {s x} : fl s = some x → MassOk x → Means fl "molar_mass".toList s (.number s)

/-- The entry gives a derived type. -/
def IsDerived (e : Str × Str) : Prop := e.1 = "type".toList ∧ ¬ Intrinsic e.2

/-- The last text that is written for the property `k`. -/
inductive Last (P : Str × Str → Prop) : List (Str × Str) → Str → Prop
  | mk {xs ys e s} : P e → e.2 = s → (∀ f ∈ ys, ¬ P f) → Last P (xs ++ e :: ys) s

/-- The entry may be written: a derived type that is known (or all are accepted), or a property with a legal value. -/
def Legal (fl : Str → Option Num) (skip : Bool) (known : List Str) (e : Str × Str) : Prop :=
  (IsDerived e ∧ (skip = true ∨ e.2 ∈ known)) ∨ (¬ IsDerived e ∧ ∃ v, Means fl e.1 e.2 v)

/-- What is written in the table, as a dictionary: the last entry counts. -/
def Written (fl : Str → Option Num) (name : Str) (es : List (Str × Str)) (k : Str) (v : Val) : Prop :=
  (k = "ddt_type".toList ∧ ∃ s, Last IsDerived es s ∧ v = .text s) ∨
  (k ≠ "ddt_type".toList ∧ ∃ s, Last (fun e => e.1 = k ∧ ¬ IsDerived e) es s ∧ Means fl k s v) ∨
  (k = "local_name".toList ∧ (∀ e ∈ es, e.1 ≠ k) ∧ v = .text name)

/-- The local name of an array section, with the blanks in their usual places. -/
def pretty (n : Str) (ds : List Str) : Str := n ++ '(' :: (MF.commaSep ds ++ [')'])

/-- The local name may stand in the first line: a name, or a reference with as many colons as there are dimensions. `r` is the name that the
variable gets instead of the one that is written. -/
inductive NameFits (dims : Option Val) : Str → Option Str → Prop
  | name {s} : Chk.IsName s → NameFits dims s none
  | ref {s n ds l} : RC.Ref n ds s → ds.length ≤ 7 → dims = some (.list l) → ds.count ":".toList = l.length → NameFits dims s (some (pretty n ds))

/-- The properties after the special case of derived types. -/
def Final (w : Str → Option Val) (k : Str) : Option Val :=
  match w "ddt_type".toList with
  | none => w k
  | some t =>
    if k = "ddt_type".toList then none
    else if k = "kind".toList then some t
    else if k = "type".toList then (w k).orElse fun _ => some t
    else if k = "units".toList then (w k).orElse fun _ => some (.text [])
    else w k

/-- The properties that must be there. -/
def needed (scheme : Bool) : List Str :=
  ["local_name".toList, "standard_name".toList, "units".toList, "dimensions".toList, "type".toList] ++ if scheme then ["intent".toList] else []

/-- The text of a property; empty if it is missing. -/
def txt (d : Str → Option Val) (k : Str) : Str := match d k with | some (.text s) => s | _ => []

/-- The properties of a variable fit together; `reg` are the names of the derived types. -/
structure Coherent (scheme : Bool) (reg : Str → Prop) (d : Str → Option Val) : Prop where
  needed : ∀ k ∈ needed scheme, d k ≠ none
  intent : d "protected".toList = some (.flag true) → d "intent".toList = none ∨ d "intent".toList = some (.text "in".toList)
  dims : ∀ l, d "dimensions".toList = some (.list l) → ∀ x ∈ l, DimOk x
  type : txt d "type".toList = [] ∨ Intrinsic (txt d "type".toList) ∨ reg (txt d "type".toList)
  name : txt d "local_name".toList ≠ [] → d "protected".toList = some (.flag true) → txt d "type".toList ≠ [] →
    ∃ b, Lit.literal (txt d "local_name".toList) (txt d "type".toList) (txt d "kind".toList) = .ok b
  default : txt d "default_value".toList ≠ [] →
    Lit.literal (txt d "default_value".toList) (strip (lower (txt d "type".toList))) (strip (lower (txt d "kind".toList))) = .ok true
  diagnostic : txt d "diagnostic_name".toList = [] ∨ txt d "diagnostic_name_fixed".toList = []

/-- The properties with another local name. -/
def renamed (r : Option Str) (w : Str → Option Val) (k : Str) : Option Val :=
  match r with
  | some n => if k = "local_name".toList then some (.text n) else w k
  | none => w k

/-- The properties `g` that the text of a variable gives. -/
def Result (fl : Str → Option Num) (name : Str) (es : List (Str × Str)) (g : Str → Option Val) : Prop :=
  ∃ w r, (∀ k v, w k = some v ↔ Written fl name es k v) ∧ NameFits (w "dimensions".toList) name r ∧ g = Final (renamed r w)

/-- The names of derived types: the registered ones, and those of this variable if unknown types are accepted. -/
def TypeName (skip : Bool) (reg : List Str) (es : List (Str × Str)) (t : Str) : Prop :=
  t ∈ reg ∨ (skip = true ∧ ∃ e ∈ es, IsDerived e ∧ e.2 = t)

/-- The names of all properties. -/
def propNames : List Str :=
  ["local_name".toList, "standard_name".toList, "long_name".toList, "units".toList, "dimensions".toList, "type".toList, "kind".toList,
   "diagnostic_name".toList, "diagnostic_name_fixed".toList, "default_value".toList, "persistence".toList, "active".toList, "intent".toList,
   "molar_mass".toList] ++ flagNames

/-- An entry that can be judged: a property that exists, a molar mass that is a number, no `size(…)` in the dimensions. -/
def Tame (fl : Str → Option Num) (e : Str × Str) : Prop :=
  e.1 ∈ propNames ∧ (e.1 = "molar_mass".toList → fl e.2 ≠ none) ∧
    (e.1 = "dimensions".toList → ∀ l, Chk.listMatch e.2 = some l → ∀ d ∈ l, ∀ t ∈ Chk.splitOn ':' d, (lower (strip t)).take 4 ≠ "size".toList)

end Ccpp.VE
