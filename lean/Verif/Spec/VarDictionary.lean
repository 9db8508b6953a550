import Verif.Model.VarDictionary
/-!
# Specification for C33-C37, in terms of the contents (`entries`) of dictionaries
-/
namespace Ccpp.VD

/-- One variable per standard name, stored under its own standard name. -/
def OnePerName (d : Dict) : Prop :=
  (d.entries.map (·.1)).Nodup ∧ ∀ p ∈ d.entries, p.2.std = p.1

/-- The dictionary stores `v` under the standard name `s`. -/
def Stores (d : Dict) (s : Str) (v : DVar) : Prop := (s, v) ∈ d.entries

/-- The dictionary has no variable with standard name `s`. -/
def Lacks (d : Dict) (s : Str) : Prop := ∀ v, (s, v) ∉ d.entries

/-- An intent may stay or become inout. -/
def Widens (old new : Option Intent) : Prop :=
  new = old ∨ ((old = some .in ∨ old = some .out) ∧ new = some .inout)

/-- `v` is what the innermost dictionary of the chain that has `s` stores under `s`. -/
def Innermost (chain : List Dict) (s : Str) (v : DVar) : Prop :=
  ∃ inner d outer, chain = inner ++ d :: outer ∧ (∀ e ∈ inner, Lacks e s) ∧ Stores d s v

/-- The (case-insensitive) local names of the stored variables are distinct. -/
def DistinctLocal (d : Dict) : Prop := (d.entries.map fun p => lower p.2.lname).Nodup

/-- The intent of an argument that stands for all of `uses`. -/
def merged (uses : List Intent) : Intent :=
  if ∀ i ∈ uses, i = .in then .in else if ∀ i ∈ uses, i = .out then .out else .inout

/-- Add the variables one after the other; `none` if an addition raises. -/
def addAll (cmp : DVar → DVar → Except String Bool) (fl : Flags) : Dict → List DVar → Option Dict
  | d, [] => some d
  | d, v :: vs =>
    match add cmp fl d v with
    | (d', none) => addAll cmp fl d' vs
    | (_, some _) => none

/-- As `addAll`, for a call list. -/
def callAddAll (cmp : DVar → DVar → Except String Bool) (fl : Flags) : Dict → List DVar → Option Dict
  | d, [] => some d
  | d, v :: vs =>
    match callAdd cmp fl d v with
    | (d', none) => callAddAll cmp fl d' vs
    | (_, some _) => none

/-- The intents of the uses of `s`, a missing intent being `in`. -/
def usesOf (s : Str) (vs : List DVar) : List Intent :=
  (vs.filter fun v => v.std = s).map fun v => v.intent.getD .in

end Ccpp.VD
