import Verif.Model.DimSources
import Verif.Spec.VarDictionary
import Verif.Spec.VarRef
import Verif.Spec.Checkers
import Verif.Spec.FortranDecl
/-!
# Specification for C92: every dimension of a variable gets a source
-/
namespace Ccpp.DimS

open VD (Str Dict DVar Stores Lacks OnePerName Innermost Intent constName)

/-- An integer, maybe with blanks around it. -/
def Number (n : Str) : Prop :=
  ∃ a t b, FDecl.Blank a ∧ FDecl.Blank b ∧ Chk.IsInt t ∧ n = a ++ t ++ b

/-- `n` is one of the names in the dimensions `dims`: a part between colons that is not an integer and not the
constant one. -/
def Names (dims : List Str) (n : Str) : Prop :=
  ∃ dim ∈ dims, ∃ parts, VRef.sepBy [':'] parts = dim ∧ parts ≠ [] ∧ (∀ p ∈ parts, ':' ∉ p) ∧ n ∈ parts ∧
    ¬Number n ∧ n ≠ constName

/-- `order` is an order in which the set of these names can be iterated. -/
def Enumerates (dims : List Str) (order : List Str) : Prop :=
  order.Nodup ∧ ∀ n, n ∈ order ↔ Names dims n

/-- Some variable is stored under `n`. -/
def Has (d : Dict) (n : Str) : Prop := ∃ v, Stores d n v

/-- Every local name belongs to a variable of the dictionary (true unless a variable was removed from it). -/
def Registered (d : Dict) : Prop := ∀ p ∈ d.lnames, p.2 = constName ∨ Has d p.2

/-- The name is in one of the two dictionaries from the beginning. -/
def Present (self : Dict) (tgt : Option Dict) (n : Str) : Prop := Has self n ∨ ∃ t, tgt = some t ∧ Has t n

/-- The enclosing dictionaries provide `v` under the name `n`, from a source that is not excluded. -/
def Provides (a : Args) (n : Str) (v : DVar) : Prop := Innermost a.parents n v ∧ a.src v ∉ a.ignore

/-- `v` as an argument of a call list has an intent. -/
def asArgument (isCall : Bool) (v : DVar) : DVar :=
  if isCall ∧ v.intent = none then { v with intent := some .in } else v

/-- What is found for a dimension that is neither present nor provided: nothing, or a variable from an excluded
source. -/
def Missing (a : Args) (n : Str) : Option DVar → Prop
  | none => ∀ v, ¬Innermost a.parents n v
  | some v => Innermost a.parents n v ∧ a.src v ∈ a.ignore

/-- The message that tells what is missing. -/
def complaint (a : Args) (var : DVar) (n : Str) : Option DVar → Str
  | none => a.name ++ ": Cannot find variable for dimension, ".toList ++ n ++ ", of ".toList ++ var.std ++ a.ctx var
  | some d => a.name ++ ": Cannot find variable for dimension, ".toList ++ n ++ ", of ".toList ++ var.std ++ a.ctx var ++
      "\nFound ".toList ++ d.lname ++ " from excluded source, '".toList ++ a.src d ++ "'".toList ++ a.ctx d

/-- `added` stands behind what was in the requested dictionary; the other dictionary is as before. -/
def WentInto (self : Dict) (tgt : Option Dict) (st : St) (added : List (Str × DVar)) : Prop :=
  match tgt with
  | none => st.tgt = none ∧ st.self.entries = self.entries ++ added
  | some t => st.self = self ∧ ∃ t', st.tgt = some t' ∧ t'.entries = t.entries ++ added

end Ccpp.DimS
