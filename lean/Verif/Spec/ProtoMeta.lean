import Verif.Model.ProtoMeta
import Verif.Spec.MetadataFile
/-!
# Specification for C97: the documents (see C62) that describe a parsed Fortran file

The number that is threaded through the relations counts the invented standard names.
-/
namespace Ccpp.Proto

/-- Two lists related element by element, with a number that is passed on. -/
inductive Seq {α β : Type} (R : α → β → Nat → Nat → Prop) : List α → List β → Nat → Nat → Prop
  | nil (n : Nat) : Seq R [] [] n n
  | cons {a b as bs n m k} : R a b n m → Seq R as bs m k → Seq R (a :: as) (b :: bs) n k

/-- A part of a dimension: the constant one, the standard name of a variable that is declared before, or a new invented
name. -/
inductive Part (earlier : List FVar) : Str → Str → Nat → Nat → Prop
  | one (n : Nat) : (∀ v ∈ earlier, v.lname ≠ "1".toList) → Part earlier "1".toList "ccpp_constant_one".toList n n
  | known (a b : List FVar) (v : FVar) (n : Nat) : earlier = a ++ v :: b → v.lname ≠ [] → (∀ w ∈ b, w.lname ≠ v.lname) →
      Part earlier v.lname v.std n n
  | invented (p : Str) (n : Nat) : (p = [] ∨ p ≠ "1".toList ∧ ∀ v ∈ earlier, v.lname ≠ p) →
      Part earlier p ("enter_standard_name_".toList ++ VD.dec (n + 1)) n (n + 1)

/-- Texts with a separator between them. -/
def sepJoin (sep : Char) : List Str → Str
  | [] => []
  | [t] => t
  | t :: ts => t ++ sep :: sepJoin sep ts

/-- A dimension: its parts, between colons. -/
def Dim (earlier : List FVar) (dim text : Str) (n m : Nat) : Prop :=
  ∃ parts texts, dim = sepJoin ':' parts ∧ parts ≠ [] ∧ (∀ p ∈ parts, ':' ∉ p) ∧ Seq (Part earlier) parts texts n m ∧
    text = sepJoin ':' texts

/-- The units to be written: what is not known has to be entered. -/
def unitsText : Option Str → Str
  | some u => if u = [] then "enter_units".toList else u
  | none => "enter_units".toList

/-- The entries for the type: a derived type as it is, an intrinsic type in lower case, with its kind if there is one. -/
def typeEntries (v : FVar) : List (Str × Str) :=
  if v.kind = some v.type then [("type".toList, v.type)]
  else ("type".toList, lower v.type) ::
    (match v.kind with
     | none => []
     | some [] => []
     | some k => [("kind".toList, lower k)])

/-- A variable, declared after the variables `before`. -/
def VarIs (scheme : Bool) (before : List FVar) (v : FVar) (d : MF.VarDoc) (n m : Nat) : Prop :=
  d.name = .plain v.lname ∧ ∃ dims, Seq (Dim (before ++ [v])) v.dims dims n m ∧
    d.entries = [("standard_name".toList, v.std), ("units".toList, unitsText v.units)] ++ typeEntries v ++
      [("dimensions".toList, "(".toList ++ sepJoin ',' dims ++ ")".toList)] ++
      (if scheme then [("intent".toList, v.intent.getD "None".toList)] else [])

/-- The variables of a section. -/
inductive VarsAre (scheme : Bool) : List FVar → List FVar → List MF.VarDoc → Nat → Nat → Prop
  | nil (before : List FVar) (n : Nat) : VarsAre scheme before [] [] n n
  | cons {before v vs d ds n m k} : VarIs scheme before v d n m → VarsAre scheme (before ++ [v]) vs ds m k →
      VarsAre scheme before (v :: vs) (d :: ds) n k

/-- A section. -/
def SectIs (s : FSection) (d : MF.SectDoc) (n m : Nat) : Prop :=
  d.entries = [("name".toList, s.title), ("type".toList, s.type)] ∧
    VarsAre (s.type == "scheme".toList) [] s.vars d.vars n m

/-- A table. -/
def TableIs (t : FTable) (d : MF.TableDoc) (n m : Nat) : Prop :=
  d.entries = [("name".toList, t.name), ("type".toList, t.type)] ∧ Seq SectIs t.sections d.sects n m

/-- Tables of the same name that follow each other are one table. -/
def merge : List FTable → List FTable
  | [] => []
  | t :: ts =>
    match merge ts with
    | [] => [t]
    | u :: us => if t.name ≠ [] ∧ u.name = t.name then { t with sections := t.sections ++ u.sections } :: us else t :: u :: us

/-- A value that can be written in a metadata file. -/
def Clean (s : Str) : Prop := MF.Trimmed s ∧ '|' ∉ s

/-- A variable whose properties can be written in a metadata file. -/
structure CleanVar (v : FVar) : Prop where
  lname : Chk.IsName v.lname
  std : Clean v.std
  units : ∀ u, v.units = some u → Clean u
  type : Clean v.type
  kind : ∀ k, v.kind = some k → Clean k
  intent : ∀ i, v.intent = some i → Clean i

/-- A table whose properties can be written in a metadata file. -/
def CleanTable (t : FTable) : Prop :=
  Clean t.name ∧ Clean t.type ∧ ∀ s ∈ t.sections, Clean s.title ∧ Clean s.type ∧ ∀ v ∈ s.vars, CleanVar v

end Ccpp.Proto
