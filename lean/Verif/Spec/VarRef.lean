import Verif.Spec.VarText
import Verif.Model.VarRef
/-!
# Specification for C91: references to variables
-/
namespace Ccpp.VRef

/-- `Fill subs dims l`: the list `l` is `subs` with its colons replaced by the dimensions, one after the other. -/
inductive Fill : List (List Char) → List (List Char) → List (List Char) → Prop
  | nil : Fill [] [] []
  | colon {subs dims l d} : Fill subs dims l → Fill ([':'] :: subs) (d :: dims) (d :: l)
  | keep {subs dims l s} : s ≠ [':'] → Fill subs dims l → Fill (s :: subs) dims (s :: l)

/-- `AllDims name dims n l`: the variable with this local name and these dimensions is (part of) the variable `n`, which
is referred to with the dimensions `l`. -/
inductive AllDims : List Char → List (List Char) → List Char → List (List Char) → Prop
  | plain {n dims} : '(' ∉ n → AllDims n dims n dims
  | ref {name dims n subs l} : RC.Ref n subs name → subs.length ≤ 7 → Fill subs dims l → AllDims name dims n l

/-- Texts with a separator between them. -/
def sepBy (sep : List Char) : List (List Char) → List Char
  | [] => []
  | [t] => t
  | t :: u :: ts => t ++ sep ++ sepBy sep (u :: ts)

/-- `ps` are the parts of the text between its colons. -/
def ColonParts (s : List Char) (ps : List (List Char)) : Prop := ps ≠ [] ∧ (∀ p ∈ ps, ':' ∉ p) ∧ s = sepBy [':'] ps

/-- The relation holds between the elements of the two lists, one by one. -/
inductive Each (R : List Char → List Char → Prop) : List (List Char) → List (List Char) → Prop
  | nil : Each R [] []
  | cons {x t l ts} : R x t → Each R l ts → Each R (x :: l) (t :: ts)

/-- The text for a standard name is the one of the first dictionary that knows it. -/
inductive First : List Dict → List Char → List Char → Prop
  | here {d ds s t} : d.find s = some (some t) → First (d :: ds) s t
  | later {d ds s t} : d.find s = none → First ds s t → First (d :: ds) s t

/-- The text for a loop dimension is the one of the first dictionary that has one. -/
inductive FirstLoop : List Dict → List Char → List Char → Prop
  | here {d ds s t} : d.loop s = some t → FirstLoop (d :: ds) s t
  | later {d ds s t} : d.loop s = none → FirstLoop ds s t → FirstLoop (d :: ds) s t

/-- What is written for a dimension in a list of dimensions: a colon for a range, unless ranges are to be written;
otherwise the loop substitution, if asked for and found; otherwise each standard name is replaced by its variable. -/
inductive Entry (dicts : List Dict) (explicit subst : Bool) : List Char → List Char → Prop
  | range {dim} : explicit = false → ':' ∈ dim → Entry dicts explicit subst dim [':']
  | loop {dim t} : (explicit = true ∨ ':' ∉ dim) → subst = true → FirstLoop dicts dim t → Entry dicts explicit subst dim t
  | names {dim ps ts} : (explicit = true ∨ ':' ∉ dim) → (subst = false ∨ ∀ t, ¬ FirstLoop dicts dim t) → ColonParts dim ps →
      Each (First dicts) ps ts → Entry dicts explicit subst dim (sepBy [':'] ts)

/-- What is written for a part of a dimension in an argument: nothing for nothing, the variable for a standard name,
and a number for itself. -/
inductive Item (d : Dict) : List Char → List Char → Prop
  | empty : Item d [] []
  | var {s t} : s ≠ [] → d.find s = some (some t) → Item d s t
  | number {s} : s ≠ [] → d.find s = none → Chk.IsInt s → Item d s s

/-- What is written for a dimension in an argument. -/
inductive ArgDim (d : Dict) (loop : List Char → Option (List Char)) : List Char → List Char → Prop
  | loop {dim t} : loop dim = some t → ArgDim d loop dim t
  | parts {dim ps ts} : loop dim = none → ColonParts dim ps → Each (Item d) ps ts →
      ArgDim d loop dim (sepBy [':'] ts)

end Ccpp.VRef
