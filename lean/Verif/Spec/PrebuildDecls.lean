import Verif.Model.PrebuildDecls
/-!
# Specification of the declarations in the caps of ccpp_prebuild

What a Fortran declaration of a variable with given metadata is, what a bound of a dimension stands for, and which names a declaration needs
from other modules.
-/
namespace Ccpp.Decls
open PB (Str)

/-- The entry of the metadata of the host with this standard name: the first one. -/
def FirstNamed (md : List Var) (n : Str) (v : Var) : Prop := ∃ l r, md = l ++ v :: r ∧ v.std = n ∧ ∀ w ∈ l, w.std ≠ n

/-- A bound in metadata is a number, or the standard name of a variable of the host, and stands for its local name. -/
inductive Bound (md : List Var) : Str → Str → Prop
  | number {x} : PB.isInt (strip x) = true → Bound md x x
  | name {x v} : PB.isInt (strip x) = false → FirstNamed md (lower x) v → Bound md x v.loc

/-- The lower bound of a dimension: of `a:b` it is `a`, of `b` it is one; both bounds must be known.  (What follows a second colon is
ignored.) -/
inductive Lower (md : List Var) : Str → Str → Prop
  | one {d hi} : ':' ∉ d → Bound md d hi → Lower md d ['1']
  | two {p q r lo hi} : ':' ∉ p → ':' ∉ q → (r = [] ∨ r.head? = some ':') → Bound md (lower p) lo → Bound md (lower q) hi →
      Lower md (p ++ ':' :: (q ++ r)) lo

/-- An intrinsic type of Fortran. -/
def Intrinsic (ty : Str) : Prop := ty = "character".toList ∨ ty = "integer".toList ∨ ty = "logical".toList ∨ ty = "real".toList

/-- The type of a variable in a declaration; there are no derived types with a kind. -/
inductive TypeSpec (v : Var) : Str → Prop
  | plain : Intrinsic v.ty → v.kind = [] → TypeSpec v v.ty
  | kind : Intrinsic v.ty → v.kind ≠ [] → TypeSpec v (v.ty ++ "(".toList ++ v.kind ++ ")".toList)
  | derived : ¬ Intrinsic v.ty → v.kind = [] → TypeSpec v ("type(".toList ++ v.ty ++ ")".toList)

/-- Assumed shapes with these lower bounds, separated by commas. -/
inductive Shapes : List Str → Str → Prop
  | one {lo} : Shapes [lo] (lo ++ ":".toList)
  | more {lo l t} : Shapes l t → Shapes (lo :: l) (lo ++ ":,".toList ++ t)

/-- The shape after a name. -/
inductive Shape : List Str → Str → Prop
  | scalar : Shape [] []
  | array {l t} : Shapes l t → Shape l ("(".toList ++ t ++ ")".toList)

/-- Deferred shapes of this many dimensions. -/
inductive Colons : Nat → Str → Prop
  | one : Colons 1 ":".toList
  | more {n t} : Colons n t → Colons (n + 1) (":,".toList ++ t)

/-- The declaration of an argument. -/
def Declares (md : List Var) (v : Var) (d : Str) : Prop :=
  ∃ ty los sh, TypeSpec v ty ∧ List.Forall₂ (Lower md) v.dims los ∧ Shape los sh ∧ v.optional ≠ "T".toList ∧
    ((v.active = "T".toList ∧ d = ty ++ ", intent(".toList ++ v.intent ++ "), target :: ".toList ++ v.loc ++ sh) ∨
     (v.active ≠ "T".toList ∧ d = ty ++ ", intent(".toList ++ v.intent ++ "), optional, target :: ".toList ++ v.loc ++ sh))

/-- The dimension attribute of a declaration. -/
inductive Dimension (v : Var) (allocatable : Str) : Str → Prop
  | scalar : v.dims = [] → Dimension v allocatable []
  | array {t} : Colons v.dims.length t → Dimension v allocatable (", dimension(".toList ++ t ++ ")".toList ++ allocatable)

/-- The declaration of a local variable. -/
def DeclaresLocal (v : Var) (d : Str) : Prop :=
  ∃ ty dm, TypeSpec v ty ∧ Dimension v ", allocatable".toList dm ∧ d = ty ++ dm ++ ", target :: ".toList ++ v.loc

/-- The declaration of a component `p` that is a pointer to a variable like this. -/
def DeclaresPointer (v : Var) (d : Str) : Prop :=
  ∃ ty dm, TypeSpec v ty ∧ Dimension v [] dm ∧ d = ty ++ dm ++ ", pointer :: p => null()".toList

/-- A name that the declaration of the variable needs from another module: the kind of a number, or the derived type. -/
inductive Needs (v : Var) : Str → Prop
  | kind : Intrinsic v.ty → v.ty ≠ "character".toList → v.kind ≠ [] → Needs v v.kind
  | type : ¬ Intrinsic v.ty → Needs v v.ty

/-- The module of a variable: the container is `MODULE_name`, or `MODULE_name ` and more. -/
def InModule (v : Var) (m : Str) : Prop :=
  ∃ rest, v.container = "MODULE_".toList ++ m ++ rest ∧ ' ' ∉ m ∧ (rest = [] ∨ rest.head? = some ' ') ∧ ¬ "MODULE_".toList <:+: m

/-- A use statement for the kind or type with this standard name. -/
def Imports (md : List Var) (n u : Str) : Prop :=
  ∃ k, FirstNamed md n k ∧ ∀ m, InModule k m → u = "use ".toList ++ m ++ ", only: ".toList ++ k.loc

/-- Two variables can be the targets of the same pointers: type, kind and rank. -/
def SameTarget (v w : Var) : Prop := v.ty = w.ty ∧ v.kind = w.kind ∧ v.dims.length = w.dims.length

/-- The definition of a derived type with one component. -/
def typeBlock (name component : Str) : Str :=
  "type :: ".toList ++ name ++ "\n         ".toList ++ component ++ "\n      end type ".toList ++ name

/-- The array of such a type over the threads. -/
def arrayDecl (name loc : Str) : Str :=
  "type(".toList ++ name ++ "), dimension(1:cdata%thrd_cnt) :: ".toList ++ loc ++ "_array".toList

/-- The declarations of temporary variables and (if the flag is true) pointers, after some pointers have been declared: a variable is declared;
for a pointer there is an array of a derived type, which is defined just before the first array of it and has a component that can point to the
variable.  `name` gives the names of the derived types. -/
inductive Locals (name : Var → Str) : List Var → List (Bool × Var) → List Str → Prop
  | nil {seen} : Locals name seen [] []
  | var {seen v d ts ds} : DeclaresLocal v d → Locals name seen ts ds → Locals name seen ((false, v) :: ts) (d :: ds)
  | first {seen v d ts ds} : (∀ w ∈ seen, name w ≠ name v) → DeclaresPointer v d → Locals name (v :: seen) ts ds →
      Locals name seen ((true, v) :: ts) (typeBlock (name v) d :: arrayDecl (name v) v.loc :: ds)
  | again {seen v w ts ds} : w ∈ seen → name w = name v → SameTarget w v → Locals name seen ts ds →
      Locals name seen ((true, v) :: ts) (arrayDecl (name v) v.loc :: ds)

/-- A kind or type that can be imported. -/
def Importable (md : List Var) (n : Str) : Prop := ∃ k m, FirstNamed md n k ∧ InModule k m

end Ccpp.Decls
