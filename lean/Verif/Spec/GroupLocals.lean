import Verif.Model.GroupLocals
/-!
# Specification of the local variables of a group of the suite cap
-/
namespace Ccpp.GL

/-- The name of a declared entity. -/
def Decl.name : Decl → Str
  | .scalar v _ => v.loc
  | .array v _ => v.loc
  | .pointer p => p.name

/-- The pointer that goes with a variable: its name with `_ptr`, its kind and type, a colon for every dimension. -/
def IsPointerOf (v : GVar) (p : Ptr) : Prop :=
  p.name = v.loc ++ "_ptr".toList ∧ p.kind = v.kind ∧ p.ty = (if v.ddt then "type".toList else v.ty) ∧
    ((v.dims = [] ∧ p.dims = []) ∨
      ∃ d ds, v.dims = d :: ds ∧ p.dims = '(' :: ':' :: ((ds.map fun _ => [',', ':']).flatten ++ [')']))

/-- What a variable of the group needs: a scalar, an allocatable array, or (an optional array that the host does not pass) only a pointer that is
never associated. -/
inductive NeedsDecl (call : List GVar) (v : GVar) : Decl → Prop
  | scalar : v.dims = [] → NeedsDecl call v (.scalar v v.optional)
  | array : v.dims ≠ [] → (v.optional = false ∨ ∃ c ∈ call, c.std = v.std) → NeedsDecl call v (.array v v.optional)
  | absent {p} : v.dims ≠ [] → v.optional = true → (∀ c ∈ call, c.std ≠ v.std) → IsPointerOf v p → NeedsDecl call v (.pointer p)

/-- What a copy for a conversion needs. -/
inductive NeedsCopy (v : GVar) : Decl → Prop
  | scalar : v.dims = [] → NeedsCopy v (.scalar v v.optional)
  | array : v.dims ≠ [] → NeedsCopy v (.array v v.optional)

/-- The bound of a dimension: the local name of the constant, of the variable of the group, or of the argument with this standard name. -/
def BoundIs (consts own call : List GVar) (n x : Str) : Prop :=
  (∃ v ∈ consts, v.std = n ∧ v.loc = x) ∨
  ((∀ v ∈ consts, v.std ≠ n) ∧ ∃ v ∈ own, v.std = n ∧ v.loc = x) ∨
  ((∀ v ∈ consts, v.std ≠ n) ∧ (∀ v ∈ own, v.std ≠ n) ∧ ∃ v ∈ call, v.std = n ∧ v.loc = x)

/-- The items of a list with a separator between them. -/
inductive Separated (sep : Str) : List Str → Str → Prop
  | one {x} : Separated sep [x] x
  | more {x y l t} : Separated sep (y :: l) t → Separated sep (x :: y :: l) (x ++ sep ++ t)

/-- The bounds of a dimension `a` or `a:b`. -/
def DimIs (consts own call : List GVar) (d x : Str) : Prop :=
  ∃ ps xs, Separated ":".toList ps d ∧ (∀ p ∈ ps, ':' ∉ p) ∧ List.Forall₂ (BoundIs consts own call) ps xs ∧ Separated ":".toList xs x

/-- The shape of an array with these dimensions. -/
def ShapeIs (consts own call : List GVar) (dims : List Str) (s : Str) : Prop :=
  ∃ xs, List.Forall₂ (DimIs consts own call) dims xs ∧ Separated ", ".toList xs s

/-- In a dictionary standard names and local names are distinct. -/
def IsDict (d : List GVar) : Prop := (d.map (·.std)).Nodup ∧ (d.map (·.loc)).Nodup

end Ccpp.GL
