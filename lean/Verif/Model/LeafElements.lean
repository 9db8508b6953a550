import Verif.Model.Text
/-!
# Model of `scripts/metavar.py`: Var.intrinsic_elements, Var.children and Var.add_child

The value is what the argument `elements` of a variable stands for in `ReqVars.lean`.  Simplifications: variables are trees, so two variables of
the same content are the same object for `add_child`; VarDDT.intrinsic_elements (ddt_library.py:72-81) is not modelled; the limit of the recursion
of Python is a number; no names of properties besides the standard name and the type.
-/
namespace Ccpp.LE

/-- Notation: a text. -/
abbrev Str := List Char

/-- A variable: standard name, type if it is not an intrinsic one, array references; a clone also has the variable it was cloned from,
metavar.py:277-278, 1159-1161 -/
inductive RVar where
  | orig (std : Str) (ddt : Option Str) (kids : List RVar)
  | clone (std : Str) (ddt : Option Str) (kids : List RVar) (source : RVar)

/-- get_prop_value('standard_name'), metavar.py:843 -/
def RVar.std : RVar → Str
  | .orig s _ _ => s
  | .clone s _ _ _ => s

/-- is_ddt and get_prop_value('type'), metavar.py:800-801 -/
def RVar.ddt : RVar → Option Str
  | .orig _ d _ => d
  | .clone _ d _ _ => d

/-- children, metavar.py:880-891; None is the empty list -/
def RVar.children : RVar → List RVar
  | .orig _ _ kids => kids
  | .clone _ _ kids source => if kids.isEmpty then source.children else kids

/-- A result is a standard name or a list, metavar.py:845; None is not possible. -/
inductive Elems where
  | one (s : Str)
  | many (l : List Str)
deriving DecidableEq

/-- What is raised: the definition of a type is missing (metavar.py:817-818), or the recursion is too deep (Python library). -/
inductive Err where
  | undefined (t : Str)
  | depth
deriving DecidableEq

/-- One element is a list of it, the loop adds those that are not empty, metavar.py:831-840 -/
def Elems.items : Elems → List Str
  | .one s => [s].filter fun e => !e.isEmpty
  | .many l => l.filter fun e => !e.isEmpty

/-- The loop over the variables of a type (metavar.py:805-812; what it collects is lost: line 828 or 843 assigns another value) -/
def fields (f : RVar → Except Err Elems) : List RVar → Except Err Unit
  | [] => .ok ()
  | v :: l => match f v with
    | .error e => .error e
    | .ok _ => fields f l

/-- The loop over the children, metavar.py:829-841 -/
def collect (f : RVar → Except Err Elems) : List RVar → Except Err (List Str)
  | [] => .ok []
  | v :: l => match f v with
    | .error e => .error e
    | .ok r => (collect f l).map fun rest => r.items ++ rest

/-- The dictionary of types (none if it is missing or empty) and the dictionary to look in (the same), metavar.py:782 -/
structure Dicts where
  lib : Option (Str → Option (List RVar))
  check : Option (Str → Option RVar)

/-- The children that count, metavar.py:821-827 -/
def childrenIn (d : Dicts) (v : RVar) : List RVar :=
  if v.children.isEmpty then
    match d.check with
    | none => []
    | some f => match f v.std with
      | none => []
      | some p => p.children
  else v.children

/-- intrinsic_elements, metavar.py:782-845; the number is how deep the recursion may become -/
def elements : Nat → Dicts → RVar → Except Err Elems
  | 0, _, _ => .error .depth
  | n + 1, d, v =>
    let types : Except Err Unit := match v.ddt with
      | none => .ok ()
      | some t => match d.lib.bind fun l => l t with
        | none => .error (.undefined t)
        | some fs => fields (elements n d) fs
    match types with
    | .error e => .error e
    | .ok () =>
      if (childrenIn d v).isEmpty then .ok (.one v.std)
      else (collect (elements n ⟨none, none⟩) (childrenIn d v)).map .many

end Ccpp.LE
