import Verif.Model.VarCompat
import Verif.Model.Units
/-!
# Model of the statements that convert a variable: VarCompatObj.forward_transform and reverse_transform
(`scripts/var_props.py`)

The unused arguments adjust_hdim and flip_vdim are left out.
-/
namespace Ccpp.TText

/-- Notation: a Python string. -/
abbrev Str := List Char

/-- `template.format(var=v, kind=k)` (Python library), var_props.py:1043, 1088.  Other replacement fields do not
occur in the templates; here they are copied. -/
def format (v k : Str) : Str → Str
  | [] => []
  | '{' :: 'v' :: 'a' :: 'r' :: '}' :: s => v ++ format v k s
  | '{' :: 'k' :: 'i' :: 'n' :: 'd' :: '}' :: s => k ++ format v k s
  | c :: s => c :: format v k s

/-- `','.join(indices)` (Python library), var_props.py:1027-1028, 1072-1073 -/
def joinComma : List Str → Str
  | [] => []
  | [t] => t
  | t :: ts => t ++ ",".toList ++ joinComma ts

/-- `f"{lname}({','.join(indices)})"`, var_props.py:1027-1028, 1072-1073 -/
def indexed (lname : Str) (indices : List Str) : Str := lname ++ "(".toList ++ joinComma indices ++ ")".toList

/-- The private attributes of a VarCompatObj that the statements depend on, var_props.py:873-886: the kinds of the
two variables (None for characters), the kind transforms and the unit transforms. -/
structure Obj where
  v1Kind : Option Str
  v2Kind : Option Str
  kindT : Option (Str × Str)
  unitT : Option (Str × Str)

/-- Truth and value of a text or None (Python), var_props.py:1038-1042 -/
def textOr (k : Option Str) : Str := k.getD []

/-- forward_transform, var_props.py:1002-1045 -/
def forward (o : Obj) (lname rname : Str) (ridx lidx : List Str) : Str :=
  let rhs := if ridx.length = 0 then rname else indexed rname ridx
  let lhs := if ridx.length = 0 then lname else indexed lname lidx
  let kr : Str × Str := match o.kindT with
    | some kt => (kt.2, "real(".toList ++ rhs ++ ", ".toList ++ kt.2 ++ ")".toList)
    | none => ([], rhs)
  let rhs := match o.unitT with
    | some ut =>
      let kind := if !kr.1.isEmpty then "_".toList ++ kr.1
        else if !(textOr o.v2Kind).isEmpty then "_".toList ++ textOr o.v2Kind else kr.1
      format kr.2 kind ut.1
    | none => kr.2
  lhs ++ " = ".toList ++ rhs

/-- reverse_transform, var_props.py:1047-1090 -/
def reverse (o : Obj) (lname rname : Str) (ridx lidx : List Str) : Str :=
  let rhs := if ridx.length = 0 then rname else indexed rname ridx
  let lhs := if ridx.length = 0 then lname else indexed lname lidx
  let kr : Str × Str := match o.kindT with
    | some kt => (kt.1, "real(".toList ++ rhs ++ ", ".toList ++ kt.1 ++ ")".toList)
    | none => ([], rhs)
  let rhs := match o.unitT with
    | some ut =>
      let kind := if !kr.1.isEmpty then "_".toList ++ kr.1
        else if !(textOr o.v1Kind).isEmpty then "_".toList ++ textOr o.v1Kind else kr.1
      format kr.2 kind ut.2
    | none => kr.2
  lhs ++ " = ".toList ++ rhs

/-- The kinds of a pair of transforms as texts: a variable without kind has the empty text, var_props.py:184-232,
1123-1134 -/
def kindTexts (kt : Option (Option Str × Option Str)) : Option (Str × Str) :=
  kt.map fun p => (textOr p.1, textOr p.2)

/-- The object for two variables, var_props.py:857-1000, as far as it exists and says that they are compatible; the
decisions are those of `VC.compat`. -/
def mkObj (spec : Option Str → Option Str) (v1 v2 : VC.V) : Option Obj :=
  match VC.compat spec Units.convStrs v1 v2 false with
  | .error _ => none
  | .ok w =>
    if w.compat then
      let isChar := v1.type == "character".toList
      some ⟨if isChar then none else v1.kind, if isChar then none else v2.kind, kindTexts w.kindT, w.unitT⟩
    else none

end Ccpp.TText
