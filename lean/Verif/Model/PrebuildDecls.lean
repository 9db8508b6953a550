import Verif.Model.PrebuildArgs
/-!
# Model of the declarations in the caps of ccpp_prebuild

`create_arguments_module_use_var_defs` (scripts/mkstatic.py:182-262) and the methods of `mkcap.Var` that it uses
(scripts/mkcap.py:237-373).

A raised exception is `none`.  Simplifications: texts are ASCII; no kind is the empty text (`None` in the code, tested by truth); the dictionary of
the variables is the list of its values, which have their standard names as keys; `metadata_define[n][0]` is the first variable of a list with that
standard name; the temporary variables and pointers are one list with a flag.
-/
namespace Ccpp.Decls
open PB (Str)

/-- A variable, mkcap.py:20-58 -/
structure Var where
  std : Str
  loc : Str
  ty : Str
  kind : Str
  dims : List Str
  intent : Str
  active : Str
  optional : Str
  container : Str
deriving DecidableEq

/-- `metadata_define[n][0]`, mkstatic.py:217 -/
def find (md : List Var) (n : Str) : Option Var := md.find? fun v => v.std == n

/-- STANDARD_VARIABLE_TYPES, common.py:67-69 -/
def standardTypes : List Str := ["character".toList, "integer".toList, "logical".toList, "real".toList]

/-- A bound of a dimension, mkcap.py:250-257, 258-265, 269-276 -/
def bound (md : List Var) (x : Str) : Option Str :=
  if PB.isInt (strip x) then some x else (find md (lower x)).map (·.loc)

/-- The lower bound of a dimension; the upper bound is only checked, mkcap.py:246-278 -/
def lowerBound (md : List Var) (d : Str) : Option Str :=
  if ':' ∈ d then
    match (PB.splitOn ':' d).map lower with
    | p :: q :: _ => (bound md p).bind fun lo => (bound md q).map fun _ => lo
    | _ => none
  else (bound md d).map fun _ => "1".toList

/-- dimstring_local_names with assume_shape, mkcap.py:237-281 -/
def dimString (md : List Var) (v : Var) : Option Str :=
  if v.dims.isEmpty then some []
  else (v.dims.mapM (lowerBound md)).map fun l => '(' :: (PB.joinWith ',' (l.map (· ++ [':'])) ++ [')'])

/-- `s.replace(k, '')` for a text `k` that is not empty: the number of characters to be passed, and the text (Python library) -/
def removeAll (k : Str) : Nat → Str → Str
  | _, [] => []
  | n + 1, _ :: s => removeAll k n s
  | 0, c :: s => if k.isPrefixOf (c :: s) then removeAll k (k.length - 1) s else c :: removeAll k 0 s

/-- `s.startswith('MODULE_')`, mkcap.py:286 -/
def modulePrefix : Str := "MODULE_".toList

/-- print_module_use, mkcap.py:283-290 -/
def moduleUse (v : Var) : Option Str :=
  ((PB.splitOn ' ' v.container).find? fun i => modulePrefix.isPrefixOf i).map fun i =>
    "use ".toList ++ removeAll modulePrefix 0 i ++ ", only: ".toList ++ v.loc

/-- The type of a declaration, mkcap.py:309-320, 335-350, 359-373 -/
def base (v : Var) : Option Str :=
  if v.ty ∈ standardTypes then
    if v.kind ≠ [] then some (v.ty ++ '(' :: (v.kind ++ [')'])) else some v.ty
  else if v.kind ≠ [] then none
  else some ("type(".toList ++ v.ty ++ [')'])

/-- print_def_intent, mkcap.py:292-321 -/
def defIntent (md : List Var) (v : Var) : Option Str :=
  (dimString md v).bind fun ds =>
    if v.optional = "T".toList then none
    else (base v).map fun b =>
      b ++ ", intent(".toList ++ v.intent ++ ")".toList ++ (if v.active = "T".toList then ", target".toList else ", optional, target".toList) ++
        " :: ".toList ++ v.loc ++ ds

/-- rank, mkcap.py:96-104 -/
def rank (v : Var) : Str := if v.dims.isEmpty then [] else '(' :: (PB.joinWith ',' (v.dims.map fun _ => [':']) ++ [')'])

/-- print_def_local, mkcap.py:323-390; the flag is `pointer` -/
def defLocal (pointer : Bool) (v : Var) : Option Str :=
  if v.active ≠ "T".toList then none
  else (base v).map fun b =>
    b ++ (if rank v ≠ [] then ", dimension".toList ++ rank v ++ (if pointer then [] else ", allocatable".toList) else []) ++
      (if pointer then ", pointer :: p => null()".toList else ", target :: ".toList ++ v.loc)

/-- arguments, var_defs, module_use, local_kind_and_type_vars, local_pointer_type_defs, mkstatic.py:187-191 -/
structure Out where
  args : List Str
  defs : List Str
  uses : List Str
  seen : List Str
  ptrs : List Str

/-- A kind or a type is imported once, mkstatic.py:212-219, 222-228, 256-261 -/
def use (md : List Var) (n : Str) (o : Out) : Option Out :=
  if n ∈ o.seen then some o
  else (find md n).bind fun k => (moduleUse k).map fun u => { o with uses := o.uses ++ [u], seen := o.seen ++ [n] }

/-- The kind of a variable is a name that is imported, mkstatic.py:209-210, 254 -/
def kindNamed (v : Var) : Bool := decide (v.ty ∈ standardTypes) && decide (v.kind ≠ []) && decide (v.ty ≠ "character".toList)

/-- One argument, mkstatic.py:205-228 -/
def step (md : List Var) (o : Out) (v : Var) : Option Out :=
  (defIntent md v).bind fun d =>
    let o := { o with args := o.args ++ [v.loc], defs := o.defs ++ [d] }
    if kindNamed v then use md v.kind o
    else if v.ty ∉ standardTypes then use md v.ty o
    else some o

/-- One pass: the scalars, or the arrays, mkstatic.py:199-205 -/
def pass (md : List Var) (arrays : Bool) (vs : List Var) (o : Out) : Option Out :=
  vs.foldlM (fun o v => if v.dims.isEmpty == arrays then some o else step md o v) o

/-- Both passes, mkstatic.py:198-229 -/
def arguments (md : List Var) (vs : List Var) : Option Out :=
  (pass md false vs ⟨[], [], [], [], []⟩).bind (pass md true vs)

/-- A natural number in decimal (Python library). -/
def dec (n : Nat) : Str := (toString n).toList

/-- pointer_type_name, mkstatic.py:240-245 -/
def ptrType (v : Var) : Str :=
  if v.ty = "character".toList ∧ PA.inText "len=".toList v.kind then
    v.ty ++ "_".toList ++ v.kind.filter (· != '=') ++ "_r".toList ++ dec v.dims.length ++ "_ptr_arr_type".toList
  else if v.kind ≠ [] then v.ty ++ "_".toList ++ v.kind ++ "_rank".toList ++ dec v.dims.length ++ "_ptr_arr_type".toList
  else v.ty ++ "_default_kind_rank".toList ++ dec v.dims.length ++ "_ptr_arr_type".toList

/-- TMPPTR_ARR_TYPE_DECLARATION, mkstatic.py:63-65 -/
def ptrTypeDef (name d : Str) : Str :=
  "type :: ".toList ++ name ++ "\n         ".toList ++ d ++ "\n      end type ".toList ++ name

/-- TMPPTR_ARR_DECLARATION, mkstatic.py:66, 251-252 -/
def ptrDef (name loc : Str) : Str :=
  "type(".toList ++ name ++ "), dimension(1:cdata%thrd_cnt) :: ".toList ++ loc ++ "_array".toList

/-- One temporary variable or pointer, mkstatic.py:235-261 -/
def stepLocal (md : List Var) (o : Out) (t : Bool × Var) : Option Out :=
  let v := t.2
  ((if t.1 then
      if ptrType v ∈ o.ptrs then some { o with defs := o.defs ++ [ptrDef (ptrType v) v.loc] }
      else (defLocal true v).map fun d =>
        { o with defs := o.defs ++ [ptrTypeDef (ptrType v) d, ptrDef (ptrType v) v.loc], ptrs := o.ptrs ++ [ptrType v] }
    else (defLocal false v).map fun d => { o with defs := o.defs ++ [d] })).bind fun o =>
    if kindNamed v then use md v.kind o else some o

/-- create_arguments_module_use_var_defs, mkstatic.py:182-262: arguments, module_use, var_defs -/
def create (md vs : List Var) (tmps : List (Bool × Var)) : Option Out :=
  (arguments md vs).bind fun o =>
    if tmps.isEmpty then some o
    else tmps.foldlM (stepLocal md)
      { o with defs := o.defs ++ [[], "! Local variables/pointers for unit conversions, array transformations, ...".toList] }

end Ccpp.Decls
