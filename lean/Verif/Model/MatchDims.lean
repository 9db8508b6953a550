import Verif.Model.VarCompat
/-!
# Model of SuiteObject.match_dimensions and its helpers (`scripts/suite_objects.py`)

Simplifications: the suite object is the phase and the set of standard names that find_variable (with
any_scope) finds; the side effect of horiz_dim_match (the loop variables are added to the call list,
which is not undone if the match fails later) is not modelled; reasons are not modelled except for
whether there is one.
-/
namespace Ccpp.MD

open Ccpp.VC (Str isHoriz isVert)

/-- The dictionaries find_variable looks in, suite_objects.py:554-595. -/
structure Env where
  run : Bool
  finds : Str → Bool

/-- CCPP_VAR_LOOP_SUBSTS, metavar.py:1470-1492: the required standard names. -/
def loopSubsts : List (Str × List Str) :=
  [("horizontal_loop_extent".toList, ["horizontal_loop_begin".toList, "horizontal_loop_end".toList]),
   ("horizontal_loop_begin".toList, ["ccpp_constant_one".toList]),
   ("horizontal_loop_end".toList, ["horizontal_loop_extent".toList]),
   ("vertical_layer_dimension".toList, ["vertical_layer_index".toList]),
   ("vertical_interface_dimension".toList, ["vertical_interface_index".toList])]

/-- VarDictionary.loop_var_match, metavar.py:1956-1971 -/
def loopVarMatch (d : Str) : Option (List Str) :=
  let d' := if d.take 18 = "ccpp_constant_one:".toList then d.drop 18 else d
  (loopSubsts.find? fun p => p.1 == d').map (·.2)

/-- `':'.join(names)` Python library, suite_objects.py:626-782 -/
def joinColon : List Str → Str
  | [] => []
  | [x] => x
  | x :: xs => x ++ ':' :: joinColon xs

/-- find_horizontal_dimension / find_vertical_dimension, var_props.py:96-127: the index, `none` for
-1. -/
def findHoriz (dims : List Str) : Option Nat := dims.findIdx? isHoriz
/-- var_props.py:96-127 (find_vertical_dimension) -/
def findVert (dims : List Str) : Option Nat := dims.findIdx? isVert

/-- horiz_dim_match, suite_objects.py:554-595 (has_subst: metavar.py:1352-1369) -/
def horizDimMatch (e : Env) (ndim hdim : Str) (sub : Option (List Str)) : Option Str :=
  if isHoriz ndim && isHoriz hdim then
    if ndim = hdim then some ndim
    else if e.run then
      match sub with
      | none => none
      | some req => if req.all e.finds then some (joinColon req) else none
    else if hdim = "ccpp_constant_one:horizontal_dimension".toList ∧
        ndim = "ccpp_constant_one:horizontal_loop_extent".toList then some hdim
    else if hdim = "ccpp_constant_one:horizontal_dimension".toList ∧
        ndim = "horizontal_loop_begin:horizontal_loop_end".toList then some hdim
    else none
  else none

/-- dim_match, suite_objects.py:597-624.  The second try compares `ndims[0].lower` (a method, not a
string) with a name, so nothing is removed, and then compares two lists of different lengths: it never
gives a match.  An empty string counts as no match. -/
def dimMatch (need have' : Str) : Option Str :=
  if need = have' then (if need = [] then none else some need) else none

/-- The local variables perm, new_need_dims and new_have_dims. suite_objects.py:678-717 -/
structure St where
  perm : List Nat
  newNeed : List Str
  newHave : List Str

/-- One dimension of need_dims, suite_objects.py:678-711; `none`: not found. -/
def step (e : Env) (have' : List Str) (nh hh nv hv : Option Nat) (nindex : Nat) (neddim : Str) (s : St) :
    Option St :=
  if some nindex = nh then
    match hh with
    | none => none
    | some h =>
      match horizDimMatch e neddim (have'.getD h []) (loopVarMatch neddim) with
      | none => none
      | some m => some ⟨s.perm ++ [h], s.newNeed ++ [m], s.newHave.set h m⟩
  else
    let skip := if nv = none then hv else none
    match ((List.range have'.length).filter fun x => decide (x ∉ s.perm) && decide (some x ≠ skip)).find?
        fun h => (decide (some h ≠ hv) || nv.isSome) && (dimMatch neddim (have'.getD h [])).isSome with
    | none => none
    | some h => some ⟨s.perm ++ [h], s.newNeed ++ [neddim], s.newHave.set h neddim⟩

/-- The loop, suite_objects.py:678-717: the state at the end or at the break, and whether all
dimensions were found. -/
def loop (e : Env) (have' : List Str) (nh hh nv hv : Option Nat) : Nat → List Str → St → St × Bool
  | _, [], s => (s, true)
  | k, d :: ds, s =>
    match step e have' nh hh nv hv k d s with
    | none => (s, false)
    | some s' => loop e have' nh hh nv hv (k + 1) ds s'

/-- The return value of suite_objects.py:626-782. -/
structure Res where
  ok : Bool
  newNeed : List Str
  newHave : List Str
  missing : Option Str
  perm : Option (List Nat)

/-- match_dimensions, suite_objects.py:626-782 -/
def matchDims (e : Env) (need have' : List Str) : Except String Res :=
  let nv := findVert need
  let hv := findVert have'
  let nh := findHoriz need
  let hh := findHoriz have'
  let noHoriz := hh.isNone && nh.isSome
  let (s, found) := if noHoriz then (⟨[], [], have'⟩, false)
    else loop e have' nh hh nv hv 0 need ⟨[], [], have'⟩
  let hlen := if noHoriz then 0 else have'.length
  let finish (ok : Bool) (newNeed : List Str) (missing : Option Str) (perm : List Nat) : Res :=
    ⟨ok, newNeed, s.newHave, missing,
      if perm = List.range hlen then none else if !ok && missing.isNone then none else some perm⟩
  match nv, hv with
  | none, some v =>
    match loopVarMatch (have'.getD v []) with
    | none => .error "CCPPError: Unknown vertical dimension"
    | some req =>
      let missing := if req.all e.finds then none else some (joinColon req)
      let newNeed := if v < s.newNeed.length then
          s.newNeed.take v ++ [joinColon req] ++ s.newNeed.drop v
        else s.newNeed ++ [joinColon req]
      let perm := if v < s.newNeed.length then s.perm.take v ++ [v] ++ s.perm.drop v
        else s.perm ++ [v]
      .ok (finish (found && missing.isNone) newNeed missing perm)
  | _, _ => .ok (finish found s.newNeed none s.perm)

/-- The decision of match_variable for a variable that exists in the host with dimensions
`dictDims`, suite_objects.py:889-936 (dimensions only): `none` raises an error, otherwise found_var,
the dimensions of the call and the missing vertical index. -/
def matchVariable (e : Env) (vdims dictDims : List Str) : Option (Bool × List Str × Option Str) :=
  if vdims = [] then some (true, [], none)
  else match matchDims e vdims dictDims with
    | .error _ => none
    | .ok r =>
      match r.perm with
      | some _ => none
      | none =>
        if r.ok then some (true, r.newNeed, r.missing)
        else if r.missing.isSome then some (false, r.newNeed, r.missing)
        else none

end Ccpp.MD
