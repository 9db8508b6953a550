import Verif.Model.Constituents
import Verif.Model.PrebuildArgs
import Verif.Model.Checkers
import Verif.Model.ReqVars
/-!
# Model of the constituents of a host cap

The constituent dictionary of a suite (`ConstituentVarDict`, scripts/constituents.py), the variables that the host cap declares for
the constituents of all suites (`add_constituent_vars`, scripts/host_cap.py) and the generated routines: the suite's array of
constituent properties and the host's `<host>_ccpp_register_constituents`.
-/
namespace Ccpp.HC
open Const Hash

variable {R : Type}

/-- A text. Notation: Python `str`, scripts/constituents.py:49 -/
abbrev Str := List Char

/-- A variable of a scheme or of the constituent dictionary of a suite: the properties used at constituents.py:296-323 and
host_cap.py:313-374.  `kind` stands for type and kind together; it is only handed to the compatibility test. -/
structure CVar (R : Type) where
  name : Str
  units : Str
  dims : List Str
  kind : Str
  advected : Bool
  default : R

/-! ## Names -/

/-- `s.split(sep)` up to its second element: the text before the first occurrence and the text after it (Python library) -/
def cutAt (sep : Str) : Str → Option (Str × Str)
  | [] => if sep.isEmpty then some ([], []) else none
  | c :: s => if sep.isPrefixOf (c :: s) then some ([], (c :: s).drop sep.length) else (cutAt sep s).map fun r => (c :: r.1, r.2)

/-- `s.split(sep)[1]`; `none` is the IndexError (Python library) -/
def second (sep s : Str) : Option Str :=
  (cutAt sep s).map fun r => match cutAt sep r.2 with
    | some q => q.1
    | none => r.2

/-- `'tendency_of' in std_name`, host_cap.py:321 -/
def isTend (n : Str) : Bool := PA.inText "tendency_of".toList n

/-- `std_name.startswith('tendency_of_')`, constituents.py:282, 297 -/
def startsTend (n : Str) : Bool := "tendency_of_".toList.isPrefixOf n

/-- `dim.split(':')[-1]`, host_cap.py:328, 335 -/
def lastPart (d : Str) : Str := (Chk.splitOn ':' d).getLast?.getD []

/-! ## The suite's dictionary: ConstituentVarDict -/

/-- The standard names that are replaced in a dimension, constituents.py:103-111 -/
def substName (d : Str) : Str :=
  if d = "horizontal_loop_extent".toList then "horizontal_dimension".toList
  else if d = "horizontal_loop_end".toList then "horizontal_dimension".toList
  else if d = "horizontal_loop_begin".toList then "ccpp_constant_one".toList
  else d

/-- `':'.join(l)` (Python library) -/
def joinColon : List Str → Str
  | [] => []
  | [a] => a
  | a :: b :: l => a ++ ':' :: joinColon (b :: l)

/-- One dimension, constituents.py:99-113 -/
def substDim (d : Str) : Str := joinColon ((Chk.splitOn ':' d).map substName)

/-- find_variable of the constituent dictionary `d` with a source variable, constituents.py:49-118.  `parent` answers the search in
the enclosing scopes; `cnst` is `source_var.is_constituent()`.  The result is the dictionary and the variable that was found or
made. -/
def findVar (d : List (CVar R)) (parent : Str → Option (CVar R)) (cnst : Bool) (v : CVar R) : List (CVar R) × Option (CVar R) :=
  match d.find? (fun w => w.name == v.name) with
  | some w => (d, some w)
  | none => match parent v.name with
    | some w => (d, some w)
    | none => if cnst then
        let w := { v with dims := v.dims.map substDim }
        (d ++ [w], some w)
      else (d, none)

/-! ## The variables of the host cap: add_constituent_vars -/

/-- What stops add_constituent_vars: the errors of host_cap.py:323-350, the IndexError of host_cap.py:354 and 383, and the errors of
host_cap.py:390-405 -/
inductive PErr where
  | dims | horiz | vert | twoD | index | incompat | noState
  deriving DecidableEq

/-- An entry of the metadata table of the constituents object, host_cap.py:358-368 -/
structure Entry where
  loc : Str
  name : Str
  units : Str
  dims : List Str

/-- The local variables of the loop, host_cap.py:302-306 -/
structure Acc (R : Type) where
  entries : List Entry
  consts : List (CVar R)
  tends : List (CVar R)

/-- The constituent whose index is used for this variable, host_cap.py:352-357 -/
def stateName (n : Str) : Option Str := if isTend n then second "tendency_of_".toList n else some n

/-- The array of the constituents object, host_cap.py:336-341 -/
def arrayName (n : Str) : Str := if isTend n then "vars_layer_tend".toList else "vars_layer".toList

/-- The checks of the dimensions, host_cap.py:322-351 -/
def checkDims : List Str → Except PErr Unit
  | [] => .error .dims
  | [h] => if lastPart h = "horizontal_dimension".toList then .error .twoD else .error .horiz
  | [h, z] =>
    if lastPart h = "horizontal_dimension".toList then
      if lastPart z = "vertical_layer_dimension".toList then .ok () else .error .vert
    else .error .horiz
  | _ => .error .dims

/-- One constituent variable, host_cap.py:314-377 -/
def addConst (a : Acc R) (v : CVar R) : Except PErr (Acc R) :=
  if v.name ∈ a.consts.map (·.name) ∨ v.name ∈ a.tends.map (·.name) then .ok a
  else match checkDims v.dims with
    | .error e => .error e
    | .ok () => match stateName v.name with
      | none => .error .index
      | some x =>
        let e : Entry := ⟨arrayName v.name ++ "(:,:,index_of_".toList ++ x ++ ")".toList, v.name, v.units, v.dims⟩
        if isTend v.name then .ok { a with entries := a.entries ++ [e], tends := a.tends ++ [v] }
        else .ok { a with entries := a.entries ++ [e], consts := a.consts ++ [v] }

/-- The two loops, host_cap.py:307-379 -/
def addConsts (a : Acc R) : List (CVar R) → Except PErr (Acc R)
  | [] => .ok a
  | v :: vs => match addConst a v with
    | .error e => .error e
    | .ok a => addConsts a vs

/-- The check of one tendency variable, host_cap.py:382-406.  `compat` is `compatible(…, is_tend=True)`. -/
def checkTend (compat : CVar R → CVar R → Bool) (consts : List (CVar R)) (t : CVar R) : Except PErr Unit :=
  match second "tendency_of_".toList t.name with
  | none => .error .index
  | some x =>
    let l := consts.filter fun c => c.name == x
    if l.any fun c => !compat t c then .error .incompat
    else if l.isEmpty then .error .noState else .ok ()

/-- The loop over the tendency variables, host_cap.py:380-406.  The program's loop is over a set; which of several errors is
reported depends on its order, whether there is one does not. -/
def checkTends (compat : CVar R → CVar R → Bool) (consts : List (CVar R)) : List (CVar R) → Except PErr Unit
  | [] => .ok ()
  | t :: ts => match checkTend compat consts t with
    | .error e => .error e
    | .ok () => checkTends compat consts ts

/-- What the cap declares: the entries of the metadata table, and the array of standard names, host_cap.py:358-368, 435-449.  The
index variable of the constituent at position i of `names` is element i+1 of the array of indices, host_cap.py:450-463. -/
structure CapVars where
  entries : List Entry
  names : List Str

/-- add_constituent_vars, host_cap.py:270-492; `suites` are the variables of the suites' constituent dictionaries.  The metadata
table is parsed again by the program (host_cap.py:407-428); that is left out. -/
def capVars (compat : CVar R → CVar R → Bool) (suites : List (List (CVar R))) : Except PErr CapVars :=
  match addConsts ⟨[], [], []⟩ suites.flatten with
  | .error e => .error e
  | .ok a => match checkTends compat a.consts a.tends with
    | .error e => .error e
    | .ok () => .ok ⟨a.entries, RV.sorted (a.consts.map (·.name))⟩

/-! ## The generated suite routines -/

/-- The variables of the suite's array of constituent properties, constituents.py:279-285, 296-300 -/
def suiteConsts (d : List (CVar R)) : List (CVar R) := d.filter fun v => !startsTend v.name

/-- vertical_dim, constituents.py:303-312 -/
def vertDim (v : CVar R) : Str :=
  let ds := v.dims.flatMap (Chk.splitOn ':')
  if "vertical_layer_dimension".toList ∈ ds then "vertical_layer_dimension".toList
  else if "vertical_interface_dimension".toList ∈ ds then "vertical_interface_dimension".toList
  else []

/-- A copy of an element of that array, allocated at address `id`: constituents.py:313-323, 563-570, and
src/ccpp_constituent_prop_mod.F90:376-466 -/
def suitePtr (id : Nat) (v : CVar R) : Ptr R := newPtr id v.name v.units (vertDim v) v.advected v.default

/-- What the generated copy routine does with an index: the value of errcode, and the element or an access outside the array.
The checks set errcode but do not return: constituents.py:196-249, 377-396 -/
def copyConst (isInit : Bool) (arr : List (CVar R)) (index : Int) : Int × Option (CVar R) :=
  let e := if isInit then 0 else 1
  let e := if index < 1 then 1 else if index > (arr.length : Int) then 1 else e
  (e, if index < 1 then none else arr[(index - 1).toNat]?)

/-! ## The generated registration routine -/

/-- `do index = 1, size(array)` with new_field and return on error, constituents.py:525-549 -/
def addPtrs (h : Heap R) (o : Obj R) : List (Ptr R) → Obj R × Int
  | [] => (o, 0)
  | p :: ps =>
    let r := addMetadata h o p 0
    if r.2 ≠ 0 then r else addPtrs h r.1 ps

/-- A new object: the components that instantiate does not set keep their defaults, src/ccpp_constituent_prop_mod.F90:32-56;
`mn` is the default of min_val. -/
def newMut (mn : R) : Mut R := { constInd := none, thermo := false, water := false, minVal := mn }

/-- Allocate the object at this address, constituents.py:564-570 -/
def alloc (mn : R) (h : Heap R) (id : Nat) : Heap R := fun j => if j = id then newMut mn else h j

/-- The loop over the constituents of one suite, constituents.py:563-580: heap, next address, object, errcode.  Allocation
succeeds. -/
def addSuite (mn : R) (h : Heap R) (next : Nat) (o : Obj R) : List (CVar R) → Heap R × Nat × Obj R × Int
  | [] => (h, next, o, 0)
  | v :: vs =>
    let h := alloc mn h next
    let r := addMetadata h o (suitePtr next v) 0
    if r.2 ≠ 0 then (h, next + 1, r.1, r.2) else addSuite mn h (next + 1) r.1 vs

/-- The loop over the suites, constituents.py:551-582 -/
def addSuites (mn : R) (h : Heap R) (next : Nat) (o : Obj R) : List (List (CVar R)) → Heap R × Nat × Obj R × Int
  | [] => (h, next, o, 0)
  | d :: ds =>
    let r := addSuite mn h next o (suiteConsts d)
    if r.2.2.2 ≠ 0 then r else addSuites mn r.1 r.2.1 r.2.2.1 ds

/-- The loop that stores the index of every constituent name, constituents.py:588-603; `old` are the values of the array. -/
def setIndices (h : Heap R) (o : Obj R) : List Str → List Int → List Int × Int
  | [], old => (old, 0)
  | _ :: _, [] => ([], 0)
  | n :: ns, x :: old =>
    let r := constIndex h o n
    if r.2 ≠ 0 then (x :: old, r.2)
    else if r.1 > 0 then
      let q := setIndices h o ns old
      (r.1 :: q.1, q.2)
    else (x :: old, 1)

/-- State of the host cap after registration: heap, constituents object, array of indices, errcode.
Notation: module variables of the host cap, host_cap.py:418-449 -/
structure Reg (R : Type) where
  heap : Heap R
  obj : Obj R
  indices : List Int
  err : Int

/-- The generated registration routine, constituents.py:484-604.  `host` are the host's constituents, `dyn` the dynamic constituents
of every suite, `suites` the constituent dictionaries, `names` and `old` the arrays of names and indices; `size` is the size given to
the hash table.  `none`: an access outside an array. -/
def register (mn : R) (size : Int) (h : Heap R) (next : Nat) (o : Obj R) (host : List (Ptr R)) (dyn : List (List (Ptr R)))
    (suites : List (List (CVar R))) (names : List Str) (old : List Int) : Option (Reg R) :=
  let r := addPtrs h (initObj o size) (host ++ dyn.flatten)
  if r.2 ≠ 0 then some ⟨h, r.1, old, r.2⟩
  else
    let s := addSuites mn h next r.1 suites
    if s.2.2.2 ≠ 0 then some ⟨s.1, s.2.2.1, old, s.2.2.2⟩
    else match lockTable s.1 s.2.2.1 with
      | .crash => none
      | .done h' o' e =>
        if e ≠ 0 then some ⟨h', o', old, e⟩
        else
          let q := setIndices h' o' names old
          some ⟨h', o', q.1, q.2⟩

/-- The generated cleanup routine for these suites, constituents.py:686-698 -/
def cleanup (o : Obj R) : List (List (CVar R)) → Obj R
  | [] => o
  | _ :: ds => cleanup (reset o true) ds

end Ccpp.HC
