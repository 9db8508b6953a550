import Verif.Model.Text
/-!
# Model of `scripts/var_props.py`: dimensions, DimTransform, VarCompatObj

Python `None` is `none`, an exception is `Except.error`.
-/
namespace Ccpp.VC

/-- Notation: a Python string. -/
abbrev Str := List Char

/-- CCPP_HORIZONTAL_DIMENSIONS, var_props.py:31-34 -/
def horizontalDims : List Str :=
  ["ccpp_constant_one:horizontal_dimension".toList,
   "ccpp_constant_one:horizontal_loop_extent".toList,
   "horizontal_loop_begin:horizontal_loop_end".toList,
   "horizontal_dimension".toList, "horizontal_loop_extent".toList]

/-- CCPP_VERTICAL_DIMENSIONS, var_props.py:38-42 -/
def verticalDims : List Str :=
  ["ccpp_constant_one:vertical_layer_dimension".toList,
   "ccpp_constant_one:vertical_interface_dimension".toList,
   "vertical_layer_dimension".toList,
   "vertical_interface_dimension".toList,
   "vertical_layer_index".toList, "vertical_interface_index".toList]

/-- is_horizontal_dimension, var_props.py:54-71 -/
def isHoriz (d : Str) : Bool := horizontalDims.contains d

/-- is_vertical_dimension, var_props.py:74-93 -/
def isVert (d : Str) : Bool := verticalDims.contains d

/-- _HDIM_TEMPNAME, var_props.py:27 -/
def hdimTemp : Str := "_CCPP_HORIZ_DIM".toList

/-- __regularize_dimensions for one dimension, var_props.py:1392-1400 -/
def regularize (d : Str) : Str :=
  if isHoriz d then hdimTemp
  else if ':' ∉ d then "ccpp_constant_one:".toList ++ d
  else d

/-- `x in y` for strings (Python library). -/
def hasSub (pat : Str) : Str → Bool
  | [] => pat == []
  | c :: s => pat.isPrefixOf (c :: s) || hasSub pat s

/-- __is_horizontal_loop_dimension, var_props.py:508-512 -/
def isLoopDim (d : Str) : Bool := isHoriz d && !hasSub "horizontal_dimension".toList d

/-- A DimTransform object, var_props.py:243-370.  `none` for a vertical index is -1. -/
structure DimT where
  fwd : List Nat
  rev : List (Option Nat)
  fhi : Nat
  fvi : Option Nat
  rhi : Nat
  rvi : Option Nat
  v1hloop : Bool
  v2hloop : Bool
deriving DecidableEq

/-- Local variables of _get_dim_transforms, var_props.py:1285-1292 -/
structure Acc where
  fwd : List Nat
  rev : List (Option Nat)
  hdim : Option (Str × Nat × Str × Nat)
  vdim : Option (Nat × Nat)

/-- The inner loop: the first dimension of variable 1 equal to `d` and not used yet,
var_props.py:1294-1298. -/
def pick (v1 : List Str) (fwd : List Nat) (d : Str) : Option Nat :=
  (List.range v1.length).find? fun i => v1[i]? = some d ∧ i ∉ fwd

/-- One step of the outer loop, var_props.py:1293-1313; `k` is v2index, `d2` is v2dim (regularized). -/
def dimStep (dims1 dims2 v1 : List Str) (a : Acc) (k : Nat) (d2 : Str) : Acc :=
  match pick v1 a.fwd d2 with
  | none => a
  | some i =>
    let o1 := dims1.getD i []
    let o2 := dims2.getD k []
    { fwd := a.fwd ++ [i]
      rev := a.rev.set i (some k)
      hdim := if isHoriz o1 then some (o1, i, o2, k) else a.hdim
      vdim := if isHoriz o1 then a.vdim else if isVert o1 then some (i, k) else a.vdim }

/-- The outer loop from index `k` on. var_props.py:1293-1313 -/
def dimLoop (dims1 dims2 v1 : List Str) : Acc → Nat → List Str → Acc
  | a, _, [] => a
  | a, k, d :: ds => dimLoop dims1 dims2 v1 (dimStep dims1 dims2 v1 a k d) (k + 1) ds

/-- DimTransform.__init__, var_props.py:311-368, on the values computed by _get_dim_transforms.  An
index -1 of the horizontal dimension is `none`. -/
def mkDimT (a : Acc) : Except String DimT :=
  if a.fwd.length ≠ a.rev.length then .error "Permutation mismatch"
  else match a.hdim with
    | none => .error "forward_hdim_index out of range"
    | some (h1, i, h2, k) =>
      if i ≥ a.fwd.length then .error "forward_hdim_index out of range"
      else if (a.vdim.map (·.1)).any (fun v => decide (v ≥ a.fwd.length)) then
        .error "forward_vdim_index out of range"
      else if k ≥ a.rev.length then .error "reverse_hdim_index out of range"
      else if (a.vdim.map (·.2)).any (fun v => decide (v ≥ a.rev.length)) then
        .error "reverse_vdim_index out of range"
      else if !isLoopDim h1 && !hasSub "horizontal_dimension".toList h1 then
        .error "Uncategorized forward horizontal dimension"
      else if !isLoopDim h2 && !hasSub "horizontal_dimension".toList h2 then
        .error "Uncategorized reverse horizontal dimension"
      else .ok ⟨a.fwd, a.rev, i, a.vdim.map (·.1), k, a.vdim.map (·.2), isLoopDim h1, isLoopDim h2⟩

/-- _get_dim_transforms, var_props.py:1215-1335; the effect on __equiv is modelled in `compat`.
Comparing the sorted lists is modelled as being a permutation of each other. -/
def dimTransforms (dims1 dims2 : List Str) : Except String (Option DimT) :=
  let v1 := dims1.map regularize
  let v2 := dims2.map regularize
  if v1.isPerm v2 then
    let a := dimLoop dims1 dims2 v1 ⟨[], List.replicate v1.length none, none, none⟩ 0 v2
    if a.fwd.length ≠ v1.length then .error "Bad dimension handling"
    else match mkDimT a with
      | .error e => .error e
      | .ok t => .ok (some t)
  else .ok none

/-- Replace element `i`; a negative Python index (`none` is -1) addresses the last element.
Python library (list), var_props.py:311-368 -/
def pySet (l : List Int) (i : Option Nat) (f : Int → Int) : List Int :=
  let j := i.getD (l.length - 1)
  match l[j]? with
  | none => l
  | some x => l.set j (f x)

/-- DimTransform.forward_transform, var_props.py:421-439, on the values of the index expressions
instead of their text; `hb` is the value of the horizontal_loop_begin variable, `nk` the vertical
extent. -/
def DimT.forward (t : DimT) (idx : List Int) (hb nk : Option Int) : List Int :=
  let v2 := t.fwd.map fun x => idx.getD x 0
  let v2 := match hb with
    | none => v2
    | some b =>
      if t.v1hloop && !t.v2hloop then pySet v2 (some t.fhi) (fun h => h + b - 1)
      else if t.v2hloop && !t.v1hloop then pySet v2 (some t.fhi) (fun h => h - b + 1)
      else v2
  match nk with
  | none => v2
  | some n => pySet v2 t.fvi (fun v => n - v + 1)

/-- DimTransform.reverse_transform, var_props.py:488-506 -/
def DimT.reverse (t : DimT) (idx : List Int) (hb nk : Option Int) : List Int :=
  let v1 := t.rev.map fun x => idx.getD (x.getD 0) 0
  let v1 := match hb with
    | none => v1
    | some b =>
      if t.v1hloop && !t.v2hloop then pySet v1 (some t.rhi) (fun h => h - b + 1)
      else if t.v2hloop && !t.v1hloop then pySet v1 (some t.rhi) (fun h => h + b - 1)
      else v1
  match nk with
  | none => v1
  | some n => pySet v1 t.rvi (fun v => n - v + 1)

/-- `str.split(',')` (Python library). -/
def splitComma : Str → List Str
  | [] => [[]]
  | c :: s =>
    if c = ',' then [] :: splitComma s
    else match splitComma s with
      | [] => [[c]]
      | t :: ts => (c :: t) :: ts

/-- char_kind_check, var_props.py:1337-1352.  The result is the Boolean kind_ok, not the
standardized form. -/
def charKindCheck : Option Str → Bool
  | none => false
  | some k =>
    match ((splitComma k).map strip).filter (!·.isEmpty) with
    | [e] => lower (e.take 4) == "len=".toList
    | _ => false

/-- _get_kind_convstrs, var_props.py:1123-1134; `spec` is run_env.kind_spec. -/
def kindConv (spec : Option Str → Option Str) (k1 k2 : Option Str) : Option (Option Str × Option Str) :=
  let r1 := match spec k1 with
    | none => k1
    | some s => some s
  let r2 := match spec k2 with
    | none => k2
    | some s => some s
  if r1 ≠ r2 then some (k1, k2) else none

/-- The properties of a variable that matter for compatibility.
var_props.py:857-1000 (arguments) -/
structure V where
  stdname : Str
  type : Str
  kind : Option Str
  units : Str
  dims : List Str
  top : Bool

/-- What a VarCompatObj answers, var_props.py:1402-1466. -/
structure Verdict where
  equiv : Bool
  compat : Bool
  dimT : Option DimT
  kindT : Option (Option Str × Option Str)
  unitT : Option (Str × Str)
  vert : Bool
deriving DecidableEq

/-- Only "none" units are case-insensitive, var_props.py:951-957 -/
def normUnits (u : Str) : Str := if lower u = "none".toList then "none".toList else u

/-- `x.split('s-1')[0].strip()`, var_props.py:961 -/
def beforePerSecond : Str → Str
  | [] => []
  | c :: s => if "s-1".toList.isPrefixOf (c :: s) then [] else c :: beforePerSecond s

/-- VarCompatObj.__init__, var_props.py:857-1000.  `spec` is run_env.kind_spec and `conv u1 u2` is
_get_unit_convstrs (modelled in `Units.lean`), which raises if a conversion is missing. -/
def compat (spec : Option Str → Option Str) (conv : Str → Str → Except String (Str × Str))
    (v1 v2 : V) (isTend : Bool) : Except String Verdict := do
  -- fatal incompatibilities, lines 891-905
  let bad := (isTend && !("tendency_of".toList.isPrefixOf v1.stdname)) ||
    (!isTend && v1.stdname != v2.stdname) || v1.type != v2.type
  if bad then return ⟨false, false, none, none, none, false⟩
  -- kinds, lines 907-947
  let charBad := v1.type == "character".toList &&
    !(charKindCheck v1.kind && charKindCheck v2.kind)
  if charBad then return ⟨false, false, none, none, none, false⟩
  let kindT := if v1.type == "character".toList || v1.kind == v2.kind then none
    else kindConv spec v1.kind v2.kind
  let equiv := kindT.isNone
  -- units, lines 948-977
  let u1 := normUnits v1.units
  let u2 := normUnits v2.units
  if isTend && strip (beforePerSecond u1) != u2 then return ⟨false, false, none, kindT, none, false⟩
  let unitT ← if isTend || u1 == u2 then .ok none else (conv u1 u2).map some
  let equiv := equiv && unitT.isNone
  -- vertical flipping, lines 978-984
  let vert := v1.top != v2.top
  -- dimensions, lines 985-998 (and 1275-1277)
  if v1.dims == v2.dims then return ⟨equiv, true, none, kindT, unitT, vert⟩
  let dimT ← dimTransforms v1.dims v2.dims
  let equiv := equiv && (v1.dims.map regularize == v2.dims.map regularize)
  return ⟨equiv, dimT.isSome, dimT, kindT, unitT, vert⟩

end Ccpp.VC
