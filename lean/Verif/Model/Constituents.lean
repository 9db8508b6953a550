import Verif.Model.HashTable
/-!
# Model of `src/ccpp_constituent_prop_mod.F90`

`ccpp_constituent_properties_t` objects live behind pointers.  A pointer `Ptr` is the address
together with the components which no public method changes after `instantiate` (standard name,
units, vertical dimension, advected flag, default value); the components with setters
(`const_ind`, `thermo_active`, `water_species`, `min_val`) are in the heap.
Error arguments are always present; `errmsg` is not modelled, only `errcode`.
-/
namespace Ccpp.Const
open Hash

variable {R : Type}

/-- stdname_len, dimname_len, ccpp_constituent_prop_mod.F90:17-18 -/
def stdnameLen : Nat := 256
/-- src/ccpp_constituent_prop_mod.F90:18 -/
def dimnameLen : Nat := 32

/-- Assignment to a `character(len=n)` variable.  Blank padding is not represented because every
comparison ignores trailing blanks.
Fortran language semantics of e.g. src/ccpp_constituent_prop_mod.F90:577 -/
def fit (n : Nat) (s : List Char) : List Char := s.take n

/-- int_unassigned = -HUGE(1), ccpp_constituent_prop_mod.F90:26 -/
def intUnassigned : Int := -2147483647

/-- A pointer to a ccpp_constituent_properties_t (ccpp_constituent_prop_mod.F90:32-56), with the
immutable components of its target. -/
structure Ptr (R : Type) where
  id : Nat
  name : List Char
  units : List Char
  vertDim : List Char
  advected : Bool
  default : R

/-- The mutable components (same lines); `constInd = none` is `int_unassigned`. -/
structure Mut (R : Type) where
  constInd : Option Int
  thermo : Bool
  water : Bool
  minVal : R

/-- Notation: the allocated ccpp_constituent_properties_t objects, src/ccpp_constituent_prop_mod.F90:32-98, by address. -/
abbrev Heap (R : Type) := Nat → Mut R

/-- ccp_properties_get_key, ccpp_constituent_prop_mod.F90:337-346 -/
def key (p : Ptr R) : List Char := p.name

/-- ccp_is_layer_var, ccpp_constituent_prop_mod.F90:571-582 -/
def isLayer (p : Ptr R) : Bool :=
  rtrim (fit dimnameLen p.vertDim) == "vertical_layer_dimension".toList

/-- ccp_is_match, ccpp_constituent_prop_mod.F90:998-1043 -/
def propsMatch (h : Heap R) (p q : Ptr R) : Bool :=
  (p.advected == q.advected) && ((h p.id).thermo == (h q.id).thermo) &&
  ((h p.id).water == (h q.id).water) &&
  (rtrim (fit stdnameLen p.units) == rtrim (fit stdnameLen q.units))

/-- A slice `(:,:,i)` of a field array, by column and level.
Notation; src/ccpp_constituent_prop_mod.F90:1717-1869 -/
abbrev Slice (R : Type) := Nat → Nat → R

/-- ccpp_model_constituents_t, ccpp_constituent_prop_mod.F90:136-158.  `table = none`: the hash
table is not initialised.  Unallocated arrays are `none`; a null pointer in `const_metadata` is
`none`.  The key offset of the hash table keeps its default. -/
structure Obj (R : Type) where
  table : Option (Table (Ptr R))
  tableLocked : Bool
  dataLocked : Bool
  numLayerVars : Nat
  numAdvected : Nat
  numLayers : Int
  varsLayer : Option (List (Slice R))
  varsTend : Option (List (Slice R))
  varsMin : Option (List R)
  metadata : Option (List (Option (Ptr R)))

/-- A newly declared object, ccpp_constituent_prop_mod.F90:136-158 (component defaults). -/
def fresh : Obj R :=
  { table := none, tableLocked := false, dataLocked := false, numLayerVars := 0,
    numAdvected := 0, numLayers := 0, varsLayer := none, varsTend := none, varsMin := none,
    metadata := none }

/-- hash_table%is_initialized()
src/ccpp_hash_table.F90:30-48 through src/ccpp_constituent_prop_mod.F90:1066 -/
def Obj.isInit (o : Obj R) : Bool := o.table.isSome

/-- ccp_model_const_locked, ccpp_constituent_prop_mod.F90:1051-1080: result and errcode -/
def locked (o : Obj R) : Bool × Int :=
  if o.isInit then (o.tableLocked && o.dataLocked, 0) else (false, 1)

/-- ccp_model_const_props_locked, ccpp_constituent_prop_mod.F90:1084-1113 -/
def propsLocked (o : Obj R) : Bool × Int :=
  if o.isInit then (o.tableLocked, 0) else (false, 1)

/-- ccp_model_const_data_locked, ccpp_constituent_prop_mod.F90:1117-1146 -/
def dataLocked (o : Obj R) : Bool × Int :=
  if o.isInit then (o.dataLocked, 0) else (false, 1)

/-- ccp_model_const_okay_to_add, ccpp_constituent_prop_mod.F90:1150-1180.  `e0` is the value of
the caller's errcode variable on entry. -/
def okayToAdd (o : Obj R) (e0 : Int) : Bool × Int :=
  if o.isInit then
    if (propsLocked o).1 || (dataLocked o).1 then (false, 0 + 1) else (true, 0)
  else (false, e0 + 1)

/-- ccp_model_const_find_const, ccpp_constituent_prop_mod.F90:1273-1306 -/
def findConst (o : Obj R) (name : List Char) : Option (Ptr R) :=
  match o.table with
  | none => none
  | some t => match tableValue key t name with
    | .ok p => some p
    | .error _ => none

/-- ccp_model_const_add_metadata (method new_field), ccpp_constituent_prop_mod.F90:1184-1245. -/
def addMetadata (h : Heap R) (o : Obj R) (p : Ptr R) (e0 : Int) : Obj R × Int :=
  match okayToAdd o e0 with
  | (false, e) => (o, e + 1)
  | (true, _) =>
    match findConst o (fit stdnameLen p.name) with
    | some q => if propsMatch h q p then (o, 0) else (o, 0 + 1)
    | none =>
      match o.table with
      | none => (o, 0)
      | some t =>
        match add key t p with
        | (t', some _) => ({ o with table := some t' }, 0 + 1)
        | (t', none) =>
          if isLayer p then
            ({ o with table := some t', numLayerVars := o.numLayerVars + 1 }, 0)
          else ({ o with table := some t' }, 0)

/-- ccp_model_const_reset, ccpp_constituent_prop_mod.F90:1540-1580.  The targets deallocated
through const_metadata are no longer reachable from the object and are not tracked. -/
def reset (o : Obj R) (clear : Bool) : Obj R :=
  let o := { o with varsLayer := none, varsMin := none, varsTend := none, metadata := none }
  if clear then { o with numLayerVars := 0, numAdvected := 0, numLayers := 0, table := none }
  else o

/-- ccp_model_const_initialize (method initialize_table),
ccpp_constituent_prop_mod.F90:1249-1270.  `tblSize` is the value of the floating point
expression int(log(10 n)/log 2 + 1). -/
def initObj (o : Obj R) (tblSize : Int) : Obj R :=
  { reset o true with table := some (initTable (Ptr R) tblSize none), tableLocked := false }

/-- The values met by a loop `do; if valid … value … next; else exit` over the hash table,
ccpp_constituent_prop_mod.F90:1345-1360; `none`: the iterator start reads outside the table.
The fuel `num_keys + 1` is enough by C12. -/
def iterValues (t : Table (Ptr R)) : Option (List (Ptr R)) :=
  match start t with
  | .outOfBoundsRead _ => none
  | .iter it => some ((collect t (numValues t + 1) it).1.filterMap id)

/-- ccp_set_const_index, ccpp_constituent_prop_mod.F90:634-654 (instantiated target): the heap
and errcode, which is reset to 0 first. -/
def setConstIndex (h : Heap R) (id : Nat) (i : Int) : Heap R × Int :=
  match (h id).constInd with
  | none => (fun j => if j = id then { h j with constInd := some i } else h j, 0)
  | some _ => (h, 0 + 1)

/-- Local variables of the second loop of table_lock.
src/ccpp_constituent_prop_mod.F90:1310-1335 -/
structure Pack (R : Type) where
  heap : Heap R
  metas : List (Option (Ptr R))
  ia : Nat
  ic : Nat
  err : Int
  errLocal : Nat

/-- The loop of ccp_model_const_table_lock, ccpp_constituent_prop_mod.F90:1377-1431. -/
def packLoop (na n : Nat) : Pack R → List (Ptr R) → Pack R
  | s, [] => s
  | s, p :: ps =>
    if p.advected then
      let s := { s with ia := s.ia + 1 }
      if s.ia > na then { s with err := s.err + 1, errLocal := s.errLocal + 1 }
      else
        let r := setConstIndex s.heap p.id s.ia
        let s := { s with heap := r.1, err := r.2, metas := s.metas.set (s.ia - 1) (some p) }
        if isLayer p then packLoop na n s ps
        else { s with err := 0 + 1, errLocal := s.errLocal + 1 }
    else
      let s := { s with ic := s.ic + 1 }
      if s.ic > n then { s with err := s.err + 1, errLocal := s.errLocal + 1 }
      else
        let r := setConstIndex s.heap p.id s.ic
        let s := { s with heap := r.1, err := r.2, metas := s.metas.set (s.ic - 1) (some p) }
        if isLayer p then packLoop na n s ps
        else { s with err := 0 + 1, errLocal := s.errLocal + 1 }

/-- Outcome of a call: it returns (heap, object, errcode) or reads outside an array.
Notation for the effects of src/ccpp_constituent_prop_mod.F90:1184-1460. -/
inductive Outcome (R : Type) where
  | done (h : Heap R) (o : Obj R) (err : Int)
  | crash

/-- ccp_model_const_table_lock, ccpp_constituent_prop_mod.F90:1310-1460.  Allocation of
const_metadata succeeds. -/
def lockTable (h : Heap R) (o : Obj R) : Outcome R :=
  if (propsLocked o).1 then .done h o ((propsLocked o).2 + 1)
  else
    match o.table with
    | none => .crash
    | some t =>
      let n := numValues t
      let o := { reset o false with numAdvected := 0, metadata := some (List.replicate n none) }
      match iterValues t with
      | none => .crash
      | some l =>
        let na := (l.filter (·.advected)).length
        let o := { o with numAdvected := na }
        if na > n then .done h o 1
        else
          let s := packLoop na n
            { heap := h, metas := List.replicate n none, ia := 0, ic := na, err := 0,
              errLocal := 0 } l
          let s := if s.ic ≠ n then { s with err := s.err + 1, errLocal := s.errLocal + 1 } else s
          let s := if s.ia ≠ na then { s with err := s.err + 1, errLocal := s.errLocal + 1 } else s
          let o := { o with metadata := some s.metas }
          let errLocal := if s.err ≠ 0 then 1 else s.errLocal
          if errLocal = 0 then .done s.heap { o with tableLocked := true } s.err
          else .done s.heap o s.err

/-- ccp_model_const_data_lock, ccpp_constituent_prop_mod.F90:1464-1536.  Allocation fails only
when the array is allocated already; column and level bounds of the slices are not represented. -/
def lockData (zero : R) (h : Heap R) (o : Obj R) (numLayers : Int) : Obj R × Int :=
  if (dataLocked o).1 then (o, (dataLocked o).2 + 1)
  else if !(propsLocked o).1 then (o, (propsLocked o).2 + 1)
  else if o.varsLayer.isSome || o.varsTend.isSome || o.varsMin.isSome then (o, 1)
  else
    match o.table, o.metadata with
    | some t, some ms =>
      let ms := ms.take (numValues t)
      ({ o with
          varsTend := some (List.replicate (numValues t) (fun _ _ => zero))
          numLayers := numLayers
          varsLayer := some (ms.map (fun m => match m with
            | some p => fun _ _ => p.default
            | none => fun _ _ => zero))
          varsMin := some (ms.map (fun m => match m with
            | some p => (h p.id).minVal
            | none => zero))
          dataLocked := true }, 0)
    | _, _ => (o, 1)

/-- The optional arguments advected, thermo_active and water_species.
src/ccpp_constituent_prop_mod.F90:1629-1632, 1717-1720 -/
structure Sel where
  advected : Option Bool
  thermo : Option Bool
  water : Option Bool

/-- ccp_model_const_is_match, ccpp_constituent_prop_mod.F90:1584-1625, on the element of
const_metadata.  A null pointer answers `.false.`. -/
def selMatch (h : Heap R) (sel : Sel) (m : Option (Ptr R)) : Bool :=
  let adv := match m with | some p => p.advected | none => false
  let th := match m with | some p => (h p.id).thermo | none => false
  let wa := match m with | some p => (h p.id).water | none => false
  (match sel.advected with | some b => b == adv | none => true) &&
  (match sel.thermo with | some b => b == th | none => true) &&
  (match sel.water with | some b => b == wa | none => true)

/-- ccp_model_const_num_match (method num_constituents),
ccpp_constituent_prop_mod.F90:1629-1660: nmatch and errcode -/
def numMatch (h : Heap R) (o : Obj R) (sel : Sel) : Nat × Int :=
  if (propsLocked o).1 then
    (((o.metadata.getD []).filter (selMatch h sel)).length, (propsLocked o).2)
  else (0, (propsLocked o).2)

/-- ccpt_const_index, ccpp_constituent_prop_mod.F90:2096-2118 -/
def metaIndex (h : Heap R) (m : Option (Ptr R)) : Int :=
  match m with
  | some p => ((h p.id).constInd).getD intUnassigned
  | none => intUnassigned

/-- ccp_model_const_index (method const_index), ccpp_constituent_prop_mod.F90:1662-1690:
index and errcode -/
def constIndex (h : Heap R) (o : Obj R) (name : List Char) : Int × Int :=
  if (propsLocked o).1 then
    match findConst o name with
    | some p => (metaIndex h (some p), (propsLocked o).2)
    | none => (intUnassigned, (propsLocked o).2)
  else (intUnassigned, (propsLocked o).2)

/-- A host array `const_array(:,:,:)`: number of levels and slices.
src/ccpp_constituent_prop_mod.F90:1717-1730 -/
structure Arr (R : Type) where
  levels : Int
  slices : List (Slice R)

/-- Loop of ccp_model_const_copy_in_3d, ccpp_constituent_prop_mod.F90:1744-1788; `i` is the number
of elements already visited, `c` is cindex.  Elements of const_array which are not assigned keep
their value. -/
def copyInLoop (h : Heap R) (sel : Sel) (numLayers : Int) (vars : List (Slice R)) :
    Nat → Nat → Arr R → List (Option (Ptr R)) → Arr R × Int
  | _, _, a, [] => (a, 0)
  | i, c, a, m :: ms =>
    if selMatch h sel m then
      if c + 1 > a.slices.length then (a, 0 + 1)
      else if metaIndex h m ≠ (i : Int) + 1 then (a, 0 + 1)
      else if (match m with | some p => isLayer p | none => false) then
        if numLayers = a.levels then
          match vars[i]? with
          | some f => copyInLoop h sel numLayers vars (i + 1) (c + 1)
              { a with slices := a.slices.set c f } ms
          | none => (a, 0 + 1)
        else (a, 0 + 1)
      else (a, 0 + 1)
    else copyInLoop h sel numLayers vars (i + 1) c a ms

/-- ccp_model_const_copy_in_3d (method copy_in), ccpp_constituent_prop_mod.F90:1717-1791 -/
def copyIn (h : Heap R) (o : Obj R) (sel : Sel) (a : Arr R) : Arr R × Int :=
  if (locked o).1 then
    copyInLoop h sel o.numLayers (o.varsLayer.getD []) 0 0 a (o.metadata.getD [])
  else (a, (locked o).2)

/-- Loop of ccp_model_const_copy_out_3d, ccpp_constituent_prop_mod.F90:1822-1866 -/
def copyOutLoop (h : Heap R) (sel : Sel) (numLayers : Int) (a : Arr R) :
    Nat → Nat → List (Slice R) → List (Option (Ptr R)) → List (Slice R) × Int
  | _, _, vars, [] => (vars, 0)
  | i, c, vars, m :: ms =>
    if selMatch h sel m then
      match a.slices[c]? with
      | none => (vars, 0 + 1)
      | some f =>
        if metaIndex h m ≠ (i : Int) + 1 then (vars, 0 + 1)
        else if (match m with | some p => isLayer p | none => false) then
          if numLayers = a.levels then
            copyOutLoop h sel numLayers a (i + 1) (c + 1) (vars.set i f) ms
          else (vars, 0 + 1)
        else (vars, 0 + 1)
    else copyOutLoop h sel numLayers a (i + 1) c vars ms

/-- ccp_model_const_copy_out_3d (method copy_out), ccpp_constituent_prop_mod.F90:1795-1868 -/
def copyOut (h : Heap R) (o : Obj R) (sel : Sel) (a : Arr R) : Obj R × Int :=
  if (locked o).1 then
    match o.varsLayer with
    | some vars =>
      let r := copyOutLoop h sel o.numLayers a 0 0 vars (o.metadata.getD [])
      ({ o with varsLayer := some r.1 }, r.2)
    | none => (o, 1)
  else (o, (locked o).2)

/-! ## Call histories -/

/-- The calls a host makes on one ccpp_model_constituents_t object.  `add` allocates and
instantiates a new constituent and registers it, as the generated host cap does
(scripts/constituents.py: write_host_routines).  The setters act on a constituent by address.
src/ccpp_constituent_prop_mod.F90:139-200 -/
inductive Call (R : Type) where
  | init (tblSize : Int)
  | add (name units vertDim : List Char) (advected thermo water : Bool) (default minVal : R)
  | lockTable
  | lockData (numLayers : Int)
  | reset
  | copyOut (sel : Sel) (a : Arr R)
  | setThermo (id : Nat) (b : Bool)
  | setWater (id : Nat) (b : Bool)
  | setMinimum (id : Nat) (v : R)

/-- Heap, next free address, and the object. Notation: program state of the calls. -/
structure Sys (R : Type) where
  heap : Heap R
  next : Nat
  obj : Obj R

/-- The pointer returned by allocating and instantiating (ccp_instantiate,
ccpp_constituent_prop_mod.F90:376-466; the names are trimmed there). -/
def newPtr (next : Nat) (name units vertDim : List Char) (advected : Bool) (default : R) : Ptr R :=
  { id := next, name := rtrim name, units := rtrim units, vertDim := rtrim vertDim,
    advected := advected, default := default }

/-- One call; `none` is a crash.  errcode variables are zero on entry.
Dispatch to the procedures of src/ccpp_constituent_prop_mod.F90:1184-1869. -/
def step (zero : R) (s : Sys R) : Call R → Option (Sys R × Int)
  | .init k => some ({ s with obj := initObj s.obj k }, 0)
  | .add name units vd adv th wa d mn =>
    let heap := fun j => if j = s.next
      then { constInd := none, thermo := th, water := wa, minVal := mn } else s.heap j
    let r := addMetadata heap s.obj (newPtr s.next name units vd adv d) 0
    some ({ heap := heap, next := s.next + 1, obj := r.1 }, r.2)
  | .lockTable =>
    match lockTable s.heap s.obj with
    | .done h o e => some ({ s with heap := h, obj := o }, e)
    | .crash => none
  | .lockData nl =>
    let r := lockData zero s.heap s.obj nl
    some ({ s with obj := r.1 }, r.2)
  | .reset => some ({ s with obj := reset s.obj true }, 0)
  | .copyOut sel a =>
    let r := copyOut s.heap s.obj sel a
    some ({ s with obj := r.1 }, r.2)
  | .setThermo id b =>
    some ({ s with heap := fun j => if j = id then { s.heap j with thermo := b } else s.heap j }, 0)
  | .setWater id b =>
    some ({ s with heap := fun j => if j = id then { s.heap j with water := b } else s.heap j }, 0)
  | .setMinimum id v =>
    some ({ s with heap := fun j => if j = id then { s.heap j with minVal := v } else s.heap j }, 0)

/-- A history of calls, none of which crashes, with the final state.
Notation: call sequences of the bindings at src/ccpp_constituent_prop_mod.F90:139-200. -/
inductive History (zero : R) : List (Call R) → Sys R → Prop where
  | start (h : Heap R) : History zero [] { heap := h, next := 0, obj := fresh }
  | snoc {cs s c s' e} : History zero cs s → step zero s c = some (s', e) →
      (∀ k, c = .init k → 0 ≤ k) → History zero (cs ++ [c]) s'

end Ccpp.Const
