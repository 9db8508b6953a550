import Verif.Model.VarCompat
import Verif.Model.Conditions
/-!
# Model of the debug checks of a group (`ccpp_capgen --debug`)

`Scheme.add_var_debug_check`, `replace_horiz_dim_debug_check`, `write_var_debug_check` and the place of the checks in `Scheme.write`
(scripts/suite_objects.py:1298-1556, 1744-1776).

The Fortran statements that are written are data (`Basic`, `Guarded`), and `render` gives their text without comments and empty lines; `exec` is the
meaning of the statements by the Fortran standard.  A raised exception is `Except.error`.

Simplifications: a dictionary is the list of its standard names with their local names; the constant `ccpp_constant_one` is found in every
dictionary (metavar.py:1799-1800); values are integers.
-/
namespace Ccpp.DC
open PB (Str)

/-- A dictionary: local names by standard name, metavar.py:1493-1564 -/
abbrev Dict := List (Str × Str)

/-- find_variable with any_scope=False, metavar.py:1799-1813 -/
def Dict.find (d : Dict) (n : Str) : Option Str :=
  if n = "ccpp_constant_one".toList then some "1".toList else d.lookup n

/-- The loops `for var_dict in cldicts`, suite_objects.py:1398-1401, 1406-1409, 1507-1510, 1524-1527, 1532-1535 -/
def look (ds : List Dict) (n : Str) : Option Str := ds.findSome? fun d => Dict.find d n

/-- What the functions see when a scheme is written, suite_objects.py:1745-1748: the phase, whether the scheme finds `horizontal_loop_extent`
(line 1388), the dictionaries of the group, of its call list and of the suites, the dictionaries with those of their parents for the conditions,
and the intents in the call list of the scheme (line 1469). -/
structure Ctx where
  run : Bool
  loopExt : Bool
  group : Dict
  call : Dict
  suites : List Dict
  scopes : List Dict
  intents : List (Str × Str)

/-- cldicts, suite_objects.py:1747-1748 -/
def Ctx.dicts (c : Ctx) : List Dict := c.group :: c.call :: c.suites

/-- A variable with a debug check, suite_objects.py:1377, and the local name of its internal variable. -/
structure Check where
  std : Str
  dims : List Str
  active : Str
  allocatable : Bool
  ivar : Str

/-- An expression for the length of a dimension: `1` or `u-l+1`, suite_objects.py:1414, 1514, 1540 -/
inductive Len where
  | one
  | ext (u l : Str)
deriving DecidableEq

/-- A subscript in the size check: `:`, a name, or `l:u`, suite_objects.py:1419, 1423, 1515, 1541 -/
inductive Sub where
  | all
  | at (n : Str)
  | rng (l u : Str)
deriving DecidableEq

/-- A subscript of the first or the last element: a name, `1` or `u-l+1`, suite_objects.py:1420-1425, 1516-1517, 1542-1543 -/
inductive Ix where
  | nm (n : Str)
  | one
  | ext (u l : Str)
deriving DecidableEq

/-- The four texts for one dimension, suite_objects.py:1426, 1514-1517, 1540-1543 -/
structure Part where
  len : Len
  sub : Sub
  lo : Ix
  hi : Ix
deriving DecidableEq

/-- The statements, suite_objects.py:1487, 1562-1568, 1583-1584 -/
inductive Basic where
  | copy (dst src : Str)
  | check (x : Str) (subs : List Sub) (lens : List Len)
  | elem (dst x : Str) (ixs : List Ix)
deriving DecidableEq

/-- Statements in `if cond then … end if`, or without a condition, suite_objects.py:1482-1491, 1558-1571, 1578-1587 -/
structure Guarded where
  cond : Option Str
  body : List Basic
deriving DecidableEq

/-- The local name of a dimension, or the exception, suite_objects.py:1402-1404, 1410-1412, 1511-1513, 1528-1530, 1536-1538 -/
def known (c : Ctx) (n : Str) : Except String Str :=
  match look c.dicts n with
  | some l => .ok l
  | none => .error "No variable with this standard name in cldicts"

/-- The standard names of the bounds of a horizontal dimension, suite_objects.py:1386-1396 -/
def horizNames (c : Ctx) (inCall : Bool) : Str × Str :=
  if c.run then
    if inCall && c.loopExt then ("ccpp_constant_one".toList, "horizontal_loop_extent".toList)
    else ("horizontal_loop_begin".toList, "horizontal_loop_end".toList)
  else ("ccpp_constant_one".toList, "horizontal_dimension".toList)

/-- replace_horiz_dim_debug_check, suite_objects.py:1379-1426 -/
def horizPart (c : Ctx) (inCall : Bool) : Except String Part :=
  (known c (horizNames c inCall).1).bind fun l =>
    (known c (horizNames c inCall).2).bind fun u =>
      if inCall then .ok ⟨.ext u l, .all, .one, .ext u l⟩
      else .ok ⟨.ext u l, .rng l u, .nm l, .nm u⟩

/-- `dim.split(":")` (Python library), suite_objects.py:1522 -/
def splitColon : Str → List Str
  | [] => [[]]
  | ch :: s =>
    if ch = ':' then [] :: splitColon s
    else match splitColon s with
      | [] => [[ch]]
      | p :: ps => (ch :: p) :: ps

/-- The body of the loop over the dimensions, suite_objects.py:1502-1544 -/
def dimPart (c : Ctx) (inCall : Bool) (dim : Str) : Except String Part :=
  if ':' ∉ dim then (known c dim).bind fun n => .ok ⟨.one, .at n, .nm n, .nm n⟩
  else if VC.isHoriz dim then horizPart c inCall
  else
    match splitColon dim with
    | [ld, ud] =>
      (known c ld).bind fun l => (known c ud).bind fun u => .ok ⟨.ext u l, .all, .nm l, .nm u⟩
    | _ => .error "too many values to unpack"

/-- The loop over the dimensions, suite_objects.py:1498-1549 -/
def dimParts (c : Ctx) (inCall : Bool) : List Str → Except String (List Part)
  | [] => .ok []
  | d :: ds => (dimPart c inCall d).bind fun p => (dimParts c inCall ds).bind fun ps => .ok (p :: ps)

/-- The local name of the variable in the group and whether it is an argument of the group, suite_objects.py:1441-1461 -/
def target (c : Ctx) (std : Str) : Except String (Str × Bool) :=
  match Dict.find c.call std with
  | some l => .ok (l, true)
  | none =>
    match Dict.find c.group std with
    | some l => .ok (l, false)
    | none =>
      match look c.suites std with
      | some l => .ok (l, false)
      | none => .error "No variable with this standard name in cldicts"

/-- The condition as the if statements have it, suite_objects.py:1482, 1558, 1578 -/
def guardOf (t : Str) : Option Str := if t = ".true.".toList then none else some t

/-- write_var_debug_check, suite_objects.py:1428-1588 -/
def emit (c : Ctx) (k : Check) : Except String (List Guarded) :=
  (target c k.std).bind fun t =>
    match c.intents.lookup k.std with
    | none => .error "'NoneType' object has no attribute 'get_prop_value'"
    | some intent =>
      if intent = "out".toList ∧ k.allocatable = true then .ok []
      else
        match CD.capgen c.scopes k.active with
        | none => .error "Cannot find variable for generating conditional"
        | some (cond, _) =>
          if k.dims = [] then
            if intent = "out".toList then .ok [] else .ok [⟨guardOf cond, [.copy k.ivar t.1]⟩]
          else
            (dimParts c t.2 k.dims).bind fun ps =>
              let chk : Guarded := ⟨guardOf cond, [.check t.1 (ps.map Part.sub) (ps.map Part.len)]⟩
              if intent = "out".toList then .ok [chk]
              else .ok [chk, ⟨guardOf cond, [.elem k.ivar t.1 (ps.map Part.lo), .elem k.ivar t.1 (ps.map Part.hi)]⟩]

/-- The loop over the checks of a scheme, suite_objects.py:1767-1769 -/
def emitAll (c : Ctx) : List Check → Except String (List Guarded)
  | [] => .ok []
  | k :: ks => (emit c k).bind fun g => (emitAll c ks).bind fun gs => .ok (g ++ gs)

/-! ### The texts -/

/-- Text of a length, suite_objects.py:1414, 1514, 1540 -/
def Len.text : Len → Str
  | .one => "1".toList
  | .ext u l => u ++ "-".toList ++ l ++ "+1".toList

/-- Text of a subscript, suite_objects.py:1419, 1423, 1515, 1541 -/
def Sub.text : Sub → Str
  | .all => ":".toList
  | .at n => n
  | .rng l u => l ++ ":".toList ++ u

/-- Text of a subscript, suite_objects.py:1420-1425, 1516-1517, 1542-1543 -/
def Ix.text : Ix → Str
  | .nm n => n
  | .one => "1".toList
  | .ext u l => u ++ "-".toList ++ l ++ "+1".toList

/-- `'(' + ','.join(l) + ')'`, suite_objects.py:1553-1555 -/
def paren (l : List Str) : Str := "(".toList ++ List.intercalate ",".toList l ++ ")".toList

/-- array_size, suite_objects.py:1498, 1549 -/
def sizeText (l : List Len) : Str := l.foldl (fun a x => a ++ "*(".toList ++ x.text ++ ")".toList) "1".toList

/-- The lines of a statement, suite_objects.py:1487, 1563-1568, 1583-1584.  Simplification: without the first line of the error message. -/
def Basic.text (errcode errmsg : Str) : Basic → List Str
  | .copy d s => [d ++ " = ".toList ++ s]
  | .check x subs lens =>
    ["if (size(".toList ++ x ++ paren (subs.map Sub.text) ++ ") /= ".toList ++ sizeText lens ++ ") then".toList,
     "write(".toList ++ errmsg ++ ", '(2(a,i8))') 'for array ".toList ++ x ++ ", expected size ', ".toList ++ sizeText lens
       ++ ", ' but got ', size(".toList ++ x ++ ")".toList,
     errcode ++ " = 1".toList, "return".toList, "end if".toList]
  | .elem d x ixs => [d ++ " = ".toList ++ x ++ paren (ixs.map Ix.text)]

/-- The lines with the condition, suite_objects.py:1482-1491, 1558-1571, 1578-1587 -/
def Guarded.text (errcode errmsg : Str) (g : Guarded) : List Str :=
  match g.cond with
  | none => g.body.flatMap (Basic.text errcode errmsg)
  | some t => ("if ".toList ++ t ++ " then".toList) :: g.body.flatMap (Basic.text errcode errmsg) ++ ["end if".toList]

/-! ### add_var_debug_check -/

/-- A variable of the group, the suite or the host that a scheme asks for, suite_objects.py:1298-1311, 1328-1334 -/
structure DVar where
  std : Str
  dims : List Str
  active : Str
  allocatable : Bool
  vtype : Str
  kind : Str
  ddt : Bool

/-- `s.replace("=","_")` (Python library), suite_objects.py:1336, 1338 -/
def undEq (s : Str) : Str := s.map fun ch => if ch = '=' then '_' else ch

/-- The local name of the internal variable, suite_objects.py:1328-1338 -/
def internalName (v : DVar) : Str :=
  let kind := if v.ddt then [] else v.kind
  if kind = [] then "internal_var_".toList ++ undEq v.vtype
  else "internal_var_".toList ++ undEq v.vtype ++ "_".toList ++ undEq kind

/-- Whether a variable gets a check at all, suite_objects.py:1314-1319 -/
def wanted (v : DVar) : Bool :=
  !(decide (lower v.active = ".false.".toList) || decide (v.std = "ccpp_error_code".toList) || decide (v.std = "ccpp_error_message".toList))

/-- The standard names of the dimensions that are put into the call list of the group, suite_objects.py:1357-1374.  `sees`: what the scheme finds. -/
def dimNames (sees : Str → Bool) : List Str → Except String (List Str)
  | [] => .ok []
  | d :: ds =>
    if ':' ∉ d then
      if sees d then (dimNames sees ds).bind fun r => .ok (d :: r) else .error "No dimension with this standard name"
    else
      match splitColon d with
      | [l, u] =>
        if sees l then
          if sees u then (dimNames sees ds).bind fun r => .ok (l :: u :: r) else .error "No dimension with this standard name"
        else .error "No dimension with this standard name"
      | _ => .error "too many values to unpack"

/-- add_var_debug_check: the check, if any, and the variables that are put into the call list of the group (those of the condition, then the
dimensions), suite_objects.py:1298-1377.  Simplification: the update of the call list itself (`update_group_call_list_variable`) and the
declaration of the internal variable are not part of this function. -/
def addCheck (scopes : List Dict) (sees : Str → Bool) (v : DVar) : Except String (Option (Check × List Str)) :=
  if wanted v then
    match CD.capgen scopes v.active with
    | none => .error "Cannot find variable for generating conditional"
    | some (_, needed) =>
      (dimNames sees v.dims).bind fun ds =>
        .ok (some (⟨v.std, v.dims, v.active, v.allocatable, internalName v⟩, needed ++ ds))
  else .ok none

/-! ### The meaning of the statements -/

/-- An array: its bounds and its elements (Fortran standard, for the code written at suite_objects.py:1488-1588). -/
structure Arr where
  bounds : List (Int × Int)
  val : List Int → Int

/-- The variables that exist: numbers by name and arrays by name (Fortran standard, for the code written at suite_objects.py:1488-1588).  An array that is not allocated or not present is `none`. -/
structure State where
  mem : Str → Option Int
  arr : Str → Option Arr

/-- What happens: execution goes on, or the group returns with an error code and the two numbers of the message, or the program refers to something
that does not exist (Fortran standard, for the code written at suite_objects.py:1488-1588). -/
inductive Outcome where
  | cont (s : State)
  | stop (code expected got : Int)
  | undef

/-- The value of a local name or of the literal 1 (Fortran standard, for the code written at suite_objects.py:1488-1588). -/
def State.num (s : State) (n : Str) : Option Int := if n = "1".toList then some 1 else s.mem n

/-- The value of `u-l+1` (Fortran standard, for the code written at suite_objects.py:1488-1588). -/
def State.ext (s : State) (u l : Str) : Option Int := (s.num u).bind fun a => (s.num l).map fun b => a - b + 1

/-- The value of a length (Fortran standard, for the code written at suite_objects.py:1488-1588). -/
def Len.eval (s : State) : Len → Option Int
  | .one => some 1
  | .ext u l => s.ext u l

/-- The value of a subscript (Fortran standard, for the code written at suite_objects.py:1488-1588). -/
def Ix.eval (s : State) : Ix → Option Int
  | .nm n => s.num n
  | .one => some 1
  | .ext u l => s.ext u l

/-- The number of elements from a lower to an upper bound (Fortran standard, for the code written at suite_objects.py:1488-1588). -/
def extent (b : Int × Int) : Int := max 0 (b.2 - b.1 + 1)

/-- The number of elements of a section along one dimension (Fortran standard, for the code written at suite_objects.py:1488-1588). -/
def Sub.size (s : State) (b : Int × Int) : Sub → Option Int
  | .all => some (extent b)
  | .at n => (s.num n).bind fun i => if b.1 ≤ i ∧ i ≤ b.2 then some 1 else none
  | .rng l u => (s.num l).bind fun i => (s.num u).bind fun j =>
      if j < i then some 0 else if b.1 ≤ i ∧ j ≤ b.2 then some (j - i + 1) else none

/-- A subscript that selects a section and not one element (Fortran standard, for the code written at suite_objects.py:1488-1588). -/
def Sub.isSlice : Sub → Bool
  | .at _ => false
  | _ => true

/-- All values of a list, if all are defined (Fortran standard, for the code written at suite_objects.py:1488-1588). -/
def allSome : List (Option Int) → Option (List Int)
  | [] => some []
  | none :: _ => none
  | some a :: l => (allSome l).map (a :: ·)

/-- The number of elements of a section; the number of subscripts is the rank, and a scalar has no size (Fortran standard, for the code written at suite_objects.py:1488-1588). -/
def sectionSize (s : State) (a : Arr) (subs : List Sub) : Option Int :=
  if subs.length = a.bounds.length ∧ subs.any Sub.isSlice = true then
    (allSome ((subs.zip a.bounds).map fun p => p.1.size s p.2)).map List.prod
  else none

/-- The element with these subscripts, if there is one (Fortran standard, for the code written at suite_objects.py:1488-1588). -/
def element (a : Arr) (ix : List Int) : Option Int :=
  if ix.length = a.bounds.length ∧ ∀ p ∈ ix.zip a.bounds, p.2.1 ≤ p.1 ∧ p.1 ≤ p.2.2 then some (a.val ix) else none

/-- Assignment (Fortran standard, for the code written at suite_objects.py:1488-1588). -/
def State.set (s : State) (n : Str) (v : Int) : State := { s with mem := fun m => if m = n then some v else s.mem m }

/-- The value of the right-hand side, or nothing (Fortran standard, for the code written at suite_objects.py:1488-1588). -/
def assign (s : State) (dst : Str) : Option Int → Outcome
  | some v => .cont (s.set dst v)
  | none => .undef

/-- The meaning of a statement (Fortran standard, for the code written at suite_objects.py:1488-1588). -/
def Basic.exec (s : State) : Basic → Outcome
  | .copy d x => assign s d (s.mem x)
  | .check x subs lens =>
    match s.arr x with
    | none => .undef
    | some a =>
      match sectionSize s a subs, allSome (lens.map (Len.eval s)) with
      | some g, some es => if g ≠ es.prod then .stop 1 es.prod ((a.bounds.map extent).prod) else .cont s
      | _, _ => .undef
  | .elem d x ixs =>
    match s.arr x, allSome (ixs.map (Ix.eval s)) with
    | some a, some is => assign s d (element a is)
    | _, _ => .undef

/-- A sequence of statements (Fortran standard, for the code written at suite_objects.py:1488-1588). -/
def execL (s : State) : List Basic → Outcome
  | [] => .cont s
  | b :: bs =>
    match b.exec s with
    | .cont s' => execL s' bs
    | o => o

/-- An if construct (Fortran standard, for the code written at suite_objects.py:1488-1588); `ev` is the value of a condition. -/
def Guarded.exec (ev : Str → (Str → Option Int) → Bool) (s : State) (g : Guarded) : Outcome :=
  match g.cond with
  | none => execL s g.body
  | some t => if ev t s.mem then execL s g.body else .cont s

/-- A sequence of if constructs (Fortran standard, for the code written at suite_objects.py:1488-1588). -/
def execG (ev : Str → (Str → Option Int) → Bool) (s : State) : List Guarded → Outcome
  | [] => .cont s
  | g :: gs =>
    match g.exec ev s with
    | .cont s' => execG ev s' gs
    | o => o

end Ccpp.DC
