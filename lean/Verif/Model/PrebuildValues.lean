import Verif.Model.PrebuildArgs
/-!
# Model of the code around the calls in the group caps of ccpp_prebuild, and of its execution

`Group.write` (scripts/mkstatic.py:1554-1850): for every argument of a call the temporary variable and the pointer it needs, the statements
before the call (allocation, copies from blocked data, unit conversion, pointer assignment), the actual argument, and the statements after
the call; and the execution of these statements (Fortran).

Simplifications: a statement is a constructor with the names in it, not its text; the sections of arrays (mkstatic.py:1356-1520) are the
subject of `Model/PrebuildSections.lean`, here a reference to a variable of the host stands for the section that the scheme has to see;
the tests of the debug mode are not modelled here; the target of a variable is its name in the host (ccpp_prebuild.py:524-526).
An array is the list of its columns in the horizontal dimension (a column holds the values along all other dimensions); a variable
in a blocked data structure is the list of its blocks, any other variable is one block.  The values of newly allocated
variables are arbitrary (`junk`).  Every thread has its own pointer, one of them is modelled.
-/
namespace Ccpp.PV
open PB (Str)
open PA (Intent inText)

/-- An argument of a call: the name in the scheme, the name of the variable of the host (`local_vars[...]['name']`), whether it is an array,
the intent, the formulas of the unit conversion (into the units of the scheme, and back), the condition under which the variable of the host is
allocated, whether one of the dimensions is `ccpp_constant_one:horizontal_dimension`, and `dim_string`. mkstatic.py:1346-1558 -/
structure Arg where
  loc : Str
  key : Str
  arr : Bool
  intent : Intent
  conv : Option (Str × Str)
  cond : Str
  hdim : Bool
  dims : Str

/-- `var.actions['in']`, ccpp_prebuild.py:476-487 -/
def Arg.actIn (a : Arg) : Option Str := if a.intent = .out then none else a.conv.map (·.1)
/-- `var.actions['out']`, ccpp_prebuild.py:476-487 -/
def Arg.actOut (a : Arg) : Option Str := if a.intent = .in then none else a.conv.map (·.2)

/-- The text that is always true, mkstatic.py:1181-1182 -/
def trueText : Str := ".true.".toList

/-- The variable is in a blocked data structure, mkstatic.py:1575, common.py:62 -/
def blocked (k : Str) : Bool := inText "cdata%blk_no".toList k
/-- The variable belongs to a thread, mkstatic.py:1727, common.py:63 -/
def threaded (k : Str) : Bool := inText "cdata%thrd_no".toList k

/-- The blocks are copied into one array, mkstatic.py:1573-1576; the flag is true in the run phase -/
def deblock (run : Bool) (a : Arg) : Bool := !run && blocked a.key && a.hdim
/-- The argument is refused, mkstatic.py:1719-1729 -/
def refused (run : Bool) (a : Arg) : Bool := !run && !deblock run a && (blocked a.key || threaded a.key)
/-- A temporary variable for a unit conversion alone is needed, mkstatic.py:1732 -/
def converts (run : Bool) (a : Arg) : Bool := !deblock run a && (a.actIn.isSome || a.actOut.isSome)
/-- The variable may be unallocated: a pointer is needed, mkstatic.py:1562 -/
def optional (a : Arg) : Bool := a.cond != trueText

/-- The statements, mkstatic.py:1632-1811 -/
inductive Stmt where
  /-- `allocate(t(…))` with the section of the variable, mkstatic.py:1749 -/
  | alloc (t key : Str)
  /-- `allocate(t(…,1:horizontal_dimension,…))`, mkstatic.py:1633 -/
  | allocAll (t : Str)
  /-- `deallocate(t)`, mkstatic.py:1654, 1664, 1773 -/
  | dealloc (t : Str)
  /-- The loop that copies the blocks into an array, mkstatic.py:1634-1638 -/
  | gather (t key : Str)
  /-- The loop that copies an array into the blocks, mkstatic.py:1649-1653 -/
  | scatter (key t : Str)
  /-- `t = formula(t)`, mkstatic.py:1672-1675, 1688-1691 -/
  | convert (t f : Str)
  /-- `t = formula(variable)dims`, mkstatic.py:1752-1755 -/
  | convIn (t f key dims : Str)
  /-- `variable dims = formula(t)`, mkstatic.py:1763-1766 -/
  | convOut (key f t : Str)
  /-- `p => t`, mkstatic.py:1683, 1758 -/
  | pointTmp (p t : Str)
  /-- `p => variable`, mkstatic.py:1805 -/
  | pointHost (p key : Str)
  /-- `nullify(p)`, mkstatic.py:1696, 1769, 1810 -/
  | nullify (p : Str)
deriving DecidableEq

/-- The actual argument: a temporary variable (the flag: it is an array), a pointer or a variable of the host,
mkstatic.py:1711-1716, 1789-1794, 1828-1833 -/
inductive Actual where
  | host (key : Str)
  | tmp (t : Str) (arr : Bool)
  | ptr (p : Str)
deriving DecidableEq

/-- `tmpvars` and `tmpptrs`: the local names by the names of the variables of the host; the counters are the lengths. mkstatic.py:1094-1098 -/
structure Tmps where
  tmps : List (Str × Str)
  ptrs : List (Str × Str)

/-- `d[k]` (Python library) -/
def lookup : List (Str × Str) → Str → Option Str
  | [], _ => none
  | e :: l, k => if e.1 = k then some e.2 else lookup l k

/-- Reuse the entry or add one with the next number, mkstatic.py:1564-1571, 1578-1585, 1738-1746 -/
def ensure (l : List (Str × Str)) (k : Str) (mk : Nat → Str) : List (Str × Str) :=
  if (lookup l k).isSome then l else l ++ [(k, mk (l.length + 1))]

/-- A number in a text (Python library) -/
def dec (n : Nat) : Str := Nat.toDigits 10 n

/-- `'tmpvar_{0}'`, mkstatic.py:1745 -/
def convName (n : Nat) : Str := "tmpvar_".toList ++ dec n
/-- `'{0}_{1}_local'`, mkstatic.py:1585 -/
def localName (loc : Str) (n : Nat) : Str := loc ++ '_' :: (dec n ++ "_local".toList)
/-- `'{0}_{1}_ptr'`, mkstatic.py:1569 -/
def ptrName (loc : Str) (n : Nat) : Str := loc ++ '_' :: (dec n ++ "_ptr".toList)

/-- The temporary variables and pointers after an argument, mkstatic.py:1561-1585, 1738-1746 -/
def register (run : Bool) (s : Tmps) (a : Arg) : Tmps where
  ptrs := if optional a then ensure s.ptrs a.key (ptrName a.loc) else s.ptrs
  tmps :=
    if deblock run a then ensure s.tmps a.key (localName a.loc)
    else if converts run a then ensure s.tmps a.key convName else s.tmps

/-- The local name of the temporary variable, mkstatic.py:1579, 1740 -/
def tmpOf (s : Tmps) (a : Arg) : Str := (lookup s.tmps a.key).getD []
/-- The local name of the pointer, mkstatic.py:1565 -/
def ptrOf (s : Tmps) (a : Arg) : Str := (lookup s.ptrs a.key).getD []

/-- `actions_in`, mkstatic.py:1632-1684, 1733-1759, 1802-1807 -/
def before (run : Bool) (s : Tmps) (a : Arg) : List Stmt :=
  if deblock run a then
    [.allocAll (tmpOf s a), .gather (tmpOf s a) a.key] ++
    (match a.actIn with | some f => [.convert (tmpOf s a) f] | none => []) ++
    (if optional a then [.pointTmp (ptrOf s a) (tmpOf s a)] else [])
  else if converts run a then
    (if a.arr then [.alloc (tmpOf s a) a.key] else []) ++
    (match a.actIn with
     | some f => [.convIn (tmpOf s a) f a.key a.dims] ++ (if optional a then [.pointTmp (ptrOf s a) (tmpOf s a)] else [])
     | none => [])
  else if optional a then [.pointHost (ptrOf s a) a.key] else []

/-- `actions_out`, mkstatic.py:1646-1696, 1761-1773, 1808-1810 -/
def after (run : Bool) (s : Tmps) (a : Arg) : List Stmt :=
  if deblock run a then
    (match a.actOut with | some f => [.convert (tmpOf s a) f] | none => []) ++
    (if a.intent = .in then [] else [.scatter a.key (tmpOf s a)]) ++ [.dealloc (tmpOf s a)] ++
    (if optional a then [.nullify (ptrOf s a)] else [])
  else if converts run a then
    (match a.actOut with
     | some f => [.convOut a.key f (tmpOf s a)] ++ (if optional a then [.nullify (ptrOf s a)] else [])
     | none => []) ++
    (if a.arr then [.dealloc (tmpOf s a)] else [])
  else if optional a then [.nullify (ptrOf s a)] else []

/-- The actual argument, mkstatic.py:1711-1716, 1789-1794, 1828-1833 -/
def actual (run : Bool) (s : Tmps) (a : Arg) : Actual :=
  if optional a then .ptr (ptrOf s a)
  else if deblock run a then .tmp (tmpOf s a) true
  else if converts run a then .tmp (tmpOf s a) a.arr
  else .host a.key

/-- A call: the statements before (every list under its condition), the actual arguments (name in the scheme, intent), the statements after,
mkstatic.py:1843-1850 -/
structure Code where
  before : List (Str × List Stmt)
  args : List (Str × Intent × Actual)
  after : List (Str × List Stmt)

/-- The loop over the arguments of a call, mkstatic.py:1346-1842.  An empty list of statements is written as an empty block (or, for an ordinary
variable, not at all: mkstatic.py:1812-1825), which has no effect. -/
def genArgs (run : Bool) : Tmps → List Arg → Option (Tmps × Code)
  | s, [] => some (s, ⟨[], [], []⟩)
  | s, a :: as =>
    if refused run a then none
    else
      let s := register run s a
      (genArgs run s as).map fun r =>
        (r.1, ⟨(a.cond, before run s a) :: r.2.before, (a.loc, a.intent, actual run s a) :: r.2.args, (a.cond, after run s a) :: r.2.after⟩)

/-- The calls of a group in a phase: the temporary variables are shared, mkstatic.py:1094-1098, 1109-1122 -/
def genCalls (run : Bool) : Tmps → List (List Arg) → Option (Tmps × List Code)
  | s, [] => some (s, [])
  | s, c :: cs => (genArgs run s c).bind fun r => (genCalls run r.1 cs).map fun r' => (r'.1, r.2 :: r'.2)

/-- A new subroutine starts without temporary variables, mkstatic.py:1094-1098 -/
def genGroup (run : Bool) (cs : List (List Arg)) : Option (Tmps × List Code) := genCalls run ⟨[], []⟩ cs

/-- The names of the local variables of a cap: temporary variables, arrays of pointers, and the counters of the loops over blocks,
mkstatic.py:237-252, 1628, 1918 -/
def localNames (run : Bool) (s : Tmps) (cs : List (List Arg)) : List Str :=
  s.tmps.map (·.2) ++ s.ptrs.map (fun e => e.2 ++ "_array".toList) ++
  (if cs.any (fun c => c.any (deblock run)) then ["ib".toList, "nb".toList] else [])

/-! ## Execution -/

/-- The variables of the host, every one as its blocks (data in Fortran; blocks: common.py:62, mkstatic.py:1575) -/
abbrev Host (V : Type) := Str → List (List V)

/-- What a pointer is associated with (Fortran; mkcap.py:339-361) -/
inductive Ptr where
  | null
  | host (key : Str)
  | tmp (t : Str)
  /-- the variable has been deallocated -/
  | dangling
deriving DecidableEq

/-- The memory of a cap: the variables of the host, the allocated (or assigned) temporary variables, the pointers (Fortran; mkstatic.py:1094-1098). -/
structure Mem (V : Type) where
  host : Host V
  tmp : Str → Option (List V)
  ptr : Str → Ptr

/-- The surroundings of a call (Fortran; mkstatic.py:1632-1696): the number of the current block (from 0), the sizes of the blocks, the horizontal dimension,
the values of variables that have not been set, the meaning of the formulas, and the values of the conditions -/
structure Env (V : Type) where
  blk : Nat
  sizes : List Nat
  hdim : Nat
  junk : Str → Nat → V
  fn : Str → V → V
  active : Str → Host V → Bool

/-- A scheme: from the values of its present arguments to their values afterwards (Fortran; called in mkstatic.py:1843-1850) -/
abbrev Scheme (V : Type) := (Str → Option (List V)) → Str → List V

/-- The block that a name refers to (common.py:62) -/
def index {V} (env : Env V) (k : Str) : Nat := if blocked k then env.blk else 0

/-- Change one value of a function (Fortran: assignment; mkstatic.py:1634-1691) -/
def upd {β} (f : Str → β) (k : Str) (v : β) : Str → β := fun x => if x = k then v else f x

/-- The value of a variable of the host (Fortran; mkstatic.py:1752-1755) -/
def readHost {V} (env : Env V) (h : Host V) (k : Str) : Option (List V) := (h k)[index env k]?

/-- Assignment to a variable of the host; the shapes must conform (Fortran; mkstatic.py:1763-1766) -/
def writeHost {V} (env : Env V) (h : Host V) (k : Str) (v : List V) : Option (Host V) :=
  match readHost env h k with
  | some old => if old.length = v.length then some (upd h k ((h k).set (index env k) v)) else none
  | none => none

/-- The loop `ib = 1; do nb = 1, block_count; tmp(ib:ib+size-1) = var; ib = ib+size; end do`, mkstatic.py:1634-1638.
An error is: no such block, a block of another size, an index outside the array. -/
def gatherLoop {V} : List Nat → List (List V) → Nat → List V → Option (List V)
  | [], _, _, t => some t
  | _ :: _, [], _, _ => none
  | n :: ns, b :: bs, ib, t =>
    if b.length = n ∧ ib + n ≤ t.length + 1 then
      gatherLoop ns bs (ib + n) (t.take (ib - 1) ++ b ++ t.drop (ib - 1 + n))
    else none

/-- The loop `ib = 1; do nb = 1, block_count; var = tmp(ib:ib+size-1); ib = ib+size; end do`, mkstatic.py:1649-1653 -/
def scatterLoop {V} : List Nat → List (List V) → Nat → List V → Option (List (List V))
  | [], bs, _, _ => some bs
  | _ :: _, [], _, _ => none
  | n :: ns, b :: bs, ib, t =>
    if b.length = n ∧ ib + n ≤ t.length + 1 then
      (scatterLoop ns bs (ib + n) t).map fun r => (t.drop (ib - 1)).take n :: r
    else none

/-- The text `{var}` is at the end of a formula; only then may dimensions follow (unit_conversion.py:18-180; Fortran) -/
def endsInVar (f : Str) : Bool := "}rav{".toList.isPrefixOf f.reverse

/-- The pointers after a variable has been deallocated (Fortran; mkstatic.py:1654, 1664, 1773) -/
def kill (ptr : Str → Ptr) (t : Str) : Str → Ptr := fun p => if ptr p = .tmp t then .dangling else ptr p

/-- Execution of a statement; none is an error (Fortran; the statements of mkstatic.py:1632-1811) -/
def exec {V} (env : Env V) (m : Mem V) : Stmt → Option (Mem V)
  | .alloc t k =>
    match m.tmp t, readHost env m.host k with
    | none, some v => some { m with tmp := upd m.tmp t (some ((List.range v.length).map (env.junk t))) }
    | _, _ => none
  | .allocAll t =>
    match m.tmp t with
    | none => some { m with tmp := upd m.tmp t (some ((List.range env.hdim).map (env.junk t))) }
    | some _ => none
  | .dealloc t =>
    match m.tmp t with
    | some _ => some { m with tmp := upd m.tmp t none, ptr := kill m.ptr t }
    | none => none
  | .gather t k =>
    match m.tmp t with
    | some v => (gatherLoop env.sizes (m.host k) 1 v).map fun v => { m with tmp := upd m.tmp t (some v) }
    | none => none
  | .scatter k t =>
    match m.tmp t with
    | some v => (scatterLoop env.sizes (m.host k) 1 v).map fun bs => { m with host := upd m.host k bs }
    | none => none
  | .convert t f =>
    match m.tmp t with
    | some v => some { m with tmp := upd m.tmp t (some (v.map (env.fn f))) }
    | none => none
  | .convIn t f k dims =>
    if dims.isEmpty || endsInVar f then
      (readHost env m.host k).map fun v => { m with tmp := upd m.tmp t (some (v.map (env.fn f))) }
    else none
  | .convOut k f t =>
    match m.tmp t with
    | some v => (writeHost env m.host k (v.map (env.fn f))).map fun h => { m with host := h }
    | none => none
  | .pointTmp p t => some { m with ptr := upd m.ptr p (.tmp t) }
  | .pointHost p k => some { m with ptr := upd m.ptr p (.host k) }
  | .nullify p => some { m with ptr := upd m.ptr p .null }

/-- Execution of statements (mkstatic.py:1632-1811) -/
def execList {V} (env : Env V) : Mem V → List Stmt → Option (Mem V)
  | m, [] => some m
  | m, s :: l => (exec env m s).bind fun m => execList env m l

/-- Execution of `if (condition) then … end if` blocks, mkstatic.py:1699-1709, 1776-1786, 1813-1825 -/
def execBlocks {V} (env : Env V) : Mem V → List (Str × List Stmt) → Option (Mem V)
  | m, [] => some m
  | m, b :: l => (if env.active b.1 m.host then execList env m b.2 else some m).bind fun m => execBlocks env m l

/-- The value of an actual argument: `some none` is an absent argument (a null pointer), none an error (Fortran; mkstatic.py:1711-1716, 1789-1794, 1828-1833) -/
def readActual {V} (env : Env V) (m : Mem V) : Actual → Option (Option (List V))
  | .host k => (readHost env m.host k).map some
  | .tmp t arr =>
    match m.tmp t with
    | some v => some (some v)
    | none => if arr then none else some (some [env.junk t 0])
  | .ptr p =>
    match m.ptr p with
    | .null => some none
    | .host k => (readHost env m.host k).map some
    | .tmp t => (m.tmp t).map some
    | .dangling => none

/-- The values of the arguments (mkstatic.py:1843-1850) -/
def readAll {V} (env : Env V) (m : Mem V) : List (Str × Intent × Actual) → Option (List (Str × Option (List V)))
  | [] => some []
  | a :: l => (readActual env m a.2.2).bind fun v => (readAll env m l).map fun r => (a.1, v) :: r

/-- The value of an argument by its name (the keywords in the call, mkstatic.py:1843-1850) -/
def valOf {V} : List (Str × Option (List V)) → Str → Option (List V)
  | [], _ => none
  | e :: l, d => if e.1 = d then e.2 else valOf l d

/-- The scheme changes an argument (Fortran: arguments are passed by reference; mkstatic.py:1843-1850); an absent argument is not changed -/
def writeActual {V} (env : Env V) (m : Mem V) (v : List V) : Actual → Option (Mem V)
  | .host k => (writeHost env m.host k v).map fun h => { m with host := h }
  | .tmp t _ => some { m with tmp := upd m.tmp t (some v) }
  | .ptr p =>
    match m.ptr p with
    | .null => some m
    | .host k => (writeHost env m.host k v).map fun h => { m with host := h }
    | .tmp t => some { m with tmp := upd m.tmp t (some v) }
    | .dangling => none

/-- The scheme changes its arguments, except those with intent(in) (mkstatic.py:1843-1850) -/
def writeAll {V} (env : Env V) (out : Str → List V) : Mem V → List (Str × Intent × Actual) → Option (Mem V)
  | m, [] => some m
  | m, a :: l => (if a.2.1 = .in then some m else writeActual env m (out a.1) a.2.2).bind fun m => writeAll env out m l

/-- A call with the statements before and after it, mkstatic.py:1845-1851 -/
def execCall {V} (env : Env V) (S : Scheme V) (c : Code) (m : Mem V) : Option (Mem V) :=
  (execBlocks env m c.before).bind fun m =>
  (readAll env m c.args).bind fun vs =>
  (writeAll env (S (valOf vs)) m c.args).bind fun m => execBlocks env m c.after

/-- The calls one after the other, until the error flag is set, mkstatic.py:1852-1860 -/
def execGroup {V} (env : Env V) (failed : Host V → Bool) : List (Scheme V × Code) → Mem V → Option (Mem V)
  | [], m => some m
  | c :: cs, m => (execCall env c.1 c.2 m).bind fun m => if failed m.host then some m else execGroup env failed cs m

/-- The memory when a cap starts: no temporary variable is allocated, all pointers are null, mkcap.py:339-361 -/
def start {V} (h : Host V) : Mem V := ⟨h, fun _ => none, fun _ => .null⟩

end Ccpp.PV
