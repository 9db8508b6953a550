import Verif.Model.PrebuildMatch
/-!
# Model of the local variables of a group of the suite cap

The part of `Group.write` (scripts/suite_objects.py:2360-2649) that declares, allocates and frees local variables and pointers,
`Group.allocate_dim_str` (2311-2336), and the choice of the actual arguments in `CallList.call_string` (108-188).

A raised exception is `none`.  Simplifications: dictionaries of variables are lists of variables with different standard names; the order of
the statements for different variables is not represented (names are sorted at suite_objects.py:2584, sets at 2590 and 2431 are not); names are
lower case.
-/
namespace Ccpp.GL

/-- Notation: a text. -/
abbrev Str := List Char

/-- A variable, suite_objects.py:2381-2390 -/
structure GVar where
  std : Str
  loc : Str
  ty : Str
  kind : Str
  ddt : Bool
  dims : List Str
  optional : Bool
deriving DecidableEq

/-- VarDictionary.find_variable without parent, metavar.py:1799-1802 -/
def find (d : List GVar) (n : Str) : Option GVar := d.find? fun v => v.std == n

/-- A pointer: name, kind, dimensions, type, suite_objects.py:2414-2427 -/
structure Ptr where
  name : Str
  kind : Str
  dims : Str
  ty : Str
deriving DecidableEq

/-- subpart_allocate_vars, subpart_optional_vars, subpart_scalar_vars, inactive_var_set, suite_objects.py:2373-2379 -/
structure Coll where
  alloc : List (Str × GVar)
  opt : List (Str × GVar)
  scal : List (Str × GVar)
  inactive : List GVar

/-- `lname in d`, suite_objects.py:2384 -/
def has (l : List (Str × GVar)) (n : Str) : Bool := l.any fun e => e.1 == n

/-- One variable of the group, suite_objects.py:2381-2408 -/
def collectOne (compat : GVar → GVar → Bool) (call : List GVar) (s : Coll) (v : GVar) : Option Coll :=
  if has s.alloc v.loc || has s.opt v.loc || has s.scal v.loc then
    (s.alloc.lookup v.loc).bind fun w => if compat w v then some s else none
  else if v.dims ≠ [] then
    if v.optional then
      if (find call v.std).isSome then some { s with opt := s.opt ++ [(v.loc, v)] } else some { s with inactive := s.inactive ++ [v] }
    else some { s with alloc := s.alloc ++ [(v.loc, v)] }
  else some { s with scal := s.scal ++ [(v.loc, v)] }

/-- The dimensions of a pointer, suite_objects.py:2423-2426 -/
def colons (dims : List Str) : Str :=
  if dims = [] then [] else "(:".toList ++ (List.replicate (dims.length - 1) ",:".toList).flatten ++ ")".toList

/-- The pointer for a variable, suite_objects.py:2416-2428, 2435-2447 -/
def pointerOf (v : GVar) : Ptr := ⟨v.loc ++ "_ptr".toList, v.kind, colons v.dims, if v.ddt then "type".toList else v.ty⟩

/-- `d[k] = v` (Python library) -/
def setEntry (k : Str) (v : GVar) : List (Str × GVar) → List (Str × GVar)
  | [] => [(k, v)]
  | e :: l => if e.1 = k then (k, v) :: l else e :: setEntry k v l

/-- The copies for transformations, suite_objects.py:2452-2461 -/
def addCopy (s : Coll) (v : GVar) : Coll :=
  if v.dims ≠ [] then { s with alloc := setEntry v.loc v s.alloc } else { s with scal := setEntry v.loc v s.scal }

/-- All of it, suite_objects.py:2380-2463 -/
def collect (compat : GVar → GVar → Bool) (own call copies : List GVar) : Option Coll :=
  (own.foldlM (collectOne compat call) ⟨[], [], [], []⟩).map fun s => copies.foldl addCopy s

/-- The declarations: a scalar or an allocatable array (the flag is `target`), or a pointer, suite_objects.py:2508-2535 -/
inductive Decl where
  | scalar (v : GVar) (target : Bool)
  | array (v : GVar) (target : Bool)
  | pointer (p : Ptr)
deriving DecidableEq

/-- `c.join(l)` (Python library) -/
def join (sep : Str) : List Str → Str
  | [] => []
  | [x] => x
  | x :: xs => x ++ sep ++ join sep xs

/-- The local name of a bound, suite_objects.py:2317-2331 -/
def boundName (consts own call : List GVar) (n : Str) : Option Str :=
  (((find consts n).orElse fun _ => find own n).orElse fun _ => find call n).map (·.loc)

/-- allocate_dim_str, suite_objects.py:2311-2336 -/
def allocShape (consts own call : List GVar) (dims : List Str) : Option Str :=
  (dims.mapM fun d => ((PB.splitOn ':' d).mapM (boundName consts own call)).map (join ":".toList)).map (join ", ".toList)

/-- What is written: declarations, the arrays with their shapes in `allocate`, the names in `deallocate` and in `nullify`,
suite_objects.py:2508-2535, 2582-2595, 2616-2631 -/
structure Written where
  decls : List Decl
  allocs : List (Str × Str)
  frees : List Str
  nulls : List Str

/-- Group.write, suite_objects.py:2360-2631 -/
def write (compat : GVar → GVar → Bool) (consts own call copies : List GVar) : Option Written :=
  (collect compat own call copies).bind fun s =>
    let ptrs := (call.filter (·.optional) ++ s.inactive).map pointerOf
    ((s.alloc ++ s.opt).mapM fun e => (allocShape consts own call e.2.dims).map fun sh => (e.1, sh)).map fun allocs =>
      { decls := s.scal.map (fun e => .scalar e.2 e.2.optional) ++ s.alloc.map (fun e => .array e.2 e.2.optional) ++
          s.opt.map (fun e => .array e.2 e.2.optional) ++ ptrs.map .pointer
        allocs := allocs
        frees := (s.alloc ++ s.opt).map (·.1)
        nulls := ptrs.map (·.name) }

/-- The allocated local arrays and their shapes (Fortran standard) for suite_objects.py:2582-2595 -/
abbrev Heap := Str → Option Str

/-- `allocate` statements: an array must not be allocated (Fortran standard), suite_objects.py:2583-2595 -/
def runAllocs (allocs : List (Str × Str)) (h : Heap) : Option Heap :=
  allocs.foldlM (fun (h : Heap) a => if (h a.1).isSome then none else some fun n => if n = a.1 then some a.2 else h n) h

/-- `if (allocated(a)) deallocate(a)` (Fortran standard), suite_objects.py:2620-2625 -/
def runFrees (frees : List Str) (h : Heap) : Heap := frees.foldl (fun (h : Heap) a n => if n = a then none else h n) h

/-- An argument of a scheme: standard name, name of the dummy argument, and whether its value is converted before the call,
suite_objects.py:117-121, 159-165 -/
structure Arg where
  std : Str
  dummy : Str
  converted : Bool

/-- The name of the actual argument, suite_objects.py:120-165; the dictionaries of the suite come last -/
def actual (own call suite : List GVar) (a : Arg) : Option Str :=
  (((find own a.std).orElse fun _ => find call a.std).orElse fun _ => find suite a.std).map fun v =>
    if a.converted then a.dummy ++ "_local".toList
    else if v.optional then a.dummy ++ "_ptr".toList
    else v.loc

end Ccpp.GL
