import Verif.Model.Text
/-!
# Model of `scripts/ccpp_suite.py`: API.write_req_vars_sub and write_var_set_loop

The generated Fortran is a small program (`Prog`) with an interpreter; writing outside the allocated
list is an error (`none`).  A Python set is a list without duplicates.

Simplifications: only the branch of one suite is modelled (the selection by suite name is an
if-else-if chain, modelled for the caps in `HostCap.lean`); line lengths and indentation are not
modelled; the variables of the groups (with `protected` taken from the host where there is one, and
`elements` the result of Var.intrinsic_elements) are the input.
-/
namespace Ccpp.RV

/-- Notation: a Python string. -/
abbrev Str := List Char

/-- Order of Python strings (by code point). Python library -/
def leStr : Str → Str → Bool
  | [], _ => true
  | _ :: _, [] => false
  | a :: s, b :: t => if a = b then leStr s t else decide (a.toNat < b.toNat)

/-- Python library (sorted), ccpp_suite.py:778 -/
def insertS (x : Str) : List Str → List Str
  | [] => [x]
  | y :: l => if leStr x y then x :: y :: l else y :: insertS x l

/-- `sorted` (Python library). -/
def sorted : List Str → List Str
  | [] => []
  | x :: l => insertS x (sorted l)

/-- Set operations of the Python library on lists without duplicates. -/
def union (a b : List Str) : List Str := a ++ b.filter fun x => decide (x ∉ a)
/-- Python library (set), ccpp_suite.py:988 -/
def diff (a b : List Str) : List Str := a.filter fun x => decide (x ∉ b)
/-- Python library (set), ccpp_suite.py:1019 -/
def inter (a b : List Str) : List Str := a.filter fun x => decide (x ∈ b)

/-- A variable of a group's call list. ccpp_suite.py:872-888 -/
structure Use where
  std : Str
  intent : String
  prot : Bool
  constituent : Bool
  elements : Option (List Str)
  phase : String

/-- leaves, arrays, leaf elements ccpp_suite.py:867-869 -/
structure Sets where
  leaf : List Str
  arr : List Str
  elem : List Str

/-- ccpp_suite.py:867-869 -/
def Sets.empty : Sets := ⟨[], [], []⟩

/-- ccpp_suite.py:890-895 (and 897-902, 911-916) -/
def Sets.add (s : Sets) (u : Use) : Sets :=
  match u.elements with
  | some es => { s with arr := union s.arr [u.std], elem := union s.elem (es.eraseDups) }
  | none => { s with leaf := union s.leaf [u.std] }

/-- ccpp_suite.py:867-870 -/
structure Coll where
  inp : Sets
  io : Sets
  out : Sets
  constInit : List Str

/-- The collection loop, ccpp_suite.py:868-917, one variable. -/
def collectStep (c : Coll) (u : Use) : Except String Coll :=
  let ini := decide (u.std ∈ c.constInit)
  if u.intent = "in" ∧ u.prot = false ∧ ini = false then .ok { c with inp := c.inp.add u }
  else if u.intent = "inout" ∧ ini = false then .ok { c with io := c.io.add u }
  else if u.constituent = true ∧ u.intent = "out" ∧ u.phase ≠ "initialize" ∧ ini = false then
    .error "constituent variable cannot be initialized in this phase"
  else if u.intent = "out" ∧ u.constituent = true ∧ u.phase = "initialize" then
    .ok { c with constInit := union c.constInit [u.std] }
  else if u.intent = "out" then .ok { c with out := c.out.add u }
  else .ok c

/-- The loops at ccpp_suite.py:871-919. -/
def collectFrom : Coll → List Use → Except String Coll
  | c, [] => .ok c
  | c, u :: us =>
    match collectStep c u with
    | .error e => .error e
    | .ok c' => collectFrom c' us

/-- ccpp_suite.py:867-919 -/
def collect (us : List Use) : Except String Coll :=
  collectFrom ⟨Sets.empty, Sets.empty, Sets.empty, []⟩ us

/-- Conditions on the three flags of the generated subroutine. ccpp_suite.py:923-1120 -/
inductive Cond where
  | inputAndOutput | input | output | inputOrOutput | struct | notInput

/-- Notation: the Fortran statements written at ccpp_suite.py:920-1121. -/
inductive Prog where
  | skip
  | seq (a b : Prog)
  | ite (c : Cond) (a b : Prog)
  | setNum (n : Nat)
  | addNum (n : Nat)
  | alloc
  | write (rel : Bool) (ind : Nat) (name : Str)

infixr:60 " ;; " => Prog.seq

/-- `if … end if` written only if `b` holds when generating.
ccpp_suite.py:979-984, 1010-1012 -/
def Prog.guard (b : Bool) (c : Cond) (p : Prog) : Prog := if b then .ite c p .skip else p

/-- The loop of write_var_set_loop, ccpp_suite.py:778-786; `rel`: start_var is num_vars. -/
def writeLoop (rel : Bool) : Nat → List Str → Prog
  | _, [] => .skip
  | start, x :: xs => .write rel start x ;; writeLoop rel (start + 1) xs

/-- write_var_set_loop with add_allocate False, ccpp_suite.py:767-786 -/
def setLoop (rel : Bool) (start : Nat) (names : List Str) : Prog := writeLoop rel start (sorted names)

/-- The size computation for one combination of intents, e.g. ccpp_suite.py:923-936. -/
def sizeProg (cats : List Sets) : Prog :=
  let plain := Prog.setNum (cats.foldl (fun a s => union (union a s.leaf) s.arr) []).length
  if cats.any fun s => s.elem ≠ [] then
    .ite .struct (.setNum (cats.foldl (fun a s => union (union a s.leaf) s.elem) []).length) plain
  else plain

/-- ccpp_suite.py:920-971 -/
def allocProg (c : Coll) : Prog :=
  .ite .inputAndOutput (sizeProg [c.inp, c.io, c.out])
    (.ite .input (sizeProg [c.inp, c.io])
      (.ite .output (sizeProg [c.io, c.out]) (.setNum 0))) ;; .alloc

/-- Truth value of a list (Python library). -/
def ne (l : List Str) : Bool := decide (l ≠ [])

/-! The sets and lists computed while generating (the suffix numbers successive values). -/

/-- leaf_written_set and elem_written_set after the inout variables, ccpp_suite.py:975-976, 990-993 -/
def Coll.lw1 (c : Coll) : List Str := union c.io.leaf c.io.arr
/-- ccpp_suite.py:989 -/
def Coll.ew1 (c : Coll) : List Str := union c.io.leaf c.io.elem
/-- elem_list and leaf_list of the inout variables, ccpp_suite.py:990, 992 -/
def Coll.elem1 (c : Coll) : List Str := sorted (diff c.io.elem c.io.leaf)
/-- ccpp_suite.py:990 -/
def Coll.leaf1 (c : Coll) : List Str := sorted (diff c.io.arr c.io.leaf)
/-- leaf_start and elem_start after the leaves of the inout variables, ccpp_suite.py:973-988 -/
def Coll.s0 (c : Coll) : Nat := 1 + (sorted c.io.leaf).length
/-- ccpp_suite.py:992 -/
def Coll.has1 (c : Coll) : Bool := ne c.elem1 || ne c.leaf1
/-- ccpp_suite.py:979 -/
def Coll.anyIo (c : Coll) : Bool := ne c.io.leaf || ne c.io.arr || ne c.io.elem

/-- The inout variables, ccpp_suite.py:972-1014 -/
def segInout (c : Coll) : Prog :=
  Prog.guard c.anyIo .inputOrOutput
    ((if c.anyIo then setLoop false 1 (sorted c.io.leaf) else .skip) ;;
     (if c.has1 then
        .ite .struct (setLoop false c.s0 c.elem1 ;; .setNum (c.s0 + c.elem1.length - 1))
          (setLoop false c.s0 c.leaf1 ;; .setNum (c.s0 + c.leaf1.length - 1))
      else .setNum c.lw1.length))

/-- elem_start and leaf_start after the inout variables, ccpp_suite.py:999, 1006 -/
def Coll.es1 (c : Coll) : Nat := if c.has1 then c.s0 + c.elem1.length else c.s0
/-- ccpp_suite.py:1003 -/
def Coll.ls1 (c : Coll) : Nat := if c.has1 then c.s0 + c.leaf1.length else c.s0

/-- leaf_list of the input variables and the cross lists, ccpp_suite.py:1016-1027 -/
def Coll.leaf2 (c : Coll) : List Str := sorted (diff c.inp.leaf c.lw1)
/-- ccpp_suite.py:1019 -/
def Coll.leafCross (c : Coll) : List Str := inter c.out.leaf c.inp.leaf
/-- ccpp_suite.py:1023 -/
def Coll.leafCrossL (c : Coll) : List Str := sorted (diff c.leafCross c.lw1)
/-- ccpp_suite.py:1020, 1024 -/
def Coll.simpCrossL (c : Coll) : List Str :=
  sorted (diff (diff (inter c.out.arr c.inp.arr) c.leafCross) c.lw1)
/-- ccpp_suite.py:1021, 1025 -/
def Coll.elemCrossL (c : Coll) : List Str :=
  sorted (diff (diff (inter c.out.elem c.inp.elem) c.leafCross) c.ew1)
/-- ccpp_suite.py:1029-1031 -/
def Coll.lw2 (c : Coll) : List Str := union c.lw1 c.inp.leaf
/-- ccpp_suite.py:1028 -/
def Coll.elem2 (c : Coll) : List Str := sorted (diff c.inp.elem c.ew1)
/-- ccpp_suite.py:1029 -/
def Coll.ew2 (c : Coll) : List Str := union (union c.ew1 c.inp.leaf) c.inp.elem
/-- ccpp_suite.py:1030 -/
def Coll.haveIn (c : Coll) : Bool := ne c.elem2 || ne c.leaf2
/-- leaf_list of the input arrays, ccpp_suite.py:1046; the next line,
`leaf_written_set.union(input_vars[1])`, has no effect. -/
def Coll.leaf3 (c : Coll) : List Str := diff c.inp.arr c.lw2

/-- The input variables, ccpp_suite.py:1015-1064 -/
def segInput (c : Coll) : Prog :=
  Prog.guard c.haveIn .input
    (setLoop true 1 c.leaf2 ;;
     (if ne c.leaf2 then .addNum c.leaf2.length else .skip) ;;
     (if ne c.elem2 || ne c.leaf3 then
        .ite .struct
          (setLoop false (c.es1 + c.leaf2.length) c.elem2 ;;
            .setNum (c.es1 + c.leaf2.length + c.elem2.length - 1))
          (setLoop false (c.ls1 + c.leaf2.length) c.leaf3 ;;
            .setNum (c.ls1 + c.leaf2.length + c.leaf3.length - 1))
      else .skip))

/-- The output variables, ccpp_suite.py:1066-1070, 1079 -/
def Coll.leaf4 (c : Coll) : List Str := sorted (diff c.out.leaf c.lw2)
/-- ccpp_suite.py:1066 -/
def Coll.lw3 (c : Coll) : List Str := union c.lw2 c.out.leaf
/-- ccpp_suite.py:1067 -/
def Coll.ew3 (c : Coll) : List Str := union c.ew2 c.out.leaf
/-- ccpp_suite.py:1068 -/
def Coll.elem4 (c : Coll) : List Str := sorted (diff c.out.elem c.ew3)
/-- ccpp_suite.py:1070 -/
def Coll.haveOut (c : Coll) : Bool := ne c.elem4 || ne c.leaf4
/-- ccpp_suite.py:1079 -/
def Coll.leaf5 (c : Coll) : List Str := diff c.out.arr c.lw3
/-- ccpp_suite.py:1080 -/
def Coll.has5 (c : Coll) : Bool := ne c.elem4 || ne c.leaf5
/-- ccpp_suite.py:1074-1078 -/
def Coll.st (c : Coll) : Nat := 1 + c.leaf4.length
/-- ccpp_suite.py:1080-1091 -/
def Coll.es5 (c : Coll) : Nat := if c.has5 then c.st + c.elem4.length else c.st
/-- ccpp_suite.py:1080-1091 -/
def Coll.ls5 (c : Coll) : Nat := if c.has5 then c.st + c.leaf5.length else c.st

/-- The output variables that are also input variables, ccpp_suite.py:1092-1117.  In the inner else
branch the leaves are written a second time instead of simp_cross_list. -/
def segCross (c : Coll) : Prog :=
  if ne c.leafCrossL || ne c.elemCrossL then
    .ite .notInput
      (setLoop true c.ls5 c.leafCrossL ;;
       (if ne c.elemCrossL || ne c.simpCrossL then
          .ite .struct (setLoop true (c.es5 + c.leafCrossL.length) c.elemCrossL)
            (setLoop true (c.ls5 + c.leafCrossL.length) c.leafCrossL)
        else .skip)) .skip
  else .skip

/-- The output variables, ccpp_suite.py:1065-1120 -/
def segOutput (c : Coll) : Prog :=
  Prog.guard c.haveOut .output
    (setLoop true 1 c.leaf4 ;;
     (if c.has5 then .ite .struct (setLoop true c.st c.elem4) (setLoop true c.st c.leaf5) else .skip) ;;
     segCross c)

/-- The body for one suite, ccpp_suite.py:920-1121. -/
def reqVarsProg (c : Coll) : Prog := allocProg c ;; segInout c ;; segInput c ;; segOutput c

/-- The flags of the generated subroutine (absent optional ones are true, ccpp_suite.py:844-859). -/
structure QFlags where
  input : Bool
  output : Bool
  struct : Bool

/-- Fortran language semantics of the conditions written at ccpp_suite.py:923-1120. -/
def Cond.eval (f : QFlags) : Cond → Bool
  | .inputAndOutput => f.input && f.output
  | .input => f.input
  | .output => f.output
  | .inputOrOutput => f.input || f.output
  | .struct => f.struct
  | .notInput => !f.input

/-- The state of the generated subroutine: num_vars and variable_list.
Notation: program state of the subroutine written at ccpp_suite.py:920-1121. -/
structure PSt where
  num : Nat
  arr : List (Option Str)

/-- The semantics of the generated Fortran; `none`: a write outside variable_list.
Fortran language semantics of the statements written at ccpp_suite.py:920-1121. -/
def Prog.exec (f : QFlags) : Prog → PSt → Option PSt
  | .skip, s => some s
  | .seq a b, s =>
    match a.exec f s with
    | none => none
    | some s' => b.exec f s'
  | .ite c a b, s => if c.eval f then a.exec f s else b.exec f s
  | .setNum n, s => some { s with num := n }
  | .addNum n, s => some { s with num := s.num + n }
  | .alloc, s => some { s with arr := List.replicate s.num none }
  | .write rel i x, s =>
    let k := (if rel then s.num else 0) + i
    if 1 ≤ k ∧ k ≤ s.arr.length then some { s with arr := s.arr.set (k - 1) (some x) } else none

/-- The generated query: the elements of variable_list (`none` for one never set), or `none` if a
write is out of bounds. ccpp_suite.py:816-1132 -/
def query (c : Coll) (f : QFlags) : Option (List (Option Str)) :=
  ((reqVarsProg c).exec f ⟨0, []⟩).map (·.arr)

end Ccpp.RV
