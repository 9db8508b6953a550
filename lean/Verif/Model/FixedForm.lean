import Verif.Model.FortranLines
/-!
# Model of the fixed-form part of `read_file` in `scripts/fortran_tools/parse_fortran_file.py`
-/
namespace Ccpp.Fixed

open Ccpp.FL (Q slice)

/-- Notation: a Python string. -/
abbrev Str := List Char

/-- The length of the match of `[ ]{0,4}!` (library: re), parse_fortran_file.py:34: up to `n` blanks and a `!`. -/
def bangMatch : Nat → Str → Option Nat
  | _, '!' :: _ => some 1
  | n + 1, ' ' :: s => (bangMatch n s).map (· + 1)
  | _, _ => none

/-- `_FIXED_COMMENT_RE.match`, `(?i)([C*]|(?:[ ]{0,4}!))`, with the length of its group, parse_fortran_file.py:34 -/
def commentMatch : Str → Option Nat
  | c :: s => if c = 'C' ∨ c = 'c' ∨ c = '*' then some 1 else bangMatch 4 (c :: s)
  | [] => none

/-- `_FIXED_CONTINUE_RE.match`, `     [^0 ]`, parse_fortran_file.py:41 -/
def continueMatch : Str → Bool
  | ' ' :: ' ' :: ' ' :: ' ' :: ' ' :: c :: _ => c != '0' && c != ' '
  | _ => false

/-- The loop of scan_fixed_line, parse_fortran_file.py:183-216, from `i` on: the context and the column of the comment.
The comparisons with two quotes (lines 189, 197) are between texts of different lengths and are left out, as in
`FL.scanLoop`. -/
def scanLoop : Str → Nat → Q → Q × Option Nat
  | [], _, q => (q, none)
  | ch :: r, i, q =>
    if isWs ch then scanLoop r (i + 1) q
    else match q with
      | .sq => scanLoop r (i + 1) (if ch = '\'' then .out else .sq)
      | .dq => scanLoop r (i + 1) (if ch = '"' then .out else .dq)
      | .out =>
        if ch = '\'' then scanLoop r (i + 1) .sq
        else if ch = '"' then scanLoop r (i + 1) .dq
        else if ch = '!' then (.out, some i)
        else scanLoop r (i + 1) .out

/-- What scan_fixed_line returns, parse_fortran_file.py:218; a column of -1 is `none`. -/
structure Scan where
  contIn : Option Nat
  q : Q
  comment : Option Nat

/-- scan_fixed_line, parse_fortran_file.py:129-218, on a line without trailing white space; `none`: ParseSyntaxError. -/
def scanFixed (line : Str) (q : Q) : Option Scan :=
  if q ≠ .out ∧ continueMatch line = false then none
  else if continueMatch line then
    let r := scanLoop (line.drop 6) 6 q
    some ⟨some 5, r.1, r.2⟩
  else match commentMatch line with
    | some n => some ⟨none, q, some (n - 1)⟩
    | none =>
      let r := scanLoop line 0 q
      some ⟨none, r.1, r.2⟩

/-- The state of the loop of read_file, parse_fortran_file.py:363-371: the lines, the context, prev_line and
prev_line_num (-1: `none`).  `continue_col` is -1 whenever a line is read (line 437 with line 405). -/
structure RS where
  out : List Str
  q : Q
  prev : Option Str
  prevNum : Option Nat

/-- One round of the loop of read_file in fixed form, parse_fortran_file.py:372-447.  `vis` is the verdict of the
preprocessor (see C03); `none`: an exception. -/
def readStep (s : RS) (i : Nat) (vis : Bool) (line : Str) : Option RS :=
  if strip line = [] then some s
  else if (commentMatch line).isSome then some s
  else if (lstrip line).head? = some '!' then some s
  else if vis = false then some { s with out := s.out.set i [] }
  else match scanFixed line s.q with
  | none => none
  | some r =>
    let s1 : RS := if r.comment = none ∧ r.contIn = none then { s with prevNum := some i, prev := none } else s
    match r.contIn with
    | none => some { s1 with q := r.q }
    | some _ =>
      let prev := match s1.prev with
        | some p => some p
        | none => (s1.prevNum.bind fun n => s1.out[n]?).map (·.take 72)
      match prev, s1.prevNum with
      | some p, some n =>
        let p' := rstrip (p ++ slice line 6 72)
        some { s1 with q := r.q, prev := some p', out := (s1.out.set n p').set i [] }
      | _, _ => none

/-- The loop of read_file, parse_fortran_file.py:372-447 -/
def readLoop (s : RS) : Nat → List (Bool × Str) → Option RS
  | _, [] => some s
  | i, (vis, line) :: ls =>
    match readStep s i vis line with
    | none => none
    | some s' => readLoop s' (i + 1) ls

/-- read_file for a fixed-form file, parse_fortran_file.py:343-449 -/
def readFile (ls : List (Bool × Str)) : Option (List Str) :=
  let ls := ls.map (fun p => (p.1, rstrip p.2))
  (readLoop ⟨ls.map (·.2), .out, none, none⟩ 0 ls).map (·.out)

end Ccpp.Fixed
