import Verif.Model.Text
/-!
# Model of the line handling of `scripts/fortran_tools/parse_fortran_file.py`:
`line_statements`, `read_statements`, `scan_free_line` and the free-form part of `read_file`
-/
namespace Ccpp.FL

/-- Notation: a Python string. -/
abbrev Str := List Char

/-- The pair of flags in_single_char, in_double_char (parse_fortran_file.py:82-83, 240-248).
Simplification: they are never both true (that input is refused at lines 281-282 and no branch sets
one while the other is set). -/
inductive Q | out | sq | dq
deriving DecidableEq, Repr

/-- Python slice `line[s:e]` with `0 <= s`; parse_fortran_file.py:102, 432 -/
def slice (line : Str) (s e : Nat) : Str := (line.drop s).take (e - s)

/-- The loop and the clean-up of line_statements, parse_fortran_file.py:84-111: `st` is ind_start,
`en` is ind_end. `fuel` bounds the number of iterations (every iteration increases ind_end). -/
def stmtsLoop (line : Str) : Nat → Nat → Nat → Q → List Str → List Str
  | 0, st, en, _, acc => if en > st then acc ++ [slice line st en] else acc
  | fuel + 1, st, en, q, acc =>
    match line[en]? with
    | none => if en > st then acc ++ [slice line st en] else acc
    | some ch =>
      match q with
      | .sq => stmtsLoop line fuel st (en + 1) (if ch = '\'' then .out else .sq) acc
      | .dq => stmtsLoop line fuel st (en + 1) (if ch = '"' then .out else .dq) acc
      | .out =>
        if ch = '\'' then stmtsLoop line fuel st (en + 1) .sq acc
        else if ch = '"' then stmtsLoop line fuel st (en + 1) .dq acc
        else if ch = '!' then stmtsLoop line fuel st (line.length - 1 + 1) .out acc
        else if ch = ';' then
          stmtsLoop line fuel (en + 1) (en + 1) .out
            (if en > st then acc ++ [slice line st en] else acc)
        else stmtsLoop line fuel st (en + 1) .out acc

/-- line_statements, parse_fortran_file.py:57-112 -/
def lineStatements (line : Str) : List Str := stmtsLoop line line.length 0 0 .out []

/-- read_statements, parse_fortran_file.py:116-126: the statements of the next line that has any
(`none` at the end of the file), and the lines after it. The argument is the lines that next_line
will still return. -/
def readStatements : List Str → Option (List Str × List Str)
  | [] => none
  | l :: ls =>
    if ((lineStatements l).map List.length).sum = 0 then readStatements ls
    else some (lineStatements l, ls)

/-- What scan_free_line returns (parse_fortran_file.py:339); a column of -1 is `none`. -/
structure Scan where
  contIn : Option Nat
  contOut : Option Nat
  q : Q
  comment : Option Nat
deriving DecidableEq, Repr

/-- `_CONTINUE_RE.match`, `&\s*(!.*)?$`, applied to the text after the `&`;
parse_fortran_file.py:40, 321 -/
def continueRe (rest : Str) : Bool :=
  match lstrip rest with
  | [] => true
  | ch :: _ => ch == '!'

/-- The loop of scan_free_line, parse_fortran_file.py:297-333, on the text from `index` to last_ind.
White space runs (lines 298-300) are skipped one character at a time. The tests for a doubled
quote mark (lines 302, 312) compare at most one character with two and never succeed; they are left
out. `none`: ParseSyntaxError. -/
def scanLoop : Str → Nat → Q → Option Nat → Option (Option Nat × Q × Option Nat)
  | [], _, q, co => some (co, q, none)
  | ch :: r, i, q, co =>
    if isWs ch then scanLoop r (i + 1) q co
    else match q with
    | .sq =>
      if ch = '\'' then scanLoop r (i + 1) .out co
      else if ch = '&' ∧ r = [] then scanLoop r (i + 1) .sq (some i)
      else scanLoop r (i + 1) .sq co
    | .dq =>
      if ch = '"' then scanLoop r (i + 1) .out co
      else if ch = '&' ∧ r = [] then scanLoop r (i + 1) .dq (some i)
      else scanLoop r (i + 1) .dq co
    | .out =>
      if ch = '\'' then scanLoop r (i + 1) .sq co
      else if ch = '"' then scanLoop r (i + 1) .dq co
      else if ch = '!' then some (co, .out, some i)
      else if ch = '&' then
        if continueRe r then scanLoop r (i + 1) .out (some i) else none
      else scanLoop r (i + 1) .out co

/-- scan_free_line, parse_fortran_file.py:232-339, on a line without trailing white space (read_file
strips it, line 359; last_ind is then the last index). `none`: ParseSyntaxError, or IndexError on
a blank line. -/
def scanFree (line : Str) (inCont : Bool) (q : Q) : Option Scan :=
  if q ≠ .out ∧ inCont = false then none
  else match lstrip line with
  | [] => none
  | ch :: r =>
    let fin (ci : Option Nat) (res : Option (Option Nat × Q × Option Nat)) : Option Scan :=
      match res with
      | none => none
      | some (co, q', cm) => if q' ≠ .out ∧ co = none then none else some ⟨ci, co, q', cm⟩
    if ch = '&' then
      if inCont = false then none
      else
        let ci := line.length - (r.length + 1)
        fin (some ci) (scanLoop (line.drop (ci + 1)) (ci + 1) q none)
    else fin none (scanLoop line 0 q none)

/-- Variables of read_file, parse_fortran_file.py:364-371: the lines of pobj, continue_col, the
character context, prev_line, prev_line_num. -/
structure RS where
  out : List Str
  cont : Option Nat
  q : Q
  prev : Option Str
  prevNum : Nat
deriving DecidableEq, Repr

/-- One iteration of the loop of read_file for a free-form file, parse_fortran_file.py:372-447. `vis`
is false for a preprocessor line and for a line in an inactive region (lines 386-402; the
preprocessor is modelled in Preproc.lean, `Preproc.run`). `none`: an exception. -/
def readStep (s : RS) (i : Nat) (vis : Bool) (line : Str) : Option RS :=
  if strip line = [] then some s
  else if (lstrip line).head? = some '!' then some s
  else if vis = false then some { s with out := s.out.set i [] }
  else match scanFree line s.cont.isSome s.q with
  | none => none
  | some r =>
    let s1 : Option RS :=
      match s.cont with
      | none => some s
      | some _ =>
        match s.prev with
        | none => none
        | some p =>
          let sindex := (r.contIn.map (· + 1)).getD 0
          let eindex := match r.contOut with
            | none => line.length
            | some c => if c > 0 then c else line.length
          let p' := p ++ slice line sindex eindex
          some { s with
            out := (s.out.set s.prevNum p').set i []
            prev := if r.contOut = none then none else some p'
            prevNum := if r.contOut = none then 0 else s.prevNum }
    match s1 with
    | none => none
    | some s1 =>
      match r.contOut, s1.prev with
      | some c, none =>
        let p := line.take c
        some { s1 with cont := some c, q := r.q,
                       prev := some (if r.q = .out then rstrip p else p), prevNum := i }
      | co, _ => some { s1 with cont := co, q := r.q }

/-- The loop of read_file, parse_fortran_file.py:372-447: `i` is the index of the current line. The
lines still to come are read from the second argument: write_line only changes lines up to the
current one. -/
def readLoop (s : RS) : Nat → List (Bool × Str) → Option RS
  | _, [] => some s
  | i, (vis, line) :: ls =>
    match readStep s i vis line with
    | none => none
    | some s' => readLoop s' (i + 1) ls

/-- read_file for a free-form file, parse_fortran_file.py:343-449: the lines of the file (without
their newline), each with the verdict of the preprocessor, give the lines of the returned
ParseObject. -/
def readFile (ls : List (Bool × Str)) : Option (List Str) :=
  let ls := ls.map (fun p => (p.1, rstrip p.2))
  (readLoop ⟨ls.map (·.2), none, .out, none, 0⟩ 0 ls).map (·.out)

end Ccpp.FL
