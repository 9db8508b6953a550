import Verif.Model.Text
/-!
# Model of `scripts/fortran_tools/fortran_write.py`: class FortranWriter

`write` appends lines to the output file; the model returns the list of lines written (without the
line feed).  A statement given as a list is a loop over its members (fortran_write.py:130-133) and is
not modelled separately.
-/
namespace Ccpp.FW

/-- Notation: a Python string. -/
abbrev Str := List Char

/-- Writer configuration, fortran_write.py:253-287: indent_size, continue_indent, line_fill,
line_max.  (line_max = 0, for which Python's negative slices come into play, is not modelled.) -/
structure Cfg where
  ind : Nat
  cont : Nat
  fill : Nat
  max : Nat

/-- The defaults, fortran_write.py:22-28. -/
def Cfg.default : Cfg := ⟨3, 5, 97, 130⟩

/-- `math.ceil(line_fill * 3 / 4)`, fortran_write.py:283 -/
def Cfg.maxCommentStart (c : Cfg) : Nat := (c.fill * 3 + 3) / 4

/-- indent, fortran_write.py:62-68 -/
def Cfg.indent (c : Cfg) (level : Nat) (continueLine : Bool) : Str :=
  List.replicate (c.ind * level + if continueLine then c.cont else 0) ' '

/-- max() of a list of natural numbers (Python builtin; 0 for the empty list)
fortran_write.py:72-91 -/
def maxOf : List Nat → Nat
  | [] => 0
  | x :: xs => Nat.max x (maxOf xs)

/-- The first half of find_best_break, fortran_write.py:75-84 -/
def breakBelow (c : Cfg) (choices : List Nat) (last : Nat) : Nat :=
  let possible := choices.filter (fun x => decide (0 < x) && decide (x < last))
  if possible.isEmpty then c.max + 1 else maxOf possible

/-- find_best_break(choices), fortran_write.py:72-89 (the recursive call, with last = line_max, does
not recurse again). -/
def findBestBreak (c : Cfg) (choices : List Nat) : Nat :=
  let best := breakBelow c choices c.fill
  if best > c.max ∧ c.fill < c.max then breakBelow c choices c.max else best

/-- Character context: none, in '…', in "…". fortran_write.py:93-123 -/
inductive Q | out | sq | dq
deriving DecidableEq

/-- One character of the quote automaton, fortran_write.py:105-119 and 159-170 -/
def Q.step : Q → Char → Q
  | .sq, ch => if ch = '\'' then .out else .sq
  | .dq, ch => if ch = '"' then .out else .dq
  | .out, ch => if ch = '\'' then .sq else if ch = '"' then .dq else .out

/-- _in_quote, fortran_write.py:92-121 -/
def inQuote (s : Str) : Bool := s.foldl Q.step .out != .out

/-- Result of the scan: candidate spaces, candidate commas, whether a comment was met.
fortran_write.py:125-215 -/
structure Scan where
  spaces : List Nat
  commas : List Nat
  comment : Bool

/-- The loop collecting break points, fortran_write.py:152-191, from index `p` on; `rest` is
`outstr[p:]`.  (A '!' at index 0 is recorded as break point 0 where Python records -1; both are
rejected.) -/
def scan (c : Cfg) (isComment : Bool) : Nat → Q → Str → Scan
  | _, _, [] => ⟨[], [], false⟩
  | p, q, ch :: rest =>
    match q with
    | .sq => scan c isComment (p + 1) (if ch = '\'' then .out else .sq) rest
    | .dq => scan c isComment (p + 1) (if ch = '"' then .out else .dq) rest
    | .out =>
      if ch = '\'' then scan c isComment (p + 1) .sq rest
      else if ch = '"' then scan c isComment (p + 1) .dq rest
      else if ch = '!' then
        if !isComment && decide (c.maxCommentStart ≤ p) then ⟨[p - 1], [], true⟩
        else
          let r := scan c isComment (p + 1) .out rest
          ⟨(p - 1) :: r.spaces, r.commas, true⟩
      else if ch = ' ' then
        let r := scan c isComment (p + 1) .out rest
        ⟨p :: r.spaces, r.commas, r.comment⟩
      else if ch = ',' then
        let r := scan c isComment (p + 1) .out rest
        ⟨r.spaces, p :: r.commas, r.comment⟩
      else if ch = '/' ∧ rest.head? = some '/' then
        let r := scan c isComment (p + 1) .out rest
        ⟨r.spaces, (p + 1) :: r.commas, r.comment⟩
      else scan c isComment (p + 1) .out rest

/-- The loop advancing first_space, fortran_write.py:195-200: `none` is the IndexError at the end of
the text. -/
def firstSpace : Nat → Str → Option Nat
  | _, [] => none
  | n, ch :: rest => if ch = '!' ∨ ch = ' ' then firstSpace (n + 1) rest else some n

/-- Rejecting break points in front of the text of a comment, fortran_write.py:192-203 -/
def rejectEarly (outstr : Str) (spaces : List Nat) : Option (List Nat) :=
  if (lstrip outstr).head? = some '!' then
    let i := outstr.findIdx (· == '!')
    match firstSpace (i + 1) (outstr.drop (i + 1)) with
    | none => none
    | some fs => some (spaces.filter (fun x => decide (fs ≤ x)))
  else some spaces

/-- line_continue: False, True or the string '&'. fortran_write.py:125-240 -/
inductive Cont | no | yes | amp
deriving DecidableEq

/-- Outcome of a call. Notation for the effect of fortran_write.py:125-240. -/
inductive Out | ok | crash | fuel
deriving DecidableEq

/-- The break point, fortran_write.py:204-212 -/
def bestBreak (c : Cfg) (spaces commas : List Nat) : Nat :=
  let b := findBestBreak c spaces
  let b := if b ≥ c.fill then Nat.min b (findBestBreak c commas) else b
  if b ≥ c.max then c.max - 1 else b

/-- line_continue, fortran_write.py:208-229 (the '&' assigned at 214 is overwritten at 218-222
whenever the text is longer than `best`); `none` is the IndexError of `''[0]`. -/
def lineContinue (outstr : Str) (best : Nat) (comment : Bool) : Option Cont :=
  let lc : Option Cont :=
    if outstr.length > best then
      if inQuote (outstr.take (best + 1)) then some .amp
      else match lstrip (outstr.drop (best + 1)) with
        | [] => none
        | ch :: _ => some (if ch = '!' then .no else .yes)
    else some .no
  match lc with
  | none => none
  | some x => some (if comment then .no else x)

/-- The line written, fortran_write.py:230-236 -/
def outLine (c : Cfg) (outstr : Str) (best : Nat) (lc : Cont) : Str :=
  rstrip (outstr.take (best + 1) ++
    (if lc = .no then [] else List.replicate (c.fill - best) ' ' ++ ['&']))

/-- `outstr`, fortran_write.py:143-149 -/
def outStr (istr ostmt : Str) : Str :=
  match ostmt with
  | [] => []
  | ch :: _ => if ch = '&' then ostmt else istr ++ ostmt

/-- write for a statement without line feed, fortran_write.py:138-248.  The first argument bounds
the recursion depth. -/
def write1 (c : Cfg) (level : Nat) : Nat → Str → Bool → List Str × Out
  | 0, _, _ => ([], .fuel)
  | fuel + 1, statement, continueLine =>
    let istr := c.indent level continueLine
    let ostmt := strip statement
    let isComment := ostmt.head? = some '!'
    let outstr := outStr istr ostmt
    if outstr.length > c.fill then
      let sc := scan c isComment istr.length .out (outstr.drop istr.length)
      match rejectEarly outstr sc.spaces with
      | none => ([], .crash)
      | some spaces =>
        let best := bestBreak c spaces sc.commas
        match lineContinue outstr best (sc.comment || isComment) with
        | none => ([], .crash)
        | some lc =>
          let line := outLine c outstr best lc
          if best = 0 then ([line], .crash)
          else
            let stmt := (if sc.comment then "! ".toList else []) ++ outstr.drop (best + 1)
            let stmt := if lc = .amp ∧ stmt ≠ [] then '&' :: stmt else stmt
            let r := write1 c level fuel stmt (lc != .no)
            (line :: r.1, r.2)
    else ([outstr], .ok)

/-- str.split('\n') Python library, fortran_write.py:125-135 -/
def splitNL : Str → List Str
  | [] => [[]]
  | ch :: s =>
    if ch = '\n' then [] :: splitNL s
    else match splitNL s with
      | [] => [[ch]]
      | l :: ls => (ch :: l) :: ls

/-- write, fortran_write.py:134-137: the parts of a statement with line feeds one after the other;
an exception ends the loop. -/
def writeParts (c : Cfg) (level fuel : Nat) (cl : Bool) : List Str → List Str × Out
  | [] => ([], .ok)
  | s :: ss =>
    let r := write1 c level fuel s cl
    match r.2 with
    | .ok => let r2 := writeParts c level fuel cl ss
             (r.1 ++ r2.1, r2.2)
    | o => (r.1, o)

/-- write, fortran_write.py:125-249. -/
def write (c : Cfg) (level fuel : Nat) (statement : Str) (cl : Bool) : List Str × Out :=
  writeParts c level fuel cl (splitNL statement)

end Ccpp.FW
