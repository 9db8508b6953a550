import Verif.Model.Text
/-!
# Model of `scripts/code_block.py`: class CodeBlock
-/
namespace Ccpp.CB

/-- Notation: a Python string. -/
abbrev Str := List Char

/-- A Python dictionary with string keys and values (the keyword arguments of `str.format`).
Python library; the argument var_dict, code_block.py:90 -/
abbrev Dict := Str → Option Str

/-- `str.find(pat)` (Python library): offset of the first occurrence of `pat`. -/
def findSub (pat : Str) : Str → Option Nat
  | [] => if pat = [] then some 0 else none
  | c :: s => if pat.isPrefixOf (c :: s) then some 0 else (findSub pat s).map (· + 1)

/-- Match `[{][ ]*([A-Za-z][A-Za-z0-9_]*)[ ]*[}]` at the beginning of the text, code_block.py:47;
the result is group 1.  (No backtracking is needed: the classes of neighbouring repetitions are
disjoint.) -/
def varMatch : Str → Option Str
  | '{' :: s =>
    let s1 := s.dropWhile (· == ' ')
    match s1 with
    | [] => none
    | c :: _ =>
      if isLetter c then
        match (s1.dropWhile isWordC).dropWhile (· == ' ') with
        | '}' :: _ => some (s1.takeWhile isWordC)
        | _ => none
      else none
  | _ => none

/-- `re.search` of that expression, code_block.py:85 -/
def varSearch : Str → Option Str
  | [] => none
  | c :: s => match varMatch (c :: s) with
    | some n => some n
    | none => varSearch s

/-- The text after the first '}', `stmt.index('}', beg) + 1`, code_block.py:88 -/
def afterClose (s : Str) : Str := (s.dropWhile (· != '}')).tail

theorem afterClose_length (s : Str) (h : s ≠ []) : (afterClose s).length < s.length := by
  unfold afterClose
  have h1 : (s.dropWhile (· != '}')).length ≤ s.length := by
    have := List.takeWhile_append_dropWhile (p := (· != '}')) (l := s)
    have := congrArg List.length this
    simp only [List.length_append] at this
    omega
  have h2 : 0 < s.length := by cases s with
    | nil => exact absurd rfl h
    | cons => simp
  simp only [List.length_tail]
  omega

/-- The loop collecting the names used in a statement, code_block.py:74-93.  The argument is
`stmt[beg:]`; the offsets found by `stmt.find` are relative to it. -/
def collect (s : Str) : List Str :=
  if h : s = [] then []
  else
    match findSub ['{', '{'] s with
    | some o =>
      match findSub ['}', '}'] (s.drop o) with
      | some c => collect (s.drop (o + c + 2))
      | none => match varSearch s with
        | some n => n :: collect (afterClose s)
        | none => []
    | none => match varSearch s with
      | some n => n :: collect (afterClose s)
      | none => []
termination_by s.length
decreasing_by
  · have : 0 < s.length := List.length_pos_iff.2 h
    simp only [List.length_drop]; omega
  · exact afterClose_length s h
  · exact afterClose_length s h

/-- `str.format(**d)` (Python library).  A replacement field is everything up to the next '}'.
Simplification: a field that is empty, a number, or contains one of `{ [ . ! :` (positional
arguments, attribute access, format specifications; none is used by the framework's templates)
counts as an error. -/
def fmt (d : Dict) : Str → Option Str
  | [] => some []
  | '{' :: '{' :: s => (fmt d s).map ('{' :: ·)
  | '}' :: '}' :: s => (fmt d s).map ('}' :: ·)
  | '{' :: s => field d [] s
  | '}' :: _ => none
  | c :: s => (fmt d s).map (c :: ·)
where
  /-- Inside a replacement field; `acc` is the reversed field text. -/
  field (d : Dict) (acc : Str) : Str → Option Str
  | [] => none
  | '}' :: s =>
    let key := acc.reverse
    if key.all Char.isDigit then none
    else match d key, fmt d s with
      | some v, some t => some (v ++ t)
      | _, _ => none
  | c :: s => if c ∈ ['{', '[', '.', '!', ':'] then none else field d (c :: acc) s

/-- A line of a code block: statement and relative indent. code_block.py:49-88 -/
abbrev Line := Str × Int

/-- The indentation used for a line, code_block.py:105-109 -/
def indentOf (level rel : Int) : Int := if level ≥ 0 then level + rel else 0

/-- Result of write: the statements and indents passed to outfile.write before the method ended, and
whether it ended normally. code_block.py:90-122 -/
structure Result where
  out : List (Str × Int)
  ok : Bool
deriving DecidableEq

/-- CodeBlock.write, code_block.py:96-122; `names` is __write_vars. -/
def writeLines (names : List Str) (level : Int) (d : Dict) : List Line → Result
  | [] => ⟨[], true⟩
  | (stmt, rel) :: ls =>
    if names.any (fun n => (d n).isNone) then ⟨[], false⟩
    else match fmt d stmt with
      | none => ⟨[], false⟩
      | some t =>
        let r := writeLines names level d ls
        ⟨(t, indentOf level rel) :: r.out, r.ok⟩

/-- Creating a CodeBlock (code_block.py:52-94; the argument type rules out the format errors) and
writing it. -/
def write (block : List Line) (level : Int) (d : Dict) : Result :=
  writeLines (block.flatMap fun l => collect l.1) level d block

end Ccpp.CB
