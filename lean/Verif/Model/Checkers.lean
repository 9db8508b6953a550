import Verif.Model.Text
/-!
# Model of `scripts/parse_tools/parse_checkers.py`

check_balanced_paren, check_fortran_id, check_cf_standard_name, fortran_list_match, check_dimensions.
The checkers return the value, return None, or raise: `Res`.
-/
namespace Ccpp.Chk

/-- Notation: a Python string. -/
abbrev Str := List Char

/-- Result of a checker: a value, None, or a CCPPError.
parse_checkers.py:25-62 and its siblings (return value, None, or raise CCPPError) -/
inductive Res (α : Type) where
  | val (a : α)
  | none
  | raise
deriving DecidableEq

/-- The loop of check_balanced_paren, parse_checkers.py:1023-1057; `none` stands for -1. -/
def scan (idx : Nat) (b : Option Nat) (depth : Int) (q : Option Char) : Str → Option Nat × Option Nat
  | [] => (b, none)
  | c :: s =>
    if c = '"' ∨ c = '\'' then
      if q = some c then scan (idx + 1) b depth none s
      else if q = none then scan (idx + 1) b depth (some c) s
      else scan (idx + 1) b depth q s
    else if q ≠ none then scan (idx + 1) b depth q s
    else if c = '(' then
      let b' := if depth = 0 then some idx else b
      if depth + 1 = 0 then (b', none) else scan (idx + 1) b' (depth + 1) q s
    else if c = ')' then
      if depth - 1 = 0 then (b, some idx) else scan (idx + 1) b (depth - 1) q s
    else scan (idx + 1) b depth q s

/-- check_balanced_paren(string, start) with error=False, parse_checkers.py:999-1062.  (A negative
start is not modelled.) -/
def balancedParen (s : Str) (start : Nat) : Option Nat × Option Nat :=
  scan start none 0 none (s.drop start)

/-- check_balanced_paren(string, start, error=True), parse_checkers.py:1059-1061 -/
def balancedParenErr (s : Str) (start : Nat) : Option (Option Nat × Option Nat) :=
  let r := balancedParen s start
  if r.1 ≠ none ∧ r.2 = none then none else some r

/-- `re.match("[A-Za-z][A-Za-z0-9_]*$", s)`, parse_checkers.py:210-211.  `$` also matches before a
newline at the end of the string. -/
def fidMatch : Str → Bool
  | [] => false
  | c :: s => isLetter c && (s.dropWhile isWordC == [] || s.dropWhile isWordC == ['\n'])

/-- check_fortran_id, parse_checkers.py:236-275 -/
def fortranId (s : Str) (error : Bool) (maxLen : Nat) : Res Str :=
  if fidMatch s = false then (if error then .raise else .none)
  else if maxLen > 0 ∧ s.length > maxLen then (if error then .raise else .none)
  else .val s

/-- `[a-z]` with the flag `(?i)` in a Python str pattern: the 52 ASCII letters and four others
(Python documentation of re.IGNORECASE). parse_checkers.py:160 -/
def isCfLetter (c : Char) : Bool :=
  isLetter c || c == '\u0130' || c == '\u0131' || c == '\u017f' || c == '\u212a'

/-- `[a-z0-9_]` with `(?i)` parse_checkers.py:160 -/
def isCfChar (c : Char) : Bool := isCfLetter c || c.isDigit || c == '_'

/-- `str.lower()` on the characters that can occur here.
Python library, parse_checkers.py:199 -/
def cfLower (s : Str) : Str :=
  s.flatMap fun c =>
    if c = '\u0130' then ['i', '\u0307'] else if c = '\u212a' then ['k'] else [c.toLower]

/-- `re.match("(?i)[a-z][a-z0-9_]*$", s)`, parse_checkers.py:160-161 -/
def cfMatch : Str → Bool
  | [] => false
  | c :: s => isCfLetter c && (s.dropWhile isCfChar == [] || s.dropWhile isCfChar == ['\n'])

/-- check_cf_standard_name, parse_checkers.py:163-202 -/
def cfStandardName (s : Str) (error : Bool) : Res Str :=
  if s = [] then .raise
  else if cfMatch s then .val (cfLower s)
  else if error then .raise else .none

/-- `str.split(sep)` for a one-character separator (Python library). -/
def splitOn (sep : Char) : Str → List Str
  | [] => [[]]
  | c :: s =>
    if c = sep then [] :: splitOn sep s
    else match splitOn sep s with
      | [] => [[c]]
      | t :: ts => (c :: t) :: ts

/-- fortran_list_match, parse_checkers.py:279-305 -/
def listMatch (s : Str) : Option (List Str) :=
  match balancedParen s 0 with
  | (some b, some e) =>
    if e > b then
      let items := (splitOn ',' ((s.take e).drop (b + 1))).map strip
      if items.length > 1 ∧ items.any (·.isEmpty) then none else some items
    else none
  | _ => none

/-- Digits with single underscores between them, as accepted by `int()` (Python library; only ASCII
digits). -/
def digitGroups : Str → Bool
  | [] => false
  | [c] => c.isDigit
  | c :: '_' :: s => c.isDigit && digitGroups s
  | c :: s => c.isDigit && digitGroups s

/-- Is `int(s)` defined?  The argument has no surrounding blanks (parse_checkers.py:115). -/
def isPyInt : Str → Bool
  | '+' :: s => digitGroups s
  | '-' :: s => digitGroups s
  | s => digitGroups s

/-- One component of a dimension, parse_checkers.py:117-141: `val true`: valid, `val false`: invalid,
`raise`: exception. -/
def dimComponent (t : Str) (error : Bool) (maxLen : Nat) : Res Bool :=
  if isPyInt t then .val true
  else match fortranId t error maxLen with
    | .raise => .raise
    | .val _ => .val true
    | .none =>
      if (lower (strip t)).take 4 = "size".toList then
        match balancedParen (t.drop 4) 0 with
        | (some _, some _) => .val true
        | _ => .raise
      else .val false

/-- The loop over the components of one dimension, parse_checkers.py:116-151; the result says whether
all are valid. -/
def dimComponents (error : Bool) (maxLen : Nat) : List Str → Res Bool
  | [] => .val true
  | t :: ts => match dimComponent t error maxLen with
    | .raise => .raise
    | .none => .raise
    | .val true => dimComponents error maxLen ts
    | .val false => if error then .raise else .val false

/-- The loop over the dimensions, parse_checkers.py:102-152; `ok` is `test_val is not None`. -/
def dimItems (error : Bool) (maxLen : Nat) : Bool → List Str → Res Bool
  | ok, [] => .val ok
  | ok, item :: rest =>
    let isplit := splitOn ':' item
    if isplit.length > 3 then (if error then .raise else .val false)
    else match dimComponents error maxLen ((isplit.filter (!·.isEmpty)).map strip) with
      | .raise => .raise
      | .none => .raise
      | .val true => dimItems error maxLen ok rest
      | .val false => dimItems error maxLen false rest

/-- check_dimensions on a list, parse_checkers.py:63-154 -/
def dimensions (dims : List Str) (error : Bool) (maxLen : Nat) : Res (List Str) :=
  match dimItems error maxLen true dims with
  | .raise => .raise
  | .none => .raise
  | .val true => .val dims
  | .val false => .none

end Ccpp.Chk
