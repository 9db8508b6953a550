import Verif.Model.Checkers
/-!
# Model of the literal checkers of `scripts/parse_tools/parse_checkers.py`

check_fortran_literal and check_default_value.  Text is ASCII: `lower`, `upper`, `isdigit`, white space and
the `(?i)` flag of the regular expressions act on ASCII characters only (simplification).
-/
namespace Ccpp.Lit

/-- Notation: a Python string. -/
abbrev Str := List Char

/-- How a checker ends: a value, IndexError, ParseInternalError or CCPPError.
parse_checkers.py:560-794 -/
inductive Out (α : Type) where
  | ok (a : α)
  | index
  | internal
  | error
deriving DecidableEq

/-- Blanks consumed by `\s*` in FORTRAN_DP_RE, then "precision". parse_checkers.py:229 -/
def afterDouble (s : Str) : Bool := "precision".toList.isPrefixOf (s.dropWhile isWs)

/-- `FORTRAN_DP_RE.match(s) is not None`, parse_checkers.py:229 (the pattern is not anchored at its end) -/
def dpMatch (s : Str) : Bool :=
  "double".toList.isPrefixOf (lower s) && afterDouble ((lower s).drop 6)

/-- `'_'.join(parts)`. (Python library), parse_checkers.py:677 and 685 -/
def joinU : List Str → Str
  | [] => []
  | [p] => p
  | p :: ps => p ++ '_' :: joinU ps

/-- A run of decimal digits, at least one.  float() and int() also accept `_` between digits, but the text
they get here has no underscore. (Python library), parse_checkers.py:695 and 704 -/
def digits1 (s : Str) : Bool := !s.isEmpty && s.all Char.isDigit

/-- Remove a sign. (Python library) parse_checkers.py:695 and 704 -/
def unsign : Str → Str
  | '+' :: s => s
  | '-' :: s => s
  | s => s

/-- The exponent of a number for float(): nothing, or e/E, a sign or none, digits. (Python library)
parse_checkers.py:704 -/
def exponent : Str → Bool
  | [] => true
  | c :: s => (c == 'e' || c == 'E') && digits1 (unsign s)

/-- Is `float(s)` defined, for a text without underscore? (Python library) parse_checkers.py:704 -/
def pyFloat (s : Str) : Bool :=
  let t := unsign (strip s)
  let i := t.takeWhile Char.isDigit
  match t.dropWhile Char.isDigit with
  | '.' :: r =>
    let f := r.takeWhile Char.isDigit
    (!i.isEmpty || !f.isEmpty) && exponent (r.dropWhile Char.isDigit)
  | r => (!i.isEmpty && exponent r) || ["inf".toList, "infinity".toList, "nan".toList].contains (lower t)

/-- Value and kind of a literal, parse_checkers.py:673-689 -/
def valKind (vtype : Str) (v : Str) : Str × Str :=
  let vparts := Chk.splitOn '_' (strip v)
  if vtype = "character".toList then
    if vparts.length > 1 then (vparts.getLastD [], joinU vparts.dropLast)
    else (vparts.headD [], [])
  else
    if vparts.length > 1 then (vparts.headD [], joinU vparts.tail)
    else (vparts.headD [], [])

/-- The parts with an even index are empty, parse_checkers.py:718-723 -/
def evenEmpty : List Str → Bool
  | [] => true
  | [p] => p.isEmpty
  | p :: _ :: ps => p.isEmpty && evenEmpty ps

/-- The test of a character value: balanced delimiters, parse_checkers.py:711-724 -/
def charVal : Str → Out Bool
  | [] => .index
  | sep :: s =>
    let cparts := Chk.splitOn sep (sep :: s)
    if cparts.length % 2 = 0 then .ok false else .ok (evenEmpty cparts)

/-- The part of check_fortran_literal for all types but complex, parse_checkers.py:672-728 -/
def simple (vtype v kind : Str) : Out Bool :=
  let vk := valKind vtype v
  if vk.2 ≠ lower kind then .ok false
  else if vtype = "integer".toList then .ok (Chk.isPyInt (strip vk.1))
  else if vtype = "real".toList then .ok (vk.1.contains '.' && pyFloat vk.1)
  else if vtype = "logical".toList then
    .ok (vk.1.map Char.toUpper == ".TRUE.".toList || vk.1.map Char.toUpper == ".FALSE.".toList)
  else if vtype = "character".toList then charVal vk.1
  else .internal

/-- The part of check_fortran_literal for complex, parse_checkers.py:654-671 -/
def complex (v kind : Str) : Out Bool :=
  match Chk.splitOn ',' (strip v) with
  | [a, b] =>
    let tp := if a.contains '.' && b.contains '.' then "real".toList else "integer".toList
    let valid := !((a.contains '.' || b.contains '.') && !(a.contains '.' && b.contains '.'))
    match a with
    | [] => .index
    | c :: a' =>
      if c ≠ '(' then .ok false
      else match b.getLast? with
        | none => .index
        | some d =>
          if d ≠ ')' then .ok false
          else if valid = false then .ok false
          else match simple tp a' kind with
            | .ok true => simple tp b.dropLast kind
            | r => r
  | _ => .ok false

/-- check_fortran_literal(value, typestr, kind), parse_checkers.py:560-730 -/
def literal (v typestr kind : Str) : Out Bool :=
  let vtype := if dpMatch (strip typestr) then "real".toList else lower typestr
  if vtype = "complex".toList then complex v kind else simple vtype v kind

/-- The dictionary of the properties read so far: 'type' and 'kind', parse_checkers.py:763-770 -/
structure Props where
  type : Option Str
  kind : Option Str
  /-- some other property is there -/
  other : Bool
deriving DecidableEq

/-- check_default_value(test_val, prop_dict, error), parse_checkers.py:732-794.  The value None is
`ok none`. -/
def defaultValue (v : Str) (props : Option Props) (error : Bool) : Out (Option Str) :=
  match props with
  | none => .ok (some v)
  | some p =>
    match p.type with
    | some t =>
      match literal v (strip (lower t)) (strip (lower (p.kind.getD []))) with
      | .ok true => .ok (some v)
      | .ok false => if error then .error else .ok none
      | .index => .index
      | .internal => .internal
      | .error => .error
    | none => if error then .error else .ok none

end Ccpp.Lit
