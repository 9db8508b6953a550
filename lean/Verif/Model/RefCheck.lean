import Verif.Model.Regex
import Verif.Model.Literals
/-!
# Model of further checkers of `scripts/parse_tools/parse_checkers.py`

check_units, check_fortran_ref, check_local_name, check_fortran_intrinsic, check_fortran_type,
check_diagnostic_fixed, check_diagnostic_id.  The regular expressions are transcribed as data.  Text is ASCII:
`\d`, `\s` and `(?i)` act on ASCII characters only (simplification).
-/
namespace Ccpp.RC

open Ccpp.Rx

/-- Notation: a Python string. -/
abbrev Str := List Char

/-- How a checker ends: a value (None is `ok none`), CCPPError, ParseInternalError, IndexError or TypeError.
parse_checkers.py:25-62 and its siblings -/
inductive Out where
  | ok (v : Option Str)
  | error
  | internal
  | index
  | typeErr
deriving DecidableEq

/-- A value, or None or CCPPError as the flag says. parse_checkers.py:45-61 and its siblings -/
def reject (error : Bool) : Out := if error then .error else .ok none

/-! ### Units -/

/-- `[a-zA-Z]+` parse_checkers.py:17 and 20 -/
def letters : Re := .plus (.chr isLetter)

/-- `[1-9]\d*` parse_checkers.py:16 -/
def posNum : Re := .seq (.chr fun c => c.isDigit && c != '0') (.star (.chr Char.isDigit))

/-- `([-][1-9]\d*|[1-9]\d*)` parse_checkers.py:18-19 -/
def unitExponent : Re := .alt (.seq (.lit '-') posNum) posNum

/-- `[a-zA-Z]+EXPONENT?` parse_checkers.py:20 -/
def unitRe : Re := .seq letters (.opt unitExponent)

/-- `([a-zA-Z]+_[a-zA-Z]+)+` parse_checkers.py:17 -/
def withUnderscore : Re := .plus (.seq letters (.seq (.lit '_') letters))

/-- _UNITS_REGEX without the anchors, parse_checkers.py:15-21 -/
def unitsRe : Re :=
  .alt withUnderscore (.alt (.seq unitRe (.star (.seq (.chr isWs) unitRe))) (.lit '1'))

/-- check_units of a string, parse_checkers.py:25-61 -/
def units (v : Str) (error : Bool) : Out :=
  if unitsRe.dollar (strip v) then .ok (some v) else reject error

/-! ### References -/

/-- `[A-Za-z][A-Za-z0-9_]*` parse_checkers.py:210 and 214 -/
def idRe : Re := .seq (.chr isLetter) (.star (.chr isWordC))

/-- `\s*` parse_checkers.py:217-221 -/
def ws : Re := .star (.chr isWs)

/-- __FORT_DIM, parse_checkers.py:214-216 -/
def dimRe : Re := .alt idRe (.alt (.lit ':') (.plus (.chr Char.isDigit)))

/-- __REPEAT_DIM, parse_checkers.py:217 -/
def repeatDim : Re := .seq (.lit ',') (.seq ws (.seq dimRe ws))

/-- FORTRAN_SCALAR_REF, parse_checkers.py:218-221 -/
def scalarRef : Re :=
  .seq idRe (.seq ws (.seq (.lit '(') (.seq ws (.seq dimRe (.seq ws (.seq (.upTo repeatDim 6) (.lit ')')))))))

/-- `s.rstrip(')')` (Python library) parse_checkers.py:379 -/
def rstripParen (s : Str) : Str := (s.reverse.dropWhile (· == ')')).reverse

/-- The tokens of a reference: the name and what is between the commas, parse_checkers.py:379-381.  The text
matches the pattern, so there is a parenthesis and `tokens[1]` exists. -/
def refTokens (v : Str) : List Str :=
  match Chk.splitOn '(' (rstripParen (strip v)) with
  | t0 :: t1 :: _ => strip t0 :: (Chk.splitOn ',' t1).map strip
  | _ => []

/-- check_fortran_ref, parse_checkers.py:309-395 -/
def fortranRef (v : Str) (error : Bool) (maxLen : Nat) : Out :=
  match Chk.fortranId v false maxLen with
  | .val _ => .ok (some v)
  | _ =>
    if scalarRef.dollar v = false then reject error
    else if maxLen > 0 ∧ (refTokens v).any (fun t => decide (t.length > maxLen)) = true then reject error
    else .ok (some v)

/-! ### Local names -/

/-- The properties that check_local_name looks at; `protected` is the truth value of the property.
parse_checkers.py:430-445 -/
structure NameProps where
  prot : Bool
  type : Str
  kind : Str
deriving DecidableEq

/-- check_local_name, parse_checkers.py:399-452.  A missing dictionary or property is `false` or empty. -/
def localName (v : Str) (p : NameProps) (error : Bool) (maxLen : Nat) : Out :=
  if p.prot && !p.type.isEmpty then
    match Lit.literal v p.type p.kind with
    | .ok true => .ok (some v)
    | .ok false => fortranRef v error maxLen
    | .index => .index
    | .internal => .internal
    | .error => .error
  else fortranRef v error maxLen

/-! ### Types -/

/-- FORTRAN_INTRINSIC_TYPES, parse_checkers.py:227-228 -/
def intrinsicTypes : List Str :=
  ["integer".toList, "real".toList, "logical".toList, "complex".toList, "double precision".toList, "character".toList]

/-- Is it an intrinsic type? parse_checkers.py:490-495 -/
def isIntrinsic (t : Str) : Bool :=
  let c := lower (strip t)
  intrinsicTypes.contains c || (c.take 6 == "double".toList && Lit.dpMatch c)

/-- check_fortran_intrinsic, parse_checkers.py:457-503 -/
def fortranIntrinsic (t : Str) (error : Bool) : Out :=
  if isIntrinsic t then .ok (some t) else reject error

/-- check_fortran_type with the list of the registered derived types, parse_checkers.py:507-556 and 1071-1075 -/
def fortranType (ddts : List Str) (t : Str) (error : Bool) : Out :=
  if isIntrinsic t || ddts.contains t then .ok (some t) else reject error

/-- register_fortran_ddt_name, parse_checkers.py:1079-1081 -/
def registerDdt (ddts : List Str) (t : Str) : List Str := if ddts.contains t then ddts else ddts ++ [t]

/-! ### Diagnostic names -/

/-- The dictionary that the diagnostic checkers see: is it there (not None), and the values of the two
properties.  parse_checkers.py:825-826 and 913-914 -/
structure DiagProps where
  name : Option Str
  fixed : Option Str
deriving DecidableEq

/-- Is the property in the dictionary and not empty? parse_checkers.py:825-826 and 913-914 -/
def present (o : Option Str) : Bool := match o with | some (_ :: _) => true | _ => false

/-- check_diagnostic_fixed, parse_checkers.py:803-855.  Line 847 looks into the dictionary even if it is None. -/
def diagFixed (v : Str) (d : Option DiagProps) (error : Bool) : Out :=
  if d.any (fun p => present p.name) then reject error
  else match Chk.fortranId v false 0 with
    | .val _ => .ok (some v)
    | _ => if error then (if d = none then .typeErr else .error) else .ok none

/-- _DIAG_RE without the anchor, parse_checkers.py:859-862 -/
def diagRe : Re :=
  .seq (.opt idRe)
    (.opt (.seq (.alt (.text "${process}".toList) (.text "${scheme_name}".toList)) (.opt (.plus (.chr isWordC)))))

/-- check_diagnostic_id, parse_checkers.py:864-943 -/
def diagId (v : Str) (d : Option DiagProps) (error : Bool) : Out :=
  if d.any (fun p => present p.fixed) then reject error
  else if diagRe.dollar v then .ok (some v) else reject error

end Ccpp.RC
