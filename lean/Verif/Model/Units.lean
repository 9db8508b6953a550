import Verif.Model.Text
import Mathlib.Data.Rat.Defs
/-!
# Model of `scripts/conversion_tools/unit_conversion.py` and of
`VarCompatObj._get_unit_convstrs`, `units_to_string` (`scripts/var_props.py`)
-/
namespace Ccpp.Units

/-- Notation: a Python string. -/
abbrev Str := List Char

/-- `str.replace` of one character by a text (Python library). -/
def replaceChar (c : Char) (t : Str) (s : Str) : Str := s.flatMap fun d => if d = c then t else [d]

/-- `str.isidentifier` for ASCII text (Python library); other letters are not modelled as part of
identifiers (no conversion has such a name, so the outcome is an error either way). -/
def isIdent : Str → Bool
  | [] => false
  | c :: s => (c.isAlpha || c == '_') && s.all fun c => c.isAlphanum || c == '_'

/-- `keyword.kwlist` (Python library). -/
def keywords : List Str :=
  ["False", "None", "True", "and", "as", "assert", "async", "await", "break", "class", "continue", "def",
   "del", "elif", "else", "except", "finally", "for", "from", "global", "if", "import", "in", "is",
   "lambda", "nonlocal", "not", "or", "pass", "raise", "return", "try", "while", "with", "yield"].map
    String.toList

/-- units_to_string before the checks, var_props.py:1359-1367 -/
def mangle (u : Str) : Str :=
  let s := replaceChar '+' "_plus_".toList (replaceChar '-' "_minus_".toList (replaceChar ' ' "_".toList u))
  if s = "1".toList then "one".toList else s

/-- units_to_string, var_props.py:1354-1380 -/
def unitsToString (u : Str) : Except String Str :=
  let s := mangle u
  if !isIdent s then .error "Unsupported units entry"
  else if keywords.contains s then .error "Invalid units entry"
  else .ok s

/-- The functions of unit_conversion.py:18-160, name and returned text. -/
def table : List (Str × Str) :=
  [("mm__to__m", "1.0E-3{kind}*{var}"), ("m__to__mm", "1.0E+3{kind}*{var}"),
   ("cm__to__m", "1.0E-2{kind}*{var}"), ("m__to__cm", "1.0E+2{kind}*{var}"),
   ("um__to__m", "1.0E-6{kind}*{var}"), ("m__to__um", "1.0E+6{kind}*{var}"),
   ("m__to__km", "1.0E-3{kind}*{var}"), ("km__to__m", "1.0E+3{kind}*{var}"),
   ("mm__to__km", "1.0E-6{kind}*{var}"), ("km__to__mm", "1.0E+6{kind}*{var}"),
   ("s__to__min", "{var}/6.0E+1{kind}"), ("min__to__s", "6.0E+1{kind}*{var}"),
   ("s__to__h", "{var}/3.6E+3{kind}"), ("h__to__s", "3.6E+3{kind}*{var}"),
   ("h__to__d", "{var}/2.4E+1{kind}"), ("d__to__h", "2.4E+1{kind}*{var}"),
   ("s__to__d", "{var}/8.64E+4{kind}"), ("d__to__s", "8.64E+4{kind}*{var}"),
   ("K__to__C", "{var}-273.15{kind}"), ("C__to__K", "{var}+273.15{kind}"),
   ("kg_kg_minus_1__to__g_kg_minus_1", "1.0E+3{kind}*{var}"),
   ("g_kg_minus_1__to__kg_kg_minus_1", "1.0E-3{kind}*{var}"),
   ("radian__to__degree", "57.295779513{kind}*{var}"),
   ("degree__to__radian", "{var}/57.295779513{kind}"),
   ("radian__to__degree_north", "57.295779513{kind}*{var}"),
   ("degree_north__to__radian", "{var}/57.295779513{kind}"),
   ("radian__to__degree_east", "57.295779513{kind}*{var}"),
   ("degree_east__to__radian", "{var}/57.295779513{kind}"),
   ("Pa__to__hPa", "1.0E-2{kind}*{var}"), ("hPa__to__Pa", "1.0E+2{kind}*{var}"),
   ("m_s_minus_1__to__km_h_minus_1", "3.6E+0{kind}*{var}"),
   ("km_h_minus_1__to__m_s_minus_1", "{var}/3.6E+0{kind}"),
   ("W_m_minus_2__to__erg_cm_minus_2_s_minus_1", "1.0E+3{kind}*{var}"),
   ("erg_cm_minus_2_s_minus_1__to__W_m_minus_2", "1.0E-3{kind}*{var}")].map
    fun p => (p.1.toList, p.2.toList)

/-- `getattr(unit_conversion, name)()`; only names containing `__to__` are looked up, so the
functions above are the only attributes that matter. var_props.py:1148-1213 -/
def lookup (name : Str) : Option Str := (table.find? fun p => p.1 == name).map (·.2)

/-- `"{0}__to__{1}".format`, var_props.py:1195, 1204 -/
def convName (a b : Str) : Str := a ++ "__to__".toList ++ b

/-- _get_unit_convstrs, var_props.py:1193-1213 -/
def convStrs (u1 u2 : Str) : Except String (Str × Str) :=
  match unitsToString u1 with
  | .error e => .error e
  | .ok a =>
    match unitsToString u2 with
    | .error e => .error e
    | .ok b =>
      match lookup (convName a b) with
      | none => .error "Unsupported unit conversion"
      | some f =>
        match lookup (convName b a) with
        | none => .error "Unsupported unit conversion"
        | some r => .ok (f, r)

end Ccpp.Units
