import Verif.Model.Checkers
/-!
# Model of `scripts/parse_tools/xml_tools.py`: find_schema_version, find_schema_file, and the search in validate_xml_file

The texts of the messages are not modelled (if a part of the version has braces, xml_tools.py:149 can raise another exception than CCPPError while
it makes the message).  Digits are ASCII digits.
-/
namespace Ccpp.SV

/-- Notation: a text. -/
abbrev Str := List Char

/-- The value of digits after `acc`; underscores do not count (Python library) -/
def val : Nat → Str → Nat
  | acc, [] => acc
  | acc, c :: s => if c = '_' then val acc s else val (10 * acc + (c.toNat - 48)) s

/-- The value of a text that `int` accepts (Python library) -/
def intVal : Str → Int
  | '-' :: s => -(val 0 s : Int)
  | '+' :: s => val 0 s
  | s => val 0 s

/-- `int(x)`, xml_tools.py:133 -/
def pyInt (s : Str) : Option Int := if Chk.isPyInt (strip s) then some (intVal (strip s)) else none

/-- The errors: no attribute (xml_tools.py:126), not two parts (131), no integers (135), major version (138), minor version (141), no schema
(xml_tools.py:207-210) -/
inductive Err where
  | missing
  | parts
  | notInteger
  | major
  | minor
  | noSchema
deriving DecidableEq

/-- find_schema_version, xml_tools.py:124-152; the argument is the attribute -/
def version : Option Str → Except Err (Int × Int)
  | none => .error .missing
  | some s => match Chk.splitOn '.' s with
    | [x, y] => match pyInt x, pyInt y with
      | some a, some b => if a < 1 then .error .major else if b < 0 then .error .minor else .ok (a, b)
      | _, _ => .error .notInteger
    | _ => .error .parts

/-- `str(x)` (Python library) -/
def pyStr : Int → Str
  | .ofNat n => Nat.toDigits 10 n
  | .negSucc n => '-' :: Nat.toDigits 10 (n + 1)

/-- `os.path.join` (Python library) -/
def pathJoin (d f : Str) : Str :=
  if f.head? = some '/' then f else if d.getLast? = some '/' then d ++ f else d ++ '/' :: f

/-- schema_filename, xml_tools.py:163-164 -/
def fileName (root : Str) (v : Int × Int) : Str := root ++ "_v".toList ++ pyStr v.1 ++ '_' :: pyStr v.2 ++ ".xsd".toList

/-- find_schema_file, xml_tools.py:163-174; None and the empty path are the same -/
def schemaFile (root : Str) (v : Int × Int) (dir : Str) (ex : Str → Bool) : Option Str :=
  let f := if dir ≠ [] then pathJoin dir (fileName root v) else fileName root v
  if ex f then some f else none

/-- The schema of a file with this attribute, xml_tools.py:124-152, 191-210; `isFile` tells which paths are files, `standard` is the directory
`schema` of the framework -/
def schemaFor (attr : Option Str) (root dir standard : Str) (isFile : Str → Bool) : Except Err Str :=
  match version attr with
  | .error e => .error e
  | .ok v =>
    if isFile root then .ok root
    else match schemaFile root v (if dir ≠ [] then dir else standard) isFile with
      | some f => .ok f
      | none => .error .noSchema

end Ccpp.SV
