import Verif.Model.Text
/-!
# Model of `scripts/parse_tools/parse_source.py`: the place of a context and its text
-/
namespace Ccpp.PL

/-- Notation: a text. -/
abbrev Str := List Char

/-- A context: the line, counted from zero, and the file, parse_source.py:218-245 -/
structure Context where
  line : Int
  file : Str

/-- The initial line and file (given or not), parse_source.py:228-245 -/
def new (line : Option Int) (file : Option Str) : Context := ⟨line.getD (-1), file.getD "<standard input>".toList⟩

/-- increment, parse_source.py:298-303 -/
def increment (c : Context) (inc : Int) : Context := { c with line := (if c.line < 0 then 0 else c.line) + inc }

/-- `os.path.basename` (Python library) -/
def basename (f : Str) : Str := (f.reverse.takeWhile (· != '/')).reverse

/-- `str(x)` for integers (Python library) -/
def pyStr : Int → Str
  | .ofNat n => Nat.toDigits 10 n
  | .negSucc n => '-' :: Nat.toDigits 10 (n + 1)

/-- __format__, parse_source.py:267-285 -/
def format (nodir : Bool) (c : Context) : Str :=
  let fname := if nodir then basename c.file else c.file
  if c.line ≥ 0 then fname ++ ':' :: pyStr (c.line + 1) else fname

/-- context_string, parse_source.py:87-111 -/
def contextString (c : Option Context) (withComma nodir : Bool) : Str :=
  match c with
  | none => []
  | some c =>
    let whereStr := if c.line < 0 then "in ".toList else "at ".toList
    if withComma then ", ".toList ++ whereStr ++ format nodir c else format nodir c

end Ccpp.PL
