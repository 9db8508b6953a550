import Verif.Model.PreprocExpr
import Verif.Model.Text
/-!
# Model of the translation of `#if` conditions to Python, `scripts/parse_tools/preprocess.py`
-/
namespace Ccpp.CondT
open Preproc

/-- Notation: a Python string. -/
abbrev Str := List Char

/-- `__defined_re__.match(line[index:])`, preprocess.py:14, 163: the name and the length of the match -/
def definedMatch (s : Str) : Option (Str × Nat) :=
  if "defined".toList.isPrefixOf s then
    let r := s.drop 7
    let w := r.takeWhile isWs
    let k := (r.dropWhile isWs).takeWhile isWordC
    if w.isEmpty || k.isEmpty then none else some (k, 7 + w.length + k.length)
  else none

/-- The loop of parse_preproc_line, preprocess.py:143-174: the character that opened a literal, the number of characters
still to be passed, and the rest of the line -/
def scan : Option Char → Nat → Str → Str
  | _, _, [] => []
  | q, k + 1, _ :: s => scan q k s
  | q, 0, c :: s =>
    if c = '"' ∨ c = '\'' then
      c :: scan (match q with | none => some c | some d => if d = c then none else some d) 0 s
    else if q.isSome then c :: scan q 0 s
    else if c = '&' ∧ s.head? = some '&' then "and".toList ++ scan none 1 s
    else if c = '|' ∧ s.head? = some '|' then "or".toList ++ scan none 1 s
    else if c = '!' then "not".toList ++ scan none 0 s
    else match definedMatch (c :: s) with
      | none => c :: scan none 0 s
      | some (k, n) => "defined (".toList ++ k ++ ")".toList ++ scan none (n - 1) s

/-- The text that is given to the Python parser, preprocess.py:139-174 -/
def translate (line : Str) : Str := scan none 0 line

/-- parse_preproc_line, preprocess.py:136-191: the value and success; `parse` is ast.parse (library), `none` a SyntaxError -/
def parsePreprocLine (parse : Str → Option (List Ex)) (toInt : Str → Option Int) (d : VDefs) (line : Str) : Except EErr (Bool × Bool) :=
  match parse (translate line) with
  | none => .ok (false, false)
  | some [e] =>
    match condValue toInt d e with
    | .error x => .error x
    | .ok v => .ok (v, true)
  | some _ => .ok (false, false)

end Ccpp.CondT
