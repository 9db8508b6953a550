import Verif.Model.Text
/-!
# Model of the argument lists of prebuild: `scripts/mkstatic.py`, create_argument_list_wrapped and
create_argument_list_wrapped_explicit
-/
namespace Ccpp.ArgW

/-- Notation: a Python string. -/
abbrev Str := List Char

/-- The text between two lines, mkstatic.py:160, 176 -/
def breakText : Str := " &\n                  ".toList

/-- `s.rstrip(',')` (Python library), mkstatic.py:163, 179 -/
def rstripComma (s : Str) : Str := (s.reverse.dropWhile (· == ',')).reverse

/-- `argument + ','`, mkstatic.py:156 -/
def plainPiece (a : Str) : Str := a ++ ",".toList

/-- `argument + '=' + argument + ','`, mkstatic.py:172 -/
def explicitPiece (a : Str) : Str := a ++ "=".toList ++ a ++ ",".toList

/-- The loop, mkstatic.py:155-161 and 171-177; `size` is what is added to `length`, `last` is `arguments[-1]`. -/
def loop (piece : Str → Str) (size : Str → Nat) (last : Str) : List Str → Str → Nat → Str
  | [], text, _ => text
  | a :: as, text, length =>
    let text := text ++ piece a
    let length := length + size a
    if length > 70 && !(a == last) then loop piece size last as (text ++ breakText) 0
    else loop piece size last as text length

/-- create_argument_list_wrapped, mkstatic.py:151-164 -/
def wrapped (args : List Str) : Str :=
  let text := loop plainPiece (fun a => a.length + 1) (args.getLast?.getD []) args [] 0
  if !text.isEmpty then rstripComma text else text

/-- create_argument_list_wrapped_explicit, mkstatic.py:166-180 -/
def wrappedExplicit (args : List Str) (following : Bool) : Str :=
  let text := loop explicitPiece (fun a => 2 * a.length + 2) (args.getLast?.getD []) args [] 0
  if !text.isEmpty && !following then rstripComma text else text

end Ccpp.ArgW
