import Verif.Model.Text
/-!
# Model of the texts of the LaTeX document of `scripts/mkdoc.py`
-/
namespace Ccpp.LX

/-- Notation: a text. -/
abbrev Str := List Char

/-- `str.replace` of one character, Python library (str) -/
def repl (c : Char) (w s : Str) : Str := s.flatMap fun d => if d = c then w else [d]

/-- escape_tex, common.py:169-174 -/
def escape (s : Str) : Str := repl '&' ['\\', '&'] (repl '_' ['\\', '_'] (repl '%' ['\\', '%'] s))

/-- `str.find`, Python library (str) -/
def find (k : Str) : Str → Option Nat
  | [] => if (dropPrefix? k []).isSome then some 0 else none
  | c :: s => if (dropPrefix? k (c :: s)).isSome then some 0 else (find k s).map (· + 1)

/-- The entry for one request from its decoded container: `find` gives -1 if there is no `SUBROUTINE`, mkdoc.py:130-134 -/
def requestedName (container : Option Str) : Str :=
  let entry := match container with
    | some c => escape c
    | none => "none".toList
  match find "SUBROUTINE".toList entry with
  | some i => entry.drop (i + 10 + 1)
  | none => entry.drop (10 + 1 - 1)

/-- The list of the requests of a variable, before it is joined, mkdoc.py:130-135 -/
def requested (containers : List (Option Str)) : List Str :=
  (containers.map requestedName).mergeSort fun a b => decide (a ≤ b)

end Ccpp.LX
