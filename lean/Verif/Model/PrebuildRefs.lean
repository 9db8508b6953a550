import Verif.Model.PrebuildNames
/-!
# Model of the analysis of local names in `scripts/mkstatic.py`

`extract_parents_and_indices_from_local_name` and the look up of the variables that it finds.

A raised exception is `none`.  Simplification: the texts are ASCII.
-/
namespace Ccpp.PA
open PB (Str)

/-- The first closing parenthesis and the last opening one before: the text before, between, and after, mkstatic.py:77-83.  The first
argument is the text before the last opening parenthesis, the second the text after it, if there is one.  In Python the variables keep
the values of an earlier round when there is no parenthesis; here this is an exception. -/
def innerGo (pre : Str) : Option Str → Str → Option (Str × Str × Str)
  | _, [] => none
  | w, c :: s =>
    if c = '(' then
      match w with
      | none => innerGo pre (some []) s
      | some w => innerGo (pre ++ '(' :: w) (some []) s
    else if c = ')' then
      match w with
      | none => none
      | some w => some (pre, w, s)
    else
      match w with
      | none => innerGo (pre ++ [c]) none s
      | some w => innerGo pre (some (w ++ [c])) s

/-- `s.replace(t, '')`, not for an empty `t` (Python library); the first argument is the number of characters to skip -/
def removeAll (t : Str) : Nat → Str → Str
  | _, [] => []
  | k + 1, _ :: s => removeAll t k s
  | 0, c :: s => if t.isPrefixOf (c :: s) then removeAll t (t.length - 1) s else c :: removeAll t 0 s

/-- The variables of an index group, mkstatic.py:84-95 -/
def indexItems (w : Str) : List Str :=
  (((PB.splitOn ',' w).map (PB.splitOn ':')).flatten).filterMap fun x =>
    if x = [] then none
    else if '%' ∈ x then some (x.takeWhile (· != '%'))
    else if PB.isInt x then none else some x

/-- The loop, mkstatic.py:76-97; the first argument bounds the number of rounds -/
def extractLoop : Nat → Str → List Str → Option (Str × List Str)
  | 0, _, _ => none
  | n + 1, s, acc =>
    if '(' ∈ s then
      (innerGo [] none s).bind fun (_, w, _) => extractLoop n (removeAll ('(' :: (w ++ [')'])) 0 s) (acc ++ indexItems w)
    else some (s, acc)

/-- `list(set(l))`; the order of a set is arbitrary, here that of the last occurrences (Python library). -/
def dedup : List Str → List Str
  | [] => []
  | x :: l => if x ∈ l then dedup l else x :: dedup l

/-- extract_parents_and_indices_from_local_name, mkstatic.py:69-108 -/
def extract (s : Str) : Option (Str × List Str) :=
  (extractLoop (s.length + 1) s []).map fun r =>
    (strip (if '%' ∈ r.1 then r.1.takeWhile (· != '%') else r.1), (dedup r.2).map strip)

end Ccpp.PA
