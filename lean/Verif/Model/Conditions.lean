import Verif.Model.PrebuildArgs
/-!
# Model of the conditions (`active`) in the generated caps

The regular expression of scripts/common.py:41-44 and scripts/parse_tools/fortran_conditional.py:10-13, the conversion of a condition by
ccpp_prebuild (scripts/metadata_parser.py:200-211, scripts/mkstatic.py:1181-1213) and by ccpp_capgen (`Var.conditional`,
scripts/metavar.py:985-1030), and the if statements (scripts/mkstatic.py:1698-1709, scripts/suite_objects.py:1590-1618).

A raised exception is `none`.  Simplification: the texts are ASCII.
-/
namespace Ccpp.CD
open PB (Str)

/-- FORTRAN_CONDITIONAL_REGEX_WORDS, common.py:41-43, fortran_conditional.py:10-12 -/
def words : List Str :=
  [" ", "(", ")", "==", "/=", "<=", ">=", "<", ">", ".eqv.", ".neqv.", ".true.", ".false.", ".lt.", ".le.", ".eq.", ".ge.", ".gt.", ".ne.",
   ".not.", ".and.", ".or.", ".xor."].map String.toList

/-- `[\w']`, common.py:44 -/
def isWordQ (c : Char) : Bool := isWordC c || c == '\''

/-- A word of the list as regular expression matches at the start of the text: the dots are not escaped and match everything but the end of a
line, common.py:44 -/
def fits : Str → Str → Bool
  | [], _ => true
  | _ :: _, [] => false
  | k :: ks, c :: s => (if k = '.' then c != '\n' else k == c) && fits ks s

/-- The length of the match at the start of the text: the first alternative that matches, common.py:44 -/
def matchLen (s : Str) : Option Nat :=
  if (s.takeWhile isWordQ).isEmpty then (words.find? fun w => fits w s).map List.length
  else some (s.takeWhile isWordQ).length

/-- `findall` (Python library): the first argument counts the characters of the last match that are still to be skipped. -/
def findall : Nat → Str → List Str
  | _, [] => []
  | n + 1, _ :: s => findall n s
  | 0, c :: s =>
    match matchLen (c :: s) with
    | none => findall 0 s
    | some k => (c :: s).take k :: findall (k - 1) s

/-- What is written for one match, and the standard names in it, mkstatic.py:1191-1210, metavar.py:1011-1029.  `look` is the local name by standard
name. -/
def piece (look : Str → Option Str) (item : Str) : Option (Str × List Str) :=
  let i := lower item
  if i ∈ words then some (i, [])
  else if PB.isInt i then some (i, [])
  else (look i).map fun l => (l, [i])

/-- The loop over the matches, mkstatic.py:1190-1210, metavar.py:1010-1029 -/
def loop (look : Str → Option Str) : List Str → Option (Str × List Str)
  | [] => some ([], [])
  | i :: is => (piece look i).bind fun p => (loop look is).map fun r => (p.1 ++ r.1, p.2 ++ r.2)

/-- The condition with local names, and the standard names that occur in it, mkstatic.py:1186-1210, metavar.py:1004-1030 -/
def convert (look : Str → Option Str) (active : Str) : Option (Str × List Str) := loop look (findall 0 active)

/-- `' '.join(s.split())` for a text that does not start with white space (Python library), metadata_parser.py:211 -/
def squeeze : Str → Str
  | [] => []
  | c :: s =>
    if isWs c then (if (s.head?.map isWs).getD true then squeeze s else ' ' :: squeeze s)
    else c :: squeeze s

/-- The attribute `active` of a variable of ccpp_prebuild, metadata_parser.py:200-211 -/
def activeOf (raw : Str) : Option Str :=
  if raw.isEmpty then none
  else if lower raw = ".true.".toList then some ['T']
  else if lower raw = ".false.".toList then some ['F']
  else some (squeeze (raw.dropWhile isWs))

/-- The condition of a variable in a cap of ccpp_prebuild, and the variables it needs (the field `conds` of `PA.HVar`), mkstatic.py:1181-1213 -/
def prebuild (h : List PA.HVar) (raw : Str) : Option (Str × List Str) :=
  (activeOf raw).bind fun a =>
    if a = ['T'] then some (".true.".toList, [])
    else if a = ['F'] then some (".false.".toList, [])
    else convert (fun n => (PA.find h n).map (·.loc)) a

/-- A variable in dictionaries that are searched one after the other, metavar.py:1021-1027.  Simplification: a dictionary contains the variables of
its parents (`any_scope`). -/
def lookDicts (dicts : List (List (Str × Str))) (n : Str) : Option Str := dicts.findSome? fun d => d.lookup n

/-- `Var.conditional`, metavar.py:985-1030 -/
def capgen (dicts : List (List (Str × Str))) (active : Str) : Option (Str × List Str) := convert (lookDicts dicts) active

/-- The if statement of ccpp_prebuild, mkstatic.py:1700, 1706, 1777, 1783 -/
def prebuildIf (cond : Str) : Str := "if (".toList ++ cond ++ ") then".toList

/-- The if statement of ccpp_capgen, suite_objects.py:1484, 1560, 1580, 1600, 1617 -/
def capgenIf (cond : Str) : Str := "if ".toList ++ cond ++ " then".toList

end Ccpp.CD
