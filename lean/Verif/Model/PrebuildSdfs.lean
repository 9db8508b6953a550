import Verif.Model.Checkers
/-!
# Model of the choice of the suite definition files in `scripts/ccpp_prebuild.py`
-/
namespace Ccpp.SD

/-- Notation: a text. -/
abbrev Str := List Char

/-- The names of the suites that are given as an argument, if there are any, ccpp_prebuild.py:57-60 -/
def given : Option Str → Option (List Str)
  | none => none
  | some s => if s = [] then none else some ((Chk.splitOn ',' s).map fun x => x ++ ".xml".toList)

/-- SUITE_DEFINITION_FILENAME_PATTERN.match: `^(.*)\.xml$`, where `$` is the end or a newline at the end, common.py:76 -/
def isSdf (f : Str) : Bool :=
  let g := if f.getLast? = some '\n' then f.dropLast else f
  g.all (· != '\n') && ".xml".toList.isSuffixOf g

/-- get_all_suites, ccpp_prebuild.py:165-177 -/
def allSuites (listing : List Str) : Option (List Str) :=
  let sdfs := listing.filter isSdf
  if sdfs = [] then none else some sdfs

/-- `os.path.join` (Python library) -/
def pathJoin (d f : Str) : Str :=
  if f.head? = some '/' then f else if d = [] ∨ d.getLast? = some '/' then d ++ f else d ++ '/' :: f

/-- The file of a suite, ccpp_prebuild.py:184-197 -/
def select (ex : Str → Bool) (dir sdf : Str) : Option Str :=
  if ex (pathJoin dir sdf) then some (pathJoin dir sdf)
  else if ex (pathJoin dir ("suite_".toList ++ sdf)) then some (pathJoin dir ("suite_".toList ++ sdf))
  else none

/-- The loop of parse_suites, with the suites so far, ccpp_prebuild.py:183-205 -/
def loop {α : Type} (ex : Str → Bool) (parse : Str → Option α) (dir : Str) : List α → List Str → Bool × List α
  | acc, [] => (true, acc)
  | acc, sdf :: r => match select ex dir sdf with
    | none => (false, acc)
    | some f => match parse f with
      | none => (false, acc)
      | some s => loop ex parse dir (acc ++ [s]) r

/-- parse_suites; without any file `success` has no value, which is an error, ccpp_prebuild.py:179-205 -/
def parseSuites {α : Type} (ex : Str → Bool) (parse : Str → Option α) (dir : Str) (sdfs : List Str) : Option (Bool × List α) :=
  if sdfs = [] then none else some (loop ex parse dir [] sdfs)

/-- The suites of a run: none is an exception, ccpp_prebuild.py:747-756 -/
def suites {α : Type} (arg : Option Str) (listing : List Str) (ex : Str → Bool) (parse : Str → Option α) (dir : Str) : Option (List α) :=
  match (given arg).orElse fun _ => allSuites listing with
  | none => none
  | some sdfs => match parseSuites ex parse dir sdfs with
    | some (true, l) => some l
    | _ => none

end Ccpp.SD
