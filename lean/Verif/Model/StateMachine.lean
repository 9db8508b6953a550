import Verif.Model.Text
/-!
# Model of `scripts/state_machine.py` and `scripts/ccpp_state_machine.py`
-/
namespace Ccpp.SM

/-- The fragment of regular expressions used for transitions
(ccpp_state_machine.py:6-11): literals, concatenation and optional groups. -/
inductive Re where
  | lit (l : List Char)
  | seq (a b : Re)
  | opt (a : Re)
deriving Repr, DecidableEq

/-- The text of the expression, as written in ccpp_state_machine.py.
ccpp_state_machine.py:16-27 -/
def Re.text : Re → List Char
  | .lit l => l
  | .seq a b => a.text ++ b.text
  | .opt a => "(?:".toList ++ a.text ++ ")?".toList

/-- The (finite) set of strings the expression matches, longest alternative first
(an optional group is greedy). Regular-expression library, for ccpp_state_machine.py:16-27 -/
def Re.words : Re → List (List Char)
  | .lit l => [l]
  | .seq a b => a.words.flatMap (fun x => b.words.map (x ++ ·))
  | .opt a => a.words ++ [[]]

/-- An entry of `__stt__` (state_machine.py:167): initial state, final state and the
expression from which lines 165-166 compile the two regular expressions. -/
structure Trans where
  init : List Char
  final : List Char
  re : Re
deriving Repr, DecidableEq

/-- `__stt__`, an OrderedDict (state_machine.py:73): insertion-ordered pairs. -/
abbrev Machine := List (List Char × Trans)

/-- `key in self.__stt__` / `self.__stt__[key]` state_machine.py:155-157 -/
def Machine.get? (m : Machine) (k : List Char) : Option Trans :=
  (m.find? (fun p => p.1 == k)).map (·.2)

/-- transitions(), state_machine.py:90-92 -/
def Machine.transitions (m : Machine) : List (List Char) := m.map (·.1)

/-- add_transition / __setitem__, state_machine.py:85-88, 158-167; `none` is the
ValueError of line 160.  (The arity check of line 162 cannot fail from
add_transition.) -/
def Machine.add (m : Machine) (k : List Char) (t : Trans) : Option Machine :=
  if (m.get? k).isSome then none else some (m ++ [(k, t)])

/-- __delitem__, state_machine.py:169-170; `none` is KeyError. -/
def Machine.del (m : Machine) (k : List Char) : Option Machine :=
  if (m.get? k).isSome then some (m.filter (fun p => p.1 != k)) else none

/-- `len(x[3])`: the length of the regular expression's text, which in
ccpp_state_machine.py is always wrapped in `(?:` … `)`. state_machine.py:110-153 -/
def reLen (r : Re) : Nat := r.text.length + 4

/-- Insertion into a list sorted by descending expression length, after entries
of equal length. Python library (sorted), state_machine.py:110-153 -/
def insertDesc (x : List Char × Trans) : List (List Char × Trans) → List (List Char × Trans)
  | [] => [x]
  | y :: ys => if reLen y.2.re ≥ reLen x.2.re then y :: insertDesc x ys else x :: y :: ys

/-- `sorted(initial_data, key=..., reverse=True)`, state_machine.py:77 (Python's sort is
stable, also with `reverse=True`). -/
def sortDesc (l : List (List Char × Trans)) : List (List Char × Trans) :=
  l.foldl (fun acc x => insertDesc x acc) []

/-- __init__, state_machine.py:65-83 -/
def Machine.ofList (l : List (List Char × Trans)) : Option Machine :=
  (sortDesc l).foldl (fun acc x => acc.bind (fun m => m.add x.1 x.2)) (some [])

/-- FORTRAN_ID, parse_checkers.py:210: a letter and any number of further word characters. -/
def isFortranId (s : List Char) : Bool :=
  match s with
  | [] => false
  | c :: r => isLetter c && r.all isWordC

/-- transition_match with a given transition list, state_machine.py:119-126: the first
transition whose expression, anchored with `$` and ignoring case, matches.
Simplification: `$` is taken as end of string (Python's `$` also matches before one
final newline) and case folding is ASCII. -/
def transitionMatch (m : Machine) (s : List Char) : Option (List Char) :=
  (m.find? (fun p => p.2.re.words.contains (lower s))).map (·.1)

/-- `function_regex.match(s)`: regular expression `FORTRAN_ID + "_(" + re + ")$"`,
state_machine.py:166.  The identifier is greedy, so prefixes are tried from
the longest (length `n`) down. -/
def functionRe (words : List (List Char)) (s : List Char) : Nat → Option (List Char × List Char)
  | 0 => none
  | n + 1 =>
    match s.drop (n + 1) with
    | '_' :: suf =>
      if isFortranId (s.take (n + 1)) && words.contains (lower suf)
      then some (s.take (n + 1), suf)
      else functionRe words s n
    | _ => functionRe words s n

/-- function_match with `transition=None`, state_machine.py:129-153. -/
def functionMatch (m : Machine) (s : List Char) :
    Option (List Char × List Char × List Char) :=
  m.findSome? (fun p => (functionRe p.2.re.words s s.length).map (fun r => (r.1, r.2, p.1)))

/-! ## The CCPP machine, ccpp_state_machine.py -/

/-- ccpp_state_machine.py:6 -/
def reRegister : Re := .lit "register".toList
/-- ccpp_state_machine.py:7 `(?:init(?:ial(?:ize)?)?)` -/
def reInit : Re := .seq (.lit "init".toList)
  (.opt (.seq (.lit "ial".toList) (.opt (.lit "ize".toList))))
/-- ccpp_state_machine.py:8 `(?:final(?:ize)?)` -/
def reFinal : Re := .seq (.lit "final".toList) (.opt (.lit "ize".toList))
/-- ccpp_state_machine.py:9 -/
def reRun : Re := .lit "run".toList
/-- ccpp_state_machine.py:10 `(?:timestep_init(?:ial(?:ize)?)?)` -/
def reTsInit : Re := .seq (.lit "timestep_init".toList)
  (.opt (.seq (.lit "ial".toList) (.opt (.lit "ize".toList))))
/-- ccpp_state_machine.py:11 `(?:timestep_final(?:ize)?)` -/
def reTsFinal : Re := .seq (.lit "timestep_final".toList) (.opt (.lit "ize".toList))

/-- The six tuples of ccpp_state_machine.py:16-27. -/
def ccppData : List (List Char × Trans) :=
  [("register".toList, ⟨"uninitialized".toList, "uninitialized".toList, reRegister⟩),
   ("initialize".toList, ⟨"uninitialized".toList, "initialized".toList, reInit⟩),
   ("timestep_initial".toList, ⟨"initialized".toList, "in_time_step".toList, reTsInit⟩),
   ("run".toList, ⟨"in_time_step".toList, "in_time_step".toList, reRun⟩),
   ("timestep_final".toList, ⟨"in_time_step".toList, "initialized".toList, reTsFinal⟩),
   ("finalize".toList, ⟨"initialized".toList, "uninitialized".toList, reFinal⟩)]

/-- CCPP_STATE_MACH ccpp_state_machine.py:16-27 -/
def ccppMachine : Machine := (Machine.ofList ccppData).getD []

end Ccpp.SM
