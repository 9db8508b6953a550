/-!
# Model of `scripts/parse_tools/parse_source.py`: ContextRegion and ParseContext regions
-/
namespace Ccpp.Ctx

/-- An open region: type and optional name, parse_source.py:173-175. -/
structure Region where
  type : String
  name : Option String
deriving DecidableEq

/-- The stack `_lifo` (innermost region first, i.e. reversed), parse_source.py:166-196. -/
abbrev Stack := List Region

/-- type_list, parse_source.py:181-183 -/
def typeList (s : Stack) : List String := s.map Region.type

/-- enter_region, parse_source.py:305-314; the Boolean is "no exception". -/
def enter (s : Stack) (t : String) (n : Option String) (nestedOk : Bool) : Bool × Stack :=
  if !(typeList s).contains t || nestedOk then (true, ⟨t, n⟩ :: s) else (false, s)

/-- leave_region, parse_source.py:316-341: the innermost region is popped before it is checked. -/
def leave (s : Stack) (t : String) (n : Option String) : Bool × Stack :=
  match s with
  | [] => (false, [])
  | r :: s' =>
    if r.type ≠ t then (false, s')
    else match n, r.name with
      | some a, some b => (decide (a = b), s')
      | some _, none => (false, s')
      | none, _ => (true, s')

/-- curr_region, parse_source.py:343-350 -/
def currRegion (s : Stack) : Option Region := s.head?

/-- in_region, parse_source.py:352-354 -/
def inRegion (s : Stack) (t : String) (n : Option String) : Bool :=
  decide (currRegion s = some ⟨t, n⟩)

/-- A call made by a parser. parse_source.py:305-341 -/
inductive Op
  | enter (t : String) (n : Option String) (nestedOk : Bool)
  | leave (t : String) (n : Option String)

/-- A sequence of calls up to the first exception; `none`: an exception was raised.
Notation: a sequence of the calls of parse_source.py:305-341. -/
def run : Stack → List Op → Option Stack
  | s, [] => some s
  | s, .enter t n k :: ops => match enter s t n k with
    | (true, s') => run s' ops
    | (false, _) => none
  | s, .leave t n :: ops => match leave s t n with
    | (true, s') => run s' ops
    | (false, _) => none

end Ccpp.Ctx
