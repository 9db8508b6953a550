import Verif.Model.VarText
/-!
# Model of `Var.handle_array_ref`, `Var.call_dimstring` and `Var.call_string`, `scripts/metavar.py`

A dictionary is what these functions ask it: `find` gives, for a standard name, the variable by the text of its own
call_string (`some none` if that raises an exception), `loop` is find_loop_dim_match.  `none` as a result is a
CCPPError; messages are not modelled.
-/
namespace Ccpp.VRef

open Ccpp.RC (Str)
open Ccpp.VText (arrayRef)

/-- A dictionary of variables, metavar.py:629-637, 702-722.  A name found by find_loop_dim_match is not empty. -/
structure Dict where
  find : Str → Option (Option Str)
  loop : Str → Option Str

/-- The loop that puts dimensions in the place of colons: the new list and the dimensions left,
metavar.py:569-580 -/
def fill : List Str → List Str → Option (List Str × List Str)
  | [], dims => some ([], dims)
  | s :: subs, dims =>
    if s = [':'] then
      match dims with
      | [] => none
      | d :: dims => (fill subs dims).map fun r => (d :: r.1, r.2)
    else (fill subs dims).map fun r => (s :: r.1, r.2)

/-- handle_array_ref, metavar.py:533-592 (the test at 581 cannot fail: the loop has met every colon). -/
def handleArrayRef (name : Str) (dims : List Str) : Option (Str × List Str) :=
  match arrayRef name with
  | none => some (name, dims)
  | some (n, inner) =>
    let subs := (Chk.splitOn ',' inner).map strip
    if dims.length > subs.countP (· == [':']) then none
    else (fill subs dims).map fun r => (n, r.1)

/-- `','.join` and others (Python library), metavar.py:655, 664, 728, 739 -/
def join (sep : Str) : List Str → Str
  | [] => []
  | [t] => t
  | t :: ts => t ++ sep ++ join sep ts

/-- All or none (an exception ends the loop), metavar.py:627-638, 709-737 -/
def allSome : List (Option Str) → Option (List Str)
  | [] => some []
  | none :: _ => none
  | some x :: l => (allSome l).map (x :: ·)

/-- The first dictionary that has the variable, metavar.py:628-638; a variable that is not found leads to the CCPPError
at 668-673. -/
def findFirst : List Dict → Str → Option Str
  | [], _ => none
  | d :: ds, s =>
    match d.find s with
    | some t => t
    | none => findFirst ds s

/-- The first loop substitution, metavar.py:616-621 -/
def loopFirst : List Dict → Str → Option Str
  | [], _ => none
  | d :: ds, s =>
    match d.loop s with
    | some t => some t
    | none => loopFirst ds s

/-- One dimension, metavar.py:609-658 -/
def dimEntry (dicts : List Dict) (explicit subst : Bool) (dim : Str) : Option Str :=
  let parts := Chk.splitOn ':' dim
  if explicit || parts.length == 1 then
    match (if subst then loopFirst dicts dim else none) with
    | some t => some t
    | none => (allSome (parts.map (findFirst dicts))).map (join [':'])
  else some [':']

/-- call_dimstring, metavar.py:594-674; `dicts` is `none` if there are no dictionaries. -/
def callDimstring (name : Str) (dims : List Str) (dicts : Option (List Dict)) (explicit subst : Bool) : Option Str :=
  match handleArrayRef name dims with
  | none => none
  | some (_, ds) =>
    let list := match dicts with
      | some dicts => allSome (ds.map (dimEntry dicts explicit subst))
      | none => some (ds.map fun _ => [':'])
    list.map fun l => if l.isEmpty then [] else "(".toList ++ join ",".toList l ++ ")".toList

/-- One part of a dimension in call_string, metavar.py:709-726 -/
def itemText (d : Dict) (item : Str) : Option Str :=
  if item = [] then some []
  else match d.find item with
    | some t => t
    | none => if Chk.isPyInt item then some item else none

/-- One dimension in call_string, metavar.py:701-737 -/
def callDim (d : Dict) (loop : Str → Option Str) (dim : Str) : Option Str :=
  match loop dim with
  | some t => some t
  | none => (allSome ((Chk.splitOn ':' dim).map (itemText d))).map (join [':'])

/-- call_string with loop_vars (not None), metavar.py:694-749; `loop` is find_loop_dim_match of loop_vars (an empty
dictionary counts as false and has no match).  `d` finds variables by their call strings with the same loop_vars. -/
def callString (d : Dict) (loop : Str → Option Str) (name : Str) (dims : List Str) : Option Str :=
  match handleArrayRef name dims with
  | none => none
  | some (base, []) => some base
  | some (base, ds) => (allSome (ds.map (callDim d loop))).map fun l =>
      base ++ "(".toList ++ join ", ".toList l ++ ")".toList

end Ccpp.VRef
