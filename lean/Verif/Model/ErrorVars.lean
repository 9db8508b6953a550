import Verif.Model.Text
/-!
# Model of the error variables of the constituent routines
-/
namespace Ccpp.EV

/-- Notation: a text. -/
abbrev Str := List Char

/-- A variable: its standard name, local name and intent, metavar.py:1841-1872 -/
structure Var where
  std : Str
  lname : Str
  intent : Str
deriving DecidableEq

/-- The clone with intent out, if the variable has another intent, metavar.py:1856-1862 -/
def asOut (v : Var) : Var := if v.intent ≠ "out".toList then { v with intent := "out".toList } else v

/-- find_error_variables; `find` is find_variable of the dictionary, metavar.py:1841-1872 -/
def findErr (find : Str → Option Var) (cloneOut : Bool) : List Var :=
  match find "ccpp_error_code".toList, find "ccpp_error_message".toList with
  | some flg, some msg => if cloneOut then [asOut msg, asOut flg] else [msg, flg]
  | _, _ => []

/-- The loop of __errcode_names, with the names so far, constituents.py:168-179 -/
def namesLoop : Option Str → Option Str → List Var → Option (Option Str × Option Str)
  | code, msg, [] => some (code, msg)
  | code, msg, v :: l =>
    if v.std = "ccpp_error_code".toList then namesLoop (some v.lname) msg l
    else if v.std = "ccpp_error_message".toList then namesLoop code (some v.lname) l
    else none

/-- __errcode_names; a missing or empty name is an error, constituents.py:162-183 -/
def errcodeNames (vars : List Var) : Option (Str × Str) :=
  match namesLoop none none vars with
  | some (some c, some m) => if c = [] ∨ m = [] then none else some (c, m)
  | _ => none

/-- __errcode_callstr, constituents.py:185-194 -/
def callStr (find : Str → Option Var) (codeName msgName : Str) : Option Str :=
  (errcodeNames (findErr find true)).map fun p => p.1 ++ "=".toList ++ codeName ++ ", ".toList ++ p.2 ++ "=".toList ++ msgName

/-- __init_err_var: the statement, if any, constituents.py:120-132 -/
def initErr (v : Var) : Option Str :=
  if v.std = "ccpp_error_message".toList then some (v.lname ++ " = ''".toList)
  else if v.std = "ccpp_error_code".toList then some (v.lname ++ " = 0".toList)
  else none

end Ccpp.EV
