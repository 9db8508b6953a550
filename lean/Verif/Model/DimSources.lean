import Verif.Model.VarDictionary
import Verif.Model.Checkers
/-!
# Model of `scripts/metavar.py`: VarDictionary.add_variable_dimensions and Var.get_dim_stdnames

The dictionaries, `find` (find_variable in nested dictionaries) and `add` (add_variable) are those of
`VarDictionary.lean`.  A Python set is the list of its elements in the order in which it is iterated; this order is
not determined by the code (it depends on the hash seed of the process), so add_variable_dimensions gets the list
from its caller.  The text of contexts (`context_string`) is a parameter.
-/
namespace Ccpp.DimS

open VD (Str Dict DVar Flags constName)

/-- `int(name)` does not raise (Python library), metavar.py:946-948 -/
def isInt (name : Str) : Bool := Chk.isPyInt (strip name)

/-- The names that get_dim_stdnames adds to its set, in the order of the dimensions, metavar.py:940-956 -/
def dimStdnames (consts : Bool) (dims : List Str) : List Str :=
  dims.flatMap fun dim =>
    (Chk.splitOn ':' dim).filter fun name => !isInt name && (consts || !(name == constName))

/-- What a call of add_variable_dimensions changes: this dictionary, the dictionary `to_dict` and the error
string, metavar.py:1719-1769 -/
structure St where
  self : Dict
  tgt : Option Dict
  err : Str

/-- The arguments that the loop does not change, metavar.py:1719-1728.  `src` is `source.ptype` of a variable,
`ctx` its context_string, `isCall` whether `to_dict` is a CallList. -/
structure Args where
  cmp : DVar → DVar → Except String Bool
  src : DVar → Str
  ctx : DVar → Str
  parents : List Dict
  name : Str
  ignore : List Str
  adjust : Bool
  isCall : Bool

/-- `if to_dict`: false for None and for an empty dictionary, metavar.py:1731, 1745 -/
def truthy : Option Dict → Option Dict
  | some t => if t.entries.isEmpty then none else some t
  | none => none

/-- `present` after the first test, metavar.py:1731-1736 -/
def findTo (tgt : Option Dict) (dim : Str) : Option DVar :=
  match truthy tgt with
  | some t => t.findHere dim
  | none => none

/-- The message for a dimension, metavar.py:1759-1765; `found` is what was found, from an excluded source. -/
def message (a : Args) (var : DVar) (dim : Str) (found : Option DVar) : Str :=
  a.name ++ ": ".toList ++ "Cannot find variable for dimension, ".toList ++ dim ++ ", of ".toList ++ var.std ++
    a.ctx var ++
    match found with
    | none => []
    | some d => "\nFound ".toList ++ d.lname ++ " from excluded source, '".toList ++ a.src d ++ "'".toList ++ a.ctx d

/-- `err_ret` after another message, metavar.py:1753-1760.  (`ctx` is set with the first message and used in
all of them; the name of the dictionary is never empty together with the rest of the message, so the first message
makes `err_ret` true.) -/
def addErr (err msg : Str) : Str := if err.isEmpty then msg else err ++ "\n".toList ++ msg

/-- The body of the loop, metavar.py:1730-1767; an exception of add_variable ends it. -/
def dimStep (a : Args) (var : DVar) (st : St) (dim : Str) : St × Option String :=
  if (findTo st.tgt dim).isSome then (st, none)
  else if (st.self.findHere dim).isSome then (st, none)
  else match VD.find st.self a.parents dim true with
    | none => ({ st with err := addErr st.err (message a var dim none) }, none)
    | some dvar =>
      if dvar |> a.src |> a.ignore.contains then
        ({ st with err := addErr st.err (message a var dim (some dvar)) }, none)
      else match truthy st.tgt with
        | some t =>
          let r := (if a.isCall then VD.callAdd else VD.add) a.cmp ⟨true, false, a.adjust⟩ t dvar
          ({ st with tgt := some r.1 }, r.2)
        | none =>
          let r := VD.add a.cmp ⟨true, false, a.adjust⟩ st.self dvar
          ({ st with self := r.1 }, r.2)

/-- The loop, metavar.py:1729-1768 -/
def dimLoop (a : Args) (var : DVar) : St → List Str → St × Option String
  | st, [] => (st, none)
  | st, dim :: dims =>
    match dimStep a var st dim with
    | (st', none) => dimLoop a var st' dims
    | r => r

/-- add_variable_dimensions, metavar.py:1719-1769; `dims` is the set get_dim_stdnames(include_constants=False) of
`var`, in the order of iteration. -/
def addDims (a : Args) (var : DVar) (self : Dict) (tgt : Option Dict) (dims : List Str) : St × Option String :=
  dimLoop a var ⟨self, tgt, []⟩ dims

end Ccpp.DimS
