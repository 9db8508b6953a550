import Verif.Model.MetadataFile
/-!
# Model of `scripts/ddt_library.py` and `scripts/host_model.py`: the variables of a host model

Errors and exhausted recursion are `none`.

Simplifications: a variable is seen through the properties used here; the run environment, messages, contexts, the parents of
array references and `loop_subst` requests are not modelled; the host has a name; the constituents object, which is
added last, is given by `const`.
-/
namespace Ccpp.HM

abbrev Str := List Char

/-- A metadata variable: standard name, local name, type, whether the type is a derived type, dimensions,
metavar.py:264-375, 1159-1161 -/
structure V where
  std : Str
  loc : Str
  type : Str
  ddt : Bool
  dims : List Str
deriving DecidableEq

/-- A Var or a VarDDT: the properties of the latter itself and its field, ddt_library.py:25-51 -/
inductive Ref where
  | var (v : V)
  | ddt (own : V) (field : Ref)
deriving DecidableEq

/-- copy_prop_dict: the properties of the object itself, metavar.py:457-475 -/
def Ref.own : Ref → V
  | .var v => v
  | .ddt o _ => o

/-- get_prop_value: the properties of the leaf, ddt_library.py:63-71 -/
def Ref.leaf : Ref → V
  | .var v => v
  | .ddt _ f => f.leaf

/-- VarDDT.__init__: every VarDDT is a Var, so that the new field is always the field of the new object,
ddt_library.py:25-51 -/
def newVarDDT (newField : V) (r : Ref) : Ref := .ddt r.own (.var newField)

/-- A DDT header: title and variables, ddt_library.py:207-235 -/
abbrev Lib := List (Str × List V)

/-- DDTLibrary.__init__: duplicates are refused, ddt_library.py:207-235 -/
def libOk : Lib → Bool
  | [] => true
  | t :: ts => ts.all (fun x => x.1 != t.1) && libOk ts

/-- The header of a type, ddt_library.py:270-271 -/
def fieldsOf (lib : Lib) (t : Str) : Option (List V) := (lib.find? fun x => x.1 == t).map (·.2)

/-- A dictionary of variables in the order of their addition and its local names, metavar.py:1540-1570, 1700-1708 -/
structure Dict where
  entries : List Ref
  locals : List Str

/-- Variable with this standard name in this dictionary, metavar.py:1795-1797 -/
def Dict.get (d : Dict) (s : Str) : Option Ref := d.entries.find? fun r => r.leaf.std == s

/-- The constant known to every dictionary, metavar.py:1793-1794, 2096-2104 -/
def constName : Str := "ccpp_constant_one".toList

/-- The variable for this constant, metavar.py:2096-2104 -/
def constVar : V := ⟨constName, "1".toList, "integer".toList, false, []⟩

/-- VarDictionary.add_variable for a standard name not in use: the local name must be new; letter case does not matter,
metavar.py:1670-1708 -/
def Dict.add (d : Dict) (r : Ref) : Option Dict :=
  if lower r.leaf.loc ∈ d.locals then none else some ⟨d.entries ++ [r], lower r.leaf.loc :: d.locals⟩

/-- A host model: its variables, components of derived types, modules of variables and loop variables, host_model.py:19-44 -/
structure Host where
  vars : Dict
  comps : Dict
  modules : List (Str × Str)
  loops : Option Dict

/-- HostModel.find_variable (without loop substitution and bookkeeping), host_model.py:202-226; also the search from the
dictionary of components, metavar.py:1793-1806 -/
def Host.find (h : Host) (s : Str) : Option Ref :=
  if s = constName then some (.var constVar)
  else match h.vars.get s with
    | some r => some r
    | none => h.comps.get s

/-- The loop over the fields; the first argument stands for the recursive call, ddt_library.py:276-300 -/
def collectLoop (rec : Host → Ref → List V → Option Host) (lib : Lib) : Host → Ref → List V → Option Host
  | h, _, [] => some h
  | h, var, dvar :: rest =>
    (match dvar.ddt, fieldsOf lib dvar.type with
      | true, some sub => rec h (newVarDDT dvar var) sub
      | _, _ => some h).bind fun h1 =>
        if (h1.find dvar.std).isSome then none
        else (h1.comps.add (newVarDDT dvar var)).bind fun c => collectLoop rec lib { h1 with comps := c } var rest

/-- collect_ddt_fields for the fields of a type, ddt_library.py:255-301.  The first argument bounds the depth of the
recursion. -/
def collect (lib : Lib) : Nat → Host → Ref → List V → Option Host
  | 0 => fun _ _ _ => none
  | n + 1 => collectLoop (collect lib n) lib

/-- HostModel.add_variable, host_model.py:262-287 -/
def Host.add (h : Host) (v : V) : Option Host :=
  if (h.find v.std).isSome then none else (h.vars.add (.var v)).map fun d => { h with vars := d }

/-- The components of a variable, if it is of a derived type; the type must be known, host_model.py:60-67,
ddt_library.py:238-253 -/
def Host.addComps (lib : Lib) (fuel : Nat) (h : Host) (v : V) : Option Host :=
  if v.ddt then (fieldsOf lib v.type).bind fun fs => collect lib fuel h (.var v) fs else some h

/-- A dictionary assignment (Python library), host_model.py:62 -/
def setModule (l : List (Str × Str)) (k v : Str) : List (Str × Str) := (k, v) :: l.filter fun x => x.1 != k

/-- The module of a variable of a module header is recorded, host_model.py:61-62 -/
def noteModule (modname : Option Str) (l : List (Str × Str)) (loc : Str) : List (Str × Str) :=
  match modname with
  | some m => setModule l loc m
  | none => l

/-- The variables of a header, host_model.py:57-67, 73-80 -/
def Host.addVars (lib : Lib) (fuel : Nat) (modname : Option Str) : Host → List V → Option Host
  | h, [] => some h
  | h, v :: vs =>
    (h.add v).bind fun h1 =>
      (Host.addComps lib fuel { h1 with modules := noteModule modname h1.modules v.loc } v).bind fun h2 => Host.addVars lib fuel modname h2 vs

/-- CCPP_LOOP_VAR_STDNAMES, metavar.py:86-88 -/
def loopNames : List Str := ["horizontal_loop_extent", "horizontal_loop_begin", "horizontal_loop_end", "vertical_layer_index",
  "vertical_interface_index"].map String.toList

/-- The loop variables of a host header, host_model.py:81-106 -/
def addLoops : Dict → List Ref → Option Dict
  | d, [] => some d
  | d, r :: rs => if (d.get r.leaf.std).isSome then none else (d.add r).bind fun d' => addLoops d' rs

/-- The types of headers other than ddt, host_model.py:54-113 -/
inductive Kind where
  | module_ (name : Str)
  | host
  | other

/-- A header other than a DDT header, host_model.py:49-113 -/
structure Header where
  kind : Kind
  vars : List V

/-- One header, host_model.py:49-113 -/
def Host.addHeader (lib : Lib) (fuel : Nat) (h : Host) (x : Header) : Option Host :=
  match x.kind with
  | .module_ m => Host.addVars lib fuel (some m) h x.vars
  | .host =>
    (Host.addVars lib fuel none h x.vars).bind fun h1 =>
      match (x.vars.filter fun v => v.std ∈ loopNames).map Ref.var ++ h1.comps.entries.filter fun r => r.leaf.std ∈ loopNames with
      | [] => some h1
      | r :: rs => (addLoops ⟨[], []⟩ (r :: rs)).map fun d => { h1 with loops := some d }
  | .other => none

/-- The loop over the headers, host_model.py:49 -/
def Host.addHeaders (lib : Lib) (fuel : Nat) : Host → List Header → Option Host
  | h, [] => some h
  | h, x :: xs => (h.addHeader lib fuel x).bind fun h1 => Host.addHeaders lib fuel h1 xs

/-- HostModel.__init__: DDT headers, other headers and the constituents object with the module of the cap,
host_model.py:19-137 -/
def build (fuel : Nat) (lib : Lib) (headers : List Header) (const : Option (Str × V)) : Option Host :=
  if libOk lib then
    (Host.addHeaders lib fuel ⟨⟨[], []⟩, ⟨[], []⟩, [], none⟩ headers).bind fun h =>
      match const with
      | none => some h
      | some (cap, v) => Host.addVars lib fuel (some cap) h [v]
  else none

/-! ## References -/

/-- str.join (Python library), metavar.py:727-755 -/
def join (sep : Str) : List Str → Str
  | [] => []
  | [x] => x
  | x :: y :: l => x ++ sep ++ join sep (y :: l)

/-- All or none of the items, metavar.py:716-755 -/
def allSome : List (Option Str) → Option (List Str)
  | [] => some []
  | none :: _ => none
  | some x :: l => (allSome l).map (x :: ·)

/-- The name and the indices of a local name, if it is an array reference (loop_vars is None), metavar.py:702-711 -/
def indices (loc : Str) : Option (Str × List Str) :=
  match loc.takeWhile (· != '('), loc.dropWhile (· != '(') with
  | c :: cs, _ :: rest => some (strip (c :: cs), (Chk.splitOn ',' (rstrip rest).dropLast).map strip)
  | _, _ => none

/-- call_string for no loop variables; the first argument bounds the depth of the recursion, ddt_library.py:102-111,
metavar.py:693-757 -/
def callString (find : Str → Option Ref) : Nat → Ref → Option Str
  | 0, _ => none
  | n + 1, .ddt own f => (callString find n f).map fun s => own.loc ++ '%' :: s
  | n + 1, .var v =>
    match indices v.loc with
    | none => some v.loc
    | some (name, dims) =>
      (allSome (dims.map fun d => (allSome ((Chk.splitOn ':' d).map fun item =>
        if item = [] then some []
        else match find item with
          | some r => callString find n r
          | none => if Chk.isPyInt item then some item else none)).map (join [':']))).map fun l =>
            name ++ '(' :: join [',', ' '] l ++ [')']

/-! ## Use of module variables -/

/-- The names that have been used and those that were missed, host_model.py:134-137 -/
structure Use where
  used : List Str
  missed : List Str

/-- The indices of an array reference, host_model.py:247-253 -/
def refIndices (loc : Str) : List Str :=
  match MF.refGroups loc with
  | some (_, inner, []) => ((Chk.splitOn ',' inner).filter fun x => ':' ∉ x).map strip
  | _ => []

/-- The bookkeeping of find_variable; the first argument bounds the depth of the recursion, host_model.py:241-260 -/
def Host.request (h : Host) : Nat → Use → Str → Option Use
  | 0, _, _ => none
  | n + 1, u, s =>
    match h.find s with
    | none => some { u with missed := s :: u.missed }
    | some r =>
      ((refIndices r.leaf.loc).foldl (fun (o : Option Use) i => o.bind fun u => h.request n u i) (some u)).map fun u1 =>
        { u1 with used := r.own.loc :: u1.used }

/-- A sequence of requests, host_model.py:202-260 -/
def Host.requests (h : Host) (fuel : Nat) (u : Use) (l : List Str) : Option Use :=
  l.foldl (fun o s => o.bind fun u => h.request fuel u s) (some u)

/-- The module of a variable, host_model.py:169-174 -/
def Host.moduleOf (h : Host) (loc : Str) : Option Str := (h.modules.find? fun x => x.1 == loc).map (·.2)

/-- variable_locations (the deferred look-ups fail again, as the variables are the same); an empty module name is false, host_model.py:176-200 -/
def Host.locations (h : Host) (cap : Str) (u : Use) : List (Str × Str) :=
  (h.vars.entries.map fun r => r.leaf.loc).filterMap fun l =>
    match h.moduleOf l with
    | some m => if m ≠ [] ∧ l ∈ u.used ∧ m ≠ cap then some (m, l) else none
    | none => none

end Ccpp.HM
