import Verif.Model.PrebuildRefs
import Verif.Model.StaticApi
/-!
# Model of the argument lists of the group and suite caps of ccpp_prebuild

`Group.write` (scripts/mkstatic.py:1062-1342, 1906-1908), `Suite.write` (scripts/mkstatic.py:842-856) and
`create_arguments_module_use_var_defs` (scripts/mkstatic.py:182-206) as far as they decide which variables the caps have as arguments,
and with which intents.

A raised exception is `none`.  Simplifications: of the metadata of the scheme only the standard name and the intent of every argument of a
call are kept (mkstatic.py:1223-1226 looks them up by the name of the subroutine); the variables of a condition are given (their text is
not parsed here); variables are values, not shared objects.
-/
namespace Ccpp.PA
open PB (Str)

/-- The intents a variable can have in metadata, as compared at mkstatic.py:1300-1317 -/
inductive Intent where
  | «in» | out | inout
deriving DecidableEq

/-- A variable of the host: standard name, local name, dimensions, variables of the condition `active`, metadata_parser.py:104-250.  -/
structure HVar where
  std : Str
  loc : Str
  dims : List Str
  conds : List Str

/-- `metadata_define[n][0]`, mkstatic.py:1154 -/
def find (h : List HVar) (n : Str) : Option HVar := h.find? fun v => v.std == n

/-- `standard_name_by_local_name_define`: the last variable with this local name wins, mkstatic.py:1066-1068 -/
def stdOf (h : List HVar) (l : Str) : Option Str := (h.reverse.find? fun v => v.loc == l).map (·.std)

/-- `dims_string`, mkstatic.py:1257-1261 -/
def dimsString (i : Nat) : Str := if i = 0 then [] else '(' :: ((List.replicate i ':').intersperse ',' ++ [')'])

/-- The search for a registered parent, mkstatic.py:1256-1270; FORTRAN_ARRAY_MAX_DIMS is 15, mkstatic.py:34 -/
def findParent (h : List HVar) (n : Str) : Option Str := (List.range 16).findSome? fun i => stdOf h (n ++ dimsString i)

/-- The names in dimensions, mkstatic.py:1156-1162 -/
def dimNames (dims : List Str) : List Str :=
  ((dims.map (PB.splitOn ':')).flatten).filterMap fun d => if PB.isInt (lower d) then none else some (lower d)

/-- A dummy argument of a cap: the variable of the host, the local name and the intent, mkstatic.py:1274, 1296-1303 -/
structure Parent where
  std : Str
  loc : Str
  intent : Intent
deriving DecidableEq

/-- What the collection has found so far: `local_vars` (with the standard name of the parent), `parents`, `additional_variables_required`,
mkstatic.py:1092, 1132 -/
structure St where
  locals : List (Str × Str)
  parents : List Parent
  add : List Str

/-- The variable is known already, mkstatic.py:1163-1164 -/
def known (args : List Str) (st : St) (n : Str) : Bool := (st.locals.map (·.1)).contains n || st.add.contains n || args.contains n

/-- A variable is added without a check, mkstatic.py:1134-1138, 1173-1177 -/
def request (args : List Str) (st : St) (n : Str) : St := if known args st n then st else { st with add := st.add ++ [n] }

/-- A dimension is added, mkstatic.py:1163-1169, 1285-1291 -/
def require (h : List HVar) (args : List Str) (st : St) (n : Str) : Option St :=
  if known args st n then some st
  else (find h n).map fun _ => { st with add := st.add ++ [n] }

/-- A variable of a condition is added, mkstatic.py:1201-1210 -/
def requireCond (h : List HVar) (args : List Str) (st : St) (n : Str) : Option St := (find h n).map fun _ => request args st n

/-- `t in s` for texts (Python library) -/
def inText (t : Str) : Str → Bool
  | [] => t.isEmpty
  | c :: s => t.isPrefixOf (c :: s) || inText t s

/-- The variables that are always added, mkstatic.py:1132-1147 -/
def mandatory (h : List HVar) (stage : SA.Stage) : List Str :=
  if (find h "horizontal_loop_extent".toList).isSome then ["ccpp_constant_one".toList, "horizontal_loop_extent".toList]
  else if stage = .run ∧ (find h "horizontal_loop_begin".toList).isSome ∧ (find h "horizontal_loop_end".toList).isSome ∧
      (find h "ccpp_chunk_extent".toList).isSome then
    ["horizontal_loop_begin".toList, "horizontal_loop_end".toList, "ccpp_chunk_extent".toList]
  else []

/-- The variables that are added for one argument, mkstatic.py:1151-1210 -/
def addFor (h : List HVar) (stage : SA.Stage) (args : List Str) (st : St) (v : Str) : Option St :=
  (find h v).bind fun hv =>
    ((dimNames hv.dims).foldlM (require h args) st).bind fun st =>
      let st := if stage ≠ .run ∧ inText "cdata%blk_no".toList hv.loc then
          ["ccpp_block_count".toList, "horizontal_dimension".toList].foldl (request args) st else st
      hv.conds.foldlM (requireCond h args) st

/-- The intent of a parent that a variable with this intent has, or (if the flag is false) of an index, mkstatic.py:1296-1317 -/
def rule1 (isParent : Bool) (i : Intent) : Option Intent → Intent
  | none => if isParent then i else .in
  | some .in => if isParent ∧ i ≠ .in then .inout else .in
  | some .out => if isParent ∧ i ≠ .out then .inout else .inout
  | some .inout => .inout

/-- The intent of a parent when the variable occurs again, mkstatic.py:1336-1339 -/
def rule2 (i : Intent) : Intent → Intent
  | .in => if i ≠ .in then .inout else .in
  | .out => if i ≠ .out then .inout else .out
  | .inout => .inout

/-- The parent gets a new intent, or is added, mkstatic.py:1296-1317 -/
def setParent (p loc : Str) (f : Option Intent → Intent) : List Parent → List Parent
  | [] => [⟨p, loc, f none⟩]
  | e :: l => if e.std = p then { e with intent := f (some e.intent) } :: l else e :: setParent p loc f l

/-- `local_vars[v] = ...`, mkstatic.py:1320-1325 -/
def setLocal (v p : Str) : List (Str × Str) → List (Str × Str)
  | [] => [(v, p)]
  | e :: l => if e.1 = v then (v, p) :: l else e :: setLocal v p l

/-- One name in the local name of a variable, mkstatic.py:1254-1325 -/
def place (h : List HVar) (args : List Str) (v root : Str) (i : Intent) (st : St) (n : Str) : Option St :=
  (findParent h n).bind fun p => (find h p).bind fun pv =>
    ((dimNames pv.dims).foldlM (require h args) st).map fun st =>
      { locals := if n = root then setLocal v p st.locals else st.locals
        parents := setParent p n (rule1 (n == root) i) st.parents
        add := st.add }

/-- One variable, mkstatic.py:1221-1339 -/
def visit (h : List HVar) (args : List (Str × Intent)) (st : St) (v : Str) : Option St :=
  let i := (args.lookup v).getD .in
  (find h v).bind fun hv =>
    match st.locals.lookup v with
    | some p => some { st with parents := setParent p hv.loc (fun o => rule2 i (o.getD .in)) st.parents }
    | none => (extract hv.loc).bind fun r => (r.1 :: r.2).foldlM (place h (args.map (·.1)) v r.1 i) st

/-- One round over all variables, mkstatic.py:1220 -/
def round (h : List HVar) (args : List (Str × Intent)) (st : St) : Option St := (st.add ++ args.map (·.1)).foldlM (visit h args) st

/-- What is added before the rounds, mkstatic.py:1132-1213 -/
def prepare (h : List HVar) (stage : SA.Stage) (args : List (Str × Intent)) (st : St) : Option St :=
  (args.map (·.1)).foldlM (addFor h stage (args.map (·.1))) ((mandatory h stage).foldl (request (args.map (·.1))) { st with add := [] })

/-- One call, mkstatic.py:1132-1342 -/
def call (h : List HVar) (stage : SA.Stage) (st : St) (args : List (Str × Intent)) : Option St :=
  (prepare h stage args st).bind fun st => (round h args st).bind fun st => round h args st

/-- The variables of the cap of one stage of a group, mkstatic.py:1085-1342, 1906-1908.  The calls are those of all schemes of all
subcycles that have a routine with arguments for this stage. -/
def group (h : List HVar) (stage : SA.Stage) (calls : List (List (Str × Intent))) : Option (List Parent) :=
  (calls.foldlM (call h stage) ⟨[], [], []⟩).bind fun st =>
    if stage = .init ∧ st.parents = [] then (find h "ccpp_t_instance".toList).map fun c => [⟨c.std, c.loc, .in⟩]
    else some st.parents

/-- The intent in the suite, mkstatic.py:848-856 -/
def mergeIntent (i : Intent) : Option Intent → Intent
  | none => i
  | some o => rule2 i o

/-- The parents of one group are merged into those of the suite, mkstatic.py:847-856 -/
def mergeGroup (ps : List Parent) (g : List Parent) : List Parent :=
  g.foldl (fun ps e => setParent e.std e.loc (mergeIntent e.intent) ps) ps

/-- The variables of the cap of one stage of a suite, mkstatic.py:842-856 -/
def suite (gs : List (List Parent)) : List Parent := gs.foldl mergeGroup []

/-- The variable has dimensions, mkstatic.py:201-203 -/
def isArray (h : List HVar) (e : Parent) : Bool :=
  match find h e.std with
  | some v => !v.dims.isEmpty
  | none => false

/-- The names of the arguments: scalars first, mkstatic.py:198-206 -/
def arguments (h : List HVar) (ps : List Parent) : List Str :=
  (ps.filter fun e => !isArray h e).map (·.loc) ++ (ps.filter (isArray h)).map (·.loc)

end Ccpp.PA
