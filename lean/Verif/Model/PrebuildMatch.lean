import Verif.Model.ReqVars
import Verif.Model.Units
/-!
# Model of the variable matching of `scripts/ccpp_prebuild.py`

`Var.compatible`, `convert_to`, `convert_from` (`scripts/mkcap.py`), `merge_dictionaries` and the collection of the variables
in `parse_scheme_tables` (`scripts/metadata_parser.py`), `collect_physics_subroutines`, `add_ccpp_suite_variables` and
`compare_metadata` (`scripts/ccpp_prebuild.py`).

A raised exception is `none`.  A dictionary is the list of its keys and values in the order of insertion.

Simplifications: long names, log messages, the dependencies and the scanning of the Fortran source (which tables there are, and
in which order) are not modelled; a Var is the record of the attributes used here.
-/
namespace Ccpp.PB

/-- Notation: a Python string. -/
abbrev Str := List Char

/-- `Var`, mkcap.py:22-42; `container` is none for the variables added by prebuild itself, mkstatic.py:37-62 -/
structure Var where
  std : Str
  units : Str
  loc : Str
  type : Str
  dims : List Str
  kind : Str
  intent : Str
  active : Str
  container : Option Str
  target : Option Str := none
  actIn : Option Str := none
  actOut : Option Str := none
deriving DecidableEq

/-- The rank: a colon for every dimension, mkcap.py:98-106 -/
def Var.rank (v : Var) : Nat := v.dims.length

/-- `str.startswith` (Python library). -/
def startsWith (p s : Str) : Bool := (dropPrefix? p s).isSome

/-- The text of an assumed length, mkcap.py:205 -/
def lenStar : Str := "len=*".toList
/-- The prefix of a length, mkcap.py:205 -/
def lenEq : Str := "len=".toList
/-- common.py:67 -/
def characterT : Str := "character".toList

/-- Var.compatible, mkcap.py:197-213 -/
def compatible (a b : Var) : Bool :=
  if a.type == characterT && ((a.kind == lenStar && startsWith lenEq b.kind) || (startsWith lenEq a.kind && b.kind == lenStar)) then
    a.std == b.std && a.type == b.type && a.rank == b.rank
  else a.std == b.std && a.type == b.type && a.kind == b.kind && a.rank == b.rank

/-- A metadata dictionary: the variables by standard name. metadata_parser.py:71-103 -/
abbrev Dict := List (Str × List Var)

/-- `d[k]` if `k in d`, metadata_parser.py:71-103 -/
def get : Dict → Str → Option (List Var)
  | [], _ => none
  | e :: d, k => if e.1 = k then some e.2 else get d k

/-- `d.keys()`, metadata_parser.py:78-80 -/
def keys (d : Dict) : List Str := d.map (·.1)

/-- `sorted(list(set(...)))` (Python library), metadata_parser.py:80 -/
def sortedSet (l : List Str) : List Str := RV.sorted l.eraseDups

/-- One key of merge_dictionaries, metadata_parser.py:81-102; the lists are never empty (`x[key][0]` would be an error) -/
def mergeKey (x y : Dict) (k : Str) : Option (List Var) :=
  match get x k, get y k with
  | some (a :: l), some (b :: m) => if compatible a b then some (a :: l ++ b :: m) else none
  | some _, some _ => none
  | some l, none => some l
  | none, some m => some m
  | none, none => some []

/-- Apply to every element, or fail. (loops that may raise, metadata_parser.py:81) -/
def mapAll (f : α → Option β) : List α → Option (List β)
  | [] => some []
  | x :: l => (f x).bind fun y => (mapAll f l).map (y :: ·)

/-- merge_dictionaries for variables, metadata_parser.py:71-103 -/
def merge (x y : Dict) : Option Dict :=
  mapAll (fun k => (mergeKey x y k).map fun l => (k, l)) (sortedSet (keys x ++ keys y))

/-- Append to the list of a key that is there, metadata_parser.py:716 -/
def appendTo : Dict → Str → Var → Dict
  | [], _, _ => []
  | e :: d, k, v => if e.1 = k then (e.1, e.2 ++ [v]) :: d else e :: appendTo d k v

/-- One variable of a table of a scheme: all existing entries are compared, metadata_parser.py:699-716 -/
def addVar (d : Dict) (v : Var) : Option Dict :=
  match get d v.std with
  | none => some (d ++ [(v.std, [v])])
  | some l => if l.all fun e => compatible e v then some (appendTo d v.std v) else none

/-- Loop over the variables of a table, metadata_parser.py:699-716 -/
def addVars : Dict → List Var → Option Dict
  | d, [] => some d
  | d, v :: vs => (addVar d v).bind fun d' => addVars d' vs

/-- Whether a name is repeated in one table, metadata_parser.py:245-247 -/
def noDup : List Var → Bool
  | [] => true
  | v :: vs => vs.all (fun w => w.std != v.std) && noDup vs

/-- common.py:24-25 -/
def errCode : Str := "ccpp_error_code".toList
/-- common.py:24-25 -/
def errMsg : Str := "ccpp_error_message".toList

/-- The mandatory variables are there, empty tables are skipped, metadata_parser.py:738-744 -/
def mandatory (t : List Var) : Bool := t.isEmpty || (t.any (fun v => v.std == errMsg) && t.any (fun v => v.std == errCode))

/-- A table of a scheme: read_new_metadata refuses duplicates; the variables are added; the mandatory ones are checked,
metadata_parser.py:685-744 -/
def addTable (d : Dict) (t : List Var) : Option Dict :=
  if noDup t then (addVars d t).bind fun d' => if mandatory t then some d' else none else none

/-- The tables of a file, metadata_parser.py:658-744 -/
def addTables : Dict → List (List Var) → Option Dict
  | d, [] => some d
  | d, t :: ts => (addTable d t).bind fun d' => addTables d' ts

/-- collect_physics_subroutines: merge the dictionaries of the files, ccpp_prebuild.py:328-356 -/
def collect : Dict → List (List (List Var)) → Option Dict
  | d, [] => some d
  | d, f :: fs => (addTables [] f).bind fun m => (merge d m).bind fun d' => collect d' fs

/-- CCPP_SUITE_VARIABLES, mkstatic.py:37-62, metadata_parser.py:42-63 -/
def suiteVars : List Var :=
  [{ std := errMsg, units := "none".toList, loc := "errmsg".toList, type := characterT, dims := [], kind := lenStar,
     intent := "out".toList, active := "T".toList, container := none },
   { std := errCode, units := "1".toList, loc := "ierr".toList, type := "integer".toList, dims := [], kind := [],
     intent := "out".toList, active := "T".toList, container := none },
   { std := "ccpp_loop_counter".toList, units := "index".toList, loc := "loop_cnt".toList, type := "integer".toList, dims := [],
     kind := [], intent := "in".toList, active := "T".toList, container := none },
   { std := "ccpp_loop_extent".toList, units := "count".toList, loc := "loop_max".toList, type := "integer".toList, dims := [],
     kind := [], intent := "in".toList, active := "T".toList, container := none }]

/-- add_ccpp_suite_variables, ccpp_prebuild.py:415-423 -/
def addSuiteFrom : Dict → List Var → Dict
  | d, [] => d
  | d, v :: vs => addSuiteFrom (match get d v.std with | none => d ++ [(v.std, [v])] | some _ => d) vs

/-- string_to_python_identifier, common.py:180-200 -/
def pyIdent (u : Str) : Option Str :=
  let s := Units.replaceChar '+' "_plus_".toList (Units.replaceChar '-' "_minus_".toList
    (Units.replaceChar '.' "_p_".toList (Units.replaceChar ' ' "_".toList u)))
  let s := if s = "1".toList then "one".toList else s
  if Units.isIdent s && !Units.keywords.contains s then some s else none

/-- The conversion between two units, mkcap.py:217-224, 228-235 -/
def conversion (a b : Str) : Option Str :=
  (pyIdent a).bind fun x => (pyIdent b).bind fun y => Units.lookup (Units.convName x y)

/-- convert_to, mkcap.py:215-224 -/
def convertTo (v : Var) (u : Str) : Option Var := (conversion v.units u).map fun f => { v with actOut := some f }
/-- convert_from, mkcap.py:226-235 -/
def convertFrom (v : Var) (u : Str) : Option Var := (conversion u v.units).map fun f => { v with actIn := some f }

/-- The unit conversions of one request, ccpp_prebuild.py:474-487 -/
def register (u : Str) (v : Var) : Option Var :=
  if v.units = u then some v
  else if v.intent = "inout".toList then (convertFrom v u).bind fun w => convertTo w u
  else if v.intent = "in".toList then convertFrom v u
  else if v.intent = "out".toList then convertTo v u
  else some v

/-- `str.split(c)` (Python library). -/
def splitOn (c : Char) : Str → List Str
  | [] => [[]]
  | d :: s => if d = c then [] :: splitOn c s else
    match splitOn c s with
    | [] => [[d]]
    | w :: ws => (d :: w) :: ws

/-- `'_'.join(item.split('_')[1:])`: what follows the first underscore, ccpp_prebuild.py:510-513 -/
def afterUnderscore (s : Str) : Str := (s.dropWhile (· != '_')).drop 1
/-- `item.split('_')[0]`, ccpp_prebuild.py:510-511 -/
def beforeUnderscore (s : Str) : Str := s.takeWhile (· != '_')

/-- The state of the loop of compare_metadata: success, modules, metadata and the variable `kind`, ccpp_prebuild.py:441-444 -/
structure Cmp where
  ok : Bool
  modules : List Str
  out : Dict
  kind : Option Str

/-- The loop over the items of the container, ccpp_prebuild.py:509-518 -/
def scanItems (ok : Bool) (ms : List Str) : List Str → Bool × List Str
  | [] => (ok, ms)
  | i :: is =>
    if beforeUnderscore i = "MODULE".toList then scanItems ok (ms ++ [afterUnderscore i]) is
    else if beforeUnderscore i = "TYPE".toList then scanItems ok ms is
    else scanItems false ms is

/-- Set the target and the kind of one request; `modules[-1]` must exist, ccpp_prebuild.py:524-533 -/
def setTarget (ms : List Str) (kind : Option Str) (target : Str) (v : Var) : Option Var :=
  if ms = [] then none
  else if v.type = characterT ∧ v.kind = lenStar then kind.map fun k => { v with target := some target, kind := k }
  else some { v with target := some target }

/-- The items of the container of the defined variable (`None.split` is an error), ccpp_prebuild.py:509 -/
def itemsOf (h : Var) : Option (List Str) := h.container.map (splitOn ' ')

/-- The end of an iteration of compare_metadata: the unit conversions are registered, then targets and kinds are set,
ccpp_prebuild.py:470-533; the warnings about optional variables are not modelled -/
def cmpMatched (s : Cmp) (k : Str) (h : Var) (req : List Var) : Option Cmp :=
  (mapAll (register h.units) req).bind fun req' =>
  (itemsOf h).bind fun items =>
    let r := scanItems s.ok s.modules items
    let kind := if h.type = characterT then some h.kind else s.kind
    (mapAll (setTarget r.2 kind h.loc) req').map fun req'' =>
      { ok := r.1, modules := r.2, out := s.out ++ [(k, req'')], kind := kind }

/-- ' & '.join(var.container ...) is an error if a container is None, ccpp_prebuild.py:447, 454-455 -/
def joinOk (l : List Var) : Bool := l.all fun v => v.container.isSome

/-- An iteration of compare_metadata, ccpp_prebuild.py:444-533 -/
def cmpStep (define request : Dict) (s : Cmp) (k : Str) : Option Cmp :=
  match get request k, get define k with
  | some req, none => if joinOk req then some { s with ok := false } else none
  | some (r :: req), some [h] =>
    if compatible r h then cmpMatched s k h (r :: req) else some { s with ok := false }
  | some req, some (_ :: _ :: _) => if joinOk req then some { s with ok := false } else none
  | _, _ => none

/-- The loop of compare_metadata, ccpp_prebuild.py:444-533 -/
def cmpLoop (define request : Dict) : Cmp → List Str → Option Cmp
  | s, [] => some s
  | s, k :: ks => (cmpStep define request s k).bind fun s' => cmpLoop define request s' ks

/-- compare_metadata: success, modules and metadata, ccpp_prebuild.py:436-537 -/
def compare (define request : Dict) : Option (Bool × List Str × Dict) :=
  (cmpLoop define request ⟨true, [], [], none⟩ (RV.sorted (keys request))).map fun s => (s.ok, sortedSet s.modules, s.out)

/-- collect_physics_subroutines, add_ccpp_suite_variables and compare_metadata in sequence, without filter_metadata,
ccpp_prebuild.py:769-802 -/
def matchVars (define : Dict) (files : List (List (List Var))) : Option (Bool × List Str × Dict) :=
  (collect [] files).bind fun req => compare define (addSuiteFrom req suiteVars)

end Ccpp.PB
