import Verif.Model.PrebuildArgs
import Verif.Model.PrebuildSuite
import Verif.Model.FortranDecl
/-!
# Model of the search for schemes in Fortran source (ccpp_prebuild)

`parse_scheme_tables`, scripts/metadata_parser.py:516-781.

A raised exception is `none`.  Lines are given without the newline.  Parameters: `read m n`, the result of `read_new_metadata` for the table
`n` of the module `m` (the variables in order, or an exception); `compat`, `Var.compatible`; `mandatory`, the names of
`CCPP_MANDATORY_VARIABLES`.  Not modelled: dependencies (620-623, 667-669, 772-779) and logging.
-/
namespace Ccpp.ST
open FDecl (Str)

/-- `s.split()` (Python library); the first argument is the word that is being read. -/
def splitGo : Str → Str → List Str
  | w, [] => if w.isEmpty then [] else [w]
  | w, c :: s => if isWs c then (if w.isEmpty then splitGo [] s else w :: splitGo [] s) else splitGo (w ++ [c]) s

/-- `s.split()` (Python library) -/
def words (s : Str) : List Str := splitGo [] s

/-- `s.replace('&', ' ')` (Python library) -/
def noAmp (s : Str) : Str := s.map fun c => if c = '&' then ' ' else c

/-- The lines of the file with continuations joined, metadata_parser.py:549-566; the first argument is the buffer. -/
def joinLines : Str → List Str → List Str
  | _, [] => []
  | buf, l :: ls =>
    if (strip l).isEmpty || strip l == ['&'] then joinLines buf ls
    else if (strip l).getLast? = some '&' then joinLines (buf ++ noAmp l) ls
    else (buf ++ noAmp l) :: joinLines [] ls

/-- A line without trailing comment, metadata_parser.py:573-574, 604-605 -/
def cut (l : Str) : Str := if l.head? = some '!' then l else l.takeWhile fun c => c != '!'

/-- What a line says about modules, metadata_parser.py:576-590 -/
inductive MEv where
  | start (n : Str)
  | stop (n : Option Str)
  | none

/-- What a line says about modules, metadata_parser.py:576-590 -/
def modEvent (l : Str) : MEv :=
  match words (cut l) with
  | w0 :: w1 :: ws =>
    if lower w0 = "module".toList then (if lower w1 = "procedure".toList then .none else .start w1)
    else if lower w0 = "end".toList ∧ lower w1 = "module".toList then .stop ws.head? else .none
  | _ => .none

/-- A module: its name, the number of its first line and that of its last, metadata_parser.py:569, 581, 590 -/
structure Mod where
  name : Str
  first : Nat
  last : Option Nat

/-- Set the last line of the module, metadata_parser.py:590 -/
def setLast (n : Str) (k : Nat) (ms : List Mod) : List Mod := ms.map fun m => if m.name = n then ⟨n, m.first, some k⟩ else m

/-- One line, metadata_parser.py:571-590; `cur` is `module_name`. -/
def modStep (k : Nat) (cur : Option Str) (ms : List Mod) (l : Str) : Option (Option Str × List Mod) :=
  match modEvent l with
  | .start n => if ms.any fun m => m.name == n then none else some (some n, ms ++ [⟨n, k, none⟩])
  | .stop t => cur.bind fun c => if t.getD c = c then some (some c, setLast c k ms) else none
  | .none => some (cur, ms)

/-- The modules of the file, metadata_parser.py:568-591 -/
def modScan : Nat → Option Str → List Mod → List Str → Option (List Mod)
  | _, _, ms, [] => some ms
  | k, cur, ms, l :: ls => (modStep k cur ms l).bind fun r => modScan (k + 1) r.1 r.2 ls

/-- What a line says about subroutines, metadata_parser.py:608-644 -/
inductive SEv where
  | start (n : Str)
  | stop (n : Option Str)
  | bare
  | none

/-- What a line says about subroutines, metadata_parser.py:608-644.  The loop over the words acts at most once. -/
def subEvent (l : Str) : SEv :=
  match words (cut l) with
  | w0 :: w1 :: ws =>
    if lower w0 = "subroutine".toList then .start (w1.takeWhile fun c => c != '(')
    else if lower w0 = "end".toList ∧ lower w1 = "subroutine".toList then .stop ws.head? else .none
  | [w] => if lower w = "end".toList then .bare else .none
  | [] => .none

/-- CCPP_STAGES, in this order, common.py:15-20 -/
def stages : List Str := ["timestep_init".toList, "timestep_finalize".toList, "init".toList, "run".toList, "finalize".toList]

/-- The scheme of a subroutine with the name of a stage, metadata_parser.py:616-626 -/
def schemeOf (n : Str) : Option Str :=
  stages.findSome? fun s => if ('_' :: s).isSuffixOf n then some (n.take (n.length - (s.length + 1))) else none

/-- `in_subroutine`, `subroutine_name` and the registry of the module: name and line of each subroutine, and whether its end was found,
metadata_parser.py:599-644.  The number of the last line is not used later. -/
structure RSt where
  inside : Bool
  name : Option Str
  regs : List (Str × Nat × Bool)

/-- One line, metadata_parser.py:602-644 -/
def subStep (m : Str) (k : Nat) (st : RSt) (l : Str) : Option RSt :=
  match subEvent l with
  | .start n =>
    if st.inside then some st
    else match schemeOf n with
      | none => some { st with name := some n }
      | some s =>
        if s ≠ m then none
        else if st.regs.any fun r => r.1 == n then none
        else some ⟨true, some n, st.regs ++ [(n, k, false)]⟩
  | .stop t =>
    (t.or st.name).bind fun t' =>
      if st.inside ∧ st.name = some t' then some ⟨false, st.name, st.regs.map fun r => if r.1 = t' then (r.1, r.2.1, true) else r⟩
      else some st
  | .bare => if st.inside then none else some st
  | .none => some st

/-- The lines of a module, metadata_parser.py:601-645 -/
def subScan (m : Str) : Nat → RSt → List Str → Option RSt
  | _, st, [] => some st
  | k, st, l :: ls => (subStep m k st l).bind fun st' => subScan m (k + 1) st' ls

/-- A line seen from the subroutine above which a table is searched, metadata_parser.py:672-681 -/
inductive Kind where
  | hook
  | bad
  | other
deriving DecidableEq

/-- The test for the first line of a table, on the words of the line, metadata_parser.py:674 -/
def isHook (key : Str) : List Str → Bool
  | w0 :: w1 :: w2 :: _ => (w0 == "!!".toList || w0 == "!>".toList) && PA.inText "\\section".toList w1 && PA.inText key w2
  | _ => false

/-- A line seen from the subroutine above which a table is searched, metadata_parser.py:672-681; `key` is `arg_table_<subroutine>`. -/
def kindOf (key l : Str) : Kind :=
  if isHook key (words l) then .hook else if (words l).any fun w => PA.inText key w then .bad else .other

/-- The search upward, metadata_parser.py:668-683; the lines in reverse.  The number of the table line, if there is one. -/
def findUp (key : Str) : List Str → Option (Option Nat)
  | [] => some none
  | l :: ls =>
    match kindOf key l with
    | .hook => some (some ls.length)
    | .bad => none
    | .other => findUp key ls

/-- The table at a line, metadata_parser.py:684-733 -/
def tableAt {V : Type} (read : Option (List (Str × V))) (lines : List Str) (i : Nat) : Option (List (Str × V)) :=
  lines[i + 1]?.bind fun hl =>
    if PA.inText "htmlinclude".toList (lower hl) then
      match words hl with
      | [a, b, _] =>
        if a = "!!".toList ∧ b = "\\htmlinclude".toList then
          read.bind fun vs => lines[i + 2]?.bind fun nl => if words nl = ["!!".toList] then some vs else none
        else none
      | _ => none
    else if words hl = ["!!".toList] then some [] else none

/-- One variable is added to the metadata of the file, metadata_parser.py:700-712 -/
def addVar {V : Type} (compat : V → V → Bool) (md : List (Str × List V)) (v : Str × V) : Option (List (Str × List V)) :=
  match md.lookup v.1 with
  | none => some (md ++ [(v.1, [v.2])])
  | some vs => if vs.all fun e => compat e v.2 then some (md.map fun e => if e.1 = v.1 then (e.1, e.2 ++ [v.2]) else e) else none

/-- The variables of one subroutine, metadata_parser.py:657-741: the metadata, and the argument list -/
def doSub {V : Type} (read : Str → Str → Option (List (Str × V))) (compat : V → V → Bool) (mandatory : List Str) (lines : List Str) (m : Str)
    (md : List (Str × List V)) (r : Str × Nat × Bool) : Option (List (Str × List V) × Str × List Str) :=
  (findUp ("arg_table_".toList ++ r.1) (lines.take (r.2.1 + 1)).reverse).bind fun t =>
    match t with
    | none => some (md, r.1, [])
    | some i =>
      (tableAt (read m r.1) lines i).bind fun vs =>
        (vs.foldlM (addVar compat) md).bind fun md' =>
          if vs.isEmpty || mandatory.all (fun n => (vs.map (·.1)).contains n) then some (md', r.1, vs.map (·.1)) else none

/-- The subroutines of a module, metadata_parser.py:657-741 -/
def doSubs {V : Type} (read : Str → Str → Option (List (Str × V))) (compat : V → V → Bool) (mandatory : List Str) (lines : List Str) (m : Str) :
    List (Str × List V) → List (Str × Nat × Bool) → Option (List (Str × List V) × List (Str × List Str))
  | md, [] => some (md, [])
  | md, r :: rs =>
    (doSub read compat mandatory lines m md r).bind fun a => (doSubs read compat mandatory lines m a.1 rs).map fun b => (b.1, a.2 :: b.2)

/-- The modules, metadata_parser.py:593-768; the second argument is `subroutine_name`, of which later modules see only whether it has a value
(the loops at 648-657 change the value). -/
def doMods {V : Type} (read : Str → Str → Option (List (Str × V))) (compat : V → V → Bool) (mandatory : List Str) (lines : List Str) :
    List (Str × List V) → Option Str → List Mod → Option (List (Str × List V) × List (Str × List (Str × List Str)))
  | md, _, [] => some (md, [])
  | md, name, m :: ms =>
    m.last.bind fun e =>
      (subScan m.name m.first ⟨false, name, []⟩ ((lines.take e).drop m.first)).bind fun st =>
        if st.regs.all fun r => r.2.2 then
          (doSubs read compat mandatory lines m.name md st.regs).bind fun a =>
            (doMods read compat mandatory lines a.1 st.name ms).map fun b => (b.1, if a.2.isEmpty then b.2 else (m.name, a.2) :: b.2)
        else none

/-- parse_scheme_tables, metadata_parser.py:516-781: the metadata and the argument lists. -/
def parse {V : Type} (read : Str → Str → Option (List (Str × V))) (compat : V → V → Bool) (mandatory : List Str) (file : List Str) :
    Option (List (Str × List V) × List (Str × List (Str × List Str))) :=
  let lines := joinLines [] file
  (modScan 0 none [] lines).bind fun ms => doMods read compat mandatory lines [] none ms

end Ccpp.ST
