import Verif.Model.SchemeTables
import Verif.Model.Checkers
/-!
# Model of the search for host variables in Fortran source (ccpp_prebuild)

`parse_variable_tables`, scripts/metadata_parser.py:252-513, and `FtypeTypeDecl.type_def_line`, scripts/fortran_tools/parse_fortran.py:533-564.

A raised exception is `none`.  Lines are given without the newline.  Parameters: `read m n`, the result of `read_new_metadata` for the table
`n` of the module `m` (the variables in order, or an exception); `compat`, `Var.compatible`; `mandatory`, CCPP_MANDATORY_VARIABLES.
Not modelled: dependencies (396-397, 411-413, 503-510) and logging.
-/
namespace Ccpp.VT
open FDecl (Str)
open ST (words cut)

/-! ## Modules -/

/-- What a line says about modules, metadata_parser.py:299-314.  Comments are not removed. -/
def modEvent (l : Str) : ST.MEv :=
  match words l with
  | w0 :: w1 :: ws =>
    if lower w0 = "module".toList ∨ lower w0 = "program".toList then (if lower w1 = "procedure".toList then .none else .start w1)
    else if lower w0 = "end".toList ∧ (lower w1 = "module".toList ∨ lower w1 = "program".toList) then .stop ws.head? else .none
  | _ => .none

/-- One line, metadata_parser.py:297-314; `cur` is `module_name`. -/
def modStep (k : Nat) (cur : Option Str) (ms : List ST.Mod) (l : Str) : Option (Option Str × List ST.Mod) :=
  match modEvent l with
  | .start n => if ms.any fun m => m.name == n then none else some (some n, ms ++ [⟨n, k, none⟩])
  | .stop t => cur.bind fun c => if t.getD c = c then some (some c, ST.setLast c k ms) else none
  | .none => some (cur, ms)

/-- The modules of the file, metadata_parser.py:294-315 -/
def modScan : Nat → Option Str → List ST.Mod → List Str → Option (List ST.Mod)
  | _, _, ms, [] => some ms
  | k, cur, ms, l :: ls => (modStep k cur ms l).bind fun r => modScan (k + 1) r.1 r.2 ls

/-! ## Derived types -/

/-- What follows the first blank, if there is one (`split(' ', 1)`, Python library) -/
def afterSpace : Str → Option Str
  | [] => none
  | c :: s => if c = ' ' then some s else afterSpace s

/-- The name in the first line of a type definition, parse_fortran.py:547-560.  The text has no comment and is not the declaration of a
variable (see `typeEvent`), so that the tests at 539-546 pass. -/
def typeName (s : Str) : Option Str :=
  (match FDecl.splitColons s with
    | some p => some (strip p.2)
    | none => (afterSpace s).map strip).map fun (n : Str) => if n.contains '(' then strip (n.takeWhile fun c => c != '(') else n

/-- What a line says about derived types, metadata_parser.py:329-373 -/
inductive TEv where
  | start (n : Option Str)
  | stop (n : Option Str)
  | none

/-- The first word opens a type definition or a declaration, metadata_parser.py:338-341 -/
def typeWord (w : Str) : Bool :=
  lower w == "type".toList || "type,".toList.isPrefixOf (lower w) || "type::".toList.isPrefixOf (lower w)

/-- The second word shows that this is no type definition, metadata_parser.py:342-348 -/
def usage (w v : Str) : Bool :=
  "(".toList.isPrefixOf v || (lower w == "type".toList && (lower v == "is".toList || "is(".toList.isPrefixOf (lower v)))

/-- What a line says about derived types, metadata_parser.py:322-373.  The loop over the words acts at most once. -/
def typeEvent (l : Str) : TEv :=
  match words (cut l) with
  | w0 :: ws =>
    if typeWord w0 then (if ws.head?.any (usage w0) then .none else .start (typeName (strip (cut l))))
    else match ws with
      | w1 :: ws' => if lower w1 = "type".toList ∧ lower w0 = "end".toList then .stop ws'.head? else .none
      | [] => .none
  | [] => .none

/-- One line, metadata_parser.py:321-374: the type that is open, and the types of the module -/
def typeStep (st : Option Str × List Str) (l : Str) : Option (Option Str × List Str) :=
  match typeEvent l with
  | .start o => o.bind fun n => if st.1.isSome || st.2.contains n then none else some (some n, st.2 ++ [n])
  | .stop t => st.1.bind fun n => if t.getD n = n then some (none, st.2) else none
  | .none => some st

/-- The types of a module, metadata_parser.py:317-374 -/
def typeScan (ls : List Str) : Option (Option Str × List Str) := ls.foldlM typeStep (none, [])

/-! ## Tables -/

/-- VALID_ITEMS['header'], metadata_parser.py:33-34 -/
def validHeader : List Str :=
  ["local_name".toList, "standard_name".toList, "long_name".toList, "units".toList, "rank".toList, "type".toList, "kind".toList, "intent".toList]

/-- The columns of a table in the old format, metadata_parser.py:448 -/
def columns (l : Str) : List Str := (((Chk.splitOn '|' l).drop 1).dropLast).map strip

/-- The name of a table, metadata_parser.py:391 -/
def tableName : List Str → Str
  | _ :: _ :: w :: _ => PB.replace "arg_table_".toList [] w
  | _ => []

/-- `in_table` and the number of the header line: outside; on the header line of the named table; after it, metadata_parser.py:377-399 -/
inductive TSt where
  | out
  | head (n : Str)
  | tail
deriving DecidableEq

/-- One variable, metadata_parser.py:416-434 -/
def addOne {V : Type} (compat : V → V → Bool) (mandatory : List (Str × V)) (md : List (Str × List V)) (v : Str × V) : Option (List (Str × List V)) :=
  if (mandatory.lookup v.1).all fun w => compat w v.2 then ST.addVar compat md v else none

/-- The header line of the table `n`, metadata_parser.py:404-463 -/
def headStep {V : Type} (read : Option (List (Str × V))) (compat : V → V → Bool) (mandatory : List (Str × V)) (md : List (Str × List V)) (l : Str) :
    Option (TSt × List (Str × List V)) :=
  if PA.inText "htmlinclude".toList (lower l) then
    match words l with
    | [a, b, _] =>
      if a = "!!".toList ∧ b = "\\htmlinclude".toList then
        read.bind fun vs => (vs.foldlM (addOne compat mandatory) md).map fun md' => (.tail, md')
      else none
    | _ => none
  else if ¬l.contains '|' then some (.out, md)
  else if (columns l).all (fun c => validHeader.contains c) && (columns l).contains "standard_name".toList then some (.tail, md)
  else none

/-- One line, metadata_parser.py:380-478; `types` are the types of the module `m`. -/
def tabStep {V : Type} (read : Str → Str → Option (List (Str × V))) (compat : V → V → Bool) (mandatory : List (Str × V)) (m : Str) (types : List Str)
    (st : TSt × List (Str × List V)) (l : Str) : Option (TSt × List (Str × List V)) :=
  if ST.isHook "arg_table_".toList (words l) then
    if st.1 = .out ∧ (tableName (words l) = m ∨ tableName (words l) ∈ types) then some (.head (tableName (words l)), st.2) else none
  else match st.1 with
    | .out => some st
    | .head n => headStep (read m n) compat mandatory st.2 l
    | .tail => if ¬l.contains '|' ∧ strip l = "!!".toList then some (.out, st.2) else none

/-- One module, metadata_parser.py:318-478 -/
def doMod {V : Type} (read : Str → Str → Option (List (Str × V))) (compat : V → V → Bool) (mandatory : List (Str × V)) (lines : List Str)
    (md : List (Str × List V)) (m : ST.Mod) : Option (List (Str × List V)) :=
  m.last.bind fun e =>
    (typeScan ((lines.take e).drop m.first)).bind fun ts =>
      (((lines.take e).drop m.first).foldlM (tabStep read compat mandatory m.name ts.2) (.out, md)).map fun st => st.2

/-- parse_variable_tables, metadata_parser.py:252-513: the metadata of the variables -/
def parse {V : Type} (read : Str → Str → Option (List (Str × V))) (compat : V → V → Bool) (mandatory : List (Str × V)) (file : List Str) :
    Option (List (Str × List V)) :=
  (modScan 0 none [] (ST.joinLines [] file)).bind fun ms => ms.foldlM (doMod read compat mandatory (ST.joinLines [] file)) []

end Ccpp.VT
