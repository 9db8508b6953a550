import Verif.Model.FortranScheme
/-!
# Model of `scripts/fortran_tools/parse_fortran_file.py`: the tables of a file

The source is what the reader of files gives (C56, `Model/FortranLines.lean`): the statements of each line.  Every
function takes the statements left on the current line and the lines to come, and returns what is left; `none` instead
is the value None of `statements` (end of file).  Messages are not modelled.  Loops get fuel: `Exc.fuel` stands for a
loop that would go on; `Props/FortranFile.lean` shows that it does not happen.
-/
namespace Ccpp.FFile

open Ccpp.FDecl (Str dropWord? VarRec parseDecl ddtMatch splitColons)
open Ccpp.FSub (kw ident subStmt endSub argTable isContains useStmt parseScheme)

/-- How a function can fail: an exception (any, raised in parse_fortran_file.py:487-994), or no fuel. -/
inductive Exc where
  | error
  | fuel
deriving DecidableEq

/-- What is left to read: the rest of a line, and the lines after it, parse_fortran_file.py:115-125 -/
abbrev Src := List Str × List (List Str)

/-- `statements.pop(0)`, with read_statements if the line is empty, parse_fortran_file.py:115-125, 498, 546, 793, 912 -/
def next : List Str → List (List Str) → Option (Str × Src)
  | s :: cur, rest => some (s, cur, rest)
  | [], [] => none
  | [], l :: rest => next l rest

/-- _ARG_TABLE_START_RE.match and its group 1, parse_fortran_file.py:42 -/
def tableName (s : Str) : Option Str :=
  match lstrip s with
  | '!' :: c :: t =>
    if c = '!' ∨ c = '>' then
      match kw "arg_table_".toList ((kw "\\section".toList t).getD t) with
      | some r => (ident r).map (·.1)
      | none => none
    else none
  | _ => none

/-- Words, white space and an identifier: _PROGRAM_RE and _MODULE_RE with group 1, parse_fortran_file.py:34, 36 -/
def unitStart (w s : Str) : Option Str :=
  match kw w s with
  | some (c :: t) => if isWs c then (ident (lstrip t)).map (·.1) else none
  | _ => none

/-- _ENDPROGRAM_RE and _ENDMODULE_RE with group 1, parse_fortran_file.py:35, 37 -/
def unitEnd (w s : Str) : Option (Option Str) :=
  match (kw "end".toList s).bind (kw w) with
  | some (c :: t) => if isWs c then some ((ident (lstrip t)).map (·.1)) else none
  | _ => none

/-- _END_TYPE_RE.match, parse_fortran_file.py:51 -/
def endType (s : Str) : Bool := ((kw "end".toList s).bind (kw "type".toList)).isSome

/-- fortran_type_definition: `some none` if the line is no definition, `none` for the IndexError,
parse_fortran.py:524-556, 630-635; the properties and parameters of the type are not used. -/
def typeStart (line : Str) : Option (Option Str) :=
  if ((dropWord? "type".toList (strip line)).bind (ddtMatch 4 false)).isSome then some none
  else
    let sline := if '!' ∈ line then strip (line.takeWhile (· != '!')) else strip line
    if lower (sline.take 4) = "type".toList then
      let name? := match splitColons sline with
        | some (_, b) => some (strip b)
        | none => if ' ' ∈ sline then some (strip ((sline.dropWhile (· != ' ')).drop 1)) else none
      match name? with
      | none => none
      | some name => some (some (if '(' ∈ name then strip (name.takeWhile (· != '(')) else name))
    else some none

/-- The kinds of tables, parse_fortran_file.py:505, 563, 739 -/
inductive Kind where
  | module
  | ddt
  | scheme
deriving DecidableEq

/-- A table made from the source, parse_fortran_file.py:504-506, 562-565, 738-740 -/
structure Tbl where
  kind : Kind
  name : Str
  module : Str
  vars : List VarRec
deriving DecidableEq

/-- add_variable for new standard names: a local name must not be there, metavar.py:1658-1690, 1821-1840 -/
def addVars (vars : List VarRec) : List VarRec → Option (List VarRec)
  | [] => some vars
  | v :: vs => if lower v.name ∈ vars.map (fun x => lower x.name) then none else addVars (vars ++ [v]) vs

/-- The local variables of parse_type_def, parse_fortran_file.py:491-495; `table` are the variables of `mheader`. -/
structure TSt where
  seen : Bool := false
  vars : List VarRec := []
  table : Option (List VarRec) := none
deriving DecidableEq

/-- Declarations in a type or a module: comments and use statements are skipped, parse_fortran_file.py:513-519 and
597-605 -/
def declare (logger : Bool) (vars : List VarRec) (s : Str) : Option (List VarRec) :=
  match (lstrip s).head? with
  | none => none
  | some c =>
    if c = '!' then some vars
    else if useStmt s then some vars
    else match parseDecl false logger s with
      | none => none
      | some vs => addVars vars vs

/-- The statements of a line of a type, parse_fortran_file.py:497-524 -/
def typeLine (logger : Bool) : TSt → List Str → Option TSt
  | st, [] => some st
  | st, s :: rest =>
    if endType s then typeLine logger { st with table := some st.vars } rest
    else if isContains s st.table.isNone then typeLine logger { st with seen := true } rest
    else if st.seen then typeLine logger st rest
    else match declare logger st.vars s with
      | none => none
      | some vs => typeLine logger { st with vars := vs } rest

/-- The lines of a type, parse_fortran_file.py:496-527; the statements of the last line have all been read. -/
def typeLines (logger : Bool) : TSt → List (List Str) → Option (TSt × List (List Str))
  | st, [] => some (st, [])
  | st, l :: rest =>
    match typeLine logger st l with
    | none => none
    | some st => if st.table.isSome then some (st, rest) else typeLines logger st rest

/-- The local variables of parse_preamble_data, parse_fortran_file.py:536-539 -/
structure PSt where
  tables : List Tbl := []
  vars : List VarRec := []
  active : Option Str := none
deriving DecidableEq

/-- parse_preamble_data, parse_fortran_file.py:531-613; `w` is the word of the unit (module or program). -/
def preamble (logger : Bool) (w spec : Str) : Nat → PSt → Src → Except Exc (List Tbl × Option Src)
  | 0, _, _ => .error .fuel
  | n + 1, st, (cur, rest) =>
    match next cur rest with
    | none => .ok (st.tables, none)
    | some (s, cur, rest) =>
      match typeStart s with
      | none => .error .error
      | some ty =>
        match tableName s with
        | some t => preamble logger w spec n { st with active := some t } (cur, rest)
        | none =>
          if (unitEnd w s).isSome || isContains s true then
            .ok (st.tables ++ [⟨.module, spec, spec, st.vars⟩], some (s :: cur, rest))
          else match ty with
            | some name =>
              match typeLines logger {} ((s :: cur) :: rest) with
              | none => .error .error
              | some (ts, rest) =>
                if st.active.map lower = some (lower name) then
                  match ts.table with
                  | none => .error .error
                  | some vs =>
                    preamble logger w spec n
                      { st with tables := st.tables ++ [⟨.ddt, name, spec, vs⟩], active := none } ([], rest)
                else preamble logger w spec n st ([], rest)
            | none =>
              match st.active with
              | none => preamble logger w spec n st (cur, rest)
              | some t =>
                if (lstrip s).head? = none then .error .error
                else if lower t = lower spec then
                  match declare logger st.vars s with
                  | none => .error .error
                  | some vs => preamble logger w spec n { st with vars := vs } (cur, rest)
                else preamble logger w spec n st (cur, rest)

/-- parse_specification, parse_fortran_file.py:766-840; `w` is the word of the unit.  Of the region only the question
whether the unit is a module matters here (821). -/
def specification (logger : Bool) (w spec : Str) (inmod : Bool) : Nat → List Tbl → Src → Except Exc (List Tbl × Option Src)
  | 0, _, _ => .error .fuel
  | n + 1, tables, (cur, rest) =>
    match next cur rest with
    | none => .ok (tables, none)
    | some (s, cur, rest) =>
      match typeStart s with
      | none => .error .error
      | some ty =>
        if (unitEnd w s).isSome then .ok (tables, some (cur, rest))
        else if (tableName s).isSome then
          match preamble logger w spec n {} (s :: cur, rest) with
          | .error e => .error e
          | .ok (new, src) =>
            if inmod then
              match src with
              | none => .error .error
              | some src => specification logger w spec inmod n (tables ++ new) src
            else .ok (tables ++ new, src)
        else if ty.isSome then
          match typeLines logger {} ((s :: cur) :: rest) with
          | none => .error .error
          | some (_, rest) => specification logger w spec inmod n tables ([], rest)
        else if isContains s inmod then .ok (tables, some (cur, rest))
        else specification logger w spec inmod n tables (cur, rest)

/-- Regions: type and name, innermost first, parse_source.py:160-200, 303-340 -/
abbrev Regions := List (Bool × Str)

/-- leave_region; `mod` for modules, else programs, parse_source.py:317-340.  (Regions always have names here.) -/
def leave (mod : Bool) (name : Option Str) : Regions → Option Regions
  | [] => none
  | (m, n) :: r => if m = mod ∧ (name = none ∨ name = some n) then some r else none

/-- enter_region with nested_ok=False, parse_source.py:305-315 -/
def enter (mod : Bool) (name : Str) (r : Regions) : Option Regions :=
  if mod ∈ r.map (·.1) then none else some ((mod, name) :: r)

/-- Whether parse_scheme_metadata leaves the region of the module while it reads a line,
parse_fortran_file.py:635-717 and 650-655: `FSub.step` gives `.inr (_, false)` then. -/
def lineLeaves (table : Str) (logger : Bool) : FSub.St → List Str → Bool
  | _, [] => false
  | st, s :: rest =>
    match FSub.step table logger st s with
    | none => false
    | some (.inl st) => lineLeaves table logger st rest
    | some (.inr (_, back)) => !back

/-- The same for the lines, parse_fortran_file.py:634-721 -/
def linesLeave (table : Str) (logger : Bool) : FSub.St → List (List Str) → Bool
  | _, [] => false
  | st, l :: rest =>
    match FSub.line table logger st l with
    | none => false
    | some (st', _) => if st'.insub then linesLeave table logger st' rest else lineLeaves table logger st l

/-- The local variables of parse_module, parse_fortran_file.py:903-909 -/
structure MSt where
  tables : List Tbl
  active : Option Str := none
  routines : List Str := []
  seen : Bool := false
  insub : Bool := false
deriving DecidableEq

/-- The loop of parse_module, parse_fortran_file.py:910-962; at the end of the file the region is not left. -/
def moduleLoop (logger : Bool) (mod : Str) (regions : Regions) : Nat → MSt → Src →
    Except Exc (List Tbl × List Str × Regions × Option Src)
  | 0, _, _ => .error .fuel
  | n + 1, st, (cur, rest) =>
    match next cur rest with
    | none => .ok (st.tables, st.routines, regions, none)
    | some (s, cur, rest) =>
      let st := { st with seen := st.seen || isContains s st.insub }
      match tableName s with
      | some t => moduleLoop logger mod regions n { st with active := some t } (cur, rest)
      | none =>
        match unitEnd "module".toList s with
        | some name =>
          match leave true name regions with
          | none => .error .error
          | some regions => .ok (st.tables, st.routines, regions, some (cur, rest))
        | none =>
          match st.active with
          | some t =>
            match parseScheme t logger (cur :: rest) with
            | none => .error .error
            | some (name, vs, left, rest') =>
              let st := { st with active := none, tables := match name with
                | some nm => st.tables ++ [⟨.scheme, nm, mod, vs.map (·.2)⟩]
                | none => st.tables }
              if linesLeave t logger {} (cur :: rest) then
                match leave true (some mod) regions with
                | none => .error .error
                | some regions => .ok (st.tables, st.routines, regions, some (left, rest'))
              else moduleLoop logger mod regions n st (left, rest')
          | none =>
            match subStmt s, st.seen with
            | some (name, _), false =>
              moduleLoop logger mod regions n { st with routines := st.routines ++ [name], insub := true } (cur, rest)
            | _, _ =>
              if endSub s then
                if st.seen then moduleLoop logger mod regions n { st with seen := false } (cur, rest)
                else moduleLoop logger mod regions n { st with insub := false } (cur, rest)
              else moduleLoop logger mod regions n st (cur, rest)

/-- parse_module after the module statement, parse_fortran_file.py:885-962 -/
def module (logger : Bool) (fuel : Nat) (mod : Str) (regions : Regions) (src : Src) :
    Except Exc (List Tbl × List Str × Regions × Option Src) :=
  match enter true mod regions with
  | none => .error .error
  | some regions =>
    match specification logger "module".toList mod true fuel [] src with
    | .error e => .error e
    | .ok (tables, src) => moduleLoop logger mod regions fuel ⟨tables, none, [], false, false⟩ (src.getD ([], []))

/-- The rest of the line on which a program may end: whether it has ended, parse_fortran_file.py:867-876 -/
def programLine (regions : Regions) : Bool → List Str → Option (Bool × Regions)
  | ended, [] => some (ended, regions)
  | ended, s :: rest =>
    match unitEnd "program".toList s with
    | none => programLine regions ended rest
    | some name =>
      match leave false name regions with
      | none => none
      | some regions => programLine regions true rest

/-- The executable part of a program, parse_fortran_file.py:865-881 -/
def programLines (regions : Regions) : List (List Str) → Option (Regions × Option Src)
  | [] => some (regions, none)
  | l :: rest =>
    match programLine regions false l with
    | none => none
    | some (ended, regions) => if ended then some (regions, some ([], rest)) else programLines regions rest

/-- parse_program after the program statement, parse_fortran_file.py:844-881 -/
def program (logger : Bool) (fuel : Nat) (name : Str) (regions : Regions) (src : Src) :
    Except Exc (List Tbl × Regions × Option Src) :=
  match enter false name regions with
  | none => .error .error
  | some regions =>
    match specification logger "program".toList name false fuel [] src with
    | .error e => .error e
    | .ok (tables, src) =>
      let (cur, rest) := src.getD ([], [])
      match programLines regions (cur :: rest) with
      | none => .error .error
      | some (regions, src) => .ok (tables, regions, src)

/-- The loop of parse_fortran_file, parse_fortran_file.py:973-994; the routines are those of the last module, `none` if
there was none. -/
def fileLoop (logger : Bool) (fuel : Nat) : Nat → List Tbl → Option (List Str) → Regions → Src →
    Except Exc (List Tbl × Option (List Str))
  | 0, _, _, _, _ => .error .fuel
  | n + 1, tables, routines, regions, (cur, rest) =>
    match next cur rest with
    | none => .ok (tables, routines)
    | some (s, cur, rest) =>
      match unitStart "program".toList s with
      | some name =>
        match program logger fuel name regions (cur, rest) with
        | .error e => .error e
        | .ok (new, regions, src) => fileLoop logger fuel n (tables ++ new) routines regions (src.getD ([], []))
      | none =>
        match unitStart "module".toList s with
        | some name =>
          match module logger fuel name regions (cur, rest) with
          | .error e => .error e
          | .ok (new, rs, regions, src) =>
            fileLoop logger fuel n (tables ++ new) (some rs) regions (src.getD ([], []))
        | none => fileLoop logger fuel n tables routines regions (cur, rest)

/-- The number of statements and lines, Notation -/
def size (ls : List (List Str)) : Nat := (ls.map (·.length + 1)).sum

/-- parse_fortran_file on the lines of the file, parse_fortran_file.py:966-994.  Without any statement the pop fails
(978); without a module the name `additional_routines` is not bound (994). -/
def file (logger : Bool) (ls : List (List Str)) : Except Exc (List Tbl × List Str) :=
  match next [] ls with
  | none => .error .error
  | some _ =>
    match fileLoop logger (size ls + 2) (size ls + 2) [] none [] ([], ls) with
    | .error e => .error e
    | .ok (_, none) => .error .error
    | .ok (tables, some routines) => .ok (tables, routines)

end Ccpp.FFile
