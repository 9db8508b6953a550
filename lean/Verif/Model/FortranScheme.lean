import Verif.Model.FortranDecl
/-!
# Model of `scripts/fortran_tools/parse_fortran_file.py`: the argument table of a scheme

`none` stands for an exception.  The statements are those of the file after the reader (see
`Model/FortranLines.lean`), as one list per source line.  The bookkeeping of regions and messages is not
modelled; the parts of `VarDictionary` and `MetadataTable` objects are modelled in other files.
-/
namespace Ccpp.FSub

open Ccpp.FDecl (Str dropWord? VarRec parseDecl)

/-- `\s*word` of a case-insensitive regular expression; the result is what follows. Python library (re) -/
def kw (w s : Str) : Option Str := dropWord? w (lstrip s)

/-- _PREFIX_SPECS, parse_fortran_file.py:43 -/
def prefixes : List Str := ["recursive".toList, "pure".toList, "elemental".toList]

/-- FORTRAN_ID at the beginning of a text: the name and what follows, parse_checkers.py:210 -/
def ident (s : Str) : Option (Str × Str) :=
  match s with
  | c :: _ => if isLetter c then some (s.takeWhile isWordC, s.dropWhile isWordC) else none
  | [] => none

/-- The optional argument list of _SUBROUTINE_RE: the text between the parentheses,
parse_fortran_file.py:46 -/
def argList (s : Str) : Option Str :=
  match lstrip s with
  | '(' :: t =>
    let u := lstrip t
    if ')' ∈ u then some (u.takeWhile (· != ')')) else none
  | _ => none

/-- _SUBROUTINE_RE.match: name and argument text, parse_fortran_file.py:43-48 -/
def subStmt (s : Str) : Option (Str × Option Str) :=
  let rest := match prefixes.findSome? (fun p => kw p s) with
    | some r => r
    | none => s
  match kw "subroutine".toList rest with
  | none => none
  | some r => (ident (lstrip r)).map fun (n, t) => (n, argList t)

/-- _END_SUBROUTINE_RE.match, parse_fortran_file.py:45, 49 -/
def endSub (s : Str) : Bool := ((kw "end".toList s).bind (kw "subroutine".toList)).isSome

/-- _ENDMODULE_RE.match: white space is required behind the keyword, parse_fortran_file.py:37 -/
def endModule (s : Str) : Bool :=
  match (kw "end".toList s).bind (kw "module".toList) with
  | some (c :: _) => isWs c
  | _ => false

/-- _ARG_TABLE_START_RE.match, parse_fortran_file.py:42 -/
def argTable (s : Str) : Bool :=
  match lstrip s with
  | '!' :: c :: t =>
    (c == '!' || c == '>') &&
      (match kw "arg_table_".toList ((kw "\\section".toList t).getD t) with
       | some r => (ident r).isSome
       | none => false)
  | _ => false

/-- is_contains_statement, parse_fortran_file.py:747-750 -/
def isContains (s : Str) (insub : Bool) : Bool := insub && (kw "contains".toList (strip s)).isSome

/-- parse_use_statement, parse_fortran_file.py:50 and 462-471 -/
def useStmt (s : Str) : Bool :=
  match kw "use".toList s with
  | some (c :: t) =>
    isWs c &&
      (let t := match t with
        | ',' :: u => match kw "intrinsic".toList u with
          | some v => match lstrip v with
            | ':' :: ':' :: w => w
            | _ => t
          | none => t
        | _ => t
       match kw "only".toList t with
       | some r => match lstrip r with
         | ':' :: d :: _ => d != '!'
         | _ => false
       | none => false)
  | _ => false

/-- What _INTENT_STMT_RE wants behind the comma, parse_fortran_file.py:52 -/
def intentParen (s : Str) : Bool :=
  match kw "intent".toList s with
  | some r => (lstrip r).head? == some '('
  | none => false

/-- is_dummy_argument_statement (_INTENT_STMT_RE.search), parse_fortran_file.py:52 and 475-477 -/
def dummyStmt : Str → Bool
  | [] => false
  | c :: s => (c == ',' && intentParen s) || dummyStmt s

/-- The arguments of the scheme with their declarations, if found (`vdict`),
parse_fortran_file.py:633 -/
abbrev Args := List (Str × Option VarRec)

/-- The local variables of parse_scheme_metadata, parse_fortran_file.py:619-633 -/
structure St where
  name : Option Str := none
  inpre : Bool := false
  seen : Bool := false
  insub : Bool := true
  args : Option Args := none

/-- The list of dummy arguments: `none` if one is empty or occurs twice, parse_fortran_file.py:662-687 -/
def dummyArgs (text : Option Str) : Option Args :=
  let l := match text with
    | none => []
    | some t => if strip t = [] then [] else (Chk.splitOn ',' (strip t)).map fun x => lower (strip x)
  if [] ∈ l ∨ ¬ l.Nodup then none else some (l.map fun a => (a, none))

/-- Enter one declared variable, parse_fortran_file.py:701-714 -/
def addVar (args : Args) (v : VarRec) : Option Args :=
  match args.find? (fun p => p.1 == lower v.name) with
  | some (_, none) => some (args.map fun p => if p.1 = lower v.name then (p.1, some v) else p)
  | _ => none

/-- Enter all variables of a declaration, parse_fortran_file.py:701-714 -/
def addVars (args : Args) : List VarRec → Option Args
  | [] => some args
  | v :: vs => match addVar args v with
    | some a => addVars a vs
    | none => none

/-- One statement: the new state, or `Sum.inr` if the loop over the line is left; in the second case the
flag says whether the statement is put back. parse_fortran_file.py:636-716 -/
def step (table : Str) (logger : Bool) (st : St) (s : Str) : Option (St ⊕ (St × Bool)) :=
  let seen := st.seen || isContains s st.insub
  let inpre := if seen then false else st.inpre
  let st := { st with seen := seen, inpre := inpre }
  if argTable s then some (.inr ({ st with insub := false }, true))
  else if endModule s then some (.inr ({ st with insub := false }, false))
  else match subStmt s, seen with
    | some (n, a), false =>
      if lower n = lower table then
        match dummyArgs a with
        | none => none
        | some args => some (.inl { st with name := some n, inpre := true, args := some args })
      else some (.inl { st with name := some n, inpre := false })
    | _, _ =>
      if inpre || seen then
        if endSub s then some (.inl { st with inpre := false, seen := false, insub := false })
        else if inpre then
          match (lstrip s).head? with
          | none => none
          | some c =>
            if c = '!' then some (.inl st)
            -- the logger argument is the wrong object (698), so a match ends in an exception
            else if useStmt s then none
            else if dummyStmt s then
              match parseDecl true logger s, st.args with
              | some vs, some args =>
                match addVars args vs with
                | some args => some (.inl { st with args := some args })
                | none => none
              | some [], none => some (.inl st)
              | _, _ => none
            else some (.inl st)
        else some (.inl st)
      else some (.inl st)

/-- The loop over the statements of a line, parse_fortran_file.py:635-717: the state and the statements
left. -/
def line (table : Str) (logger : Bool) : St → List Str → Option (St × List Str)
  | st, [] => some (st, [])
  | st, s :: rest =>
    match step table logger st s with
    | none => none
    | some (.inl st) => line table logger st rest
    | some (.inr (st, true)) => some (st, s :: rest)
    | some (.inr (st, false)) => some (st, rest)

/-- The loop over the lines, parse_fortran_file.py:634-721: the state, the statements left of the last
line, and the lines left. -/
def lines (table : Str) (logger : Bool) : St → List (List Str) → Option (St × List Str × List (List Str))
  | st, [] => some (st, [], [])
  | st, l :: rest =>
    match line table logger st l with
    | none => none
    | some (st, left) => if st.insub then lines table logger st rest else some (st, left, rest)

/-- The arguments if all of them have been declared, parse_fortran_file.py:722-736 -/
def complete : Args → Option (List (Str × VarRec))
  | [] => some []
  | (a, some v) :: r => (complete r).map ((a, v) :: ·)
  | (_, none) :: _ => none

/-- parse_scheme_metadata, parse_fortran_file.py:617-743: the name of the table, its variables, and what is
left to read. -/
def parseScheme (table : Str) (logger : Bool) (ls : List (List Str)) :
    Option (Option Str × List (Str × VarRec) × List Str × List (List Str)) :=
  match lines table logger {} ls with
  | none => none
  | some (st, left, rest) =>
    match st.args.bind complete with
    | none => none
    | some vs => some (st.name, vs, left, rest)

end Ccpp.FSub
