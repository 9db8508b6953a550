import Verif.Model.Text
/-!
# Model of `scripts/parse_tools/preprocess.py` (class `PreprocStack`) and of the
preprocessor part of `scripts/fortran_tools/parse_fortran_file.py: read_file`
-/
namespace Ccpp.Preproc

/-- Notation: a symbol, a Python string. -/
abbrev Name := List Char

/-- The dictionary `preproc_defs` (framework_env.py builds it; preprocess.py:360,
367 update it).  An association list with Python `dict` semantics: at most the
first binding of a key is ever visible. -/
abbrev Defs := List (Name × List Char)

/-- `symbol in preproc_defs` Python library (dict), preprocess.py:213-290 -/
def Defs.has (d : Defs) (k : Name) : Bool := d.any (fun p => p.1 == k)

/-- `del preproc_defs[k]` Python library (dict), preprocess.py:291-372 -/
def Defs.remove (d : Defs) (k : Name) : Defs := d.filter (fun p => p.1 != k)

/-- `preproc_defs[k] = v` Python library (dict), preprocess.py:291-372 -/
def Defs.set (d : Defs) (k : Name) (v : List Char) : Defs := (k, v) :: d.remove k

/-- What the regular expressions of preprocess.py:198-206 recognise on a
stripped line, in the order process_line (lines 298-364) tries them.
`other` is a `#` line that none of them matches. -/
inductive Dir where
  | ifdef (sym : Name)
  | ifndef (sym : Name)
  /-- `#if`: `none` when `ifelif_re` (line 202), which insists on white space
  after `if`, does not match although `if_re` (line 200) does. -/
  | ifc (cond : Option (List Char))
  | elifc (cond : List Char)
  | els
  | endif
  | define (k : Name) (v : List Char)
  | undef (k : Name)
  | other
deriving Repr, DecidableEq

/-- `\s+` : at least one white-space character, then everything after the run.
Regular-expression library, preprocess.py:195-207 -/
def ws1 : List Char → Option (List Char)
  | [] => none
  | c :: s => if isWs c then some (s.dropWhile isWs) else none

/-- preprocess.py:198-206, tried in the order of process_line:298-364 on a
stripped line that starts with `#`.  (The bodies of conditions are stripped as
in line 288.) -/
def classify (sline : List Char) : Dir :=
  match sline with
  | '#' :: r0 =>
    let r := r0.dropWhile isWs
    match (dropPrefix? "ifdef".toList r).bind ws1 with
    | some sym => .ifdef sym
    | none =>
    match (dropPrefix? "ifndef".toList r).bind ws1 with
    | some sym => .ifndef sym
    | none =>
    match dropPrefix? "if".toList r with
    | some (c :: rest) =>
      if c == 'd' || c == 'n' then
        -- `[^dn]` fails; the remaining expressions do not start with `if`
        .other
      else if isWs c then .ifc (some (strip rest))
      else .ifc none
    | some [] => .other
    | none =>
    match dropPrefix? "elif".toList r with
    | some (c :: rest) => if isWs c then .elifc (strip rest) else .other
    | some [] => .other
    | none =>
    match dropPrefix? "else".toList r with
    | some _ => .els
    | none =>
    match dropPrefix? "endif".toList r with
    | some _ => .endif
    | none =>
    match (dropPrefix? "define".toList r).bind ws1 with
    | some a =>
      let k := a.takeWhile isWordC
      if k = [] then .other else
      match ws1 (a.dropWhile isWordC) with
      | some b => .define k (b.takeWhile (fun c => !isWs c))
      | none => .other
    | none =>
    match (dropPrefix? "undef".toList r).bind ws1 with
    | some a =>
      let k := a.takeWhile isWordC
      if k = [] then .other else .undef k
    | none => .other
  | _ => .other

/-- Errors: `noOpen` is the ParseSyntaxError of exit_region (line 382) and
`emptyPop` the IndexError of `pop()` on an empty list in modify_region (line 393). -/
inductive Err where | noOpen | emptyPop
deriving Repr, DecidableEq

/-- `PreprocStack._region_stack` (line 210; innermost region first here, last in
Python) together with the definitions.  An entry is `[ever, current]`. -/
structure St where
  stack : List (Bool × Bool)
  defs : Defs
deriving Repr, DecidableEq

/-- in_true_region, preprocess.py:400-409 -/
def St.inTrue (s : St) : Bool := s.stack.all (·.2)

/-- enter_region, preprocess.py:374-377 -/
def St.enter (s : St) (v : Bool) : St := { s with stack := (v, v) :: s.stack }

/-- exit_region, preprocess.py:379-385 -/
def St.exit (s : St) : Except Err St :=
  match s.stack with
  | [] => .error .noOpen
  | _ :: t => .ok { s with stack := t }

/-- modify_region, preprocess.py:387-398 -/
def St.modify (s : St) (v : Bool) : Except Err St :=
  match s.stack with
  | [] => .error .emptyPop
  | r :: t =>
    if r.1 then .ok { s with stack := (r.1, false) :: t }
    else .ok { s with stack := (r.1, v) :: t }

/-- The effect of one recognised directive: process_line, preprocess.py:297-369,
with `preproc_defs` not `None`.  `ev` is `parse_preproc_line(cond, defs)[0]`
(lines 136-191; it is a parameter because it relies on Python's `ast.parse`;
exceptions it may raise are not modelled). -/
def step (ev : List Char → Defs → Bool) (s : St) : Dir → Except Err St
  | .ifdef k => .ok (s.enter (s.defs.has k))
  | .ifndef k => .ok (s.enter (!s.defs.has k))
  | .ifc (some c) => .ok (s.enter (ev c s.defs))
  | .ifc none => .ok (s.enter false)
  | .elifc c => s.modify (ev c s.defs)
  | .els => s.modify true
  | .endif => s.exit
  | .define k v => .ok (if s.inTrue then { s with defs := s.defs.set k v } else s)
  | .undef k => .ok (if s.inTrue then { s with defs := s.defs.remove k } else s)
  | .other => .ok s

/-- A source line as seen by read_file (parse_fortran_file.py:370-399): blank
and comment-only lines are skipped, `#` lines go to process_line, all others
are kept only in a true region. -/
inductive Line where
  | text (t : List Char)
  | dir (d : Dir)
deriving Repr, DecidableEq

/-- The preprocessing loop of read_file (parse_fortran_file.py:370-399): each
line is left as it is or replaced by a blank line (continuation handling is
modelled elsewhere). -/
def run (ev : List Char → Defs → Bool) : St → List Line → Except Err (St × List (List Char))
  | s, [] => .ok (s, [])
  | s, .text t :: ls =>
    match run ev s ls with
    | .error e => .error e
    | .ok (s', out) => .ok (s', (if s.inTrue then t else []) :: out)
  | s, .dir d :: ls =>
    match step ev s d with
    | .error e => .error e
    | .ok s1 =>
      match run ev s1 ls with
      | .error e => .error e
      | .ok (s', out) => .ok (s', [] :: out)

/-- read_file's classification of a raw line (parse_fortran_file.py:373-380 and
preprocess.py:295-296, 414): blank and `!`-comment lines stay as they are
whatever the region; modelled as `none`. -/
def lexLine (l : List Char) : Option Line :=
  match lstrip l with
  | [] => none
  | '!' :: _ => none
  | '#' :: _ => some (.dir (classify (strip l)))
  | _ => some (.text l)

end Ccpp.Preproc
