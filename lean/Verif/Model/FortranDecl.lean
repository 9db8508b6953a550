import Verif.Model.Checkers
/-!
# Model of `scripts/fortran_tools/parse_fortran.py`: reading a declaration statement

`none` stands for an exception, unless said otherwise.  Case-insensitive matching is modelled for ASCII
text.  The text of error messages and the construction of the variable objects from the collected
properties (FortranVar) are not modelled.
-/
namespace Ccpp.FDecl

/-- Notation: a Python string. -/
abbrev Str := List Char

/-! ## Splitting lists -/

/-- The loop of Ftype.reassemble_parens, parse_fortran.py:223-239: `var` is the current item. -/
def reassembleFrom (var : Str) : List Str → Option (List Str)
  | [] =>
    if var.count '(' ≠ var.count ')' then none
    else some (if strip var = [] then [] else [strip var])
  | p :: ps =>
    if var.count '(' ≠ var.count ')' then reassembleFrom (var ++ ',' :: p) ps
    else (reassembleFrom p ps).map fun l => if strip var = [] then l else strip var :: l

/-- Ftype.reassemble_parens with the default separator, parse_fortran.py:213-240. -/
def reassemble (s : Str) : Option (List Str) :=
  match Chk.splitOn ',' s with
  | [] => some []
  | p :: ps => reassembleFrom p ps

/-- Ftype.__attr_spec, parse_fortran.py:84-87 -/
def attrNames : List Str :=
  ["allocatable", "asynchronous", "dimension", "external", "intent", "intrinsic", "bind", "optional",
   "parameter", "pointer", "private", "protected", "public", "save", "target", "value", "volatile"].map
    String.toList

/-- Ftype.parse_attr_specs, parse_fortran.py:242-264 -/
def attrSpecs (s : Str) : Option (List Str) :=
  let p := strip s
  let p := if p.head? = some ',' then lstrip (p.drop 1) else p
  match reassemble p with
  | none => none
  | some l =>
    let props := l.map fun x => lower (strip x)
    if props.all fun x => attrNames.contains (if '(' ∈ x then strip (x.takeWhile (· != '(')) else x)
    then some props else none

/-! ## Types -/

/-- A type found at the beginning of a declaration: derived type or not, name, kind text, and the length
of the text that was matched. parse_fortran.py:89-152, 266-283 -/
structure FType where
  ddt : Bool
  typestr : Str
  kind : Option Str
  len : Nat
deriving DecidableEq

/-- A literal of a case-insensitive regular expression at the beginning of a text; the result is what
follows it. Python library (re) -/
def dropWord? (w s : Str) : Option Str := if lower (s.take w.length) = w then some (s.drop w.length) else none

/-- Length of the first group of `__itype_re`, parse_fortran.py:78-81 -/
def itypeName (s : Str) : Option Nat :=
  if (dropWord? "integer".toList s).isSome then some 7
  else if (dropWord? "real".toList s).isSome then some 4
  else if (dropWord? "logical".toList s).isSome then some 7
  else match dropWord? "double".toList s with
    | some t =>
      if (dropWord? "precision".toList (lstrip t)).isSome then some (15 + (t.takeWhile isWs).length)
      else none
    | none => if (dropWord? "complex".toList s).isSome then some 7 else none

/-- Characters of the second group of `__itype_re`, parse_fortran.py:81 -/
def isKindChar (c : Char) : Bool := c.isAlphanum || c == ',' || c == '=' || c == '_' || isWs c

/-- The second group of `__itype_re` (text with its parentheses), parse_fortran.py:81 -/
def kindGroup : Str → Option Str
  | '(' :: t =>
    let r := t.takeWhile isKindChar
    if r ≠ [] ∧ (t.dropWhile isKindChar).head? = some ')' then some ('(' :: r ++ [')']) else none
  | _ => none

/-- Ftype.parse_kind_selector, parse_fortran.py:155-205.  For a kind without quotation marks `__kind_re`
only rejects the bare word `kind`; kinds with quotation marks are not modelled (rejected). -/
def kindSelector (k : Str) : Option Str :=
  if k = [] then none
  else
    let args := Chk.splitOn '=' (if k.head? = some '(' ∧ k.getLast? = some ')' then (k.drop 1).dropLast else k)
    let kind := match args with
      | [a] => some (strip a)
      | [a, b] => if lower (strip a) = "kind".toList then some (strip b) else none
      | _ => none
    match kind with
    | none => none
    | some k => if lower k = "kind".toList ∨ '\'' ∈ k ∨ '"' ∈ k then none else some k

/-- Ftype(line_in=...): `some none` if the line is not of this type. parse_fortran.py:124-145, 207-211 -/
def intrinsicType (line : Str) : Option (Option FType) :=
  let s := strip line
  match itypeName s with
  | none => some none
  | some n =>
    let w := ((s.drop n).takeWhile isWs).length
    match kindGroup (lstrip (s.drop n)) with
    | none => some (some ⟨false, s.take n, none, n + w⟩)
    | some g =>
      match kindSelector g with
      | none => none
      | some k => some (some ⟨false, s.take n, some k, n + w + g.length⟩)

/-- `len_token_re`, parse_fortran.py:331 and 398-407 -/
def lenToken (t : Str) : Option Str :=
  if t = [':'] ∨ t = ['*'] ∨ (t ≠ [] ∧ t.all Char.isDigit) then some t
  else match t with
    | c :: r => if isLetter c && r.all isWordC then some t else none
    | [] => none

/-- FtypeCharacter.parse_len_select, parse_fortran.py:409-428 -/
def lenSelect (t : Str) (optional : Bool) : Option Str :=
  match (Chk.splitOn '=' t).map strip with
  | [a] => if optional then lenToken a else none
  | [a, b] => if lower a = "len".toList then lenToken b else none
  | _ => none

/-- Characters of the second group of `char_re`, parse_fortran.py:327 -/
def isCharSelChar (c : Char) : Bool :=
  c.isAlphanum || c == ',' || c == '=' || c == '*' || c == ':' || isWs c || c == '\'' || c == '"' ||
    c == '(' || c == ')'

/-- The second group of `char_re`: up to the last closing parenthesis, parse_fortran.py:327 -/
def charGroup : Str → Option Str
  | '(' :: t =>
    let r := ((t.takeWhile isCharSelChar).reverse.dropWhile (· != ')')).reverse
    if r.length ≥ 2 then some ('(' :: r) else none
  | _ => none

/-- The length and kind in a character selector, parse_fortran.py:362-389: the length (default 1) and
the kind. -/
def charAttrs (g : Str) : Option (Str × Option Str) :=
  match (Chk.splitOn ',' ((g.drop 1).dropLast)).map strip with
  | [a] =>
    if lower (a.take 4) = "kind".toList then (kindSelector a).map fun k => (['1'], some k)
    else (lenSelect a true).map fun l => (l, none)
  | [a, b] =>
    if lower (a.take 4) = "kind".toList then
      match kindSelector a, lenSelect b false with
      | some k, some l => some (l, some k)
      | _, _ => none
    else match lenSelect a true, kindSelector b with
      | some l, some k => some (l, some k)
      | _, _ => none
  | _ => none

/-- FtypeCharacter(line): `some none` if the line is not of this type. parse_fortran.py:333-396, 430-438.
`Ftype.__init__` reads the first character of the kind, so an empty kind is an error. -/
def characterType (line : Str) : Option (Option FType) :=
  let s := strip line
  match dropWord? "character".toList s with
  | none => some none
  | some t =>
    let w := (t.takeWhile isWs).length
    let u := lstrip t
    let old := match u with
      | '*' :: v => !((lstrip v).takeWhile Char.isDigit).isEmpty
      | _ => false
    if old then
      -- character*n: the trailing text must start with a comma, or with white space and a capital;
      -- the white space is part of the match, parse_fortran.py:347-357
      let v := lstrip (u.drop 1)
      let d := v.takeWhile Char.isDigit
      let rest := v.dropWhile Char.isDigit
      if (lstrip rest).head? = some ',' then
        some (some ⟨false, s.take 9, some ("len=".toList ++ d ++ rest.takeWhile isWs),
          s.length - (lstrip rest).length⟩)
      else none
    else match charGroup u with
      | some g =>
        match charAttrs g with
        | some (l, none) => some (some ⟨false, s.take 9, some ("len=".toList ++ l), 9 + w + g.length⟩)
        | some (l, some k) =>
          if k = [] then none
          else some (some ⟨false, s.take 9, some ("len=".toList ++ l ++ ", kind=".toList ++ k),
            9 + w + g.length⟩)
        | none => none
      | none =>
        -- chartrail_re on what follows; the white space is part of the match, so only a comma or colon
        -- can be there, parse_fortran.py:383-388
        if u.head? = some ',' ∨ u.head? = some ':' then
          some (some ⟨false, s.take 9, some "len=1".toList, 9 + w⟩)
        else none

/-- The rest of `__type_decl_re__` and `__class_decl_re__` after the keyword, which is `n` long: name and
length of the match. parse_fortran.py:462-466 -/
def ddtMatch (n : Nat) (needClose : Bool) (t : Str) : Option (Str × Nat) :=
  match lstrip t with
  | '(' :: v =>
    let a := lstrip v
    match a with
    | c :: _ =>
      if isLetter c then
        let name := a.takeWhile isWordC
        let rest := lstrip (a.dropWhile isWordC)
        let pos := n + (t.length - rest.length)
        match rest with
        | ')' :: _ => some (name, pos + 1)
        | _ => if needClose then none else some (name, pos)
      else none
    | [] => none
  | _ => none

/-- FtypeTypeDecl(line), parse_fortran.py:468-500: type(...) first, then class(...). -/
def ddtType (line : Str) : Option FType :=
  let s := strip line
  match (dropWord? "type".toList s).bind (ddtMatch 4 false) with
  | some (n, l) => some ⟨true, n, some n, l⟩
  | none =>
    match (dropWord? "class".toList s).bind (ddtMatch 5 true) with
    | some (n, l) => some ⟨true, n, some n, l⟩
    | none => none

/-- The position after the closing parenthesis, parse_fortran.py:586-598; `s` is the line from `pos` on. -/
def parenEnd : Nat → Nat → Str → Nat
  | 0, pos, _ => pos
  | _, pos, [] => pos
  | d + 1, pos, c :: s =>
    parenEnd (if c = '(' then d + 2 else if c = ')' then d else d + 1) (pos + 1) s

/-- The first part of ftype_factory: the line without comment, cut behind the type,
parse_fortran.py:576-604 -/
def cutType (line : Str) : Str :=
  let line := if '!' ∈ line then rstrip (line.takeWhile (· != '!')) else line
  match line.findIdx? (· == '('), line.findIdx? (· == ',') with
  | some p, some c => if c < p then line.take c else line.take (parenEnd 1 (p + 1) (line.drop (p + 1)) + 1)
  | some p, none => line.take (parenEnd 1 (p + 1) (line.drop (p + 1)) + 1)
  | none, some c => line.take c
  | none, none => line

/-- ftype_factory: `some none` if the line is not a declaration, parse_fortran.py:571-628 -/
def factory (line : Str) : Option (Option FType) :=
  let l := cutType line
  match intrinsicType l with
  | none => none
  | some (some t) => some (some t)
  | some none =>
    match characterType l with
    | none => none
    | some (some t) => some (some t)
    | some none => some (ddtType l)

/-! ## Declarations -/

/-- The text before the first `::` and the text up to the next one, if there is a `::`
(`split('::')`, Python library; parse_fortran.py:716-719) -/
def splitColons : Str → Option (Str × Str)
  | ':' :: ':' :: s => some ([], beforeColons s)
  | c :: s => (splitColons s).map fun p => (c :: p.1, p.2)
  | [] => none
where
  /-- The text before the first `::`, parse_fortran.py:718 -/
  beforeColons : Str → Str
    | ':' :: ':' :: _ => []
    | c :: s => c :: beforeColons s
    | [] => []

/-- The loop over the attributes: intent and dimensions, parse_fortran.py:720-744.  `logger` says whether
a logger is used. -/
def readAttrs (scheme logger : Bool) (intent dims : Option Str) : List Str → Option (Option Str × Option Str)
  | [] => some (intent, dims)
  | p :: ps =>
    if p.take 6 = "intent".toList then
      if scheme then
        readAttrs scheme logger (some (strip (((strip (p.drop 6)).drop 1).dropLast))) dims ps
      else if logger then readAttrs scheme logger intent dims ps
      else none
    else if p.take 9 = "dimension".toList then readAttrs scheme logger intent (some (strip (p.drop 9))) ps
    else readAttrs scheme logger intent dims ps

/-- The properties collected for a variable, parse_fortran.py:787-814 -/
structure VarRec where
  name : Str
  ddt : Bool
  type : Str
  kind : Option Str
  optional : Bool
  allocatable : Bool
  intent : Option Str
  dims : Str
deriving DecidableEq

/-- Drop an initializer, parse_fortran.py:759-762 -/
def cutInit (v : Str) : Str :=
  if '=' ∈ v then rstrip ((v.reverse.dropWhile (· != '=')).drop 1).reverse else v

/-- The name and dimensions of one item, parse_fortran.py:763-786; `prev` is the value of `dimspec` left
by the previous item (`none`: not set yet), which is used if the parentheses do not match and there is a
logger. -/
def readItem (logger : Bool) (prev : Option (Option Str)) (item : Str) : Option (Str × Option Str) :=
  let v := cutInit item
  match v.findIdx? (· == '(') with
  | none => some (strip v, none)
  | some p =>
    match Chk.balancedParen v 0 with
    | (some b, some e) => some (strip (v.take p), some ((v.take (e + 1)).drop b))
    | _ => if logger then prev.map fun d => (strip (v.take p), d) else none

/-- The loop over the variables, parse_fortran.py:756-823 -/
def readItems (logger : Bool) (mk : Str → Option Str → VarRec) (prev : Option (Option Str)) :
    List Str → Option (List VarRec)
  | [] => some []
  | item :: rest =>
    match readItem logger prev item with
    | none => none
    | some (n, d) => (readItems logger mk (some d) rest).map (mk n d :: ·)

/-- parse_fortran_var_decl, parse_fortran.py:639-827.  `scheme` says whether the source is a scheme. -/
def parseDecl (scheme logger : Bool) (line : Str) : Option (List VarRec) :=
  let s := strip line
  let s := if '!' ∈ s then rstrip (s.takeWhile (· != '!')) else s
  match factory s with
  | none => none
  | some none => some []
  | some (some t) =>
    let r := strip (s.drop t.len)
    let parts : Option (List Str × Str) := match splitColons r with
      | some (a, b) => (attrSpecs (strip a)).map fun props => (props, strip b)
      | none => some ([], r)
    match parts with
    | none => none
    | some (props, vars) =>
      match readAttrs scheme logger none none props with
      | none => none
      | some (intent, dims) =>
        match reassemble vars with
        | none => none
        | some items =>
          readItems logger (fun n d => ⟨n, t.ddt, t.typestr, t.kind, props.contains "optional".toList,
            props.contains "allocatable".toList, intent, d.getD (dims.getD "()".toList)⟩) none items

end Ccpp.FDecl
