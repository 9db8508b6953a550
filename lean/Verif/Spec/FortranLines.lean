/-!
# Specification for C55/C56: statements and continuation lines of free source form
Fortran 2018, 6.3.2: `;` separates statements unless it is in character context or in a comment; a
comment begins with `!` outside character context; `&` as the last nonblank character of a line
(before a comment, outside character context) continues the statement on the next line that is not
a comment; if that line starts with `&` the text goes on right after it, otherwise at the first
character of the line.
-/
namespace Ccpp.FLS

abbrev Str := List Char

/-- Context of a character: code, inside a literal with the given delimiter, or comment. -/
inductive Ctx | code | lit (d : Char) | comment
deriving DecidableEq, Repr

def Ctx.step : Ctx → Char → Ctx
  | .comment, _ => .comment
  | .lit d, ch => if ch = d then .code else .lit d
  | .code, ch => if ch = '!' then .comment else if ch = '\'' ∨ ch = '"' then .lit ch else .code

/-- Context before the character at position `i`. -/
def ctxAt (line : Str) (i : Nat) : Ctx := (line.take i).foldl Ctx.step .code

/-- Position `i` holds a statement separator. -/
def SepAt (line : Str) (i : Nat) : Prop := line[i]? = some ';' ∧ ctxAt line i = .code

/-- White space (ASCII). -/
def blank (ch : Char) : Bool := ch ∈ [' ', '\t', '\n', '\r', '\x0b', '\x0c']

/-- The text of a line up to its continuation mark, with the context in which the statement is
continued on the next line (`none`: it ends here; a comment then stays with it). The line begins in
context `c`. No value: not a legal line. -/
def lineText : Ctx → Str → Option (Str × Option Ctx)
  | .code, [] => some ([], none)
  | .comment, l => some (l, none)
  | .lit _, [] => none
  | .code, ch :: r =>
    if ch = '!' then some (ch :: r, none)
    else if ch = '&' then
      let r' := r.dropWhile blank
      if r' = [] ∨ r'.head? = some '!' then some ([], some .code) else none
    else (lineText (Ctx.code.step ch) r).map fun p => (ch :: p.1, p.2)
  | .lit d, ch :: r =>
    if ch = '&' ∧ r = [] then some ([], some (.lit d))
    else (lineText ((Ctx.lit d).step ch) r).map fun p => (ch :: p.1, p.2)

/-- A piece of a statement: the context it begins in, whether its line begins with `&`, its text. -/
structure Part where
  ctx : Ctx
  amp : Bool
  text : Str
deriving DecidableEq, Repr

/-- What becomes of a line: untouched, emptied, or (first line of a continued statement) replaced
by the whole statement. -/
inductive LineOut | same (l : Str) | empty | stmt (first : Str) (ps : List Part)
deriving DecidableEq, Repr

/-- A line without statement text: blank, a comment, or hidden by the preprocessor. -/
def passed (vis : Bool) (l : Str) : Option LineOut :=
  match l.dropWhile blank with
  | [] => some (.same l)
  | ch :: _ => if ch = '!' then some (.same l) else if vis then none else some .empty

mutual
/-- The lines of a file; statements are put together from their lines. A statement whose
continuation is missing at the end of the file is accepted. -/
def analyse : List (Bool × Str) → Option (List LineOut)
  | [] => some []
  | (vis, l) :: ls =>
    match passed vis l with
    | some o => (analyse ls).map (o :: ·)
    | none =>
      if (l.dropWhile blank).head? = some '&' then none
      else match lineText .code l with
      | none => none
      | some (_, none) => (analyse ls).map (.same l :: ·)
      | some (t, some c) =>
        (continued c ls).map fun p => (if p.1 = [] then .same l else .stmt t p.1) :: p.2
/-- The lines after a line that is continued in context `c`: the further parts of the statement, and
what becomes of the lines. -/
def continued : Ctx → List (Bool × Str) → Option (List Part × List LineOut)
  | _, [] => some ([], [])
  | c, (vis, l) :: ls =>
    match passed vis l with
    | some o => (continued c ls).map fun p => (p.1, o :: p.2)
    | none =>
      let amp := (l.dropWhile blank).head? = some '&'
      match lineText c (if amp then (l.dropWhile blank).tail else l) with
      | none => none
      | some (t, none) => (analyse ls).map fun os => ([⟨c, amp, t⟩], .empty :: os)
      | some (t, some c') => (continued c' ls).map fun p => (⟨c, amp, t⟩ :: p.1, .empty :: p.2)
end

/-- The statement as Fortran sees it: the end of a line outside character context separates tokens
unless the next line begins with `&`. -/
def joined (first : Str) (ps : List Part) : Str :=
  first ++ (ps.map fun p => if p.ctx = .code ∧ p.amp = false then ' ' :: p.text else p.text).flatten

end Ccpp.FLS
