import Verif.Spec.FortranScheme
import Verif.Model.FortranFile
/-!
# Specification for C89: the tables of a Fortran file

Shared with the model: the types `Tbl` (a table) and `VarRec` (a variable).  From C59 and C60: `Declares` (declaration
statements), `Header`, `Quiet`, `Body`, `Internal`, `Ends`, `DeclaredOnce` (subroutines), `Begins` (the statement begins
with words).
-/
namespace Ccpp.FFile

open Ccpp.FDecl (Blank VarRec Declares Attr)
open Ccpp.FSub (Begins Header Quiet Body Internal Inside Ends DeclaredOnce declared)

/-- The statements of the lines, at most one on each line. -/
def OnePerLine (ls : List (List (List Char))) (ss : List (List Char)) : Prop :=
  (∀ l ∈ ls, l.length ≤ 1) ∧ ls.flatten = ss

/-- What follows a name does not continue it. -/
def NameEnds (r : List Char) : Prop := ∀ c, r.head? = some c → isWordC c = false

/-- The first statement of a unit: `module name`. -/
def Starts (w s n : List Char) : Prop :=
  ∃ b v g r, s = b ++ v ++ (g ++ (n ++ r)) ∧ Blank b ∧ lower v = w ∧ Blank g ∧ g ≠ [] ∧ Chk.IsName n ∧ NameEnds r

/-- The last statement of a module: `end module name`. -/
def EndsAs (s n : List Char) : Prop :=
  ∃ b v b' v' g r, s = b ++ v ++ (b' ++ v' ++ (g ++ (n ++ r))) ∧ Blank b ∧ lower v = "end".toList ∧ Blank b' ∧
    lower v' = "module".toList ∧ Blank g ∧ g ≠ [] ∧ Chk.IsName n ∧ NameEnds r

/-- The comment that announces the table `n`. -/
def Marks (s n : List Char) : Prop :=
  ∃ b c x b' v r, s = b ++ '!' :: c :: (x ++ (b' ++ v ++ (n ++ r))) ∧ Blank b ∧ (c = '!' ∨ c = '>') ∧
    (x = [] ∨ ∃ a w, x = a ++ w ∧ Blank a ∧ lower w = "\\section".toList) ∧ Blank b' ∧
    lower v = "arg_table_".toList ∧ Chk.IsName n ∧ NameEnds r

/-- No announcement of a table. -/
def NoMark (s : List Char) : Prop := ∀ a b, lower s ≠ a ++ "arg_table_".toList ++ b

/-- The words that begin declarations of variables and definitions of types. -/
def declWords : List (List Char) :=
  ["integer".toList, "real".toList, "logical".toList, "complex".toList, "double".toList, "character".toList,
   "type".toList, "class".toList]

/-- A statement (or comment) of a specification part that declares nothing. -/
structure Idle (s : List Char) : Prop where
  text : ¬ Blank s
  words : ∀ w ∈ declWords, ¬ Begins [w] s
  contains : ¬ Begins ["contains".toList] s
  endmod : ¬ Begins ["end".toList, "module".toList] s
  marker : NoMark s

/-- Nothing, or a comment. -/
def CommentOnly (r : List Char) : Prop := Blank r ∨ ∃ a b, Blank a ∧ r = a ++ '!' :: b

/-- The first statement of the definition of the type `n`: `type n` or `type, attributes :: n`. -/
inductive TypeStarts : List Char → List Char → Prop where
  | plain {b v g n r} : Blank b → lower v = "type".toList → Blank g → Chk.IsName n → CommentOnly r →
      TypeStarts (b ++ v ++ (' ' :: g ++ n ++ r)) n
  | attrs {b v m g n r} : Blank b → lower v = "type".toList → (Blank m ∨ ∃ a x, Blank a ∧ m = a ++ ',' :: x) →
      '!' ∉ m → ¬ [':', ':'] <:+: m ++ [':'] → Blank g → Chk.IsName n → CommentOnly r →
      TypeStarts (b ++ v ++ (m ++ [':', ':'] ++ (g ++ n ++ r))) n

/-- A statement that declares variables: `DeclaresVars s vs`. -/
inductive DeclaresVars : List Char → List VarRec → Prop where
  | mk {s m attrs vars} : Declares s m attrs vars → (∀ v, Attr.intent v ∉ attrs) → DeclaresVars s (declared m attrs vars)

/-- The end of the definition of a type. -/
def TypeEnds (s : List Char) : Prop := Begins ["end".toList, "type".toList] s

/-- A part of a specification part: a statement without effect, a declaration with its variables, or the definition of a
type with its members (statements and variables), its procedures, and its end. -/
inductive Part where
  | idle (s : List Char)
  | decl (s : List Char) (vars : List VarRec)
  | type (s name : List Char) (members : List (List Char × List VarRec)) (procedures : List (List Char)) (e : List Char)

/-- Its statements. -/
def Part.stmts : Part → List (List Char)
  | .idle s => [s]
  | .decl s _ => [s]
  | .type s _ members procedures e => s :: (members.map (·.1) ++ procedures ++ [e])

/-- The names of variables are different (but for letter case). -/
def DistinctNames (vars : List VarRec) : Prop := (vars.map fun v => lower v.name).Nodup

/-- A well-formed part of the module `mod`. -/
def Part.Ok (mod : List Char) : Part → Prop
  | .idle s => Idle s
  | .decl s vars => DeclaresVars s vars
  | .type s name members procedures e =>
    TypeStarts s name ∧ lower name ≠ lower mod ∧
    (∀ m ∈ members, DeclaresVars m.1 m.2 ∨ (Idle m.1 ∧ ¬ TypeEnds m.1 ∧ m.2 = [])) ∧
    (procedures = [] ∨ ∃ c ss, procedures = c :: ss ∧ Begins ["contains".toList] c ∧ ∀ s ∈ procedures, ¬ TypeEnds s) ∧
    TypeEnds e ∧ DistinctNames (members.flatMap (·.2))

/-- The announcement of a table, and the parts that follow up to the next one. -/
structure Section where
  marker : List Char
  name : List Char
  parts : List Part

/-- Its statements. -/
def Section.stmts (x : Section) : List (List Char) := x.marker :: x.parts.flatMap Part.stmts

/-- Well-formed. -/
def Section.Ok (mod : List Char) (x : Section) : Prop := Marks x.marker x.name ∧ ∀ p ∈ x.parts, p.Ok mod

/-- The table of a type: of the first type with the announced name. -/
def Section.ddt (mod : List Char) (x : Section) : Option Tbl :=
  x.parts.findSome? fun
    | .type _ n members _ _ =>
      if lower n = lower x.name then some ⟨.ddt, n, mod, members.flatMap (·.2)⟩ else none
    | _ => none

/-- The variables for the table of the module: those declared, if the module is announced. -/
def Section.vars (mod : List Char) (x : Section) : List VarRec :=
  if lower x.name = lower mod then
    x.parts.flatMap fun
      | .decl _ vars => vars
      | _ => []
  else []

/-- The tables of a specification part. -/
def specTables (mod : List Char) (xs : List Section) : List Tbl :=
  if xs = [] then [] else xs.filterMap (Section.ddt mod) ++ [⟨.module, mod, mod, xs.flatMap (Section.vars mod)⟩]

/-- A statement between subroutines, or in their bodies. -/
structure Between (s : List Char) : Prop where
  sub : ¬ Begins ["subroutine".toList] s
  presub : ∀ p ∈ ["recursive".toList, "pure".toList, "elemental".toList], ¬ Begins [p, "subroutine".toList] s
  endsub : ¬ Begins ["end".toList, "subroutine".toList] s
  endmod : ¬ Begins ["end".toList, "module".toList] s
  contains : ¬ Begins ["contains".toList] s
  marker : NoMark s

/-- What follows `contains`: statements, subroutines without table, and schemes with their table. -/
inductive Routine where
  | idle (s : List Char)
  | sub (header name : List Char) (body internal ends : List (List Char))
  | scheme (marker table comment : List Char) (before : List (List Char)) (header name : List Char) (args : List (List Char))
      (body : List (List Char × List VarRec)) (internal : List (List Char)) (e : List Char)

/-- Its statements. -/
def Routine.stmts : Routine → List (List Char)
  | .idle s => [s]
  | .sub header _ body internal ends => header :: (body ++ internal ++ ends)
  | .scheme marker _ comment before header _ _ body internal e =>
    marker :: comment :: (before ++ header :: (body.map (·.1) ++ internal) ++ [e])

/-- A well-formed routine.  A subroutine without table may have internal procedures, but at most one internal
subroutine (with its own end).  A table is followed by a comment. -/
def Routine.Ok : Routine → Prop
  | .idle s => Between s
  | .sub header name body internal ends =>
    (∃ args, Header header name args) ∧ (∀ s ∈ body, Between s) ∧ Internal internal ∧
    ∃ e, Ends e ∧ (ends = [e] ∨ (internal ≠ [] ∧ ∃ between e', (∀ s ∈ between, Between s) ∧ Ends e' ∧
      ends = e :: (between ++ [e'])))
  | .scheme marker table comment before header name args body internal e =>
    Marks marker table ∧ Begins [['!']] comment ∧ NoMark comment ∧ (∀ s ∈ before, Quiet s) ∧ Header header name args ∧
    (∀ p ∈ body, Body p.1 p.2) ∧ Internal internal ∧ Ends e ∧ lower name = lower table ∧
    DeclaredOnce args (body.flatMap (·.2))

/-- The table of a scheme: its arguments, in their order, as they are declared. -/
def Routine.table (mod : List Char) : Routine → Option Tbl
  | .scheme _ _ _ _ _ name args body _ _ =>
    some ⟨.scheme, name, mod,
      args.filterMap fun a => (body.flatMap (·.2)).find? fun v => decide (lower v.name = lower a)⟩
  | _ => none

/-- The name of a subroutine without table. -/
def Routine.plain : Routine → Option (List Char)
  | .sub _ name _ _ _ => some name
  | _ => none

/-- A module: its first statement and name, the parts before the first announcement of a table, the sections, and what
follows the specification part (none: no `contains`), and its last statement. -/
structure Mod where
  header : List Char
  name : List Char
  parts : List Part
  sections : List Section
  rest : Option (List Char × List Routine)
  e : List Char

/-- Its routines. -/
def Mod.routines (m : Mod) : List Routine := (m.rest.map (·.2)).getD []

/-- Its statements. -/
def Mod.stmts (m : Mod) : List (List Char) :=
  m.header :: (m.parts.flatMap Part.stmts ++ m.sections.flatMap Section.stmts ++
    (match m.rest with
      | none => []
      | some (c, rs) => c :: rs.flatMap Routine.stmts) ++ [m.e])

/-- Well-formed. -/
structure Mod.Ok (m : Mod) : Prop where
  start : Starts "module".toList m.header m.name
  parts : ∀ p ∈ m.parts, p.Ok m.name
  sections : ∀ x ∈ m.sections, x.Ok m.name
  vars : DistinctNames (m.sections.flatMap (Section.vars m.name))
  contains : ∀ x, m.rest = some x → Begins ["contains".toList] x.1 ∧ ∀ r ∈ x.2, r.Ok
  stop : EndsAs m.e m.name

/-- The tables of a module. -/
def Mod.tables (m : Mod) : List Tbl := specTables m.name m.sections ++ m.routines.filterMap (Routine.table m.name)

/-- The subroutines without table. -/
def Mod.plain (m : Mod) : List (List Char) := m.routines.filterMap Routine.plain

/-- A statement (comment) outside all modules and programs. -/
def Outside (s : List Char) : Prop := ¬ Begins ["module".toList] s ∧ ¬ Begins ["program".toList] s

/-- A file: modules, each with the statements before it; only the last one may be without `contains`; statements after
the last module. -/
structure FileText where
  mods : List (List (List Char) × Mod)
  tail : List (List Char)

/-- Its statements. -/
def FileText.stmts (f : FileText) : List (List Char) := f.mods.flatMap (fun x => x.1 ++ x.2.stmts) ++ f.tail

/-- Well-formed. -/
structure FileText.Ok (f : FileText) : Prop where
  ne : f.mods ≠ []
  mods : ∀ x ∈ f.mods, (∀ s ∈ x.1, Outside s) ∧ x.2.Ok
  contains : ∀ x ∈ f.mods.dropLast, x.2.rest ≠ none
  tail : ∀ s ∈ f.tail, Outside s ∧ Between s

/-- The tables of a file. -/
def FileText.tables (f : FileText) : List Tbl := f.mods.flatMap fun x => x.2.tables

/-- The subroutines without table of the last module. -/
def FileText.plain (f : FileText) : List (List Char) := (f.mods.getLast?.map fun x => x.2.plain).getD []

end Ccpp.FFile
