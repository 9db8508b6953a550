import Verif.Model.FixedForm
import Verif.Spec.FortranLines
/-!
# Specification for C99: fixed source form
Fortran 2018, 6.3.3: a statement has its text in columns 7 to 72 (a label before); a line with blanks in columns 1 to 5
and neither a blank nor a zero in column 6 continues the statement; a line with C or * in column 1, or whose first nonblank
is a `!` that is not in column 6, is a comment; a `!` outside character context and not in column 6 begins a comment.
-/
namespace Ccpp.Fixed

open Ccpp.FLS (Ctx)

/-- White space. -/
def Blanks (s : Str) : Prop := ∀ c ∈ s, isWs c = true

/-- A C or a star in the first column. -/
def Starred (l : Str) : Prop := ∃ c r, l = c :: r ∧ (c = 'C' ∨ c = 'c' ∨ c = '*')

/-- A comment line. -/
def IsComment (l : Str) : Prop := Starred l ∨ ∃ n r, l = List.replicate n ' ' ++ '!' :: r ∧ n ≠ 5

/-- The line has the character `k` in column 6, which makes it a continuation line, and the text `t` from column 7 on. -/
def ContBy (k : Char) (l t : Str) : Prop :=
  l = List.replicate 5 ' ' ++ k :: t ∧ k ≠ ' ' ∧ k ≠ '0' ∧ isWs k = false ∧ l.length ≤ 72

/-- A continuation line, with its text from column 7 on.  Column 6 holds no `!` (see `C99_bang_violated`). -/
def IsCont (l t : Str) : Prop := ∃ k, ContBy k l t ∧ k ≠ '!'

/-- A line that is neither blank nor a comment. -/
def IsText (l : Str) : Prop := ¬ Starred l ∧ ∃ b c r, l = b ++ c :: r ∧ Blanks b ∧ isWs c = false ∧ c ≠ '!'

/-- The first line of a statement. -/
def IsInitial (l : Str) : Prop :=
  IsText l ∧ (∀ k t, l = List.replicate 5 ' ' ++ k :: t → k = ' ' ∨ k = '0') ∧ l.length ≤ 72

/-- A line without statement text and what becomes of it: blank lines and comments stay, lines hidden by the
preprocessor are emptied. -/
inductive Passed : Bool × Str → Str → Prop
  | blank {vis l} : Blanks l → Passed (vis, l) l
  | comment {vis l} : IsComment l → Passed (vis, l) l
  | hidden {l} : IsText l → Passed (false, l) []

/-- The lines after the first line of a statement up to its last one, when the context is `c`: the text that they add, and
what becomes of them.  No line with a comment is continued (see `C99_comment_violated`). -/
inductive Conts : Ctx → List (Bool × Str) → Str → List Str → Prop
  | done {c} : c = .code ∨ c = .comment → Conts c [] [] []
  | passed {c p o ls s os} : Passed p o → Conts c ls s os → Conts c (p :: ls) s (o :: os)
  | cont {c l t ls s os} : c ≠ .comment → IsCont l t → Conts (t.foldl Ctx.step c) ls s os →
      Conts c ((true, l) :: ls) (t ++ s) ([] :: os)

/-- A file and what becomes of its lines: every statement is put together in its first line. -/
inductive FileIs : List (Bool × Str) → List Str → Prop
  | nil : FileIs [] []
  | passed {p o ls os} : Passed p o → FileIs ls os → FileIs (p :: ls) (o :: os)
  | stmt {l s cs co ls os} : IsInitial l → Conts (l.foldl Ctx.step .code) cs s co → FileIs ls os →
      FileIs ((true, l) :: (cs ++ ls)) ((l ++ s) :: (co ++ os))

end Ccpp.Fixed
