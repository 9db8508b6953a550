import Verif.Model.Snippets
/-!
# Specification for C102: how make, cmake and a shell read the snippets
-/
namespace Ccpp.Snip

/-- A blank between words. -/
def Blank (c : Char) : Prop := c = ' ' ∨ c = '\t'

/-- The words of a text: separated by blanks. -/
inductive Words : Str → List Str → Prop
  | nil : Words [] []
  | blank {c s ws} : Blank c → Words s ws → Words (c :: s) ws
  | word {w s ws} : w ≠ [] → (∀ c ∈ w, ¬ Blank c) → (∀ c r, s = c :: r → Blank c) → Words s ws → Words (w ++ s) (w :: ws)

/-- make: a backslash at the end of a line joins it with the next one. -/
def joined : Str → Str
  | [] => []
  | '\\' :: '\n' :: s => ' ' :: joined s
  | c :: s => c :: joined s

/-- The text is this list of lines. -/
inductive Lines : Str → List Str → Prop
  | last {l} : '\n' ∉ l → Lines l [l]
  | line {l s ls} : '\n' ∉ l → Lines s ls → Lines (l ++ '\n' :: s) (l :: ls)

/-- An empty line or a comment. -/
def Ignored (l : Str) : Prop := l = [] ∨ ∃ r, l = '#' :: r

/-- The variables that lines of a makefile define, with their words. -/
inductive MakeVars : List Str → List (Str × List Str) → Prop
  | nil : MakeVars [] []
  | skip {l ls vs} : Ignored l → MakeVars ls vs → MakeVars (l :: ls) vs
  | var {n rest ws ls vs} : n ≠ [] → (∀ c ∈ n, c.isAlphanum ∨ c = '_') → Words rest ws → MakeVars ls vs →
      MakeVars ((n ++ " =".toList ++ rest) :: ls) ((n, ws) :: vs)

/-- A makefile with these variables. -/
def IsMake (text : Str) (vs : List (Str × List Str)) : Prop := ∃ ls, Lines (joined text) ls ∧ MakeVars ls vs

/-- White space for cmake. -/
def CSpace (c : Char) : Prop := c = ' ' ∨ c = '\t' ∨ c = '\n'

/-- A character that ends a word for cmake. -/
def CEnd (c : Char) : Prop := CSpace c ∨ c = '(' ∨ c = ')' ∨ c = '#'

/-- The tokens of a text for cmake, without comments. -/
inductive CTokens : Str → List Str → Prop
  | nil : CTokens [] []
  | space {c s ts} : CSpace c → CTokens s ts → CTokens (c :: s) ts
  | comment {r s ts} : '\n' ∉ r → CTokens s ts → CTokens ('#' :: r ++ '\n' :: s) ts
  | opening {s ts} : CTokens s ts → CTokens ('(' :: s) (['('] :: ts)
  | closing {s ts} : CTokens s ts → CTokens (')' :: s) ([')'] :: ts)
  | word {w s ts} : w ≠ [] → (∀ c ∈ w, ¬ CEnd c) → (∀ c r, s = c :: r → CEnd c) → CTokens s ts → CTokens (w ++ s) (w :: ts)

/-- A cmake file that sets a variable to a list. -/
def IsCSet (text var : Str) (files : List Str) : Prop :=
  CTokens text ("set".toList :: "(".toList :: var :: (files ++ [")".toList]))

/-- A shell script that exports one variable, whose value is the files with semicolons between them. -/
def IsExport (text var : Str) (files : List Str) : Prop :=
  ∃ ls ms, Lines text (ls ++ ("export ".toList ++ var ++ "=\"".toList ++ [';'].intercalate files ++ "\"".toList) :: ms) ∧
    (∀ l ∈ ls ++ ms, Ignored l)

/-- A file name without characters that are special in any of the three languages. -/
def PlainName (f : Str) : Prop := f ≠ [] ∧ ∀ c ∈ f, c.isAlphanum ∨ c ∈ ['_', '-', '.', '/', '+', ',', '@', ':', '~']

/-- The file has this ending. -/
def HasEnding (e f : Str) : Prop := ∃ b, f = b ++ e

/-- `l` are the files with this ending, in their order. -/
def OfEnding (e : Str) (files l : List Str) : Prop := ∃ p : Str → Bool, (∀ f, p f = true ↔ HasEnding e f) ∧ l = files.filter p

end Ccpp.Snip
