import Verif.Model.LatexDoc
/-!
# Specification of the LaTeX document: what is typeset

Simplification: the joining of blanks and of characters to ligatures is not part of what is typeset.
-/
namespace Ccpp.LX

/-- The characters with a meaning of their own. -/
def special : Str := ['\\', '{', '}', '%', '&', '_', '#', '$', '^', '~']

/-- The source is typeset as the text. -/
inductive Typeset : Str → Str → Prop where
  | nil : Typeset [] []
  | char {c : Char} {s t : Str} : c ∉ special → Typeset s t → Typeset (c :: s) (c :: t)
  | ctrl {c : Char} {s t : Str} : c ∈ ['{', '}', '%', '&', '_', '#', '$'] → Typeset s t → Typeset ('\\' :: c :: s) (c :: t)

/-- The container, with its parts written out, is the one of the subroutine `s`. -/
def InSubroutine (container s : Str) : Prop :=
  ∃ pre, container = pre ++ [' '] ++ "SUBROUTINE".toList ++ [' '] ++ s ∧ ¬"SUBROUTINE".toList <:+: pre

end Ccpp.LX
