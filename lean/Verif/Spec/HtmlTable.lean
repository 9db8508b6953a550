import Verif.Model.HtmlTable
/-!
# Specification of the HTML page: how a browser reads it

A text that is shown as it stands has no `<` and no `&`.
-/
namespace Ccpp.HT

/-- The text is shown as it stands. -/
def Plain (s : Str) : Prop := '<' ∉ s ∧ '&' ∉ s

/-- The cells of a row, with the tag `th` or `td`. -/
inductive Cells (k : Char) : Str → List Str → Prop where
  | nil : Cells k [] []
  | cons {c t : Str} {cs : List Str} : Plain c → Cells k t cs → Cells k (['<', 't', k, '>'] ++ c ++ ['<', '/', 't', k, '>'] ++ t) (c :: cs)

/-- A row of cells. -/
def Row (k : Char) (r : Str) (cs : List Str) : Prop := ∃ t, Cells k t cs ∧ r = ['<', 't', 'r', '>'] ++ t ++ ['<', '/', 't', 'r', '>', '\n']

/-- The rows of a table. -/
inductive Rows : Str → List (List Str) → Prop where
  | nil : Rows [] []
  | cons {r t : Str} {cs : List Str} {rs : List (List Str)} : Row 'd' r cs → Rows t rs → Rows (r ++ t) (cs :: rs)

/-- A page with a title and one table, whose header has the texts `hs`, and whose rows have the texts `rs`. -/
def Page (p title : Str) (hs : List Str) (rs : List (List Str)) : Prop :=
  Plain title ∧ ∃ h t, Row 'h' h hs ∧ Rows t rs ∧ p = "\n<html>\n<head>\n<title>".toList ++ title ++
    "</title>\n<meta charset=\"UTF-8\">\n</head>\n<body>\n<table border=\"1\">\n".toList ++ h ++ t ++ "</table>\n</body>\n</html>\n".toList

/-- The list of dimensions, with a comma and a blank between them. -/
inductive Listed : List Str → Str → Prop where
  | nil : Listed [] []
  | one {a : Str} : Listed [a] a
  | cons {a t : Str} {l : List Str} : l ≠ [] → Listed l t → Listed (a :: l) (a ++ [',', ' '] ++ t)

/-- The text that stands for the property of the variable. -/
def Shows (v : Var) (p t : Str) : Prop :=
  (p = "dimensions".toList ∧ ∃ l, Listed v.dims l ∧ t = ['('] ++ l ++ [')']) ∨
  (p ≠ "dimensions".toList ∧ (v.get p = some t ∨ (v.get p = none ∧ t = "n/a".toList)))

end Ccpp.HT
