import Verif.Model.Text
/-!
# Model of the HTML pages of `scripts/metadata2html.py`
-/
namespace Ccpp.HT

/-- Notation: a text. -/
abbrev Str := List Char

/-- `str.format` with one argument given by its name, Python library (str). The first argument is the number of characters still to be skipped.
Simplification: a replacement field other than the name itself (with an attribute, an index, a conversion or a format) is taken as an error. -/
def fmt (name v : Str) : Nat → Str → Option Str
  | _, [] => some []
  | n + 1, _ :: s => fmt name v n s
  | 0, c :: s =>
    if c = '{' then
      if s.head? = some '{' then (fmt name v 1 s).map ('{' :: ·)
      else if (dropPrefix? (name ++ ['}']) s).isSome then (fmt name v (name.length + 1) s).map (v ++ ·)
      else none
    else if c = '}' then
      if s.head? = some '}' then (fmt name v 1 s).map ('}' :: ·) else none
    else (fmt name v 0 s).map (c :: ·)

/-- A variable of a table: the texts of its properties other than the dimensions (none if a property has no value), and its dimensions,
metadata_table.py:1235-1240 -/
structure Var where
  get : Str → Option Str
  dims : List Str

/-- `', '.join`, Python library (str) -/
def join : List Str → Str
  | [] => []
  | [a] => a
  | a :: b :: l => a ++ ", ".toList ++ join (b :: l)

/-- The value of a property, metadata_table.py:1235-1240 -/
def value (v : Var) (p : Str) : Str :=
  if p = "dimensions".toList then '(' :: join v.dims ++ [')'] else (v.get p).getD "n/a".toList

/-- One cell: the value is inserted by the f-string, and the text is then formatted again, metadata_table.py:1241 -/
def cell (v : Var) (p : Str) : Option Str :=
  fmt "value".toList (value v p) 0 ("<td>".toList ++ value v p ++ "</td>".toList)

/-- The row of a variable, metadata_table.py:1233-1242 -/
def row (props : List Str) (v : Var) : Option Str :=
  (props.mapM (cell v)).map fun cs => "<tr>".toList ++ cs.flatten ++ "</tr>\n".toList

/-- The header, metadata_table.py:1226-1229 -/
def header (props : List Str) : Option Str :=
  (props.mapM fun p => fmt "prop".toList p 0 ("<th>".toList ++ p ++ "</th>".toList)).map fun cs => "<tr>".toList ++ cs.flatten ++ "</tr>\n".toList

/-- The page from its template, metadata_table.py:624-635, 1247-1248 -/
def page (title header contents : Str) : Str :=
  "\n<html>\n<head>\n<title>".toList ++ title ++
  "</title>\n<meta charset=\"UTF-8\">\n</head>\n<body>\n<table border=\"1\">\n".toList ++ header ++ contents ++ "</table>\n</body>\n</html>\n".toList

/-- to_html without writing the file: the error, no page, or the page, metadata_table.py:1221-1249 -/
def toHtml (title : Str) (props : List Str) (vars : List Var) : Option (Option Str) :=
  if vars.isEmpty then some none
  else do
    let h ← header props
    let rows ← vars.mapM (row props)
    pure (some (page (title ++ " argument table".toList) h rows.flatten))

end Ccpp.HT
