import Verif.Model.PrettyPrint
/-!
# Specification for C95: words and lines of a printed datatable
-/
namespace Ccpp.Pretty

/-- Cutting at white space; the first argument is the current word. -/
def wordsGo : Str → Str → List Str
  | cur, [] => if cur.isEmpty then [] else [cur]
  | cur, c :: s => if isWs c then (if cur.isEmpty then [] else [cur]) ++ wordsGo [] s else wordsGo (cur ++ [c]) s

/-- The words of a text. -/
def words (s : Str) : List Str := wordsGo [] s

/-- Cutting at ends of lines; the first argument is the current line. -/
def linesGo : Str → Str → List Str
  | cur, [] => [cur]
  | cur, c :: s => if c = '\n' then cur :: linesGo [] s else linesGo (cur ++ [c]) s

/-- The lines of a text. -/
def lines (s : Str) : List Str := linesGo [] s

/-- A line that fits, or cannot be broken: blanks and one piece without a blank. -/
def Fits (wrap : Nat) (l : Str) : Prop :=
  l.length ≤ wrap ∨ ∃ n w, l = List.replicate n ' ' ++ w ∧ ' ' ∉ w

mutual
/-- The words that describe an element: its tag with the attributes, its children and its text in this order, and the
closing tag; nothing of the layout. -/
def describe : Entry → List Str
  | .mk tag attrib text kids =>
    let start := "<".toList ++ tag ++ (attrib.map fun a => " ".toList ++ a.1 ++ "=".toList ++ a.2).flatten
    if kids.isEmpty && text.isEmpty then words (start ++ " />".toList)
    else words (start ++ ">".toList) ++ describeAll kids ++ words text ++ words ("</".toList ++ tag ++ ">".toList)

/-- The words that describe the children, in order. -/
def describeAll : List Entry → List Str
  | [] => []
  | e :: es => describe e ++ describeAll es
end

mutual
/-- No name, value or text contains an end of line. -/
def OneLine : Entry → Prop
  | .mk tag attrib text kids => '\n' ∉ tag ∧ (∀ a ∈ attrib, '\n' ∉ a.1 ∧ '\n' ∉ a.2) ∧ '\n' ∉ text ∧ OneLineAll kids

/-- No name, value or text of the elements contains an end of line. -/
def OneLineAll : List Entry → Prop
  | [] => True
  | e :: es => OneLine e ∧ OneLineAll es
end

end Ccpp.Pretty
