import Verif.Model.CapgenClean
/-!
# Specification for C88: cleaning up

Shared with the model: nothing but the types, `XF.isBlank` (a blank character) and the elements of XML files.
-/
namespace Ccpp.CG

/-- An absolute path of a directory as os.path.abspath gives it: it begins with one slash. -/
def Dir (root : List Char) : Prop := ∃ r, root = '/' :: r ∧ r.head? ≠ some '/'

/-- The text is these lines, each ended by a newline, except perhaps the last. -/
def Lines (text : List Char) (ls : List (List Char)) : Prop :=
  (∀ l ∈ ls, '\n' ∉ l) ∧ (text = ls.flatMap (· ++ ['\n']) ∨ ∃ l ls', ls = ls' ++ [l] ∧ text = ls'.flatMap (· ++ ['\n']) ++ l)

/-- The line has an entry: what remains without blanks at both ends is not empty and no comment. -/
def Entry (line q : List Char) : Prop :=
  (∃ a b, line = a ++ q ++ b ∧ (∀ c ∈ a ++ b, XF.isBlank c = true)) ∧
  (∃ c r, q = c :: r ∧ XF.isBlank c = false ∧ c ≠ '#' ∧ c ≠ '!') ∧ (∃ c, q.getLast? = some c ∧ XF.isBlank c = false)

/-- The parts between slashes. -/
inductive Parts : List Char → List (List Char) → Prop where
  | one {s} : '/' ∉ s → Parts s [s]
  | cons {s r ps} : '/' ∉ s → Parts r ps → Parts (s ++ '/' :: r) (s :: ps)

/-- Where the parts lead to from the directory `at_`: `..` is one step back (nowhere from the root), `.` and nothing no
step. -/
inductive Leads : List (List Char) → List (List Char) → List (List Char) → Prop where
  | nil {d} : Leads d [] d
  | stay {d p ps e} : (p = [] ∨ p = ['.']) → Leads d ps e → Leads d (p :: ps) e
  | up {d x ps e} : Leads d ps e → Leads (d ++ [x]) (['.', '.'] :: ps) e
  | top {ps e} : Leads [] ps e → Leads [] (['.', '.'] :: ps) e
  | down {d p ps e} : p ≠ [] → p ≠ ['.'] → p ≠ ['.', '.'] → Leads (d ++ [p]) ps e → Leads d (p :: ps) e

/-- The absolute path of a place. -/
def absolute (names : List (List Char)) : List Char := '/' :: (['/'].intercalate names)

/-- The path of an entry: absolute paths are as they are, others start at the directory of the file. -/
def PathOf (root q p : List Char) : Prop :=
  (q.head? = some '/' ∧ p = q) ∨
  (q.head? ≠ some '/' ∧ ∃ rs qs d e, Parts root rs ∧ Leads [] rs d ∧ Parts q qs ∧ Leads d qs e ∧ p = absolute e)

/-- The paths listed, in the order of the lines. -/
inductive Listed (root : List Char) : List (List Char) → List (List Char) → Prop where
  | nil : Listed root [] []
  | skip {l ls ps} : (¬ ∃ q, Entry l q) → Listed root ls ps → Listed root (l :: ls) ps
  | path {l ls q p ps} : Entry l q → PathOf root q p → Listed root ls ps → Listed root (l :: ls) (p :: ps)

mutual
/-- No line breaks in tags, names of attributes and texts.  (In the values of attributes they are escaped.) -/
def OneLine : XF.Elem → Prop
  | .mk tag attrs text kids tail => '\n' ∉ tag ∧ (∀ a ∈ attrs, '\n' ∉ a.1) ∧ '\n' ∉ text ∧ allOneLine kids ∧ '\n' ∉ tail
/-- The same for a list. -/
def allOneLine : List XF.Elem → Prop
  | [] => True
  | e :: es => OneLine e ∧ allOneLine es
end

end Ccpp.CG
