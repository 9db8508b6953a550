import Verif.Model.CondText
/-!
# Specification for C103: how C reads a condition, and how Python reads the translated text
-/
namespace Ccpp.CondT
open Preproc

/-- The formula of a condition. -/
inductive F where
  | defd (k : Str)
  | not (f : F)
  | conj (f g : F)
  | disj (f g : F)
  | paren (f : F)

/-- The value of a formula. -/
def F.truth (isDef : Str → Bool) : F → Bool
  | .defd k => isDef k
  | .not f => !f.truth isDef
  | .conj f g => f.truth isDef && g.truth isDef
  | .disj f g => f.truth isDef || g.truth isDef
  | .paren f => f.truth isDef

/-- Blanks and tabs. -/
def Blanks (s : Str) : Prop := ∀ c ∈ s, c = ' ' ∨ c = '\t'

/-- A symbol. -/
def Symbol (k : Str) : Prop := (∃ c t, k = c :: t ∧ c.isDigit = false) ∧ ∀ c ∈ k, c.isAlphanum = true ∨ c = '_'

/-- The levels of the grammars. -/
inductive Lvl where | un | and | or

/-- C: the text of a condition and its formula. -/
inductive CText : Lvl → Str → F → Prop
  | defd {b k} : b ≠ [] → Blanks b → Symbol k → CText .un ("defined".toList ++ (b ++ k)) (.defd k)
  | call {b1 b2 b3 k} : Blanks b1 → Blanks b2 → Blanks b3 → Symbol k →
      CText .un ("defined".toList ++ (b1 ++ '(' :: (b2 ++ (k ++ (b3 ++ [')']))))) (.defd k)
  | paren {b1 b2 s f} : Blanks b1 → Blanks b2 → CText .or s f → CText .un ('(' :: (b1 ++ (s ++ (b2 ++ [')'])))) (.paren f)
  | not {b s f} : Blanks b → CText .un s f → CText .un ('!' :: (b ++ s)) (.not f)
  | and1 {s f} : CText .un s f → CText .and s f
  | and {b1 b2 s t f g} : Blanks b1 → Blanks b2 → CText .and s f → CText .un t g →
      CText .and (s ++ (b1 ++ '&' :: '&' :: (b2 ++ t))) (.conj f g)
  | or1 {s f} : CText .and s f → CText .or s f
  | or {b1 b2 s t f g} : Blanks b1 → Blanks b2 → CText .or s f → CText .and t g →
      CText .or (s ++ (b1 ++ '|' :: '|' :: (b2 ++ t))) (.disj f g)

/-- The keywords of Python. -/
def keywords : List Str := ["False", "None", "True", "and", "as", "assert", "async", "await", "break", "class", "continue", "def",
  "del", "elif", "else", "except", "finally", "for", "from", "global", "if", "import", "in", "is", "lambda", "nonlocal", "not", "or",
  "pass", "raise", "return", "try", "while", "with", "yield"].map String.toList

/-- A Python name. -/
def PyName (k : Str) : Prop := Symbol k ∧ k ∉ keywords

/-- The text begins with an opening parenthesis. -/
def Opens (s : Str) : Prop := ∃ r, s = '(' :: r

/-- The text ends with a closing parenthesis. -/
def Closes (s : Str) : Prop := ∃ r, s = r ++ [')']

/-- Python: texts of expressions and their syntax trees (a part of the grammar; a keyword must be separated from words). -/
inductive PyText : Lvl → Str → Ex → Prop
  | name {k} : PyName k → PyText .un k (.name k)
  | call {b1 b2 b3 k} : Blanks b1 → Blanks b2 → Blanks b3 → PyName k →
      PyText .un ("defined".toList ++ (b1 ++ '(' :: (b2 ++ (k ++ (b3 ++ [')']))))) (.defd k)
  | ncall {b1 b2 b3 k} : Blanks b1 → Blanks b2 → Blanks b3 → PyName k →
      PyText .un ("notdefined".toList ++ (b1 ++ '(' :: (b2 ++ (k ++ (b3 ++ [')']))))) (.ndefd k)
  | paren {b1 b2 s e} : Blanks b1 → Blanks b2 → PyText .or s e → PyText .un ('(' :: (b1 ++ (s ++ (b2 ++ [')'])))) e
  | not {b s e} : Blanks b → b ≠ [] ∨ Opens s → PyText .un s e → PyText .un ("not".toList ++ (b ++ s)) (.not e)
  | and1 {s e} : PyText .un s e → PyText .and s e
  | and {b1 b2 s t e f} : Blanks b1 → Blanks b2 → b1 ≠ [] ∨ Closes s → b2 ≠ [] ∨ Opens t → PyText .un s e → PyText .un t f →
      PyText .and (s ++ (b1 ++ ("and".toList ++ (b2 ++ t)))) (.boolop true e f [])
  | or1 {s e} : PyText .and s e → PyText .or s e
  | or {b1 b2 s t e f} : Blanks b1 → Blanks b2 → b1 ≠ [] ∨ Closes s → b2 ≠ [] ∨ Opens t → PyText .and s e → PyText .and t f →
      PyText .or (s ++ (b1 ++ ("or".toList ++ (b2 ++ t)))) (.boolop false e f [])

/-- After `&&` and `||` there is a blank or a parenthesis, and no exclamation mark follows another one at once. -/
def Spaced (s : Str) : Prop :=
  (∀ a c b, s = a ++ '&' :: '&' :: c :: b → c = ' ' ∨ c = '\t' ∨ c = '(') ∧
  (∀ a c b, s = a ++ '|' :: '|' :: c :: b → c = ' ' ∨ c = '\t' ∨ c = '(') ∧
  ∀ a b, s ≠ a ++ '!' :: '!' :: b

/-- A conjunction (not in parentheses). -/
def F.isConj : F → Bool
  | .conj _ _ => true
  | _ => false

/-- A disjunction (not in parentheses). -/
def F.isDisj : F → Bool
  | .disj _ _ => true
  | _ => false

/-- Every chain of `&&` or of `||` has two operands (longer ones have parentheses). -/
def F.Two : F → Prop
  | .defd _ => True
  | .not f => f.Two
  | .conj f g => f.isConj = false ∧ f.Two ∧ g.Two
  | .disj f g => f.isDisj = false ∧ f.Two ∧ g.Two
  | .paren f => f.Two

/-- No symbol is a keyword of Python. -/
def F.Named : F → Prop
  | .defd k => k ∉ keywords
  | .not f => f.Named
  | .conj f g => f.Named ∧ g.Named
  | .disj f g => f.Named ∧ g.Named
  | .paren f => f.Named

end Ccpp.CondT
