import Verif.Spec.Checkers
/-!
# Specification for C85: units, references, types and diagnostic names
-/
namespace Ccpp.RC

/-! ## Units -/

/-- A text of letters, not empty. -/
def Word (s : List Char) : Prop := s ≠ [] ∧ ∀ c ∈ s, c.isAlpha = true

/-- A whole number other than zero, without leading zeros, perhaps negative. -/
def NonZero (s : List Char) : Prop :=
  ∃ g c d, s = g ++ c :: d ∧ (g = [] ∨ g = ['-']) ∧ c.isDigit = true ∧ c ≠ '0' ∧ ∀ x ∈ d, x.isDigit = true

/-- A unit: letters and perhaps an exponent. -/
def Unit (s : List Char) : Prop := ∃ w e, s = w ++ e ∧ Word w ∧ (e = [] ∨ NonZero e)

/-- White space. -/
def White (c : Char) : Prop := c = ' ' ∨ c = '\t' ∨ c = '\n' ∨ c = '\r' ∨ c = '\x0b' ∨ c = '\x0c'

/-- Units, separated by one white-space character each. -/
inductive UnitList : List Char → Prop
  | one {u} : Unit u → UnitList u
  | more {u c r} : Unit u → White c → UnitList r → UnitList (u ++ c :: r)

/-- Words joined by underscores, with at least two letters between two underscores. -/
inductive Joined : List Char → Prop
  | last {a b} : Word a → Word b → Joined (a ++ '_' :: b)
  | more {a c s} : Word a → c.isAlpha = true → Joined s → Joined (a ++ '_' :: c :: s)

/-! ## References -/

/-- A subscript: a name, a colon or a number. -/
def Dim (s : List Char) : Prop := Chk.IsName s ∨ s = [':'] ∨ (s ≠ [] ∧ ∀ c ∈ s, c.isDigit = true)

/-- The text is a subscript list: blanks around each subscript, commas between them. -/
inductive Dims : List (List Char) → List Char → Prop
  | one {a d b} : (∀ c ∈ a, White c) → Dim d → (∀ c ∈ b, White c) → Dims [d] (a ++ d ++ b)
  | more {a d b ds r} : (∀ c ∈ a, White c) → Dim d → (∀ c ∈ b, White c) → Dims ds r → Dims (d :: ds) (a ++ d ++ b ++ ',' :: r)

/-- The text is a reference to an element or section of the array `n`. -/
def Ref (n : List Char) (ds : List (List Char)) (s : List Char) : Prop :=
  Chk.IsName n ∧ ∃ b r, (∀ c ∈ b, White c) ∧ Dims ds r ∧ s = n ++ b ++ '(' :: r ++ [')']

/-- A newline at the end does not count. -/
def UpToNewline (P : List Char → Prop) (s : List Char) : Prop := P s ∨ ∃ t, s = t ++ ['\n'] ∧ P t

/-! ## Diagnostic names -/

/-- Letters, digits and underscores. -/
def WordChars (s : List Char) : Prop := ∀ c ∈ s, c.isAlphanum = true ∨ c = '_'

/-- A diagnostic name: a name, a substitution and a rest; either name or substitution may be missing. -/
inductive Diag : List Char → Prop
  | plain {n} : n = [] ∨ Chk.IsName n → Diag n
  | subst {n v r} : n = [] ∨ Chk.IsName n → v = "${process}".toList ∨ v = "${scheme_name}".toList → WordChars r →
      Diag (n ++ v ++ r)

/-- The name after a substitution: `x` is written for the variable. -/
inductive Substituted (x : List Char) : List Char → List Char → Prop
  | plain {n} : '$' ∉ n → Substituted x n n
  | subst {n v r} : '$' ∉ n → v = "${process}".toList ∨ v = "${scheme_name}".toList → Substituted x (n ++ v ++ r) (n ++ x ++ r)

end Ccpp.RC
