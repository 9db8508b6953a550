/-!
# Specification for C84: Fortran literal constants

(Fortran standard, literal constants: integer, real with a decimal point, logical, character, complex.)
-/
namespace Ccpp.Lit

/-- One or more decimal digits. -/
def Digits (s : List Char) : Prop := s ≠ [] ∧ ∀ c ∈ s, c.isDigit = true

/-- Nothing, a plus or a minus. -/
def Sign (s : List Char) : Prop := s = [] ∨ s = ['+'] ∨ s = ['-']

/-- A (signed) integer constant without kind. -/
def IntLit (s : List Char) : Prop := ∃ g d, s = g ++ d ∧ Sign g ∧ Digits d

/-- An exponent: e or E and a signed integer. -/
def Expo (s : List Char) : Prop := ∃ e i, (e = 'e' ∨ e = 'E') ∧ s = e :: i ∧ IntLit i

/-- A (signed) real constant with a decimal point, without kind: digits before or after the point, and
perhaps an exponent. -/
def RealLit (s : List Char) : Prop :=
  ∃ g i f e, s = g ++ i ++ '.' :: f ++ e ∧ Sign g ∧ (∀ c ∈ i, c.isDigit = true) ∧ (∀ c ∈ f, c.isDigit = true) ∧
    (i ≠ [] ∨ f ≠ []) ∧ (e = [] ∨ Expo e)

/-- A logical constant without kind, in any case of letters. -/
def LogLit (s : List Char) : Prop :=
  s.map Char.toLower = ".true.".toList ∨ s.map Char.toLower = ".false.".toList

/-- The inside of a character constant with the delimiter q: every q is doubled. -/
inductive Body (q : Char) : List Char → Prop
  | nil : Body q []
  | char {c s} : c ≠ q → Body q s → Body q (c :: s)
  | quote {s} : Body q s → Body q (q :: q :: s)

/-- A character constant delimited by q, without kind. -/
def CharLit (q : Char) (s : List Char) : Prop := ∃ b, s = q :: (b ++ [q]) ∧ Body q b

/-- Two kind names are the same in Fortran: letters are compared without case. -/
def SameKind (k k' : List Char) : Prop := k.map Char.toLower = k'.map Char.toLower

/-- A constant of a class, of the kind `k`: the kind follows an underscore; no kind, no underscore. -/
def OfKind (lit : List Char → Prop) (k s : List Char) : Prop :=
  (k = [] ∧ lit s) ∨ (k ≠ [] ∧ ∃ t k', s = t ++ '_' :: k' ∧ SameKind k k' ∧ lit t)

/-- A character constant of the kind `k`: the kind comes first. -/
def CharOfKind (q : Char) (k s : List Char) : Prop :=
  (k = [] ∧ CharLit q s) ∨ (k ≠ [] ∧ ∃ t k', s = k' ++ '_' :: t ∧ SameKind k k' ∧ CharLit q t)

/-- A text of white space. -/
def Blanks (s : List Char) : Prop :=
  ∀ c ∈ s, c = ' ' ∨ c = '\t' ∨ c = '\n' ∨ c = '\r' ∨ c = '\x0b' ∨ c = '\x0c'

/-- The text with blanks before and after it. -/
def Padded (P : List Char → Prop) (s : List Char) : Prop :=
  ∃ a t b, s = a ++ t ++ b ∧ Blanks a ∧ Blanks b ∧ P t

/-- A complex constant: two integer or two real constants of the kind `k`. -/
def CplxOfKind (k s : List Char) : Prop :=
  ∃ x y, s = '(' :: (x ++ ',' :: (y ++ [')'])) ∧
    ((Padded (OfKind IntLit k) x ∧ Padded (OfKind IntLit k) y) ∨
     (Padded (OfKind RealLit k) x ∧ Padded (OfKind RealLit k) y))

/-- The characters of a kind name (or of no kind). -/
def NameChars (k : List Char) : Prop := ∀ c ∈ k, c.isAlphanum = true ∨ c = '_'

/-- The kind has no upper-case letter. -/
def LowerCase (k : List Char) : Prop := k.map Char.toLower = k

/-! ## What the checker accepts -/

/-- A constant and, after blanks, an underscore and the kind in lower case; if there is no kind the underscore
may be missing. -/
def Suffixed (lit : List Char → Prop) (k s : List Char) : Prop :=
  (k = [] ∧ lit s) ∨ ∃ t b, s = t ++ b ++ '_' :: k.map Char.toLower ∧ Blanks b ∧ lit t

/-- The same without blanks before the underscore. -/
def SuffixedTight (lit : List Char → Prop) (k s : List Char) : Prop :=
  (k = [] ∧ lit s) ∨ ∃ t, s = t ++ '_' :: k.map Char.toLower ∧ lit t

/-- The kind in lower case, an underscore and a text without underscore between two equal characters, whatever
they are; if there is no kind the underscore may be missing. -/
def Prefixed (k s : List Char) : Prop :=
  ∃ t, '_' ∉ t ∧ (∃ q, CharLit q t) ∧ ((k = [] ∧ s = t) ∨ s = k.map Char.toLower ++ '_' :: t)

/-- Parentheses around two accepted integers or two accepted reals. -/
def CplxSuffixed (k s : List Char) : Prop :=
  ∃ x y, s = '(' :: (x ++ ',' :: (y ++ [')'])) ∧
    ((Padded (Suffixed IntLit k) x ∧ Padded (Suffixed IntLit k) y) ∨
     (Padded (Suffixed RealLit k) x ∧ Padded (Suffixed RealLit k) y))

end Ccpp.Lit
