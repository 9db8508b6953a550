/-!
# Python string helpers on `List Char`

The models represent Python `str` values as `List Char`.  The helpers below
model the handful of `str` methods and regular-expression fragments the code
under study uses (Python standard library, not code of `/repo`).
-/
namespace Ccpp

/-- Python `\s` / `str.isspace` restricted to ASCII (simplification: the
non-ASCII white-space characters are treated as ordinary characters).
Python library (str, re) -/
def isWs (c : Char) : Bool :=
  c == ' ' || c == '\t' || c == '\n' || c == '\r' || c == '\x0b' || c == '\x0c'

/-- `str.lstrip()` Python library (str, re) -/
def lstrip (s : List Char) : List Char := s.dropWhile isWs

/-- `str.rstrip()` Python library (str, re) -/
def rstrip (s : List Char) : List Char := (s.reverse.dropWhile isWs).reverse

/-- `str.strip()` Python library (str, re) -/
def strip (s : List Char) : List Char := lstrip (rstrip s)

/-- Remove the literal prefix `k`, or fail (a literal in a regular expression).
Python library (str, re) -/
def dropPrefix? : List Char → List Char → Option (List Char)
  | [], s => some s
  | _ :: _, [] => none
  | k :: ks, c :: s => if k = c then dropPrefix? ks s else none

/-- ASCII letter: `[A-Za-z]`. Python library (str, re) -/
def isLetter (c : Char) : Bool := c.isAlpha

/-- `[A-Za-z0-9_]` Python library (str, re) -/
def isWordC (c : Char) : Bool := c.isAlphanum || c == '_'

/-- `str.lower()` on ASCII text. Python library (str, re) -/
def lower (s : List Char) : List Char := s.map Char.toLower

theorem dropPrefix?_append (k s : List Char) : dropPrefix? k (k ++ s) = some s := by
  induction k with
  | nil => rfl
  | cons a k ih => simp [dropPrefix?, ih]

theorem dropPrefix?_eq_some {k s r : List Char} :
    dropPrefix? k s = some r ↔ s = k ++ r := by
  induction k generalizing s with
  | nil => simp [dropPrefix?]
  | cons a k ih =>
    cases s with
    | nil => simp [dropPrefix?]
    | cons c s =>
      simp only [dropPrefix?, List.cons_append, List.cons.injEq]
      split
      · next h => subst h; simp [ih]
      · next h => simp; intro h'; exact absurd h'.symm h

end Ccpp
