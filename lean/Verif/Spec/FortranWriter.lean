import Verif.Model.FortranWriter
/-!
# Specification for C21/C22: how a Fortran compiler reads the lines back
Free source form (Fortran 2018, 6.3.2): a line ending in `&` is continued on the next non-blank
line; if that line starts with `&`, the text goes on right after this `&`.  Outside character
context the amount of white space does not matter; white space after a comma or after the
concatenation operator `//` does not matter at all.
-/
namespace Ccpp.FW

/-- A line with only white space. -/
def Blank (l : Str) : Prop := ∀ ch ∈ l, isWs ch = true

instance (l : Str) : Decidable (Blank l) := by unfold Blank; infer_instance

/-- The text of a continuation line. -/
def contText (t : Str) : Str := if (lstrip t).head? = some '&' then (lstrip t).tail else t

/-- The logical statements of a list of lines without comments. -/
def readStmts : List Str → List Str
  | [] => []
  | l :: ls =>
    if Blank l then readStmts ls
    else if l.getLast? = some '&' then
      match readStmts ls with
      | [] => [l.dropLast]
      | t :: ts => (l.dropLast ++ contText t) :: ts
    else l :: readStmts ls

/-- Reader state: character context; "white space does not matter here"; "the last character was a
slash". -/
structure LexSt where
  q : Q
  sep : Bool
  slash : Bool
deriving DecidableEq

def LexSt.start : LexSt := ⟨.out, true, false⟩

/-- State after one character. -/
def LexSt.step (st : LexSt) (ch : Char) : LexSt :=
  if st.q = .out ∧ isWs ch = true then
    if st.sep then st else ⟨.out, true, false⟩
  else ⟨st.q.step ch, st.q = .out ∧ (ch = ',' ∨ (ch = '/' ∧ st.slash = true)),
    st.q = .out ∧ ch = '/'⟩

/-- What is significant of one character: irrelevant white space vanishes, relevant white space
becomes one blank, text in quotes is untouched. -/
def LexSt.emit (st : LexSt) (ch : Char) : Str :=
  if st.q = .out ∧ isWs ch = true then (if st.sep then [] else [' ']) else [ch]

def LexSt.after (st : LexSt) (s : Str) : LexSt := s.foldl LexSt.step st

/-- The significant text. -/
def normFrom : LexSt → Str → Str
  | _, [] => []
  | st, ch :: s => st.emit ch ++ normFrom (st.step ch) s

def norm (s : Str) : Str := normFrom .start s

/-- A statement may be broken after `x`: it ends in a blank, a comma or `//`. -/
def EndsBreak (x : Str) : Prop :=
  x.getLast? = some ' ' ∨ x.getLast? = some ',' ∨ "//".toList <:+ x

/-- Text outside quotes contains neither a comment nor a continuation mark. -/
def NoComment (s : Str) : Prop :=
  ∀ a ch b, s = a ++ ch :: b → a.foldl Q.step .out = .out → ch ≠ '!' ∧ ch ≠ '&'

/-- Every stretch of more than `w` characters contains, within its first `w` characters, a place
where the statement may be broken (outside quotes). -/
def Breakable (w : Nat) (s : Str) : Prop :=
  ∀ a b, s = a ++ b → w < b.length →
    ∃ k, 1 ≤ k ∧ k ≤ w ∧ EndsBreak (b.take k) ∧ (a ++ b.take k).foldl Q.step .out = .out

end Ccpp.FW
