import Verif.Model.FileUtils
/-!
# Specification for C20: which files an entry of a file list denotes
Independent of the traversal: only the questions asked of the operating system (`Env`).
-/
namespace Ccpp.Files

/-- A line that is neither blank nor a comment. -/
def IsEntry (l : Str) : Bool := match l.head? with
  | none => false
  | some c => decide (c ≠ '#' ∧ c ≠ '!')

/-- The path names written in a list file: its lines without surrounding blanks, except blank lines
and lines starting with `#` or `!`, made absolute relative to the directory of the list file. -/
def entriesOf (e : Env) (t : Str) : List Str :=
  (((e.raw t).map strip).filter IsEntry).map (e.abs (e.absdir t))

/-- `Wanted e sufs root f p`: the entry `f` (relative to `root`) denotes the file `p`, directly, as
a directory, or through list files nested to any depth. -/
inductive Wanted (e : Env) (sufs : List Str) : Str → Str → Str → Prop
  | dir {root f p s} : e.isdir (e.abs root f) = true → s ∈ sufs →
      p ∈ e.globDir (e.abs root f) s → Wanted e sufs root f p
  | file {root f p} : e.isdir (e.abs root f) = false → e.suff f ∈ sufs →
      p ∈ e.glob (e.abs root f) → Wanted e sufs root f p
  | list {root f t g p} : e.isdir (e.abs root f) = false → e.suff f ∉ sufs →
      e.suff f = "txt".toList → t ∈ e.glob (e.abs root f) → g ∈ entriesOf e t →
      Wanted e sufs (e.dirname t) g p → Wanted e sufs root f p

end Ccpp.Files
