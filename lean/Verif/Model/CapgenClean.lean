import Verif.Model.DataTable
import Verif.Model.Checkers
/-!
# Model of `scripts/ccpp_capgen.py`: the option --clean

A file system is the set of its regular files; `real` says which file is found under a path (it stands for the
operating system: symbolic links, several names of the same file).  Only os.remove changes it.  Messages are modelled by
the last one: success or errors.  The data table is read in text mode: line ends are converted to newlines before.
-/
namespace Ccpp.CG

open Ccpp.XF (Str)

/-- The files, and whether all went well so far, ccpp_capgen.py:59, 78, 88 -/
structure St where
  files : Str → Bool
  success : Bool

/-- os.remove in a try, ccpp_capgen.py:71-77 and 85-91 -/
def remove (real : Str → Str) (s : St) (path : Str) : St :=
  if s.files (real path) then { s with files := fun x => if x = real path then false else s.files x }
  else { s with success := false }

/-- os.path.isabs (Python library), ccpp_capgen.py:66 -/
def isAbs : Str → Bool
  | '/' :: _ => true
  | _ => false

/-- os.path.join (Python library), ccpp_capgen.py:68 -/
def pathJoin (a b : Str) : Str :=
  if isAbs b then b
  else if a = [] ∨ a.getLast? = some '/' then a ++ b
  else a ++ '/' :: b

/-- One component in os.path.normpath (Python library), ccpp_capgen.py:68 -/
def normStep (abs : Bool) (acc : List Str) (comp : Str) : List Str :=
  if comp = [] ∨ comp = ['.'] then acc
  else if comp ≠ ['.', '.'] ∨ (abs = false ∧ acc = []) ∨ acc.getLast? = some ['.', '.'] then acc ++ [comp]
  else acc.dropLast

/-- '/'.join (Python library), ccpp_capgen.py:68 -/
def slashJoin : List Str → Str
  | [] => []
  | [x] => x
  | x :: y :: l => x ++ '/' :: slashJoin (y :: l)

/-- The slashes at the beginning in os.path.normpath: one, or two if there are exactly two (Python library),
ccpp_capgen.py:68 -/
def initialSlashes : Str → Str
  | '/' :: '/' :: '/' :: _ => ['/']
  | '/' :: '/' :: _ => ['/', '/']
  | '/' :: _ => ['/']
  | _ => []

/-- os.path.normpath (Python library, posixpath), ccpp_capgen.py:68 -/
def normpath (p : Str) : Str :=
  match initialSlashes p ++ slashJoin ((Chk.splitOn '/' p).foldl (normStep (isAbs p)) []) with
  | [] => ['.']
  | r => r

/-- The path in a line, if there is one, ccpp_capgen.py:61-69 -/
def linePath (root line : Str) : Option Str :=
  match XF.strip line with
  | [] => none
  | c :: q =>
    if c ≠ '#' ∧ c ≠ '!' then
      some (if isAbs (c :: q) then c :: q else normpath (pathJoin root (c :: q)))
    else none

/-- The loop over the lines, ccpp_capgen.py:60-80.  (All lines are read first.) -/
def removeLines (real : Str → Str) (root : Str) : St → List Str → St
  | s, [] => s
  | s, l :: ls =>
    match linePath root l with
    | some p => removeLines real root (remove real s p) ls
    | none => removeLines real root s ls

/-- delete_pathnames_from_file, ccpp_capgen.py:54-95.  `root` is the directory of the file; splitting the text at newlines
gives the lines of readlines, perhaps followed by an empty one. -/
def deletePathnames (real : Str → Str) (root capfile text : Str) (files : Str → Bool) : St :=
  remove real (removeLines real root ⟨files, true⟩ (Chk.splitOn '\n' text)) capfile

/-- clean_capgen, ccpp_capgen.py:582-595; `none` is the message that the file is not found.  (The file is a regular
file if it exists.) -/
def clean (real : Str → Str) (root capfile : Str) (content : Str → Str) (files : Str → Bool) : Option St :=
  if files (real capfile) then some (deletePathnames real root capfile (content (real capfile)) files) else none

end Ccpp.CG
