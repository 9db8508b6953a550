import Verif.Model.Text
/-!
# Model of `scripts/file_utils.py`
-/
namespace Ccpp.Files

/-! ## move_modified_files -/

/-- A normalised absolute path: its components. Notation (os.path library). -/
abbrev Path := List String

/-- File system: contents of regular files, and which directories exist.
Operating system, as used by file_utils.py:235-330. -/
structure FS (C : Type) where
  file : Path → Option C
  dir : Path → Bool

variable {C : Type}

/-- os.replace(src, dest) as used at file_utils.py:299: fails (OSError) when the source or the
target directory does not exist, or when the target is a directory. -/
def FS.replace (fs : FS C) (src dest : Path) : Option (FS C) :=
  match fs.file src with
  | none => none
  | some c =>
    if fs.dir dest.dropLast && !fs.dir dest then
      some { fs with file := fun p => if p = dest then some c else if p = src then none
                              else fs.file p }
    else none

/-- os.remove, file_utils.py:301 -/
def FS.remove (fs : FS C) (p : Path) : FS C :=
  { fs with file := fun q => if q = p then none else fs.file q }

/-- The first loop of move_modified_files, file_utils.py:273-283: `order` is the list of the
relative paths of the files met by os.walk(src_dir); `seen` are the keys of `src_files` (base
names).  `false`: the duplicate-name error is raised. -/
def noDuplicates : List String → List Path → Bool
  | _, [] => true
  | seen, r :: rs =>
    if seen.contains (r.getLastD "") then false else noDuplicates (r.getLastD "" :: seen) rs

/-- One iteration of the second loop, file_utils.py:284-302.  filecmp.cmp(shallow=False) is
equality of contents for regular files and False when the target is a directory. -/
def moveOne [DecidableEq C] (src dest : Path) (overwrite : Bool) (fs : FS C) (r : Path) :
    Option (FS C) :=
  let fmove := match fs.file (dest ++ r) with
    | some d => if overwrite then true else decide (fs.file (src ++ r) = some d)
    | none => if fs.dir (dest ++ r) then overwrite else true
  if fmove then fs.replace (src ++ r) (dest ++ r) else some (fs.remove (src ++ r))

/-- The second loop, file_utils.py:284-302. -/
def moveAll [DecidableEq C] (src dest : Path) (overwrite : Bool) :
    FS C → List Path → Option (FS C)
  | fs, [] => some fs
  | fs, r :: rs => match moveOne src dest overwrite fs r with
    | none => none
    | some fs' => moveAll src dest overwrite fs' rs

/-- remove_dir(src_dir, force=True), file_utils.py:235-262: every file and directory below
`src_dir` goes.  (os.removedirs also removes parent directories that became empty; directories
outside `src_dir` are not tracked here.) -/
def removeTree (fs : FS C) (src : Path) : FS C :=
  { file := fun p => if src <+: p then none else fs.file p,
    dir := fun p => if src <+: p then false else fs.dir p }

/-- move_modified_files, file_utils.py:265-306.  `order` is what os.walk(src_dir) yields; `none`
is an exception. -/
def moveModified [DecidableEq C] (fs : FS C) (src dest : Path) (order : List Path)
    (overwrite removeSrc : Bool) : Option (FS C) :=
  if src ≠ dest then
    if noDuplicates [] order then
      match moveAll src dest overwrite fs order with
      | none => none
      | some fs' => some (if removeSrc then removeTree fs' src else fs')
    else none
  else some fs

/-! ## create_file_list -/

/-- Notation: a Python string. -/
abbrev Str := List Char

/-- What the functions ask the operating system.  Paths are strings here (aliases such as `/a/./b`
are different paths of one file). os.path library, as used by file_utils.py:76-224 -/
structure Env where
  /-- os.path.splitext(p)[1] without the dot, file_utils.py:135-138 -/
  suff : Str → Str
  /-- make absolute with the given root (identity on absolute paths), file_utils.py:93-95, 139-141 -/
  abs : Str → Str → Str
  /-- os.path.isdir, file_utils.py:142 -/
  isdir : Str → Bool
  /-- glob.glob, file_utils.py:63, 152 -/
  glob : Str → List Str
  /-- glob(os.path.join(d, '*.s')), file_utils.py:144, 63 -/
  globDir : Str → Str → List Str
  /-- check_for_existing_file returns no error, file_utils.py:22-38 -/
  readable : Str → Bool
  /-- infile.readlines(), file_utils.py:88 -/
  raw : Str → List Str
  /-- os.path.dirname, file_utils.py:165 -/
  dirname : Str → Str
  /-- os.path.dirname(os.path.abspath(p)), file_utils.py:84 -/
  absdir : Str → Str

/-- `path and (path[0] not in ['#', '!'])`, file_utils.py:91 -/
def isPathLine : Str → Bool
  | [] => false
  | c :: _ => !(c == '#' || c == '!')

/-- The loop of read_pathnames_from_file, file_utils.py:88-99. -/
def readLines (e : Env) (rootPath : Str) : List Str → List Str
  | [] => []
  | l :: ls =>
    let path := strip l
    if isPathLine path then e.abs rootPath path :: readLines e rootPath ls
    else readLines e rootPath ls

/-- read_pathnames_from_file, file_utils.py:77-102: the path names and the number of errors. -/
def readPathnames (e : Env) (t : Str) : List Str × Nat :=
  if e.readable t then (readLines e (e.absdir t) (e.raw t), 0) else ([], 1)

/-- State of the traversal: master_list, txt_files, number of errors. file_utils.py:106-184 -/
structure Acc where
  master : List Str
  txt : List Str
  errs : Nat

/-- add_unique_files, file_utils.py:55-74, on the expansion of the wildcard path. -/
def addUnique (e : Env) (a : Acc) : List Str → Acc
  | [] => a
  | f :: fs =>
    if !e.readable f then addUnique e { a with errs := a.errs + 1 } fs
    else if a.master.contains f then addUnique e a fs
    else addUnique e { a with master := a.master ++ [f] } fs

/-- The directory branch, file_utils.py:142-147 -/
def addDir (e : Env) (a : Acc) (d : Str) : List Str → Acc
  | [] => a
  | s :: ss => addDir e (addUnique e a (e.globDir d s)) d ss

mutual
/-- _create_file_list_int, file_utils.py:106-183.  `fuel` bounds the nesting of list files; `none`:
out of fuel. -/
def listInt (e : Env) (sufs : List Str) : Nat → Str → Acc → List Str → Option Acc
  | _, _, a, [] => some a
  | fuel, root, a, f0 :: fs =>
    let f := e.abs root f0
    if e.isdir f then listInt e sufs fuel root (addDir e a f sufs) fs
    else if sufs.contains (e.suff f0) then
      listInt e sufs fuel root (addUnique e a (e.glob f)) fs
    else if e.suff f0 = "txt".toList then
      if (e.glob f).isEmpty then
        listInt e sufs fuel root { a with errs := a.errs + 1 } fs
      else match listTxt e sufs fuel a (e.glob f) with
        | none => none
        | some a' => listInt e sufs fuel root a' fs
    else listInt e sufs fuel root a fs
termination_by fuel _ _ fs => (fuel, fs.length + 1, 0)
/-- The loop over the list files matched by one entry, file_utils.py:154-172 -/
def listTxt (e : Env) (sufs : List Str) : Nat → Acc → List Str → Option Acc
  | _, a, [] => some a
  | fuel, a, t :: ts =>
    if a.txt.contains t then listTxt e sufs fuel a ts
    else match fuel with
      | 0 => none
      | fuel' + 1 =>
        match listInt e sufs fuel' (e.dirname t)
            ⟨a.master, a.txt ++ [t], a.errs + (readPathnames e t).2⟩ (readPathnames e t).1 with
        | none => none
        | some a' => listTxt e sufs (fuel' + 1) a' ts
termination_by fuel _ ts => (fuel, 0, ts.length)
end

/-- create_file_list, file_utils.py:186-223, for a list argument: `none` = does not terminate
within the fuel; `some none` = the error is raised. -/
def createFileList (e : Env) (sufs : List Str) (fuel : Nat) (root : Str)
    (files : List Str) : Option (Option (List Str)) :=
  match listInt e sufs fuel root ⟨[], [], 0⟩ files with
  | none => none
  | some a => if a.errs = 0 then some (some a.master) else some none

end Ccpp.Files
