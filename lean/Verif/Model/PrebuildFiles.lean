/-!
# Model of the files that `scripts/ccpp_prebuild.py` writes

`generate_typedefs_makefile`, `generate_schemes_makefile`, `generate_caps_makefile`, `clean_files` and the order of `main`
(`scripts/ccpp_prebuild.py`), the writing parts of `API.write`, `API.write_includefile`, `Suite.write`, `Group.write`
(`scripts/mkstatic.py`), the texts of the snippets (`scripts/mkcap.py`).

A run is a program of operations on a disk, which can stop after every operation, and in the middle of writing a file.

Simplifications: the texts of the caps, the API, the include files and the tables are given; directories and permissions are not
modelled; a text is a list of bytes; the cache of `filecmp` is not modelled (in one run no two files are compared twice); the clock
moves by `step` for every file that is written.
-/
namespace Ccpp.PF

/-- A text (Python library). -/
abbrev Str := List Char

/-- A file (operating system), as compared in ccpp_prebuild.py:632-633 -/
structure File where
  text : Str
  mtime : Nat
deriving DecidableEq

/-- The disk and the clock (operating system), as used in ccpp_prebuild.py:632-646 -/
structure Disk where
  files : Str → Option File
  now : Nat

/-- A file is replaced (operating system), as in ccpp_prebuild.py:635, 646 -/
def Disk.put (d : Disk) (f : Str) (x : Option File) : Disk := { d with files := fun g => if g = f then x else d.files g }

/-- `filecmp.cmp` (Python library): files of the same size and time are not read; used in mkstatic.py:512, 570, 922, 1974 and
ccpp_prebuild.py:633, 670, 707 -/
def same (a b : File) : Bool := decide ((a.text.length = b.text.length ∧ a.mtime = b.mtime) ∨ a.text = b.text)

/-- A program: operations on files, ccpp_prebuild.py:618-650 -/
inductive Prog where
  | done
  /-- `open(f, 'w')`, `write`, `close` -/
  | write (f text : Str) (k : Prog)
  /-- `os.remove(f)` -/
  | remove (f : Str) (k : Prog)
  /-- `os.rename(a, b)` -/
  | rename (a b : Str) (k : Prog)
  /-- `os.path.isfile(f)` -/
  | ifFile (f : Str) (yes no : Prog)
  /-- `filecmp.cmp(f, g)` -/
  | ifSame (f g : Str) (yes no : Prog)

/-- A complete run; `none` is an exception (Python library). -/
def exec (step : Nat) : Prog → Disk → Option Disk
  | .done, d => some d
  | .write f text k, d => exec step k { d.put f (some ⟨text, d.now⟩) with now := d.now + step }
  | .remove f k, d => if (d.files f).isSome then exec step k (d.put f none) else none
  | .rename a b k, d => match d.files a with
    | some x => exec step k ((d.put a none).put b (some x))
    | none => none
  | .ifFile f yes no, d => if (d.files f).isSome then exec step yes d else exec step no d
  | .ifSame f g yes no, d => match d.files f, d.files g with
    | some x, some y => if same x y then exec step yes d else exec step no d
    | _, _ => none

/-- A run that stops anywhere, also in the middle of writing (operating system), ccpp_prebuild.py:725-848 -/
def stops (step : Nat) : Prog → Disk → Disk → Prop
  | .done, d, e => e = d
  | .write f text k, d, e => e = d ∨ (∃ n, e = { d.put f (some ⟨text.take n, d.now⟩) with now := d.now + step }) ∨
      stops step k { d.put f (some ⟨text, d.now⟩) with now := d.now + step } e
  | .remove f k, d, e => e = d ∨ ((d.files f).isSome ∧ stops step k (d.put f none) e)
  | .rename a b k, d, e => e = d ∨ ∃ x, d.files a = some x ∧ stops step k ((d.put a none).put b (some x)) e
  | .ifFile f yes no, d, e => e = d ∨ ((d.files f).isSome = true ∧ stops step yes d e) ∨ ((d.files f).isSome = false ∧ stops step no d e)
  | .ifSame f g yes no, d, e => e = d ∨ ∃ x y, d.files f = some x ∧ d.files g = some y ∧
      ((same x y = true ∧ stops step yes d e) ∨ (same x y = false ∧ stops step no d e))

/-- The name of the file for comparison, mkstatic.py:496, 549, 905, 1962 -/
def test (f : Str) : Str := f ++ ".test".toList
/-- The name of the temporary file, ccpp_prebuild.py:619-623 -/
def tmp (f : Str) : Str := f ++ ".tmp".toList

/-- A file that is replaced only when it changes or `force` is set; the flag for updates, mkstatic.py:493-526, 546-577, 901-935, 1959-1990 -/
def update (force : Bool) (f text : Str) (k : Bool → Prog) : Prog :=
  if force then .write f text (k true) else
  .ifFile f
    (.write (test f) text (.ifSame f (test f) (.remove (test f) (k false)) (.remove f (.rename (test f) f (k true)))))
    (.write f text (k true))

/-- Three names or three texts: makefile, cmakefile, sourcefile, ccpp_prebuild.py:572, 652, 688 -/
structure Triple where
  make : Str
  cmake : Str
  source : Str

/-- `if os.path.isfile(f): os.remove(f)`, ccpp_prebuild.py:639-644 -/
def removeIf (f : Str) (k : Prog) : Prog := .ifFile f (.remove f k) k

/-- The snippets are replaced, ccpp_prebuild.py:638-648 -/
def replaceAll (n : Triple) (k : Prog) : Prog :=
  removeIf n.make (removeIf n.cmake (removeIf n.source (.rename (tmp n.make) n.make (.rename (tmp n.cmake) n.cmake (.rename (tmp n.source) n.source k)))))

/-- generate_typedefs_makefile, generate_schemes_makefile, generate_caps_makefile, ccpp_prebuild.py:618-648, 655-680, 691-716 -/
def snippet (n c : Triple) (k : Prog) : Prog :=
  .write (tmp n.make) c.make (.write (tmp n.cmake) c.cmake (.write (tmp n.source) c.source
    (.ifFile n.make
      (.ifSame n.make (tmp n.make) (.remove (tmp n.make) (.remove (tmp n.cmake) (.remove (tmp n.source) k))) (replaceAll n k))
      (replaceAll n k))))

/-- A suite: its cap and the caps of its groups, each a name and a text, mkstatic.py:834-845 -/
structure SuiteOut where
  cap : Str × Str
  groups : List (Str × Str)

/-- The group caps; whether one was updated, mkstatic.py:840-842, 901-902 -/
def groupCaps : List (Str × Str) → Bool → (Bool → Prog) → Prog
  | [], b, k => k b
  | g :: gs, b, k => update false g.1 g.2 fun u => groupCaps gs (b || u) k

/-- The caps of the suites, ccpp_prebuild.py:539-553; whether a suite cap was updated, mkstatic.py:493-494 -/
def suiteCaps : List SuiteOut → Bool → (Bool → Prog) → Prog
  | [], b, k => k b
  | s :: ss, b, k => groupCaps s.groups false fun u => update u s.cap.1 s.cap.2 fun v => suiteCaps ss (b || v) k

/-- What a run writes, ccpp_prebuild.py:725-848 -/
structure Out where
  html : Str × Str
  latex : Str × Str
  typedefs : Triple × Triple
  schemes : Triple × Triple
  suites : List SuiteOut
  api : Str × Str
  source : Str × Str
  cmake : Str × Str
  caps : Triple × Triple

/-- The order of main, ccpp_prebuild.py:766-848 -/
def run (o : Out) : Prog :=
  .write o.html.1 o.html.2 (.write o.latex.1 o.latex.2
    (snippet o.typedefs.1 o.typedefs.2 (snippet o.schemes.1 o.schemes.2
      (suiteCaps o.suites false fun u => update u o.api.1 o.api.2 fun v =>
        update v o.source.1 o.source.2 fun _ => update v o.cmake.1 o.cmake.2 fun _ =>
          snippet o.caps.1 o.caps.2 .done))))

/-- The arguments of `rm`, ccpp_prebuild.py:143-160; `dir` is the directory of the caps -/
def cleanArgs (dir : Str) (o : Out) : List Str :=
  [o.typedefs.1.make, o.typedefs.1.cmake, o.typedefs.1.source, o.schemes.1.make, o.schemes.1.cmake, o.schemes.1.source,
   o.caps.1.make, o.caps.1.cmake, o.caps.1.source, o.html.1, o.latex.1, dir ++ "/ccpp_*_cap.F90".toList, o.api.1, o.source.1]

/-- `' '.join(files_to_remove)`, ccpp_prebuild.py:162 -/
def join : List Str → Str
  | [] => []
  | [a] => a
  | a :: b :: l => a ++ ' ' :: join (b :: l)

/-- The words of a command (shell), ccpp_prebuild.py:162-163; only blanks are special here.  The first argument is the word that is being read. -/
def wordsGo : Str → Str → List Str
  | w, [] => if w = [] then [] else [w]
  | w, c :: s => if c = ' ' then (if w = [] then wordsGo [] s else w :: wordsGo [] s) else wordsGo (w ++ [c]) s

/-- The words of a command (shell), ccpp_prebuild.py:162-163 -/
def words (s : Str) : List Str := wordsGo [] s

/-- `*` in a pattern (shell), ccpp_prebuild.py:156: any text without `/`; then the rest. -/
def star (rest : Str → Bool) : Str → Bool
  | [] => rest []
  | c :: s => rest (c :: s) || (c != '/' && star rest s)

/-- A file matches a pattern (shell), ccpp_prebuild.py:163; only `*` is special here. -/
def glob : Str → Str → Bool
  | [], s => s.isEmpty
  | c :: p, s => if c = '*' then star (glob p) s else
    match s with
    | [] => false
    | x :: s => c == x && glob p s

/-- clean_files, ccpp_prebuild.py:137-164: `rm -vf` with the words of the command; quotes and other special characters of the shell are
not modelled -/
def clean (dir : Str) (o : Out) (d : Disk) : Disk :=
  { d with files := fun f => if (words (join (cleanArgs dir o))).any (fun p => glob p f) then none else d.files f }

/-! ## The texts of the snippets -/

/-- The endings of the four variables of SchemesMakefile, in the order of the tests, mkcap.py:588-595 -/
def endings : List Str := [".F".toList, ".F90".toList, ".f".toList, ".f90".toList]

/-- `s.endswith(e)` (Python library). -/
def endsWith (e s : Str) : Bool := e.reverse.isPrefixOf s.reverse

/-- SchemesMakefile.write, mkcap.py:555-601: the entries of the variables; the text is the header with these -/
def schemesMk (ss : List Str) : Str :=
  (endings.map fun e => "SCHEMES_".toList ++ e.drop 1 ++ " =".toList ++
    (((ss.filter fun s => endsWith e s).map fun s => " \\\n\t   ".toList ++ s).flatten)).flatten

/-- SchemesCMakefile.write, mkcap.py:617-646 -/
def schemesCm (ss : List Str) : Str := "set(SCHEMES\n".toList ++ (ss.map fun s => "      ".toList ++ s ++ "\n".toList).flatten ++ ")\n".toList

/-- SchemesSourcefile.write, mkcap.py:662-691; `rstrip(';')` -/
def schemesSr (ss : List Str) : Str :=
  ((("export CCPP_SCHEMES=\"".toList ++ (ss.map fun s => s ++ [';']).flatten).reverse.dropWhile (· == ';')).reverse) ++ "\"\n".toList

/-- The texts for a list of schemes and dependencies, ccpp_prebuild.py:661-665 -/
def schemesText (ss : List Str) : Triple := ⟨schemesMk ss, schemesCm ss, schemesSr ss⟩

end Ccpp.PF
