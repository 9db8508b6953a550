import Verif.Model.PrebuildFiles
/-!
# Specification for C73: the files that prebuild writes

The input: what a run has to write (`Out`: names and texts), and the disk before the run.  Shared with the model: the records, and
the names of the temporary files.
-/
namespace Ccpp.PF

/-- The file has this text. -/
def Holds (d : Disk) (f text : List Char) : Prop := ∃ t, d.files f = some ⟨text, t⟩

/-- No file is from the future. -/
def NotFuture (d : Disk) : Prop := ∀ f x, d.files f = some x → x.mtime < d.now

/-- The files that are written one by one: tables, caps, API and include files. -/
def plain (o : Out) : List (List Char × List Char) :=
  [o.html, o.latex] ++ (o.suites.map fun s => s.groups ++ [s.cap]).flatten ++ [o.api, o.source, o.cmake]

/-- The files that are written in threes: names and texts. -/
def triples (o : Out) : List (Triple × Triple) := [o.typedefs, o.schemes, o.caps]

/-- The three names. -/
def three (n : Triple) : List (List Char) := [n.make, n.cmake, n.source]

/-- The names of the caps. -/
def capNames (o : Out) : List (List Char) := ((o.suites.map fun s => s.groups ++ [s.cap]).flatten).map (·.1)

/-- The names of all files, in the order of writing. -/
def names (o : Out) : List (List Char) :=
  [o.html.1, o.latex.1] ++ (three o.typedefs.1 ++ (three o.schemes.1 ++ (capNames o ++ ([o.api.1, o.source.1, o.cmake.1] ++ three o.caps.1))))

/-- The names are different, and none is the name of a temporary file of another. -/
def Apart (o : Out) : Prop := (names o).Nodup ∧ ∀ f ∈ names o, ∀ g ∈ names o, f ≠ test g ∧ f ≠ tmp g

/-- If the makefile is already what it should be, then the two other files are, too. -/
def Together (d : Disk) (t : Triple × Triple) : Prop :=
  Holds d t.1.make t.2.make → Holds d t.1.cmake t.2.cmake ∧ Holds d t.1.source t.2.source

/-- All three files are there. -/
def HoldsAll (d : Disk) (t : Triple × Triple) : Prop :=
  Holds d t.1.make t.2.make ∧ Holds d t.1.cmake t.2.cmake ∧ Holds d t.1.source t.2.source

/-- A disk without any file that a run for `o` would write. -/
def Blank (o : Out) (d : Disk) : Prop := NotFuture d ∧ ∀ f ∈ names o, d.files f = none

/-- The disk after any sequence of runs for any outputs, each of which may stop anywhere. -/
inductive Reached (step : Nat) : Disk → Prop
  | start (d : Disk) : NotFuture d → Reached step d
  | complete {d e : Disk} {o : Out} : Reached step d → exec step (run o) d = some e → Reached step e
  | stopped {d e : Disk} {o : Out} : Reached step d → stops step (run o) d e → Reached step e

/-- The disk after complete runs for outputs with property `P`. -/
inductive Completed (step : Nat) (P : Out → Prop) : Disk → Prop
  | start {d : Disk} : NotFuture d → (∀ o, P o → ∀ f ∈ names o, d.files f = none) → Completed step P d
  | complete {d e : Disk} {o : Out} : Completed step P d → P o → exec step (run o) d = some e → Completed step P e

/-- The same three names, and the text of the makefile determines the two other texts. -/
def SameMake (t t' : Triple × Triple) : Prop := t.1 = t'.1 ∧ (t.2.make = t'.2.make → t.2 = t'.2)

/-- The outputs of several runs: the same names of the snippets, and the text of a makefile determines the two other texts. -/
def Determined (o o' : Out) : Prop := SameMake o.typedefs o'.typedefs ∧ SameMake o.schemes o'.schemes ∧ SameMake o.caps o'.caps

/-- The name of a cap in directory `dir`. -/
def CapIn (dir f : List Char) : Prop := ∃ m : List Char, '/' ∉ m ∧ f = dir ++ "/ccpp_".toList ++ m ++ "_cap.F90".toList

/-- A name without characters that are special for the shell in the model, and not empty. -/
def Plain (f : List Char) : Prop := f ≠ [] ∧ ' ' ∉ f ∧ '*' ∉ f

/-- All names of the configuration are plain. -/
def PlainConfig (dir : List Char) (o : Out) : Prop :=
  Plain dir ∧ (∀ t ∈ triples o, ∀ f ∈ three t.1, Plain f) ∧ ∀ f ∈ [o.html.1, o.latex.1, o.api.1, o.source.1], Plain f

/-- `n` complete runs for the same output. -/
inductive Runs (step : Nat) (o : Out) : Nat → Disk → Disk → Prop
  | zero (d : Disk) : Runs step o 0 d d
  | succ {n : Nat} {d e f : Disk} : exec step (run o) d = some e → Runs step o n e f → Runs step o (n + 1) d f

end Ccpp.PF
