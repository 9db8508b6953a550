import Verif.Spec.FortranDecl
/-!
# Specification for C79: the schemes of a Fortran file

A Fortran file is described as a structure (modules, subroutines, other lines) and its lines (`SFile.lines`).  The entry points of a file and
the tables written above them are read from the structure.
-/
namespace Ccpp.ST
open FDecl (Blank)

abbrev Line := List Char

/-! ## Lines -/

/-- The words of a text: what stands between blanks -/
inductive Words : List Char → List (List Char) → Prop where
  | nil {s} : Blank s → Words s []
  | cons {a w r ws} : Blank a → w ≠ [] → (∀ c ∈ w, isWs c = false) → (∀ c, r.head? = some c → isWs c = true) → Words r ws →
      Words (a ++ w ++ r) (w :: ws)

/-- The part of a line before a comment -/
def codeOf (l : Line) : List Char := l.takeWhile fun c => c != '!'

/-- A line that does not count: blank, or only a continuation mark -/
def Empty (l : Line) : Prop := Blank l ∨ ∃ a b, Blank a ∧ Blank b ∧ l = a ++ '&' :: b

/-- A line that is continued on the next -/
def Continued (l : Line) : Prop := ¬Empty l ∧ ∃ a b, Blank b ∧ l = a ++ '&' :: b

/-- The text of a line: continuation marks are blanks. -/
def textOf (l : Line) : List Char := l.map fun c => if c = '&' then ' ' else c

/-- Lines that are continued, with their text -/
inductive Conts : List Line → List Char → Prop where
  | nil : Conts [] []
  | skip {l ls t} : Empty l → Conts ls t → Conts (l :: ls) t
  | more {l ls t} : Continued l → Conts ls t → Conts (l :: ls) (textOf l ++ t)

/-- The lines of a file with continuations joined -/
inductive Logical : List Line → List Line → Prop where
  | done {ls t} : Conts ls t → Logical ls []
  | line {cs t l rest out} : Conts cs t → ¬Empty l → ¬Continued l → Logical rest out → Logical (cs ++ l :: rest) ((t ++ textOf l) :: out)

/-! ## Statements -/

/-- `module n` (but not `module procedure`) -/
def ModuleLine (l : Line) (n : List Char) : Prop :=
  ∃ w ws, Words (codeOf l) (w :: n :: ws) ∧ lower w = "module".toList ∧ lower n ≠ "procedure".toList

/-- `end module`, with a name or without -/
def EndModule (l : Line) (t : Option (List Char)) : Prop :=
  ∃ w v ws, Words (codeOf l) (w :: v :: ws) ∧ lower w = "end".toList ∧ lower v = "module".toList ∧ ws.head? = t

/-- `subroutine n`, possibly with arguments -/
def Opens (l : Line) (n : List Char) : Prop :=
  ∃ w v ws, Words (codeOf l) (w :: v :: ws) ∧ lower w = "subroutine".toList ∧ '(' ∉ n ∧ (v = n ∨ ∃ r, v = n ++ '(' :: r)

/-- `end subroutine`, with a name or without -/
def Closes (l : Line) (t : Option (List Char)) : Prop :=
  ∃ w v ws, Words (codeOf l) (w :: v :: ws) ∧ lower w = "end".toList ∧ lower v = "subroutine".toList ∧ ws.head? = t

/-- `end` alone -/
def BareEnd (l : Line) : Prop := ∃ w, Words (codeOf l) [w] ∧ lower w = "end".toList

/-- No statement about modules -/
def NoModule (l : Line) : Prop := (∀ n, ¬ModuleLine l n) ∧ ∀ t, ¬EndModule l t

/-- The stages of ccpp_prebuild -/
def stageNames : List (List Char) := ["timestep_init".toList, "timestep_finalize".toList, "init".toList, "run".toList, "finalize".toList]

/-- The name of an entry point of a scheme -/
def EntryName (n scheme : List Char) : Prop := ∃ s ∈ stageNames, n = scheme ++ '_' :: s

/-! ## Files -/

/-- An entry point of the scheme -/
structure Entry where
  name : List Char
  opening : Line
  body : List Line
  closing : Line

/-- A part of a module -/
inductive Item where
  | line (l : Line)
  /-- another subroutine -/
  | other (opening : Line) (rest : List Line)
  | entry (e : Entry)

/-- The lines of a part of a module -/
def Item.lines : Item → List Line
  | .line l => [l]
  | .other o r => o :: r
  | .entry e => e.opening :: (e.body ++ [e.closing])

/-- A line without entry point -/
def Neutral (l : Line) : Prop := NoModule l ∧ ∀ n s, Opens l n → ¬EntryName n s

/-- A well-formed part of the module `m`.  The name of an entry point is that of the module and a stage; the module is not called
`..._timestep` if the stage is `init` or `finalize` (see the violation).  The end of an entry point is `end subroutine`, with its name
or without; inside it other subroutines end with their names. -/
def Item.Ok (m : List Char) : Item → Prop
  | .line l => Neutral l ∧ ¬Closes l none
  | .other o r => (∃ n, Opens o n) ∧ Neutral o ∧ ∀ l ∈ r, Neutral l
  | .entry e =>
    Opens e.opening e.name ∧
    (∃ s ∈ stageNames, e.name = m ++ '_' :: s ∧ ((s = "init".toList ∨ s = "finalize".toList) → ¬"_timestep".toList <:+ m)) ∧
    (∀ l ∈ e.body, NoModule l ∧ ¬BareEnd l ∧ ¬Closes l none ∧ ¬Closes l (some e.name)) ∧
    (Closes e.closing none ∨ Closes e.closing (some e.name))

/-- The name of the entry point -/
def Item.names : Item → List (List Char)
  | .entry e => [e.name]
  | _ => []

/-- A module -/
structure SMod where
  name : List Char
  opening : Line
  items : List Item
  closing : Line

def SMod.lines (m : SMod) : List Line := m.opening :: (m.items.flatMap Item.lines ++ [m.closing])

def SMod.Ok (m : SMod) : Prop :=
  ModuleLine m.opening m.name ∧ (∀ i ∈ m.items, i.Ok m.name) ∧ (m.items.flatMap Item.names).Nodup ∧
  (EndModule m.closing none ∨ EndModule m.closing (some m.name))

/-- A file: modules, other lines before each, other lines at the end -/
structure SFile where
  mods : List (List Line × SMod)
  tail : List Line

def SFile.lines (f : SFile) : List Line := f.mods.flatMap (fun p => p.1 ++ p.2.lines) ++ f.tail

def SFile.Ok (f : SFile) : Prop :=
  (∀ p ∈ f.mods, (∀ l ∈ p.1, NoModule l) ∧ p.2.Ok) ∧ (∀ l ∈ f.tail, NoModule l) ∧ (f.mods.map fun p => p.2.name).Nodup

/-! ## Errors -/

/-- A module with its first and last line and no other statement about modules -/
def SMod.Shape (m : SMod) : Prop :=
  ModuleLine m.opening m.name ∧ (∀ l ∈ m.items.flatMap Item.lines, NoModule l) ∧ (EndModule m.closing none ∨ EndModule m.closing (some m.name))

/-- A file of such modules -/
def SFile.Shape (f : SFile) : Prop :=
  (∀ p ∈ f.mods, (∀ l ∈ p.1, NoModule l) ∧ p.2.Shape) ∧ (∀ l ∈ f.tail, NoModule l) ∧ (f.mods.map fun p => p.2.name).Nodup

/-- A line that opens the entry point `n` of the module `m` -/
def OpensEntry (m : List Char) (l : Line) (n : List Char) : Prop :=
  Opens l n ∧ ∃ s ∈ stageNames, n = m ++ '_' :: s ∧ ((s = "init".toList ∨ s = "finalize".toList) → ¬"_timestep".toList <:+ m)

/-- A line inside the entry point `n` that does not end it -/
def Inside (n : List Char) (l : Line) : Prop := NoModule l ∧ ¬BareEnd l ∧ ¬Closes l none ∧ ¬Closes l (some n)

/-- The parts of a module are wrong: after parts `good` that are well-formed comes -/
inductive Wrong (m : List Char) : List Item → Prop where
  /-- a second entry point of the same name -/
  | twice {good o ls n rest} : (∀ i ∈ good, Item.Ok m i) → (good.flatMap Item.names).Nodup → OpensEntry m o n → n ∈ good.flatMap Item.names →
      rest.flatMap Item.lines = o :: ls → Wrong m (good ++ rest)
  /-- an entry point of another scheme -/
  | foreign {good o ls n s rest} : (∀ i ∈ good, Item.Ok m i) → (good.flatMap Item.names).Nodup → Opens o n → EntryName n s → ¬EntryName n m →
      rest.flatMap Item.lines = o :: ls → Wrong m (good ++ rest)
  /-- an entry point with `end` alone -/
  | bare {good o b x ls n rest} : (∀ i ∈ good, Item.Ok m i) → (good.flatMap Item.names).Nodup → OpensEntry m o n → n ∉ good.flatMap Item.names →
      (∀ l ∈ b, Inside n l) → BareEnd x → rest.flatMap Item.lines = o :: (b ++ x :: ls) → Wrong m (good ++ rest)
  /-- an entry point without end -/
  | endless {good o b n rest} : (∀ i ∈ good, Item.Ok m i) → (good.flatMap Item.names).Nodup → OpensEntry m o n → n ∉ good.flatMap Item.names →
      (∀ l ∈ b, Inside n l) → rest.flatMap Item.lines = o :: b → Wrong m (good ++ rest)

/-! ## Tables -/

/-- An entry point in its place: the module, the name, and the lines of the file up to its first line -/
structure Place where
  module : List Char
  name : List Char
  above : List Line

/-- The entry points of the parts of a module; `pre` are the lines before. -/
def itemPlaces (m : List Char) : List Line → List Item → List Place
  | _, [] => []
  | pre, .entry e :: is => ⟨m, e.name, pre ++ [e.opening]⟩ :: itemPlaces m (pre ++ (Item.entry e).lines) is
  | pre, i :: is => itemPlaces m (pre ++ i.lines) is

/-- The entry points of a file, in order -/
def places : List Line → List (List Line × SMod) → List Place
  | _, [] => []
  | pre, p :: ps => itemPlaces p.2.name (pre ++ p.1 ++ [p.2.opening]) p.2.items ++ places (pre ++ p.1 ++ p.2.lines) ps

def SFile.places (f : SFile) : List Place := ST.places [] f.mods

/-- The mark of the table of a subroutine -/
def mark (n : List Char) : List Char := "arg_table_".toList ++ n

/-- The first line of a table: `!! \section ... arg_table_n` -/
def Hook (n : List Char) (l : Line) : Prop :=
  ∃ w0 w1 w2 ws, Words l (w0 :: w1 :: w2 :: ws) ∧ (w0 = "!!".toList ∨ w0 = "!>".toList) ∧ "\\section".toList <:+: w1 ∧ mark n <:+: w2

/-- A line with the mark -/
def Mentions (n : List Char) (l : Line) : Prop := ∃ ws w, Words l ws ∧ w ∈ ws ∧ mark n <:+: w

/-- What is written above an entry point: no table, an empty table, or a table in the metadata file -/
inductive Above (n : List Char) : List Line → Option Bool → Prop where
  | nothing {ls} : (∀ l ∈ ls, ¬Mentions n l) → Above n ls none
  | empty {pre h e post} : Hook n h → Words e ["!!".toList] → (∀ l ∈ e :: post, ¬Mentions n l) → Above n (pre ++ h :: e :: post) (some false)
  | file {pre h i x e post} : Hook n h → Words i ["!!".toList, "\\htmlinclude".toList, x] → Words e ["!!".toList] →
      (∀ l ∈ i :: e :: post, ¬Mentions n l) → Above n (pre ++ h :: i :: e :: post) (some true)

/-- The variables of an entry point; `read` gives the table of the metadata file. -/
def Vars {V : Type} (read : List Char → List Char → Option (List (List Char × V))) (mandatory : List (List Char)) (p : Place)
    (vs : List (List Char × V)) : Prop :=
  (∃ b, b ≠ some true ∧ Above p.name p.above b ∧ vs = []) ∨
  (Above p.name p.above (some true) ∧ read p.module p.name = some vs ∧ (vs ≠ [] → ∀ n ∈ mandatory, n ∈ vs.map (·.1)))

/-- Uses of the same variable are compatible. -/
def Compatible {V : Type} (compat : V → V → Bool) (vs : List (List Char × V)) : Prop :=
  vs.Pairwise fun a b => a.1 = b.1 → compat a.2 b.2 = true

/-- The uses of a variable, in order -/
def usesOf {V : Type} (vs : List (List Char × V)) (n : List Char) : List V := vs.filterMap fun v => if v.1 = n then some v.2 else none

end Ccpp.ST
