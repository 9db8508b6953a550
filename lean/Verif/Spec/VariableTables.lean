import Verif.Spec.SchemeTables
/-!
# Specification for C81: the variable tables of a Fortran file

A Fortran file is described as a structure (modules, derived types, other lines) and its lines.  Lines, words, and the joining of continued lines
(`Line`, `Words`, `codeOf`, `Logical`) are those of C79.
-/
namespace Ccpp.VT
open FDecl (Blank)
open ST (Line Words codeOf Logical)

abbrev Name := List Char

/-! ## Statements -/

/-- `module n` or `program n` (but not `module procedure`).  A comment directly after the name would be part of the name. -/
def ModuleLine (l : Line) (n : Name) : Prop :=
  ∃ w ws, Words l (w :: n :: ws) ∧ (lower w = "module".toList ∨ lower w = "program".toList) ∧ lower n ≠ "procedure".toList

/-- `end module` or `end program`, with a name or without -/
def EndModule (l : Line) (t : Option Name) : Prop :=
  ∃ w v ws, Words l (w :: v :: ws) ∧ lower w = "end".toList ∧ (lower v = "module".toList ∨ lower v = "program".toList) ∧ ws.head? = t

/-- No statement about modules -/
def NoModule (l : Line) : Prop := (∀ n, ¬ModuleLine l n) ∧ ∀ t, ¬EndModule l t

/-- Attributes of a type: nothing, or a list that begins with a comma; no `::` -/
def Attrs (x : List Char) : Prop := (Blank x ∨ ∃ b y, Blank b ∧ x = b ++ ',' :: y) ∧ ¬[':', ':'] <:+: x ++ [':']

/-- What follows the name of a type: nothing, or parameters in parentheses -/
def Params (c : List Char) : Prop := Blank c ∨ ∃ b r, Blank b ∧ c = b ++ '(' :: r

/-- A name: letters, digits and underscores -/
def IsName (n : Name) : Prop := n ≠ [] ∧ ∀ c ∈ n, isWordC c = true

/-- The first line of the definition of the type `n`: `type, attributes :: n(parameters)`, or `type n(parameters)` -/
inductive TypeDef (l : Line) (n : Name) : Prop where
  | colons {a t x b c} : codeOf l = a ++ (t ++ (x ++ ':' :: ':' :: (b ++ (n ++ c)))) → Blank a → lower t = "type".toList → Attrs x → Blank b →
      IsName n → Params c → TypeDef l n
  | plain {a t b c} : codeOf l = a ++ (t ++ (' ' :: b ++ (n ++ c))) → Blank a → lower t = "type".toList → Blank b → IsName n →
      Params c → ¬[':', ':'] <:+: codeOf l → TypeDef l n

/-- `end type`, with a name or without -/
def EndType (l : Line) (t : Option Name) : Prop :=
  ∃ w v ws, Words (codeOf l) (w :: v :: ws) ∧ lower w = "end".toList ∧ lower v = "type".toList ∧ ws.head? = t

/-- The first two words show the use of a type: `type (n) ...` or `type is ...` -/
def Usage (w v : List Char) : Prop := "(".toList <+: v ∨ (lower w = "type".toList ∧ (lower v = "is".toList ∨ "is(".toList <+: lower v))

/-- A line that seems to define a type: the first word is `type`, with a comma or colons if more follows in the word -/
def Starts (l : Line) : Prop :=
  ∃ w ws, Words (codeOf l) (w :: ws) ∧ (lower w = "type".toList ∨ "type,".toList <+: lower w ∨ "type::".toList <+: lower w) ∧
    ∀ v, ws.head? = some v → ¬Usage w v

/-- No statement about the definition of types -/
def Neutral (l : Line) : Prop := ¬Starts l ∧ ∀ t, ¬EndType l t

/-! ## Files -/

/-- A part of a module: a line, or the definition of a type -/
inductive Item where
  | line (l : Line)
  | type (n : Name) (opening : Line) (body : List Line) (closing : Line)

def Item.lines : Item → List Line
  | .line l => [l]
  | .type _ o b c => o :: (b ++ [c])

/-- A well-formed part of a module.  The first line of a type must also look like one (`Starts`): a line such as `type,extends (a) :: b` does not (see
the violation). -/
def Item.Ok : Item → Prop
  | .line l => Neutral l
  | .type n o b c => TypeDef o n ∧ Starts o ∧ (∀ l ∈ b, Neutral l) ∧ (EndType c none ∨ EndType c (some n))

def Item.names : Item → List Name
  | .line _ => []
  | .type n _ _ _ => [n]

/-- A module -/
structure HMod where
  name : Name
  opening : Line
  items : List Item
  closing : Line

/-- The lines inside the module -/
def HMod.inside (m : HMod) : List Line := m.items.flatMap Item.lines

def HMod.lines (m : HMod) : List Line := m.opening :: (m.inside ++ [m.closing])

/-- The types of a module -/
def HMod.types (m : HMod) : List Name := m.items.flatMap Item.names

/-- A module with its first and last line and no other statement about modules -/
def HMod.Shape (m : HMod) : Prop :=
  ModuleLine m.opening m.name ∧ (∀ l ∈ m.inside, NoModule l) ∧ (EndModule m.closing none ∨ EndModule m.closing (some m.name))

def HMod.Ok (m : HMod) : Prop := m.Shape ∧ (∀ i ∈ m.items, i.Ok) ∧ m.types.Nodup

/-- A file: modules, other lines before each, other lines at the end -/
structure HFile where
  mods : List (List Line × HMod)
  tail : List Line

def HFile.lines (f : HFile) : List Line := f.mods.flatMap (fun p => p.1 ++ p.2.lines) ++ f.tail

/-- A file of modules with different names -/
def HFile.Shape (f : HFile) : Prop :=
  (∀ p ∈ f.mods, (∀ l ∈ p.1, NoModule l) ∧ p.2.Shape) ∧ (∀ l ∈ f.tail, NoModule l) ∧ (f.mods.map fun p => p.2.name).Nodup

def HFile.Ok (f : HFile) : Prop := f.Shape ∧ ∀ p ∈ f.mods, p.2.Ok

/-! ## Errors -/

/-- The parts of a module are wrong: after parts `good` that are well-formed comes -/
inductive Wrong : List Item → Prop where
  /-- a second type of the same name -/
  | twice {good o ls n rest} : (∀ i ∈ good, Item.Ok i) → (good.flatMap Item.names).Nodup → TypeDef o n → Starts o → n ∈ good.flatMap Item.names →
      rest.flatMap Item.lines = o :: ls → Wrong (good ++ rest)
  /-- the end of a type that is not open -/
  | stray {good o ls t rest} : (∀ i ∈ good, Item.Ok i) → (good.flatMap Item.names).Nodup → EndType o t →
      rest.flatMap Item.lines = o :: ls → Wrong (good ++ rest)
  /-- a type inside a type -/
  | nested {good o b x ls n rest} : (∀ i ∈ good, Item.Ok i) → (good.flatMap Item.names).Nodup → TypeDef o n → Starts o → (∀ l ∈ b, Neutral l) → Starts x →
      rest.flatMap Item.lines = o :: (b ++ x :: ls) → Wrong (good ++ rest)
  /-- a type that ends with another name -/
  | mismatch {good o b x ls n t rest} : (∀ i ∈ good, Item.Ok i) → (good.flatMap Item.names).Nodup → TypeDef o n → Starts o → (∀ l ∈ b, Neutral l) →
      EndType x (some t) → t ≠ n → rest.flatMap Item.lines = o :: (b ++ x :: ls) → Wrong (good ++ rest)

/-! ## Tables -/

/-- A text without the occurrences of another, from the left -/
inductive Erased (k : List Char) : List Char → List Char → Prop where
  | done {s} : ¬k <:+: s → Erased k s s
  | hit {a b b'} : ¬k <:+: a ++ k.dropLast → Erased k b b' → Erased k (a ++ (k ++ b)) (a ++ b')

/-- The first line of the table `n`: `!! \section arg_table_n` -/
def Hook (l : Line) (n : Name) : Prop :=
  ∃ w0 w1 w2 ws, Words l (w0 :: w1 :: w2 :: ws) ∧ (w0 = "!!".toList ∨ w0 = "!>".toList) ∧ "\\section".toList <:+: w1 ∧
    "arg_table_".toList <:+: w2 ∧ Erased "arg_table_".toList w2 n

/-- The line that includes the table: `!! \htmlinclude file` -/
def Include (l : Line) : Prop := ∃ x, Words l ["!!".toList, "\\htmlinclude".toList, x]

/-- Texts separated by bars -/
def barJoin : List (List Char) → List Char
  | [] => []
  | [t] => t
  | t :: ts => t ++ '|' :: barJoin ts

/-- The columns of tables in the old format -/
def columnNames : List (List Char) :=
  ["local_name".toList, "standard_name".toList, "long_name".toList, "units".toList, "rank".toList, "type".toList, "kind".toList, "intent".toList]

/-- The columns of a table in the old format: `!! | standard_name | ... |` -/
def OldHeader (l : Line) : Prop :=
  ∃ a cs z, l = barJoin (a :: (cs ++ [z])) ∧ (∀ c ∈ a :: (cs ++ [z]), '|' ∉ c) ∧ (∀ c ∈ cs, strip c ∈ columnNames) ∧
    ∃ c ∈ cs, strip c = "standard_name".toList

/-- The tables that are read in the lines of a module, as the program sees them; the names `known` are allowed.

What a user expects are `nil`, `text` and `file`, and `blank` with a second line that has only `!!`.  The other cases are accepted too (see the
violations). -/
inductive Tables (known : Name → Prop) : List Line → List Name → Prop where
  | nil : Tables known [] []
  /-- a line that is in no table -/
  | text {l ls ts} : (∀ n, ¬Hook l n) → Tables known ls ts → Tables known (l :: ls) ts
  /-- a table in the metadata file -/
  | file {h i e ls n ts} : Hook h n → known n → Include i → Words e ["!!".toList] → Tables known ls ts → Tables known (h :: i :: e :: ls) (n :: ts)
  /-- an empty table -/
  | blank {h e ls n ts} : Hook h n → known n → (∀ x, ¬Hook e x) → '|' ∉ e → ¬"htmlinclude".toList <:+: lower e → Tables known ls ts →
      Tables known (h :: e :: ls) ts
  /-- a table in the old format, without variables -/
  | old {h i e ls n ts} : Hook h n → known n → (∀ x, ¬Hook i x) → OldHeader i → ¬"htmlinclude".toList <:+: lower i → Words e ["!!".toList] →
      Tables known ls ts → Tables known (h :: i :: e :: ls) ts
  /-- a table that is not finished at the end of the module: after its first line, after the line that includes it, after the old columns -/
  | cut1 {h n} : Hook h n → known n → Tables known [h] []
  | cut2 {h i n} : Hook h n → known n → Include i → Tables known [h, i] [n]
  | cut3 {h i n} : Hook h n → known n → (∀ x, ¬Hook i x) → OldHeader i → ¬"htmlinclude".toList <:+: lower i → Tables known [h, i] []

/-- The tables of the modules of a file, each with the name of the module: the tables of a module are called like the module or one of its types. -/
inductive FileTables : List (List Line × HMod) → List (Name × Name) → Prop where
  | nil : FileTables [] []
  | cons {p ps ts rest} : Tables (fun n => n = p.2.name ∨ n ∈ p.2.types) p.2.inside ts → FileTables ps rest →
      FileTables (p :: ps) (ts.map (fun n => (p.2.name, n)) ++ rest)

/-- The variables of tables, in order: `read` gives those of a table. -/
inductive VarsOf {V : Type} (read : Name → Name → Option (List (Name × V))) : List (Name × Name) → List (Name × V) → Prop where
  | nil : VarsOf read [] []
  | cons {t ts vs rest} : read t.1 t.2 = some vs → VarsOf read ts rest → VarsOf read (t :: ts) (vs ++ rest)

/-- No variable contradicts a mandatory one. -/
def RespectsMandatory {V : Type} (compat : V → V → Bool) (mandatory : List (Name × V)) (vs : List (Name × V)) : Prop :=
  ∀ v ∈ vs, ∀ w, mandatory.lookup v.1 = some w → compat w v.2 = true

end Ccpp.VT
