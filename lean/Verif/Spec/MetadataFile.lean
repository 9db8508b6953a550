import Verif.Spec.FortranScheme
import Verif.Spec.StateMachine
import Verif.Spec.Checkers
import Verif.Model.MetadataFile
/-!
# Specification for C62

First the text of a metadata file (`FileText`): which lines are a written form of a list of documents
(tables with their sections, variables and `key = value` entries).  Then the meaning of the documents
(`FileMeans`): which tables they describe.  Only the types of the results (`Table`, `Section`, `Props`, `Val`)
and the interface to the rest of the framework (`Env`, `Types`) are shared with the model.
-/
namespace Ccpp.MF

open Ccpp.FDecl (Blank commaJoin)
open Ccpp.FSub (Begins)

/-- Two lists of the same length, related element by element. -/
inductive All2 {α β : Type} (R : α → β → Prop) : List α → List β → Prop where
  | nil : All2 R [] []
  | cons {a b as bs} : R a b → All2 R as bs → All2 R (a :: as) (b :: bs)

/-! ## Text -/

/-- An empty line or a comment. -/
def BlankLine (s : List Char) : Prop :=
  s = [] ∨ ∃ b c r, s = b ++ c :: r ∧ Blank b ∧ (c = '#' ∨ c = ';')

/-- No blanks at the beginning or the end. -/
def Trimmed (s : List Char) : Prop :=
  (∀ c, s.head? = some c → isWs c = false) ∧ (∀ c, s.getLast? = some c → isWs c = false)

/-- An item `key = value`; keys are read in lower case. -/
inductive ItemText : List Char → List Char × List Char → Prop where
  | mk {a k b c v d} : Blank a → Blank b → Blank c → Blank d → Trimmed k → Trimmed v →
      '=' ∉ k → '|' ∉ k → '|' ∉ v → ItemText (a ++ k ++ b ++ '=' :: (c ++ v ++ d)) (lower k, v)

/-- Texts separated by vertical bars. -/
def barJoin : List (List Char) → List Char
  | [] => []
  | [t] => t
  | t :: ts => t ++ '|' :: barJoin ts

/-- A line with entries, or a blank line. -/
inductive EntryLine : List Char → List (List Char × List Char) → Prop where
  | blank {s} : BlankLine s → EntryLine s []
  | items {its es} : its ≠ [] → ¬ BlankLine (barJoin its) → All2 ItemText its es → EntryLine (barJoin its) es

/-- Lines with entries. -/
inductive EntryLines : List (List Char) → List (List Char × List Char) → Prop where
  | nil : EntryLines [] []
  | cons {l ls es fs} : EntryLine l es → EntryLines ls fs → EntryLines (l :: ls) (es ++ fs)

/-- The name of a variable: a name, or a reference to a part of an array. -/
inductive VarName where
  | plain (n : List Char)
  | ref (n : List Char) (dims : List (List Char))

/-- An index of a reference: a colon, a name or a number. -/
def Index (d : List Char) : Prop :=
  d = [':'] ∨ Chk.IsName d ∨ (d ≠ [] ∧ ∀ c ∈ d, c.isDigit = true)

/-- The line `[ name ]` or `[ name(i, j, :) ]` (at most seven indices). -/
inductive VarLine : List Char → VarName → Prop where
  | plain {a n b} : Blank a → Chk.IsName n → Blank b → VarLine ('[' :: (a ++ n ++ b ++ [']'])) (.plain n)
  | ref {a n b c} {raw dims : List (List Char)} : Blank a → Chk.IsName n → Blank b → Blank c → dims ≠ [] → dims.length ≤ 7 →
      All2 (fun r d => Index d ∧ ∃ p q, Blank p ∧ Blank q ∧ r = p ++ d ++ q) raw dims →
      VarLine ('[' :: (a ++ n ++ b ++ '(' :: (commaJoin raw ++ ')' :: (c ++ [']'])))) (.ref n dims)

/-- What is written about a variable. -/
structure VarDoc where
  name : VarName
  entries : List (List Char × List Char)

/-- What is written in a section. -/
structure SectDoc where
  entries : List (List Char × List Char)
  vars : List VarDoc

/-- What is written in a table. -/
structure TableDoc where
  entries : List (List Char × List Char)
  sects : List SectDoc

/-- The lines of a variable. -/
def VarText (ls : List (List Char)) (d : VarDoc) : Prop :=
  ∃ l body, ls = l :: body ∧ VarLine l d.name ∧ EntryLines body d.entries

/-- The lines of a section: `[ccpp-arg-table]` (whatever follows on this line), entries, variables. -/
def SectText (ls : List (List Char)) (d : SectDoc) : Prop :=
  ∃ l hdr vls, ls = l :: (hdr ++ vls.flatten) ∧ Begins [['['], "ccpp-arg-table".toList, [']']] l ∧
    EntryLines hdr d.entries ∧ All2 VarText vls d.vars

/-- The lines of a table: `[ccpp-table-properties]` (whatever follows on this line), entries, sections. -/
def TableText (ls : List (List Char)) (d : TableDoc) : Prop :=
  ∃ l hdr sls, ls = l :: (hdr ++ sls.flatten) ∧ Begins [['['], "ccpp-table-properties".toList, [']']] l ∧
    EntryLines hdr d.entries ∧ All2 SectText sls d.sects

/-- The lines of a file: blank lines and tables. -/
def FileText (ls : List (List Char)) (docs : List TableDoc) : Prop :=
  ∃ pre tls, ls = pre ++ tls.flatten ∧ (∀ l ∈ pre, BlankLine l) ∧ All2 TableText tls docs

/-! ## Meaning -/

/-- The values of a key, in the order of the file. -/
def valuesOf {α : Type} (es : List (List Char × α)) (k : List Char) : List α :=
  es.filterMap fun e => if e.1 = k then some e.2 else none

/-- The last value of a key. -/
def lastValue {α : Type} (es : List (List Char × α)) (k : List Char) : Option α := (valuesOf es k).getLast?

/-- A dimension without colon is a range from one. -/
def asRange (d : List Char) : List Char := if ':' ∈ d then d else "ccpp_constant_one:".toList ++ d

/-- What an entry of a variable gives: the name of a derived type, if that is known, or a property with a
valid value; the dimensions are ranges. -/
inductive Gives (env : Env) (known : List Char → Prop) : List Char × List Char → List Char × Val → Prop where
  | derived {v} : env.intrinsic v = false → known v → Gives env known ("type".toList, v) ("ddt_type".toList, .text v)
  | dims {v l} : env.value "dimensions".toList v = some (.list l) →
      Gives env known ("dimensions".toList, v) ("dimensions".toList, .list (l.map asRange))
  | plain {k v w} : (k = "type".toList → env.intrinsic v = true) → k ≠ "dimensions".toList → env.value k v = some w →
      Gives env known (k, v) (k, w)

/-- The local name: the reference with `, ` between the indices, or the name unless there is a
`local_name` entry. -/
def localName (d : VarDoc) (given : Option Val) : Val :=
  match d.name with
  | .plain n => given.getD (.text n)
  | .ref n dims => .text (n ++ '(' :: (dims.head?.getD [] ++ (dims.tail.map fun x => [',', ' '] ++ x).flatten ++ [')']))

/-- `VarMeans`: the properties of a variable. -/
structure VarMeans (env : Env) (stype : List Char) (known : List Char → Prop) (registered : List Char → Bool)
    (d : VarDoc) (p : Props) : Prop where
  given : ∃ kvs, All2 (Gives env known) d.entries kvs ∧
    p = fun k => if k = "local_name".toList then some (localName d (lastValue kvs k)) else lastValue kvs k
  rank : ∀ n dims, d.name = .ref n dims → ∃ l, p "dimensions".toList = some (.list l) ∧
    (dims.filter (· == [':'])).length = l.length
  accepted : env.accept stype registered p = true

/-- The types of tables. -/
def tableKinds : List (List Char) := ["ddt".toList, "host".toList, "module".toList, "scheme".toList]

/-- The name of a table of which a scheme section is a part: the title without its phase (see C04), or the
title itself if it ends in no phase. -/
def PhaseOf (title tname : List Char) : Prop :=
  (∃ suf ph, SM.Spec.Reading title tname suf ph ∧ ∀ p f q, SM.Spec.Reading title p f q → f.length ≤ suf.length) ∨
  (title = tname ∧ ∀ p f q, ¬ SM.Spec.Reading title p f q)

/-- `SectMeans`: a section of the table `tname`, which is of type `ttype`. -/
structure SectMeans (env : Env) (tname ttype : Option (List Char)) (known : List Char → Prop)
    (registered : List Char → Bool) (d : SectDoc) (s : Section) : Prop where
  keys : ∀ e ∈ d.entries, e.1 ∈ ["name".toList, "type".toList, "module".toList, "process".toList]
  types : ∀ v ∈ valuesOf d.entries "type".toList, v ∈ tableKinds ++ ["local".toList]
  modules : "None".toList ∉ valuesOf d.entries "module".toList
  title : lastValue d.entries "name".toList = some s.title
  type : lastValue d.entries "type".toList = some s.type
  module : s.module = (lastValue d.entries "module".toList).getD env.defaultModule
  process : s.process = (lastValue d.entries "process".toList).getD "UNKNOWN".toList
  schemeProcess : s.type ≠ "scheme".toList → s.process = "UNKNOWN".toList
  sameType : ttype = some s.type
  sameName : ∃ n, tname = some n ∧ if s.type = "scheme".toList then PhaseOf s.title n else s.title = n
  vars : All2 (VarMeans env s.type known registered) d.vars s.vars
  addOk : ∀ a v b, s.vars = a ++ v :: b → env.addOk a v = true

/-- The dependencies given by the values of the `dependencies` entries: all items that are not blank; or none,
if the last entries say `none` and those before have no items. -/
inductive DepsMean : List (List Char) → List (List Char) → Prop where
  | items {vs} : (∀ v ∈ vs, lower v ≠ "none".toList) →
      DepsMean vs (vs.flatMap fun v => ((Chk.splitOn ',' v).map strip).filter (· ≠ []))
  | nothing {as bs} : (∀ v ∈ as, lower v ≠ "none".toList ∧ ∀ x ∈ Chk.splitOn ',' v, strip x = []) →
      bs ≠ [] → (∀ v ∈ bs, lower v = "none".toList) → DepsMean (as ++ bs) []

/-- The directory of the dependencies of a table. -/
def depDir (env : Env) : Option (List Char) → List Char
  | none => env.dirname
  | some [] => env.dirname
  | some p => env.join env.dirname p

/-- `TableMeans`: a table, where the types `known` and `registered` are those before it.  The type described by a
`ddt` table is known inside it. -/
structure TableMeans (env : Env) (known : List Char → Prop) (registered : List Char → Bool) (d : TableDoc) (t : Table) :
    Prop where
  keys : ∀ e ∈ d.entries, e.1 ∈ ["name".toList, "type".toList, "dependencies".toList, "relative_path".toList]
  types : ∀ v ∈ valuesOf d.entries "type".toList, v ∈ tableKinds
  name : t.name = lastValue d.entries "name".toList
  type : t.type = lastValue d.entries "type".toList
  path : t.path = lastValue d.entries "relative_path".toList
  deps : ∃ ds, DepsMean (valuesOf d.entries "dependencies".toList) ds ∧
    t.deps = ds.map fun x => env.abspath (env.join (depDir env t.path) x)
  single : t.type ≠ some "scheme".toList → d.sects.length ≤ 1
  sects : All2 (SectMeans env t.name t.type
    (fun n => known n ∨ (t.type = some "ddt".toList ∧ t.name = some n)) registered) d.sects t.sects

/-- The names of the tables of type ddt. -/
def ddtNames (ts : List Table) : List (List Char) :=
  ts.filterMap fun t => if t.type = some "ddt".toList then t.name else none

/-- The names of the tables of type ddt that have a section. -/
def ddtSections (ts : List Table) : List (List Char) :=
  ts.filterMap fun t => if t.type = some "ddt".toList ∧ t.sects ≠ [] then t.name else none

/-- `FileMeans`: the tables of a file.  No two have the same name; each may use the derived types known before the
file was read and those of the tables before it. -/
def FileMeans (env : Env) (ty : Types) (docs : List TableDoc) (ts : List Table) : Prop :=
  (ts.map (·.name)).Nodup ∧ docs.length = ts.length ∧
  ∀ i d t, docs[i]? = some d → ts[i]? = some t →
    TableMeans env (fun n => n ∈ ty.known ∨ n ∈ ddtNames (ts.take i))
      (fun n => decide (n ∈ ty.registered ∨ n ∈ ddtSections (ts.take i))) d t

/-- What is assumed of the rest of the framework: property names do not begin with a bracket, there is no
property `ddt_type`, and dimensions are lists. -/
structure Env.Ok (env : Env) : Prop where
  bracket : ∀ k v w, env.value k v = some w → k.head? ≠ some '['
  ddt : ∀ v, env.value "ddt_type".toList v = none
  dims : ∀ v w, env.value "dimensions".toList v = some w → ∃ l, w = .list l

end Ccpp.MF
