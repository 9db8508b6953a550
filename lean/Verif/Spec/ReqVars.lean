import Verif.Model.ReqVars
/-!
# Specification for C40
-/
namespace Ccpp.RV

/-- The names that a query with flags `f` asks for: the leaves, and of the arrays either the elements
or the array itself. -/
def Want (c : Coll) (f : QFlags) (x : Str) : Prop :=
  let of (s : Sets) : Prop := x ∈ s.leaf ∨ x ∈ (if f.struct then s.elem else s.arr)
  (f.input = true ∧ of c.inp) ∨ ((f.input = true ∨ f.output = true) ∧ of c.io) ∨
    (f.output = true ∧ of c.out)

/-- The query returns each wanted name exactly once and sets every element of its list. -/
def Correct (c : Coll) (f : QFlags) : Prop :=
  ∃ names : List Str, query c f = some (names.map some) ∧ names.Nodup ∧ ∀ x, x ∈ names ↔ Want c f x

/-- No name is used twice, except for leaves that are input in one group and output in another. -/
structure Separate (c : Coll) : Prop where
  sets : ∀ s, s = c.inp ∨ s = c.io ∨ s = c.out →
    s.leaf.Nodup ∧ s.arr.Nodup ∧ s.elem.Nodup ∧ (s.arr ≠ [] → s.elem ≠ [])
  leafElem : ∀ s t, (s = c.inp ∨ s = c.io ∨ s = c.out) → (t = c.inp ∨ t = c.io ∨ t = c.out) →
    ∀ x ∈ s.leaf, x ∉ t.elem ∧ x ∉ t.arr
  inIo : ∀ x, (x ∈ c.inp.elem → x ∉ c.io.elem) ∧ (x ∈ c.inp.arr → x ∉ c.io.arr)
  inOut : ∀ x, (x ∈ c.inp.elem → x ∉ c.out.elem) ∧ (x ∈ c.inp.arr → x ∉ c.out.arr)
  ioOut : ∀ x, (x ∈ c.io.elem → x ∉ c.out.elem) ∧ (x ∈ c.io.arr → x ∉ c.out.arr)

/-- Some variable of the list is the constituent `s`, set in the initialize phase. -/
def InitIn (us : List Use) (s : Str) : Prop :=
  ∃ w ∈ us, w.std = s ∧ w.intent = "out" ∧ w.constituent = true ∧ w.phase = "initialize"

/-- Some variable of the list satisfies `P` together with the list of the variables before it. -/
def Occurs (us : List Use) (P : List Use → Use → Prop) : Prop :=
  ∃ before u after, us = before ++ u :: after ∧ P before u

/-- The variable is an input to the physics: read, not protected, not set before by the physics. -/
def IsInput (before : List Use) (u : Use) : Prop :=
  u.intent = "in" ∧ u.prot = false ∧ ¬ InitIn before u.std
def IsInout (before : List Use) (u : Use) : Prop := u.intent = "inout" ∧ ¬ InitIn before u.std
def IsOutput (_ : List Use) (u : Use) : Prop :=
  u.intent = "out" ∧ ¬ (u.constituent = true ∧ u.phase = "initialize")

/-- The sets collected for the variables that satisfy `P`. -/
structure CollectedBy (us : List Use) (P : List Use → Use → Prop) (s : Sets) : Prop where
  leaf : ∀ x, x ∈ s.leaf ↔ Occurs us fun b u => P b u ∧ u.elements = none ∧ u.std = x
  arr : ∀ x, x ∈ s.arr ↔ Occurs us fun b u => P b u ∧ u.elements ≠ none ∧ u.std = x
  elem : ∀ x, x ∈ s.elem ↔ Occurs us fun b u => P b u ∧ ∃ es, u.elements = some es ∧ x ∈ es
  nodup : s.leaf.Nodup ∧ s.arr.Nodup ∧ s.elem.Nodup

end Ccpp.RV
