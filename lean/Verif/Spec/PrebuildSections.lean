import Verif.Model.PrebuildSections
import Verif.Spec.PrebuildArgs
/-!
# Specification for C76: the sections of arrays that ccpp_prebuild passes to schemes

Shared with the model: the records of the variables of the host (`HVar`) and of the arguments of a scheme (`Req`), and `lower`.
-/
namespace Ccpp.SC
open PA (HVar DimOf)
open PB (IsName IsLiteral joined)

/-- A subscript: an index, or a range, of which the bounds may be empty. -/
inductive Sub where
  | index (e : List Char)
  | range (lo hi : List Char)
deriving DecidableEq

/-- The text of a subscript -/
def Sub.text : Sub → List Char
  | .index e => e
  | .range lo hi => lo ++ ':' :: hi

/-- A reference: what stands before the last name (with the percent sign), the last name, and its subscripts -/
structure Ref where
  pre : List Char
  name : List Char
  subs : List Sub

/-- Subscripts in parentheses; without subscripts nothing -/
def subsText (l : List Sub) : List Char := if l = [] then [] else '(' :: (joined ',' (l.map Sub.text) ++ [')'])

/-- The text of a reference -/
def Ref.text (r : Ref) : List Char := r.pre ++ r.name ++ subsText r.subs

/-- Parentheses are balanced. -/
def Balanced (s : List Char) : Prop := (∀ p, p <+: s → p.count ')' ≤ p.count '(') ∧ s.count '(' = s.count ')'

/-- A subscript of a local name of the host: the whole dimension, or an index, which may itself have subscripts but no ranges. -/
def SubOk : Sub → Prop
  | .index e => e ≠ [] ∧ e.getLast? ≠ some ',' ∧ ':' ∉ e ∧ Balanced e
  | .range lo hi => lo = [] ∧ hi = []

/-- A local name of the host; the text of the last subscripts does not stand in it earlier. -/
structure RefOk (r : Ref) : Prop where
  pre : Balanced r.pre ∧ (r.pre = [] ∨ r.pre.getLast? = some '%')
  name : ∀ c ∈ r.name, c ≠ '(' ∧ c ≠ ')' ∧ c ≠ '%'
  subs : ∀ s ∈ r.subs, SubOk s
  once : r.subs ≠ [] → ¬ subsText r.subs <:+: r.pre

/-- The bound `d` of a dimension is written as `t`: a literal, or the local name of the variable of the host with this standard name. -/
def Bound (h : List HVar) (d t : List Char) : Prop :=
  (IsLiteral (lower d) ∧ t = lower d) ∨ (IsName (lower d) ∧ ∃ v ∈ h, v.std = lower d ∧ t = v.loc)

/-- The host has a variable with this standard name and local name. -/
def Names (h : List HVar) (std loc : List Char) : Prop := ∃ v ∈ h, v.std = std ∧ v.loc = loc

/-- The variable is an array with all columns. -/
def Whole (h : List HVar) (std : List Char) : Prop := ∃ v ∈ h, v.std = std ∧ DimOf v "horizontal_dimension".toList
/-- The variable is an array with the columns of one block. -/
def Block (h : List HVar) (std : List Char) : Prop := ∃ v ∈ h, v.std = std ∧ DimOf v "horizontal_loop_extent".toList
/-- The host says which part of all columns is computed. -/
def Chunks (h : List HVar) : Prop := ∃ v ∈ h, v.std = "horizontal_loop_begin".toList

/-- The names that a dimension of a scheme must not have in the phase -/
def Forbidden (run : Bool) (d : List Char) : Prop :=
  d = "horizontal_loop_begin".toList ∨ d = "horizontal_loop_end".toList ∨
  (run = true ∧ d = "horizontal_dimension".toList) ∨ (run = false ∧ d = "ccpp_loop_extent".toList)

/-- The scheme asks for the bounds `lo` and `hi` in a dimension; `part` says that these are the columns of a part of an array with all columns. -/
inductive Asks (h : List HVar) (run : Bool) (std : List Char) : (d lo hi : List Char) → (part : Bool) → Prop
  /-- in the run phase, columns of an array with all columns: those that the host says -/
  | part {a b lo hi l : List Char} : run = true → ':' ∉ a → ':' ∉ b → ¬ Forbidden run (lower a) → lower b = "horizontal_loop_extent".toList → Bound h a l →
      Whole h std → Chunks h → Names h "horizontal_loop_begin".toList lo → Names h "horizontal_loop_end".toList hi →
      Asks h run std (a ++ ':' :: b) lo hi true
  /-- in the run phase, columns of a block (or of an array with all columns, if these are not computed in parts): all -/
  | block {a b lo hi l : List Char} : run = true → ':' ∉ a → ':' ∉ b → ¬ Forbidden run (lower a) → lower b = "horizontal_loop_extent".toList → Bound h a l →
      Block h std ∨ (Whole h std ∧ ¬ Chunks h) → Names h "ccpp_constant_one".toList lo → Names h "horizontal_loop_extent".toList hi →
      Asks h run std (a ++ ':' :: b) lo hi false
  /-- everything else: the bounds as they are -/
  | plain {a b lo hi : List Char} : ':' ∉ a → ':' ∉ b → ¬ Forbidden run (lower a) → ¬ Forbidden run (lower b) →
      ¬ (run = true ∧ lower b = "horizontal_loop_extent".toList) → Bound h a lo → Bound h b hi → Asks h run std (a ++ ':' :: b) lo hi false

/-- The subscript for a dimension; dimensions of texts are passed as a whole, unless they are the columns of a part. -/
def Wants (h : List HVar) (run : Bool) (v : Req) (d : List Char) (s : Sub) : Prop :=
  ∃ lo hi part, Asks h run v.std d lo hi part ∧ s = if v.char = true ∧ part = false then .range [] [] else .range lo hi

/-- The ranges `w` take the places of the whole dimensions in order. -/
inductive Fills : List Sub → List Sub → List Sub → Prop
  | nil : Fills [] [] []
  | index {e l w r} : Fills l w r → Fills (.index e :: l) w (.index e :: r)
  | range {s l w r} : Fills l w r → Fills (.range [] [] :: l) (s :: w) (s :: r)

/-- The host: every standard name once; dimensions are lists of literals and standard names with colons between them; no array has both kinds of columns. -/
structure HostOk (h : List HVar) : Prop where
  unique : (h.map (·.std)).Nodup
  dims : PA.DimsOk h
  colon : ∀ v ∈ h, ∀ e ∈ v.dims, ':' ∈ e
  locs : ∀ v ∈ h, v.loc.getLast? ≠ some ','
  kind : ∀ std, ¬ (Whole h std ∧ Block h std)

/-- The dimensions of an argument: two literals or standard names with a colon between them (or no colon, which is refused); the two
bounds are different texts. -/
structure ReqOk (h : List HVar) (run : Bool) (v : Req) : Prop where
  dims : ∀ d ∈ v.dims, ':' ∈ d → ∃ a b, d = a ++ ':' :: b ∧ (IsLiteral (lower a) ∨ IsName (lower a)) ∧ (IsLiteral (lower b) ∨ IsName (lower b))
  differ : ∀ d ∈ v.dims, ∀ lo hi part, Asks h run v.std d lo hi part → lo ≠ hi

/-- The number of elements in a section with these bounds (Fortran) -/
def sectionSize : List (Int × Int) → Int
  | [] => 1
  | b :: l => max 0 (b.2 - b.1 + 1) * sectionSize l

end Ccpp.SC
