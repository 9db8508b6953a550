import Verif.Model.PrebuildArgs
import Verif.Spec.PrebuildRefs
/-!
# Specification for C74: the arguments of the group and suite caps of ccpp_prebuild

Shared with the model: the records of the variables of the host and of the arguments of a cap, the intents and the stages; and `lower`.
-/
namespace Ccpp.PA
open PB (IsName IsLiteral joined)

/-- A variable with this intent can be read. -/
def Reads (k : Intent) : Prop := k = .in ∨ k = .inout
/-- A variable with this intent can be written. -/
def Writes (k : Intent) : Prop := k = .out ∨ k = .inout
/-- The intent `k` of a dummy argument allows everything that `i` allows. -/
def Covers (k i : Intent) : Prop := (Reads i → Reads k) ∧ (Writes i → Writes k)

/-- The local name `l` is the name `x`, or the whole array `x`, with up to 15 dimensions. -/
def Whole (x l : List Char) : Prop :=
  l = x ∨ ∃ k, 1 ≤ k ∧ k ≤ 15 ∧ l = x ++ '(' :: (joined ',' (List.replicate k [':']) ++ [')'])

/-- The host has a variable with the name `x`, its standard name is `p`. -/
def Registered (h : List HVar) (x p : List Char) : Prop := ∃ v ∈ h, v.std = p ∧ Whole x v.loc

/-- The cap has a dummy argument `x` with intent `k`, which is a variable of the host. -/
def Declares (h : List HVar) (ps : List Parent) (x : List Char) (k : Intent) : Prop :=
  ∃ e ∈ ps, e.loc = x ∧ Registered h x e.std ∧ e.intent = k

/-- The standard name `d` stands in the dimensions of the variable. -/
def DimOf (v : HVar) (d : List Char) : Prop :=
  ∃ parts, parts ≠ [] ∧ (∀ p ∈ parts, ':' ∉ p) ∧ joined ':' parts ∈ v.dims ∧ IsName d ∧ ∃ p ∈ parts, d = lower p

/-- The metadata of the host: every standard name once, every local name is a reference. -/
structure HostOk (h : List HVar) : Prop where
  unique : (h.map (·.std)).Nodup
  refs : ∀ v ∈ h, IsRef v.loc

/-- Every dimension is a list of literals and standard names with colons between them. -/
def DimsOk (h : List HVar) : Prop :=
  ∀ v ∈ h, ∀ e ∈ v.dims, ∃ parts, parts ≠ [] ∧ e = joined ':' parts ∧ ∀ p ∈ parts, ':' ∉ p ∧ (IsLiteral (lower p) ∨ IsName (lower p))

/-- What the cap reads for a call: dimensions and conditions of the arguments, and the variables for the horizontal loops. -/
inductive Needed (h : List HVar) (stage : SA.Stage) (call : List (List Char × Intent)) : List Char → Prop
  | dim {v : HVar} {i : Intent} {d : List Char} : (v.std, i) ∈ call → v ∈ h → DimOf v d → Needed h stage call d
  | cond {v : HVar} {i : Intent} {d : List Char} : (v.std, i) ∈ call → v ∈ h → d ∈ v.conds → Needed h stage call d
  | block {v : HVar} {i : Intent} {d : List Char} : (v.std, i) ∈ call → v ∈ h → stage ≠ .run →
      "cdata%blk_no".toList <:+: v.loc → d = "ccpp_block_count".toList ∨ d = "horizontal_dimension".toList → Needed h stage call d
  | extent {v : HVar} {d : List Char} : v ∈ h → v.std = "horizontal_loop_extent".toList →
      d = "ccpp_constant_one".toList ∨ d = "horizontal_loop_extent".toList → Needed h stage call d
  | chunk {a b c : HVar} {d : List Char} : stage = .run → (∀ v ∈ h, v.std ≠ "horizontal_loop_extent".toList) →
      a ∈ h → b ∈ h → c ∈ h → a.std = "horizontal_loop_begin".toList → b.std = "horizontal_loop_end".toList → c.std = "ccpp_chunk_extent".toList →
      d = a.std ∨ d = b.std ∨ d = c.std → Needed h stage call d

/-- The variables that are dimensions are scalars, or components of scalars, whose indices are scalars. -/
def FlatDims (h : List HVar) : Prop :=
  ∀ w ∈ h, ∀ d, DimOf w d → ∀ v ∈ h, v.std = d → ∀ x, Root v.loc x ∨ IndexRoot v.loc x → ∀ p ∈ h, Whole x p.loc → p.dims = []

/-- No two variables of the host have the same local name. -/
def Distinct (h : List HVar) : Prop := ∀ v ∈ h, ∀ w ∈ h, ∀ x, Whole x v.loc → Whole x w.loc → v.std = w.std

end Ccpp.PA
