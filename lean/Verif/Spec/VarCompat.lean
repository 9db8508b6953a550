import Verif.Model.VarCompat
/-!
# Specification vocabulary for C28–C31 and C51
-/
namespace Ccpp.VC

/-- Two lists of positions are inverse bijections of `0 … n-1`. -/
structure InversePerms (n : Nat) (f : List Nat) (r : List (Option Nat)) : Prop where
  flen : f.length = n
  rlen : r.length = n
  to : ∀ k < n, ∃ i < n, f[k]? = some i ∧ r[i]? = some (some k)
  fro : ∀ i < n, ∃ k < n, r[i]? = some (some k) ∧ f[k]? = some i

/-- The upper bound of a dimension, if its lower bound is one or omitted. -/
def UpTo (d : Str) (upper : String) : Prop :=
  d = upper.toList ∨ d = "ccpp_constant_one:".toList ++ upper.toList

/-- The spellings of the horizontal dimension: the whole domain, or a chunk. -/
def Horizontal (d : Str) : Prop :=
  UpTo d "horizontal_dimension" ∨ UpTo d "horizontal_loop_extent" ∨
    d = "horizontal_loop_begin:horizontal_loop_end".toList

/-- The spellings of a vertical dimension or index: layers or interfaces. -/
def Vertical (d : Str) : Prop :=
  UpTo d "vertical_layer_dimension" ∨ UpTo d "vertical_interface_dimension" ∨
    d = "vertical_layer_index".toList ∨ d = "vertical_interface_index".toList

/-- A dimension with its lower bound written out. -/
def withLower (d : Str) : Str := if ':' ∈ d then d else "ccpp_constant_one:".toList ++ d

/-- The same dimension, ignoring the spelling of the horizontal dimension and an omitted lower bound
of one. -/
def SameDim (d d' : Str) : Prop :=
  (Horizontal d ∧ Horizontal d') ∨ (¬ Horizontal d ∧ ¬ Horizontal d' ∧ withLower d = withLower d')

/-- Physical column addressed by index `i` of a dimension `d`, where a chunk starts at column
`begin`: a chunk-sized ("loop") dimension counts from the start of the chunk. -/
def phys (begin : Int) (d : Str) (i : Int) : Int := if isLoopDim d then i + begin - 1 else i

/-- The index tuples `x1`, `x2` address the same array element in variables with dimensions `d1`
and `d2`, where position `k` of variable 2 corresponds to position `f k` of variable 1. -/
def SameElement (begin : Int) (d1 d2 : List Str) (f : Nat → Option Nat) (x1 x2 : List Int) : Prop :=
  x2.length = d2.length ∧
  ∀ k < d2.length, ∀ i, f k = some i →
    phys begin (d2.getD k []) (x2.getD k 0) = phys begin (d1.getD i []) (x1.getD i 0)

/-- The length in a Fortran character kind selector, if it is of the form `len=<text>`. -/
def lenText (k : Str) : Option Str :=
  if lower ((strip k).take 4) = "len=".toList then some (strip ((strip k).drop 4)) else none

end Ccpp.VC
