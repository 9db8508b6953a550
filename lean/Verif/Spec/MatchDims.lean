import Verif.Model.MatchDims
/-!
# Specification for C38
-/
namespace Ccpp.MD

open Ccpp.VC (Str isHoriz isVert)

/-- The variables that stand for a loop dimension: `Replaces d req` (a leading `ccpp_constant_one:` is the
default lower bound and does not matter). -/
inductive Replaces : Str → List Str → Prop where
  | extent : Replaces "horizontal_loop_extent".toList
      ["horizontal_loop_begin".toList, "horizontal_loop_end".toList]
  | first : Replaces "horizontal_loop_begin".toList ["ccpp_constant_one".toList]
  | last : Replaces "horizontal_loop_end".toList ["horizontal_loop_extent".toList]
  | layer : Replaces "vertical_layer_dimension".toList ["vertical_layer_index".toList]
  | interface : Replaces "vertical_interface_dimension".toList ["vertical_interface_index".toList]
  | lower {d req} : Replaces d req → ¬ "ccpp_constant_one:".toList <+: d →
      Replaces ("ccpp_constant_one:".toList ++ d) req

/-- The needed dimension `n` may be met by the available dimension `h`, giving `m` in the call.
(`loopVarMatch n = some req` says `Replaces n req`: theorem `loop_dimensions`.) -/
def DimOk (e : Env) (n h m : Str) : Prop :=
  (n = h ∧ m = n) ∨
  (isHoriz n = true ∧ isHoriz h = true ∧
    ((e.run = true ∧ ∃ req, loopVarMatch n = some req ∧ (∀ r ∈ req, e.finds r = true) ∧
        m = joinColon req) ∨
     (e.run = false ∧ h = "ccpp_constant_one:horizontal_dimension".toList ∧ m = h ∧
        (n = "ccpp_constant_one:horizontal_loop_extent".toList ∨
         n = "horizontal_loop_begin:horizontal_loop_end".toList))))

/-- `p` maps each dimension of `need` to a different dimension of `have'` that meets it; `nn` and `nh`
are the dimensions to be used on both sides, changed only at the matched places. -/
structure Matching (e : Env) (need have' : List Str) (p : List Nat) (nn nh : List Str) : Prop where
  len : p.length = need.length
  nodup : p.Nodup
  lenNeed : nn.length = need.length
  lenHave : nh.length = have'.length
  ok : ∀ (i : Nat) n, need[i]? = some n → ∃ j h m, p[i]? = some j ∧ have'[j]? = some h ∧ DimOk e n h m ∧
    nn[i]? = some m ∧ nh[j]? = some m
  other : ∀ (j : Nat), j ∉ p → nh[j]? = have'[j]?

/-- Insert `x` at position `k` (or at the end, if the list is shorter). -/
def insertAt {α} (l : List α) (k : Nat) (x : α) : List α := l.take k ++ x :: l.drop k

end Ccpp.MD
