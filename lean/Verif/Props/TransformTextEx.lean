import Verif.Props.TransformText
/-!
# C93: examples, and what the code does not do
-/
namespace Ccpp.TText

/-- The kinds of the framework in the examples. -/
def exSpec : Option Str → Option Str
  | some k => if k = "kind_phys".toList then some "REAL64".toList
    else if k = "kind_host".toList then some "REAL64".toList
    else if k = "kind_dyn".toList then some "REAL32".toList else none
  | none => none

def exV (type : String) (kind : String) (units : String) (dims : List String) : VC.V :=
  ⟨"thickness".toList, type.toList, some kind.toList, units.toList, dims.map String.toList, false⟩

def exObj (type k1 k2 u1 u2 : String) (dims : List String) : Option Obj :=
  mkObj exSpec (exV type k1 u1 dims) (exV type k2 u2 dims)

/-- The objects of the examples exist, so that the theorems apply to them. -/
theorem C93_example_exists :
    (exObj "real" "kind_phys" "kind_dyn" "m" "mm" ["horizontal_dimension"]).isSome = true ∧
    (exObj "real" "kind_phys" "kind_host" "K" "C" []).isSome = true := by
  constructor <;> decide +kernel

/-- Units and kinds differ: both are converted, in both directions. -/
theorem C93_example_both :
    ((exObj "real" "kind_phys" "kind_dyn" "m" "mm" ["horizontal_dimension"]).map fun o =>
      (String.ofList (forward o "h".toList "h_local".toList [":".toList] [":".toList]),
       String.ofList (reverse o "h_local".toList "h".toList [":".toList] [":".toList]))) =
    some ("h(:) = 1.0E+3_kind_dyn*real(h_local(:), kind_dyn)",
      "h_local(:) = 1.0E-3_kind_phys*real(h(:), kind_phys)") := by decide +kernel

/-- Two names of the same kind: only the units are converted. -/
theorem C93_example_units :
    ((exObj "real" "kind_phys" "kind_host" "K" "C" []).map fun o =>
      (String.ofList (forward o "t".toList "t_local".toList [] []),
       String.ofList (reverse o "t_local".toList "t".toList [] []))) =
    some ("t = t_local-273.15_kind_host", "t_local = t+273.15_kind_phys") := by decide +kernel

/-- The value of an expression over a complex variable without operators. -/
def Expr.cvalue (z : Rat × Rat) : Expr → Option (Rat × Rat)
  | .ref _ _ => some z
  | .real e _ => (e.cvalue z).map fun w => (w.1, 0)
  | _ => none

/-- Violated: a conversion of the kind of complex variables loses the imaginary part. -/
theorem C93_complex_violated :
    ∃ o e, exObj "complex" "kind_phys" "kind_dyn" "1" "1" [] = some o ∧
      forward o "z".toList "z_local".toList [] [] = "z".toList ++ " = ".toList ++ Expr.text e ∧
      e.refs = [("z_local".toList, [])] ∧ e.cvalue (1, 1) = some (1, 0) := by
  have h : (exObj "complex" "kind_phys" "kind_dyn" "1" "1" []).isSome = true := by decide +kernel
  refine ⟨(exObj "complex" "kind_phys" "kind_dyn" "1" "1" []).get h,
    .real (.ref "z_local".toList []) "kind_dyn".toList, (Option.some_get h).symm, ?_, rfl, rfl⟩
  have : ((exObj "complex" "kind_phys" "kind_dyn" "1" "1" []).map fun o => forward o "z".toList "z_local".toList [] []) =
      some ("z".toList ++ " = ".toList ++ Expr.text (.real (.ref "z_local".toList []) "kind_dyn".toList)) := by
    decide +kernel
  rw [← Option.some_get h] at this
  simpa only [Option.map_some, Option.some.injEq] using this

/-- Violated: integers (and logicals) are converted with `real`, and the kind of an integer may be missing: this
is not Fortran. -/
theorem C93_integer_kind_violated :
    ((exObj "integer" "" "int64" "count" "count" []).map fun o =>
      (String.ofList (forward o "n".toList "n_local".toList [] []),
       String.ofList (reverse o "n_local".toList "n".toList [] []))) =
    some ("n = real(n_local, int64)", "n_local = real(n, )") := by decide +kernel

/-- Violated: units of integers are converted although the result is not an integer (90 s are 3/2 min). -/
theorem C93_integer_units_violated :
    ∃ o e, exObj "integer" "" "" "s" "min" [] = some o ∧
      forward o "n".toList "n_local".toList [] [] = "n".toList ++ " = ".toList ++ Expr.text e ∧
      e.value 90 = some (3 / 2) := by
  have h : (exObj "integer" "" "" "s" "min" []).isSome = true := by decide +kernel
  refine ⟨(exObj "integer" "" "" "s" "min" []).get h,
    .bin '/' (.ref "n_local".toList []) (.lit "6.0E+1".toList []), (Option.some_get h).symm, ?_, by decide +kernel⟩
  have : ((exObj "integer" "" "" "s" "min" []).map fun o => forward o "n".toList "n_local".toList [] []) =
      some ("n".toList ++ " = ".toList ++ Expr.text (.bin '/' (.ref "n_local".toList []) (.lit "6.0E+1".toList []))) := by
    decide +kernel
  rw [← Option.some_get h] at this
  simpa only [Option.map_some, Option.some.injEq] using this

end Ccpp.TText
