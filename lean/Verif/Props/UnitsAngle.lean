import Verif.Spec.Units
import Mathlib.Analysis.Real.Pi.Bounds
/-!
# C32: accuracy of the angle conversion
-/
namespace Ccpp.Units

/-- The constant of the radian/degree formulas is 180/π to within 1e-10 degrees. -/
theorem degree_constant_accurate : ∃ q : Rat,
    formula "57.295779513{kind}*{var}".toList = some (q, 0) ∧ |(q : ℝ) - 180 / Real.pi| < 1 / 10 ^ 10 := by
  refine ⟨57295779513 / 1000000000, by decide +kernel, ?_⟩
  have h1 := Real.pi_gt_d20
  have h2 := Real.pi_lt_d20
  have hp : (0 : ℝ) < Real.pi := Real.pi_pos
  push_cast
  rw [abs_sub_lt_iff]
  constructor
  · rw [sub_lt_iff_lt_add', ← sub_lt_iff_lt_add, lt_div_iff₀ hp]
    nlinarith
  · rw [sub_lt_iff_lt_add', div_lt_iff₀ hp]
    nlinarith

end Ccpp.Units
