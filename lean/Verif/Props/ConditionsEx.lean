import Verif.Props.ConditionsThm
/-! # Examples and violations for C77 -/
namespace Ccpp.CD
open PB (Str)

/-- A host -/
def host : List PA.HVar :=
  [⟨"flag_for_ice".toList, "ctl%ice".toList, [], []⟩, ⟨"index_of_q".toList, "ctl%ntq".toList, [], []⟩, ⟨"a".toList, "x".toList, [], []⟩,
   ⟨"b".toList, "y".toList, [], []⟩, ⟨"t".toList, "temp_is_active".toList, [], []⟩]

/-- Its local names -/
def locOf (n : List Char) : List Char := ((host.find? fun v => v.std == n).map (·.loc)).getD []

/-- `(Flag_for_ice .and.  index_of_q > 0)` -/
def cond : List (Tok × List Char) :=
  [(.op "(", []), (.name "Flag_for_ice".toList, [' ']), (.op ".and.", "  ".toList), (.name "index_of_q".toList, [' ']), (.op ">", ['\t']),
   (.num "0".toList, []), (.op ")", [])]

theorem cond_text : spaced cond = "(Flag_for_ice .and.  index_of_q >\t0)".toList := by decide +kernel

theorem name_ok {n : List Char} (h : (∃ c ∈ n.head?, c.isAlpha = true) ∧ ∀ c ∈ n, c.isAlphanum = true ∨ c = '_') : PB.IsName n := by
  obtain ⟨⟨c, hc, ha⟩, h2⟩ := h
  cases n with
  | nil => simp at hc
  | cons x n => simp at hc; subst hc; exact ⟨⟨_, _, rfl, ha⟩, h2⟩

theorem zero_ok : IsNumber "0".toList := ⟨["0".toList], by simp, by simp [PB.IsDigits], rfl⟩

/-- The hypotheses of the theorems hold for it. -/
theorem cond_ok : Condition (tidy cond) := by
  have n1 : PB.IsName "Flag_for_ice".toList := name_ok (by decide +kernel)
  have n2 : PB.IsName "index_of_q".toList := name_ok (by decide +kernel)
  have a : ∀ x y : Tok, ¬ (x.Word ∧ y.Word) → y ≠ .op "==" → Apart x y := fun x y h1 h2 => ⟨h1, fun h => h2 h.2⟩
  refine ⟨?_, a _ _ (by simp [Tok.Word]) (by decide), n1, a _ _ (by simp [Tok.Word]) (by decide), trivial, a _ _ (by simp [Tok.Word]) (by decide),
    ?_, a _ _ (by simp [Tok.Word]) (by decide), trivial, a _ _ (by simp [Tok.Word]) (by decide), n2, a _ _ (by simp [Tok.Word]) (by decide),
    trivial, a _ _ (by simp [Tok.Word]) (by decide), ?_, a _ _ (by simp [Tok.Word]) (by decide), trivial, a _ _ (by simp [Tok.Word]) (by decide),
    zero_ok, a _ _ (by simp [Tok.Word]) (by decide), ?_⟩ <;>
  (show _ ∈ operators; decide)

theorem cond_gaps : ∀ p ∈ cond, p.1 ≠ .blank ∧ ∀ c ∈ p.2, isWs c = true := by decide +kernel
theorem host_loc : ∀ v ∈ host, locOf v.std = v.loc := by decide +kernel

/-- The condition is written with the local names. -/
theorem ex_cond : prebuild host "(Flag_for_ice .and.  index_of_q >\t0)".toList =
    some ("(ctl%ice .and. ctl%ntq > 0)".toList, ["flag_for_ice".toList, "index_of_q".toList]) := by
  rw [← cond_text]
  have := (C77_prebuild_partial host locOf host_loc [] cond (by simp) cond_gaps cond_ok (by decide) (by decide +kernel) (by decide +kernel)
    "(ctl%ice .and. ctl%ntq > 0)".toList ["flag_for_ice".toList, "index_of_q".toList]).2 (by decide +kernel)
  simpa using this

/-- **The code violates C77**: signs are lost, so that two different conditions give the same. -/
theorem C77_sign_violated : prebuild host "a > -1".toList = prebuild host "a > 1".toList ∧
    prebuild host "a > -1".toList = some ("x > 1".toList, ["a".toList]) := by decide +kernel

/-- **The code violates C77**: a decimal point is lost. -/
theorem C77_real_violated : prebuild host "a > 1.5".toList = some ("x > 15".toList, ["a".toList]) := by decide +kernel

/-- **The code violates C77**: arithmetic operators are lost. -/
theorem C77_arithmetic_violated : prebuild host "a+1 > 2".toList = some ("x1 > 2".toList, ["a".toList]) ∧
    capgen [[("a".toList, "x".toList)]] "a+1 > 2".toList = some ("x1 > 2".toList, ["a".toList]) := by decide +kernel

/-- **The code violates C77**: operators in upper case, which are legal Fortran, are refused. -/
theorem C77_case_violated : prebuild host "a .AND. b".toList = none ∧ (prebuild host "a .and. b".toList).isSome = true := by decide +kernel

/-- **The code violates C77**: the condition that is the name `T` is taken for true. -/
theorem C77_letter_violated : prebuild host "T".toList = some (".true.".toList, []) ∧
    prebuild host "(T)".toList = some ("(temp_is_active)".toList, ["t".toList]) := by decide +kernel

/-- **The code violates C77**: without parentheses around the condition, ccpp_capgen writes no if statement. -/
theorem C77_capgen_if_violated : capgen [[("a".toList, "x".toList)]] "a".toList = some ("x".toList, ["a".toList]) ∧
    ∀ loc l, ¬ IfStmt (capgenIf "x".toList) loc l := by
  refine ⟨by decide +kernel, fun loc l h => ?_⟩
  have := congrArg (fun s : List Char => s[3]?) h
  simp [capgenIf] at this

end Ccpp.CD
