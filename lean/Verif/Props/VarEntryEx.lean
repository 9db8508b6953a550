import Verif.Props.VarEntryOrder
/-!
# C86: examples and violations
-/
namespace Ccpp.VE

open MF (Val)

/-- A reading of some numbers, for the examples. -/
def flEx (s : Str) : Option Num :=
  if s = "28.97".toList then some (.fin (2897 / 100)) else if s = "nan".toList then some .nan else if s = "0".toList then some (.fin 0) else none

/-- The entries of an example. -/
def exEntries : List (Str × Str) :=
  [("standard_name".toList, "Air_Temperature".toList), ("units".toList, "K".toList), ("dimensions".toList, "(horizontal_loop_extent, 0:nlev)".toList),
   ("type".toList, "real".toList), ("kind".toList, "kind_phys".toList), ("intent".toList, "inout".toList), ("advected".toList, "T".toList)]

/-- C86: a variable that is accepted. -/
theorem C86_example : parse flEx true false [] [] "t".toList exEntries =
    .var [("local_name".toList, .text "t".toList), ("standard_name".toList, .text "air_temperature".toList), ("units".toList, .text "K".toList),
      ("dimensions".toList, .list ["ccpp_constant_one:horizontal_loop_extent".toList, "0:nlev".toList]), ("type".toList, .text "real".toList),
      ("kind".toList, .text "kind_phys".toList), ("intent".toList, .text "inout".toList), ("advected".toList, .flag true)] true true := by
  decide +kernel

theorem C86_example_clean : ("t".toList).getLast? ≠ some '\n' ∧ (∀ e ∈ exEntries, Clean e.2) ∧ (exEntries.map Prod.fst).Nodup := by
  refine ⟨by decide, ?_, by decide⟩
  unfold Clean
  decide +kernel

/-- C86: an array section with a derived type. -/
theorem C86_example_section : parse flEx false false ["my_ddt".toList] ["my_ddt".toList] "q( :,i )".toList
    [("standard_name".toList, "water".toList), ("dimensions".toList, "(n)".toList), ("type".toList, "my_ddt".toList)] =
    .var [("local_name".toList, .text "q(:, i)".toList), ("standard_name".toList, .text "water".toList),
      ("dimensions".toList, .list ["ccpp_constant_one:n".toList]), ("type".toList, .text "my_ddt".toList), ("units".toList, .text []),
      ("kind".toList, .text "my_ddt".toList)] false false := by
  decide +kernel

/-- The same entries without the intent. -/
def exBad : List (Str × Str) :=
  [("standard_name".toList, "t".toList), ("units".toList, "K".toList), ("dimensions".toList, "()".toList), ("type".toList, "real".toList)]

/-- C86: a variable of a scheme without an intent is reported; the hypotheses of C86_reported_partial hold for it. -/
theorem C86_example_reported : parse flEx true false [] [] "t".toList exBad = .reported ∧ (∃ D, parse flEx false false [] [] "t".toList exBad = .var D true false) ∧
    (∀ e ∈ exBad, Clean e.2) ∧ (∀ e ∈ exBad, Tame flEx e) ∧ (∀ e ∈ exBad, e.1 ≠ "default_value".toList) ∧
    (∀ e ∈ exBad, e.1 = "protected".toList → ¬ Logical e.2 true) ∧
    ((∀ e ∈ exBad, Legal flEx false [] e) → ∃ g, Result flEx "t".toList exBad g) ∧
    ¬ ∃ g, (∀ e ∈ exBad, Legal flEx false [] e) ∧ Result flEx "t".toList exBad g ∧ Coherent true (TypeName false [] exBad) g := by
  have hcl : ∀ e ∈ exBad, Clean e.2 := by unfold Clean; decide +kernel
  have h1 : parse flEx true false [] [] "t".toList exBad = .reported := by decide +kernel
  have h2 : ∃ D, parse flEx false false [] [] "t".toList exBad = .var D true false := ⟨[("local_name".toList, .text "t".toList),
      ("standard_name".toList, .text "t".toList), ("units".toList, .text "K".toList), ("dimensions".toList, .list []),
      ("type".toList, .text "real".toList)], by decide +kernel⟩
  have hp : ∀ e ∈ exBad, e.1 ≠ "protected".toList := by decide
  refine ⟨h1, h2, hcl, ?_, by decide, fun e he h => absurd h (hp e he), ?_, ?_⟩
  · intro e he
    simp only [exBad, List.mem_cons, List.not_mem_nil, or_false] at he
    rcases he with rfl | rfl | rfl | rfl
    · exact ⟨by decide, fun h => absurd h (by decide), fun h => absurd h (by decide)⟩
    · exact ⟨by decide, fun h => absurd h (by decide), fun h => absurd h (by decide)⟩
    · refine ⟨by decide, fun h => absurd h (by decide), ?_⟩
      intro _ l hl d hd
      have : Chk.listMatch "()".toList = some [[]] := by decide +kernel
      simp only at hl
      rw [this] at hl
      cases hl
      rw [List.mem_singleton] at hd
      subst hd
      decide
    · exact ⟨by decide, fun h => absurd h (by decide), fun h => absurd h (by decide)⟩
  · intro _
    obtain ⟨D, hD⟩ := h2
    exact ⟨_, (C86_values (by decide) hcl hD).1⟩
  · rintro ⟨g, h3, h4, h5⟩
    obtain ⟨D, i, c, h6⟩ := (C86_accept (fl := flEx) (scheme := true) (known := []) (reg := []) (by decide) hcl).2 ⟨h3, g, h4, h5⟩
    rw [h1] at h6
    cases h6

/-- C86 violated: required properties may be empty; the check functions are not called for empty values. -/
theorem C86_empty_violated : ∃ D, parse flEx false false [] [] "t".toList
    [("standard_name".toList, []), ("units".toList, []), ("dimensions".toList, "()".toList), ("type".toList, "real".toList), ("local_name".toList, [])] =
      .var D true false ∧ D.get "standard_name".toList = some (.text []) ∧ D.get "units".toList = some (.text []) ∧
      D.get "local_name".toList = some (.text []) :=
  ⟨[("local_name".toList, .text []), ("standard_name".toList, .text []), ("units".toList, .text []), ("dimensions".toList, .list []),
    ("type".toList, .text "real".toList)], by decide +kernel, by decide, by decide, by decide⟩

/-- C86 violated: an unknown property is a crash if it comes first and a syntax error if it comes later. -/
theorem C86_unknown_violated (v : Str) : parse flEx false false [] [] "t".toList [("bogus".toList, v)] = .crash .unbound ∧
    parse flEx false false [] [] "t".toList [("units".toList, "K".toList), ("bogus".toList, v)] = .reported := by
  have h1 : getProp "bogus".toList = none := by decide +kernel
  have hd : ¬ (("bogus".toList, v).1 = "type".toList ∧ RC.isIntrinsic ("bogus".toList, v).2 = false) := fun h => absurd (show "bogus".toList = "type".toList from h.1) (by decide)
  constructor
  · unfold parse steps step
    rw [if_neg hd]
    simp only [h1]
    rfl
  · have h2 : ∃ s, step flEx false [] { dict := [("local_name".toList, .text "t".toList)], reg := [] } ("units".toList, "K".toList) = .ok s ∧
        s.pval = some (some (.text "K".toList)) := ⟨_, by rfl, by rfl⟩
    obtain ⟨s, h2, h3⟩ := h2
    have h4 : step flEx false [] s ("bogus".toList, v) = .ok { s with ok := false } := by
      unfold step
      rw [if_neg hd]
      simp only [h1, h3]
    unfold parse steps
    rw [h2]
    show (match (steps flEx false [] s [("bogus".toList, v)]) with | .error r => r | .ok s => _) = _
    unfold steps
    rw [h4]
    rfl

/-- C86 violated: a molar mass that is not a number ends the program, a molar mass that is not-a-number is accepted. -/
theorem C86_mass_violated : parse flEx false false [] [] "t".toList (exBad ++ [("molar_mass".toList, "heavy".toList)]) = .crash .value ∧
    ∃ D, parse flEx false false [] [] "t".toList (exBad ++ [("molar_mass".toList, "nan".toList)]) = .var D true true :=
  ⟨by decide +kernel, [("local_name".toList, .text "t".toList), ("standard_name".toList, .text "t".toList), ("units".toList, .text "K".toList),
    ("dimensions".toList, .list []), ("type".toList, .text "real".toList), ("molar_mass".toList, .number "nan".toList)], by decide +kernel⟩

/-- C86 violated: two types give a mixture: an intrinsic type with the derived type as its kind, and the variable is not intrinsic. -/
theorem C86_two_types_violated : ∃ D, parse flEx false false ["my_ddt".toList] ["my_ddt".toList] "t".toList (exBad ++ [("type".toList, "my_ddt".toList)]) =
    .var D false false ∧ D.get "type".toList = some (.text "real".toList) ∧ D.get "kind".toList = some (.text "my_ddt".toList) :=
  ⟨[("local_name".toList, .text "t".toList), ("standard_name".toList, .text "t".toList), ("units".toList, .text "K".toList), ("dimensions".toList, .list []),
    ("type".toList, .text "real".toList), ("kind".toList, .text "my_ddt".toList)], by decide +kernel, by decide, by decide⟩

/-- C86 violated: a property that is written twice is not an error, and `local_name` as a property gives the variable another name. -/
theorem C86_duplicate_violated : ∃ D, parse flEx false false [] [] "t".toList (exBad ++ [("units".toList, "m".toList), ("local_name".toList, "u".toList)]) =
    .var D true false ∧ D.get "units".toList = some (.text "m".toList) ∧ D.get "local_name".toList = some (.text "u".toList) :=
  ⟨[("local_name".toList, .text "u".toList), ("standard_name".toList, .text "t".toList), ("units".toList, .text "m".toList), ("dimensions".toList, .list []),
    ("type".toList, .text "real".toList)], by decide +kernel, by decide, by decide⟩

/-- C86 violated: the kind that is written for a derived type is lost. -/
theorem C86_kind_violated : ∃ D, parse flEx false false ["my_ddt".toList] ["my_ddt".toList] "t".toList
    [("standard_name".toList, "t".toList), ("kind".toList, "k".toList), ("dimensions".toList, "()".toList), ("type".toList, "my_ddt".toList)] =
    .var D false false ∧ D.get "kind".toList = some (.text "my_ddt".toList) :=
  ⟨[("local_name".toList, .text "t".toList), ("standard_name".toList, .text "t".toList), ("kind".toList, .text "my_ddt".toList),
    ("dimensions".toList, .list []), ("type".toList, .text "my_ddt".toList), ("units".toList, .text [])], by decide +kernel, by decide⟩

/-- C86 violated: a local name that does not fit, a protected variable of a derived type, a default value of a derived type, and `size(a,1)` as a
dimension end the program with an exception; `size(a)` is accepted while the entries are read, and the variable is rejected later. -/
theorem C86_crash_violated :
    parse flEx false false [] [] "t(:)".toList exBad = .crash .internal ∧
    parse flEx false false ["vmr".toList] ["vmr".toList] "my_vmr".toList
      [("standard_name".toList, "t".toList), ("dimensions".toList, "()".toList), ("type".toList, "vmr".toList), ("protected".toList, "T".toList)] =
      .crash .internal ∧
    parse flEx false false ["my_ddt".toList] ["my_ddt".toList] "t".toList
      [("standard_name".toList, "t".toList), ("dimensions".toList, "()".toList), ("type".toList, "my_ddt".toList), ("default_value".toList, "x_my_ddt".toList)] =
      .crash .internal ∧
    parse flEx false false [] [] "t".toList [("dimensions".toList, "(size(foo,1))".toList)] = .raised ∧
    parse flEx false false [] [] "t".toList
      [("standard_name".toList, "t".toList), ("units".toList, "K".toList), ("dimensions".toList, "(size(foo))".toList), ("type".toList, "real".toList)] =
      .reported := by
  refine ⟨by decide +kernel, by decide +kernel, by decide +kernel, by decide +kernel, by decide +kernel⟩

/-- C86 violated: dimensions may have other text around the parentheses; intents in capitals are not accepted. -/
theorem C86_text_violated : (∃ D, parse flEx false false [] [] "t".toList
    [("standard_name".toList, "t".toList), ("units".toList, "K".toList), ("dimensions".toList, "abc (n) (m".toList), ("type".toList, "real".toList)] =
      .var D true false ∧ D.get "dimensions".toList = some (.list ["ccpp_constant_one:n".toList])) ∧
    parse flEx true false [] [] "t".toList (exBad ++ [("intent".toList, "IN".toList)]) = .reported :=
  ⟨⟨[("local_name".toList, .text "t".toList), ("standard_name".toList, .text "t".toList), ("units".toList, .text "K".toList),
    ("dimensions".toList, .list ["ccpp_constant_one:n".toList]), ("type".toList, .text "real".toList)], by decide +kernel, by decide⟩, by decide +kernel⟩

end Ccpp.VE
