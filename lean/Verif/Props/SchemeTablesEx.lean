import Verif.Props.SchemeTablesThm
/-! # C79: an example, and how the code violates the rest -/
namespace Ccpp.ST
open FDecl (Str Blank)
open MF (All2)

/-! ## Checks -/

def noModB (l : Str) : Bool := match modEvent l with | .none => true | _ => false

theorem noModB_of {l : Str} (h : noModB l = true) : NoModule l := by
  unfold noModB at h
  cases e : modEvent l with
  | start n => rw [e] at h; cases h
  | stop n => rw [e] at h; cases h
  | none =>
    refine ⟨fun n hn => ?_, fun t ht => ?_⟩
    · rw [(modEvent_start l n).2 hn] at e; cases e
    · rw [(modEvent_stop l t).2 ht] at e; cases e

def neutralB (l : Str) : Bool := noModB l && match subEvent l with | .start n => (schemeOf n).isNone | _ => true

theorem neutralB_of {l : Str} (h : neutralB l = true) : Neutral l := by
  unfold neutralB at h
  rw [Bool.and_eq_true] at h
  refine ⟨noModB_of h.1, fun n s ho hs => ?_⟩
  have h2 := h.2
  rw [(subEvent_start l n).2 ho] at h2
  exact (schemeOf_none n).1 (by simpa using h2) s hs

def closesB (l : Str) (t : Option Str) : Bool := match subEvent l with | .stop t' => t' == t | _ => false

theorem closesB_iff (l : Str) (t : Option Str) : closesB l t = true ↔ Closes l t := by
  rw [← subEvent_stop]
  unfold closesB
  cases e : subEvent l with
  | stop t' => simp
  | start _ => simp
  | bare => simp
  | none => simp

def bareB (l : Str) : Bool := match subEvent l with | .bare => true | _ => false

theorem bareB_iff (l : Str) : bareB l = true ↔ BareEnd l := by
  rw [← subEvent_bare]
  unfold bareB
  cases e : subEvent l with
  | stop t' => simp
  | start _ => simp
  | bare => simp
  | none => simp

def bodyB (n l : Str) : Bool := noModB l && !bareB l && !closesB l none && !closesB l (some n)

theorem bodyB_of {n l : Str} (h : bodyB n l = true) : NoModule l ∧ ¬BareEnd l ∧ ¬Closes l none ∧ ¬Closes l (some n) := by
  unfold bodyB at h
  simp only [Bool.and_eq_true, Bool.not_eq_true'] at h
  obtain ⟨⟨⟨h1, h2⟩, h3⟩, h4⟩ := h
  refine ⟨noModB_of h1, ?_, ?_, ?_⟩
  · rw [← bareB_iff, h2]; simp
  · rw [← closesB_iff, h3]; simp
  · rw [← closesB_iff, h4]; simp

theorem logical_of (ls : List Str) : Logical ls (joinLines [] ls) := by
  obtain ⟨out, h⟩ := logical_exists ls
  rw [joinLines_logical h]; exact h

/-! ## Example -/

def exSource : List Str := [
  "! physics",
  "module foo ! the scheme",
  "",
  "  use kinds, &",
  "    only: r8",
  "contains",
  "  subroutine helper(x)",
  "  end subroutine",
  "!> \\section arg_table_foo_init",
  "!!",
  "  Subroutine foo_init()",
  "  end subroutine foo_init",
  "!> \\section arg_table_foo_run Argument Table",
  "!! \\htmlinclude foo_run.html",
  "!!",
  "  subroutine foo_run(a, &",
  "      b)",
  "    b = a",
  "  end subroutine",
  "  subroutine foo_finalize",
  "  end subroutine foo_finalize",
  "end module foo"].map String.toList

def exFile : SFile where
  mods := [(["! physics".toList], {
    name := "foo".toList
    opening := "module foo ! the scheme".toList
    items := [
      .line "  use kinds,      only: r8".toList,
      .line "contains".toList,
      .other "  subroutine helper(x)".toList ["  end subroutine".toList, "!> \\section arg_table_foo_init".toList, "!!".toList],
      .entry ⟨"foo_init".toList, "  Subroutine foo_init()".toList, [], "  end subroutine foo_init".toList⟩,
      .line "!> \\section arg_table_foo_run Argument Table".toList,
      .line "!! \\htmlinclude foo_run.html".toList,
      .line "!!".toList,
      .entry ⟨"foo_run".toList, "  subroutine foo_run(a,        b)".toList, ["    b = a".toList], "  end subroutine".toList⟩,
      .entry ⟨"foo_finalize".toList, "  subroutine foo_finalize".toList, [], "  end subroutine foo_finalize".toList⟩]
    closing := "end module foo".toList })]
  tail := []

theorem exLogical : Logical exSource exFile.lines := by
  have : joinLines [] exSource = exFile.lines := by decide +kernel
  rw [← this]; exact logical_of _

theorem exFile_ok : exFile.Ok := by
  refine ⟨?_, by simp [exFile], by simp [exFile]⟩
  intro p hp
  simp only [exFile, List.mem_singleton] at hp
  subst hp
  refine ⟨?_, (modEvent_start _ _).1 rfl, ?_, by decide +kernel, .inr ((modEvent_stop _ _).1 rfl)⟩
  · intro l hl
    simp only [List.mem_singleton] at hl
    subst hl
    exact noModB_of (by decide +kernel)
  · have line : ∀ l : Str, (neutralB l && !closesB l none) = true → (Item.line l).Ok "foo".toList := by
      intro l h
      rw [Bool.and_eq_true] at h
      exact ⟨neutralB_of h.1, by rw [← closesB_iff]; simpa using h.2⟩
    intro i hi
    simp only [List.mem_cons, List.not_mem_nil, or_false] at hi
    rcases hi with rfl | rfl | rfl | rfl | rfl | rfl | rfl | rfl | rfl
    · exact line _ (by decide +kernel)
    · exact line _ (by decide +kernel)
    · refine ⟨⟨"helper".toList, (subEvent_start _ _).1 rfl⟩, neutralB_of (by decide +kernel), fun l hl => neutralB_of ?_⟩
      revert l
      decide +kernel
    · exact ⟨(subEvent_start _ _).1 rfl, ⟨"init".toList, by decide +kernel, by decide +kernel, fun _ => by decide +kernel⟩, by simp,
        .inr ((subEvent_stop _ _).1 rfl)⟩
    · exact line _ (by decide +kernel)
    · exact line _ (by decide +kernel)
    · exact line _ (by decide +kernel)
    · refine ⟨(subEvent_start _ _).1 rfl, ⟨"run".toList, by decide +kernel, by decide +kernel, fun _ => by decide +kernel⟩, ?_,
        .inl ((subEvent_stop _ _).1 rfl)⟩
      intro l hl
      simp only [List.mem_singleton] at hl
      subst hl
      exact bodyB_of (by decide +kernel)
    · exact ⟨(subEvent_start _ _).1 rfl, ⟨"finalize".toList, by decide +kernel, by decide +kernel, fun _ => by decide +kernel⟩, by simp,
        .inr ((subEvent_stop _ _).1 rfl)⟩

instance : DecidableEq (List (Str × List Nat) × List (Str × List (Str × List Str))) := fun a b =>
  if h : a.1 = b.1 ∧ a.2 = b.2 then .isTrue (Prod.ext h.1 h.2) else .isFalse fun e => h (by rw [e]; exact ⟨rfl, rfl⟩)

/-- Metadata: the table `foo_run` of the module `foo` -/
def exRead (m n : Str) : Option (List (Str × Nat)) :=
  if m = "foo".toList ∧ n = "foo_run".toList then some [("temperature".toList, 1), ("errmsg".toList, 2)] else none

/-- The example: the helper is no entry point, `foo_init` has an empty table, `foo_run` one in the metadata file, `foo_finalize` has none. -/
theorem C79_example : parse exRead (fun _ _ => true) ["errmsg".toList] exSource =
    some ([("temperature".toList, [1]), ("errmsg".toList, [2])],
      [("foo".toList, [("foo_init".toList, []), ("foo_run".toList, ["temperature".toList, "errmsg".toList]), ("foo_finalize".toList, [])])]) := by
  decide +kernel

/-- A mandatory variable is missing. -/
theorem C79_example_mandatory : parse exRead (fun _ _ => true) ["errflg".toList] exSource = none := by decide +kernel

/-! ## Violations -/

def src (ls : List String) : List Str := ls.map String.toList

def run (ls : List String) : Option (List (Str × List Nat) × List (Str × List (Str × List Str))) := parse exRead (fun _ _ => true) [] (src ls)

/-- A subroutine with a prefix is not found, although its table is there: the file is accepted and has no entry point; or, if `end subroutine`
is without name, an exception is raised. -/
theorem C79_pure_violated : run ["module foo", "!> \\section arg_table_foo_run", "!! \\htmlinclude foo_run.html", "!!", "pure subroutine foo_run(a)",
    "end subroutine foo_run", "end module foo"] = some ([], []) ∧
    run ["module foo", "!> \\section arg_table_foo_run", "!! \\htmlinclude foo_run.html", "!!", "pure subroutine foo_run(a)",
      "end subroutine", "end module foo"] = none := by decide +kernel

/-- A stage in capitals is not found either. -/
theorem C79_case_violated : run ["module foo", "!> \\section arg_table_foo_run", "!! \\htmlinclude foo_run.html", "!!", "SUBROUTINE FOO_RUN(a)",
    "END SUBROUTINE FOO_RUN", "end module foo"] = some ([], []) := by decide +kernel

/-- The initialization of a scheme `foo_timestep` is refused: it is taken for the stage `timestep_init` of a scheme `foo`. -/
theorem C79_timestep_violated : run ["module foo_timestep", "subroutine foo_timestep_init()", "end subroutine foo_timestep_init",
    "end module foo_timestep"] = none := by decide +kernel

/-- `endmodule` and `endsubroutine`, which are Fortran, raise exceptions. -/
theorem C79_endmodule_violated : run ["module foo", "subroutine foo_run()", "end subroutine foo_run", "endmodule foo"] = none ∧
    run ["module foo", "subroutine foo_run()", "endsubroutine foo_run", "end module foo"] = none := by decide +kernel

/-- Names of Fortran do not depend on case, but an end with other case raises an exception. -/
theorem C79_endcase_violated : run ["module foo", "subroutine foo_run()", "end subroutine foo_run", "end module FOO"] = none ∧
    run ["module foo", "subroutine foo_run()", "end subroutine Foo_run", "end module foo"] = none := by decide +kernel

/-- A comment that ends in `&` takes the next line with it: the entry point is not found. -/
theorem C79_comment_violated : run ["module foo", "subroutine foo_init", "end subroutine foo_init", "! this & that &", "subroutine foo_run()",
    "end subroutine foo_run", "end module foo"] = some ([], [("foo".toList, [("foo_init".toList, [])])]) := by decide +kernel

/-- The table of `foo_run_extra`, a helper, is taken for the table of `foo_run`, which has none. -/
theorem C79_mark_violated : run ["module foo", "!> \\section arg_table_foo_run_extra", "!! \\htmlinclude foo_run_extra.html", "!!",
    "subroutine foo_run_extra(a)", "end subroutine foo_run_extra", "subroutine foo_run(a)", "end subroutine foo_run", "end module foo"] =
    some ([("temperature".toList, [1]), ("errmsg".toList, [2])], [("foo".toList, [("foo_run".toList, ["temperature".toList, "errmsg".toList])])]) := by
  decide +kernel

/-- A module function is taken for a module without an end. -/
theorem C79_modulefunction_violated : run ["module foo", "interface", "module function f(x)", "end function f", "end interface", "contains",
    "subroutine foo_run()", "end subroutine foo_run", "end module foo"] = none := by decide +kernel

end Ccpp.ST
