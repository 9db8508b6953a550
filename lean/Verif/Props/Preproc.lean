import Verif.Lemmas.Preproc
/-! # C01–C03: conditional compilation -/
namespace Ccpp.Preproc
open Spec

/-- **C01** (error behaviour and depth).  Whatever the directives and whatever the
truth values of the conditions, reading the lines succeeds iff no `#endif`,
`#else` or `#elif` occurs with no open region, and the number of open regions is
then the number of opened minus closed ones. -/
theorem C01_depth (ev : List Char → Defs → Bool) (defs : Defs) (ls : List Line) :
    (run ev ⟨[], defs⟩ ls).toOption.map (fun p => p.1.stack.length) = depth 0 ls :=
  run_depth ev ls ⟨[], defs⟩

example : depth 0 [.dir (.ifdef ['A']), .dir .els, .dir .endif, .dir .endif] = none := by decide
example : depth 0 [.dir (.ifdef ['A']), .dir (.ifc none), .dir .els, .dir .endif] = some 1 := by
  decide

/-- **C01** (well-formed files).  A well-formed file, however deeply nested, is
always accepted, leaves the regions open before it untouched, and every input
line gives exactly one output line. -/
theorem C01_wellformed (ev : List Char → Defs → Bool) (is : Items) (s : St) :
    ∃ d' out, run ev s is.lines = .ok (⟨s.stack, d'⟩, out) ∧ out.length = is.lines.length :=
  items_total ev is s.stack s.defs

/-- A sample file used in the non-vacuity examples:
`#ifdef A / x / #else / #if e / y / #endif / #endif`. -/
def sampleFile : Items :=
  .cons (.cond (.ifdef ['A']) (.cons (.text ['x']) .nil)
    (.els (.cons (.cond (.expr ['e']) (.cons (.text ['y']) .nil) .endif) .nil))) .nil

example : sampleFile.lines.length = 7 := by decide

/-- **C03**.  In a state where some enclosing region is not in its true branch,
an arbitrary well-formed block (any nesting, any `#elif` chains, any definitions)
changes neither the definitions nor the regions, and all its lines are blanked. -/
theorem C03_inactive (ev : List Char → Defs → Bool) (is : Items) (s : St)
    (h : ∃ r ∈ s.stack, r.2 = false) :
    run ev s is.lines = .ok (s, is.lines.map (fun _ => [])) := by
  have h' : s.stack.all (·.2) = false := by
    obtain ⟨r, hr, hf⟩ := h
    rw [Bool.eq_false_iff]
    intro hall
    have := List.all_eq_true.mp hall r hr
    simp [hf] at this
  exact items_inactive ev is s.stack s.defs h'

example : ∃ r ∈ (St.mk [(true, true), (false, false)] []).stack, r.2 = false := by decide

/-- **C02** (partial: proved whenever no `#elif` that is taken is followed, in its own
conditional, by an `#else` or by an `#elif` whose condition is also true;
`C02_violated` shows that the full statement is false).
The full statement is the same without `hs`. -/
theorem C02_first_true_branch_partial (ev : List Char → Defs → Bool) (defs : Defs) (is : Items)
    (hs : is.unamb ev defs = true) :
    run ev ⟨[], defs⟩ is.lines
      = .ok (⟨[], (is.sem ev true defs).1⟩, (is.sem ev true defs).2) :=
  items_sem ev is [] defs rfl hs

example : sampleFile.unamb (fun _ _ => true) [] = true := by decide

/-- A sample file with an `#elif` followed by `#else`:
`#if p / x / #elif q / y / #else / z / #endif`. -/
def elifFile : Items :=
  .cons (.cond (.expr ['p']) (.cons (.text ['x']) .nil)
    (.elif ['q'] (.cons (.text ['y']) .nil) (.els (.cons (.text ['z']) .nil)))) .nil

-- with `q` false the `#else` branch is covered by the partial theorem
example : elifFile.unamb (fun _ _ => false) [] = true := by decide

/-- **C02 is violated**: with `p` false and `q` true both the `#elif` and the `#else`
branches are kept (modify_region never records that the region has been true). -/
theorem C02_violated :
    ∃ (ev : List Char → Defs → Bool) (defs : Defs) (is : Items),
      run ev ⟨[], defs⟩ is.lines
        ≠ .ok (⟨[], (is.sem ev true defs).1⟩, (is.sem ev true defs).2) := by
  refine ⟨fun c _ => c == ['q'], [], elifFile, ?_⟩
  have h : run (fun c _ => c == ['q']) ⟨[], []⟩ elifFile.lines
      = .ok (⟨[], []⟩, [[], [], [], ['y'], [], ['z'], []]) := by rfl
  have h' : elifFile.sem (fun c _ => c == ['q']) true []
      = ([], [[], [], [], ['y'], [], [], []]) := by rfl
  rw [h, h']
  simp

end Ccpp.Preproc
