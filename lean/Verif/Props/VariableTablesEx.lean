import Verif.Props.VariableTablesRef
import Verif.Props.SchemeTablesEx
/-! # C81: an example, and how the code violates the rest -/
namespace Ccpp.VT
open FDecl (Str Blank)
open ST (Logical logical_of joinLines)

/-! ## Checks -/

def noModB (l : Str) : Bool := match modEvent l with | .none => true | _ => false

theorem noModB_of {l : Str} (h : noModB l = true) : NoModule l := by
  unfold noModB at h
  cases e : modEvent l with
  | start n => rw [e] at h; cases h
  | stop n => rw [e] at h; cases h
  | none =>
    refine ⟨fun n hn => ?_, fun t ht => ?_⟩
    · rw [(modEvent_start l n).2 hn] at e; cases e
    · rw [(modEvent_stop l t).2 ht] at e; cases e

def neutralB (l : Str) : Bool := match typeEvent l with | .none => true | _ => false

theorem neutralB_of {l : Str} (h : neutralB l = true) : Neutral l := by
  unfold neutralB at h
  cases e : typeEvent l with
  | start n => rw [e] at h; cases h
  | stop n => rw [e] at h; cases h
  | none =>
    refine ⟨fun hs => ?_, fun t ht => ?_⟩
    · rw [starts_event hs] at e; cases e
    · rw [(typeEvent_stop l t).2 ht] at e; cases e

/-! ## Example -/

def exSource : List Str := [
  "module host ! variables",
  "  implicit none",
  "!> \\section arg_table_state",
  "!! \\htmlinclude state.html",
  "!!",
  "  type, public :: &",
  "     state",
  "    integer :: n",
  "    type(other), pointer :: o",
  "  end type",
  "!> \\section arg_table_host Table",
  "!! \\htmlinclude host.html",
  "!!",
  "  integer :: k",
  "end module host",
  "program main",
  "!> \\section arg_table_main",
  "!!",
  "end program"].map String.toList

def exHost : HMod where
  name := "host".toList
  opening := "module host ! variables".toList
  items := [
    .line "  implicit none".toList,
    .line "!> \\section arg_table_state".toList,
    .line "!! \\htmlinclude state.html".toList,
    .line "!!".toList,
    .type "state".toList "  type, public ::       state".toList ["    integer :: n".toList, "    type(other), pointer :: o".toList] "  end type".toList,
    .line "!> \\section arg_table_host Table".toList,
    .line "!! \\htmlinclude host.html".toList,
    .line "!!".toList,
    .line "  integer :: k".toList]
  closing := "end module host".toList

def exMain : HMod where
  name := "main".toList
  opening := "program main".toList
  items := [.line "!> \\section arg_table_main".toList, .line "!!".toList]
  closing := "end program".toList

def exFile : HFile := ⟨[([], exHost), ([], exMain)], []⟩

theorem exLogical : Logical exSource exFile.lines := by
  have : joinLines [] exSource = exFile.lines := by decide +kernel
  rw [← this]; exact logical_of _

theorem exStarts : Starts "  type, public ::       state".toList := by
  refine ⟨"type,".toList, ["public".toList, "::".toList, "state".toList], (ST.words_iff _ _).1 (by decide +kernel), .inr (.inl (by decide +kernel)), ?_⟩
  intro v hv
  simp only [List.head?_cons, Option.some.injEq] at hv
  subst hv
  rw [← usage_iff]
  decide +kernel

theorem exHost_ok : exHost.Ok := by
  refine ⟨⟨(modEvent_start _ _).1 rfl, ?_, .inr ((modEvent_stop _ _).1 rfl)⟩, ?_, by decide +kernel⟩
  · intro l hl
    apply noModB_of
    revert l
    decide +kernel
  · intro i hi
    simp only [exHost, List.mem_cons, List.not_mem_nil, or_false] at hi
    rcases hi with rfl | rfl | rfl | rfl | rfl | rfl | rfl | rfl | rfl
    · exact neutralB_of (by decide +kernel)
    · exact neutralB_of (by decide +kernel)
    · exact neutralB_of (by decide +kernel)
    · exact neutralB_of (by decide +kernel)
    · refine ⟨?_, exStarts, ?_, .inl ((typeEvent_stop _ _).1 rfl)⟩
      · refine .colons (a := "  ".toList) (t := "type".toList) (x := ", public ".toList) (b := "       ".toList) (c := []) (by decide +kernel) ?_ (by decide +kernel)
          ⟨.inr ⟨[], " public ".toList, (fun _ h => nomatch h), (by decide +kernel)⟩, ?_⟩ ?_ ⟨(by decide +kernel), ?_⟩ (.inl fun _ h => nomatch h)
        · intro c; revert c; decide +kernel
        · rw [← PA.inText_iff]; decide +kernel
        · intro c; revert c; decide +kernel
        · intro c; revert c; decide +kernel
      · intro l hl
        apply neutralB_of
        revert l
        decide +kernel
    · exact neutralB_of (by decide +kernel)
    · exact neutralB_of (by decide +kernel)
    · exact neutralB_of (by decide +kernel)
    · exact neutralB_of (by decide +kernel)

theorem exMain_ok : exMain.Ok := by
  refine ⟨⟨(modEvent_start _ _).1 rfl, ?_, .inl ((modEvent_stop _ _).1 rfl)⟩, ?_, by decide +kernel⟩
  · intro l hl
    apply noModB_of
    revert l
    decide +kernel
  · intro i hi
    simp only [exMain, List.mem_cons, List.not_mem_nil, or_false] at hi
    rcases hi with rfl | rfl
    · exact neutralB_of (by decide +kernel)
    · exact neutralB_of (by decide +kernel)

theorem exFile_ok : exFile.Ok := by
  refine ⟨⟨?_, (fun _ h => nomatch h), by decide +kernel⟩, ?_⟩
  · intro p hp
    simp only [exFile, List.mem_cons, List.not_mem_nil, or_false] at hp
    rcases hp with rfl | rfl
    · exact ⟨(fun _ h => nomatch h), exHost_ok.1⟩
    · exact ⟨(fun _ h => nomatch h), exMain_ok.1⟩
  · intro p hp
    simp only [exFile, List.mem_cons, List.not_mem_nil, or_false] at hp
    rcases hp with rfl | rfl
    · exact exHost_ok
    · exact exMain_ok

def exRead (m n : Str) : Option (List (Str × Nat)) :=
  if m = "host".toList ∧ n = "state".toList then some [("levels".toList, 1)]
  else if m = "host".toList ∧ n = "host".toList then some [("kinds".toList, 2), ("levels".toList, 3)] else none

theorem exTables : FileTables exFile.mods [("host".toList, "state".toList), ("host".toList, "host".toList)] := by
  have nh : ∀ l : Str, ST.isHook "arg_table_".toList (ST.words l) = false → ∀ n, ¬Hook l n := fun l h => (noHook_iff l).2 h
  have inc : ∀ l x : Str, ST.words l = ["!!".toList, "\\htmlinclude".toList, x] → Include l := fun l x h => ⟨x, (ST.words_iff _ _).1 h⟩
  refine .cons (ts := ["state".toList, "host".toList]) ?_ (.cons (ts := []) ?_ .nil)
  · change Tables _ (exHost.inside) _
    rw [show exHost.inside = ["  implicit none".toList, "!> \\section arg_table_state".toList, "!! \\htmlinclude state.html".toList, "!!".toList,
      "  type, public ::       state".toList, "    integer :: n".toList, "    type(other), pointer :: o".toList, "  end type".toList,
      "!> \\section arg_table_host Table".toList, "!! \\htmlinclude host.html".toList, "!!".toList, "  integer :: k".toList] from rfl]
    refine .text (nh _ (by decide +kernel)) (.file ((hook_iff _ _).2 ⟨by decide +kernel, by decide +kernel⟩) (.inr (by decide +kernel))
      (inc _ "state.html".toList (by decide +kernel)) ((ST.words_iff _ _).1 (by decide +kernel)) ?_)
    refine .text (nh _ (by decide +kernel)) (.text (nh _ (by decide +kernel)) (.text (nh _ (by decide +kernel)) (.text (nh _ (by decide +kernel)) ?_)))
    exact .file ((hook_iff _ _).2 ⟨by decide +kernel, by decide +kernel⟩) (.inl (by decide +kernel))
      (inc _ "host.html".toList (by decide +kernel)) ((ST.words_iff _ _).1 (by decide +kernel)) (.text (nh _ (by decide +kernel)) .nil)
  · change Tables _ (exMain.inside) _
    rw [show exMain.inside = ["!> \\section arg_table_main".toList, "!!".toList] from rfl]
    refine .blank (n := "main".toList) ((hook_iff _ _).2 ⟨by decide +kernel, by decide +kernel⟩) (.inl (by decide +kernel)) (nh _ (by decide +kernel))
      (by decide +kernel) ?_ .nil
    rw [← PA.inText_iff]; decide +kernel

/-- The theorems apply to a file with a module, a type in it, and a program: the variables of three tables. -/
theorem C81_example : exFile.Ok ∧ Logical exSource exFile.lines ∧
    FileTables exFile.mods [("host".toList, "state".toList), ("host".toList, "host".toList)] ∧
    parse exRead (fun _ _ => true) [] exSource = some [("levels".toList, [1, 3]), ("kinds".toList, [2])] ∧
    parse exRead (fun a b => a == b) [] exSource = none ∧
    parse exRead (fun a b => a == 9 || a == b || b == 3) [("kinds".toList, 7)] exSource = none ∧
    parse exRead (fun a b => a == 9 || a == b || b == 3) [("kinds".toList, 9)] exSource = some [("levels".toList, [1, 3]), ("kinds".toList, [2])] :=
  ⟨exFile_ok, exLogical, exTables, by decide +kernel, by decide +kernel, by decide +kernel, by decide +kernel⟩

/-- Refusals: two types of the same name, a type in a type, an end without type, the wrong name at the end, a table for something else, a table in a
table, a module twice, a module without end -/
theorem C81_refusals (read : Str → Str → Option (List (Str × Nat))) (c : Nat → Nat → Bool) :
    parse read c [] (["module m", "type t", "end type", "type :: t", "end type", "end module"].map String.toList) = none ∧
    parse read c [] (["module m", "type t", "type u", "end type", "end type", "end module"].map String.toList) = none ∧
    parse read c [] (["module m", "end type t", "end module"].map String.toList) = none ∧
    parse read c [] (["module m", "type t(k)", "end type u", "end module"].map String.toList) = none ∧
    parse read c [] (["module m", "!! \\section arg_table_u", "!!", "end module"].map String.toList) = none ∧
    parse read c [] (["module m", "!! \\section arg_table_m", "!! \\section arg_table_m", "end module"].map String.toList) = none ∧
    parse read c [] (["module m", "end module", "module m", "end module"].map String.toList) = none ∧
    parse read c [] (["module m"].map String.toList) = none ∧
    parse read c [] (["end module"].map String.toList) = none :=
  ⟨rfl, rfl, rfl, rfl, rfl, rfl, rfl, rfl, rfl⟩

/-- The hypotheses of the refusal theorems are met. -/
theorem C81_wrong_example : (⟨[([], ⟨"m".toList, "module m".toList, [.line "end type t".toList], "end module".toList⟩)], []⟩ : HFile).Shape ∧
    Wrong [.line "end type t".toList] ∧ Wrong [.line "x".toList, .line "type t".toList, .line "x".toList, .line "end type u".toList] := by
  have td : TypeDef "type t".toList "t".toList := .plain (a := []) (t := "type".toList) (b := []) (c := []) rfl (fun _ h => nomatch h) rfl (fun _ h => nomatch h)
    ⟨by decide, by decide⟩ (.inl fun _ h => nomatch h) (by rw [← PA.inText_iff]; decide)
  have st : Starts "type t".toList := by
    refine ⟨"type".toList, ["t".toList], (ST.words_iff _ _).1 rfl, .inl rfl, ?_⟩
    intro v hv
    cases hv
    rw [← usage_iff]; decide
  refine ⟨⟨?_, (fun _ h => nomatch h), by decide⟩, ?_, ?_⟩
  · intro p hp
    simp only [List.mem_singleton] at hp
    subst hp
    refine ⟨(fun _ h => nomatch h), (modEvent_start _ _).1 rfl, ?_, .inl ((modEvent_stop _ _).1 rfl)⟩
    intro l hl
    apply noModB_of
    revert l
    decide +kernel
  · exact .stray (good := []) (fun _ h => nomatch h) (by decide) (t := some "t".toList) ((typeEvent_stop _ _).1 rfl) rfl
  · refine .mismatch (good := [.line "x".toList]) (b := ["x".toList]) ?_ (by decide) td st ?_ (t := "u".toList) (x := "end type u".toList)
      ((typeEvent_stop _ _).1 rfl) (by decide) (rest := [.line "type t".toList, .line "x".toList, .line "end type u".toList]) rfl
    · intro i hi
      rw [List.mem_singleton.1 hi]
      exact neutralB_of (by decide)
    · intro l hl
      rw [List.mem_singleton.1 hl]
      exact neutralB_of (by decide)

/-! ## Violations -/

/-- A misspelt line after the first line of a table, or no second line at all: the table is empty, and nobody is told. -/
theorem C81_blank_violated (read : Str → Str → Option (List (Str × Nat))) (c : Nat → Nat → Bool) :
    parse read c [] (["module m", "!> \\section arg_table_m", "!! \\htmlinculde m.html", "!!", "end module m"].map String.toList) = some [] ∧
    parse read c [] (["module m", "!> \\section arg_table_m", "integer :: n", "end module m"].map String.toList) = some [] :=
  ⟨rfl, rfl⟩

/-- A table in the old format: its columns are checked, and it is accepted without its variables if it has no row; with a row it is refused. -/
theorem C81_old_violated (read : Str → Str → Option (List (Str × Nat))) (c : Nat → Nat → Bool) :
    parse read c [] (["module m", "!> \\section arg_table_m", "!! | local_name | standard_name |", "!!", "end module m"].map String.toList) = some [] ∧
    parse read c [] (["module m", "!> \\section arg_table_m", "!! | local_name | standard_name |", "!! | t | temperature |", "!!", "end module m"].map
      String.toList) = none :=
  ⟨rfl, rfl⟩

/-- A table that is not finished at the end of the module is accepted. -/
theorem C81_unfinished_violated :
    parse exRead (fun _ _ => true) [] (["module host", "!> \\section arg_table_host", "!! \\htmlinclude host.html", "end module host"].map String.toList) =
      some [("kinds".toList, [2]), ("levels".toList, [3])] := by decide +kernel

/-- Correct Fortran that is refused: a comment directly after the name of a module, or after `end module`; a tab between `type` and the name; names in another case;
`endtype`; and `type,extends (a) :: b`, which is taken for the declaration of a variable. -/
theorem C81_fortran_violated (read : Str → Str → Option (List (Str × Nat))) (c : Nat → Nat → Bool) :
    parse read c [] (["module m!host", "end module m"].map String.toList) = none ∧
    parse read c [] (["module m", "end module ! m"].map String.toList) = none ∧
    parse read c [] (["module m", "type\tt", "end type t", "end module m"].map String.toList) = none ∧
    parse read c [] (["MODULE M", "END MODULE m"].map String.toList) = none ∧
    parse read c [] (["module m", "type t", "endtype", "type u", "endtype", "end module m"].map String.toList) = none ∧
    parse read c [] (["module m", "type a", "end type", "type,extends (a) :: b", "end type b", "end module m"].map String.toList) = none :=
  ⟨rfl, rfl, rfl, rfl, rfl, rfl⟩

end Ccpp.VT
