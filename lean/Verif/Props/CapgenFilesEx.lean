import Verif.Props.CapgenFilesOrder
import Verif.Props.MetadataExamples
/-!
# C87: examples, and where the code violates the property
-/
namespace Ccpp.CF

open Ccpp.FDecl (Str)
open Ccpp.MF

/-- A metadata file with a derived type. -/
def exTypes : Source := ⟨"types.meta".toList,
  ["[ccpp-table-properties]".toList,
   "  name = vmr_t | type = ddt".toList,
   "[ccpp-arg-table]".toList,
   "  name = vmr_t | type = ddt".toList,
   "[ nvmr ]".toList,
   "  standard_name = number | type = integer | dimensions = ()".toList], exEnv⟩

/-- A scheme that uses the type. -/
def exFoo : Source := ⟨"src.d/foo.v2.meta".toList,
  ["[ccpp-table-properties]".toList,
   "  name = foo | type = scheme".toList,
   "[ccpp-arg-table]".toList,
   "  name = foo_init | type = scheme".toList,
   "[ccpp-arg-table]".toList,
   "  name = foo_run | type = scheme".toList,
   "[ v ]".toList,
   "  standard_name = ratios | type = vmr_t | dimensions = ()".toList], exEnv⟩

/-- A scheme without derived types, with a table that has no section. -/
def exBar : Source := ⟨"bar.meta".toList,
  ["[ccpp-table-properties]".toList,
   "  name = bar | type = scheme".toList], exEnv⟩

/-- Another file with a scheme foo. -/
def exFoo2 : Source := ⟨"foo2.meta".toList,
  ["[ccpp-table-properties]".toList,
   "  name = foo | type = scheme".toList], exEnv⟩

/-- A module that has the name of a routine of foo. -/
def exMod : Source := ⟨"mod.meta".toList,
  ["[ccpp-table-properties]".toList,
   "  name = foo_run | type = module".toList,
   "[ccpp-arg-table]".toList,
   "  name = foo_run | type = module".toList], exEnv⟩

/-- The type again, in upper case. -/
def exUpper : Source := ⟨"upper.meta".toList,
  ["[ccpp-table-properties]".toList,
   "  name = VMR_T | type = ddt".toList,
   "[ccpp-arg-table]".toList,
   "  name = VMR_T | type = ddt".toList], exEnv⟩

/-- The Fortran files: all agree; the one of the types registers a type.  There is also an older file of foo. -/
def exWorld : Str → Option FortSrc := fun n =>
  if n = "types.F90".toList then some fun _ _ => some ["vmr_t".toList]
  else if n ∈ ["src.d/foo.v2.f90".toList, "src.d/foo.v2.F".toList, "bar.F".toList, "foo2.F90".toList, "mod.F90".toList,
    "upper.f".toList] then some fun _ _ => some []
  else none

/-- What is observed: names of the tables, titles and files of the sections. -/
def exView : Outcome St → Outcome (List (Option Str) × List (Str × Str))
  | .ok s => .ok (s.tables.map (·.1), s.headers.map fun e => (e.1, e.2.2))
  | .refused n => .refused n
  | .duplicate t n o => .duplicate t n o
  | .crash c => .crash c

deriving instance DecidableEq for Outcome

/-- Three files are accepted, in the order in which the type comes first; with the scheme first they are refused. -/
theorem C87_example :
    exView (readAll exWorld [] [exTypes, exFoo, exBar]) =
      .ok ([some "vmr_t".toList, some "foo".toList, some "bar".toList],
        [("vmr_t".toList, "types.meta".toList), ("foo_init".toList, "src.d/foo.v2.meta".toList),
          ("foo_run".toList, "src.d/foo.v2.meta".toList)]) ∧
    exView (readAll exWorld [] [exBar, exFoo, exTypes]) = .refused "src.d/foo.v2.meta".toList ∧
    exView (readAll exWorld ["vmr_t".toList] [exFoo]) = .refused "src.d/foo.v2.meta".toList ∧
    exView (readAll exWorld [] [exTypes, exFoo, exMod]) =
      .duplicate "foo_run".toList "mod.meta".toList "src.d/foo.v2.meta".toList ∧
    findFortran (fun n => (exWorld n).isSome) exFoo.name = some "src.d/foo.v2.f90".toList := by
  refine ⟨?_, ?_, ?_, ?_, ?_⟩ <;> decide +kernel

/-- So the hypotheses of the theorems hold for these files. -/
theorem C87_example_meets : ∃ rs, rs.map (·.file) = [exTypes, exFoo, exBar] ∧ AllRead exWorld [] rs := by
  have h := C87_example.1
  cases hr : readAll exWorld [] [exTypes, exFoo, exBar] with
  | ok s =>
    obtain ⟨rs, h1, h2, _⟩ := (C87_accept exWorld [] [exTypes, exFoo, exBar]
      (fun f hf => by
        simp only [List.mem_cons, List.not_mem_nil, or_false] at hf
        rcases hf with rfl | rfl | rfl <;> exact exEnv_ok) s.tables _).1 ⟨s, hr, rfl, rfl⟩
    exact ⟨rs, h1, h2⟩
  | refused n => rw [hr] at h; cases h
  | duplicate t n o => rw [hr] at h; cases h
  | crash c => rw [hr] at h; cases h

theorem exEnv_mono : EnvMono exEnv := by
  intro stype a b p hab h
  unfold exEnv at h ⊢
  simp only [Bool.and_eq_true] at h ⊢
  refine ⟨h.1, ?_⟩
  have h2 := h.2
  split at h2
  · exact hab _ h2
  · exact h2

theorem exWorld_mono : ∀ n src, exWorld n = some src → SrcMono src := by
  intro n src h a b ss l _ hl
  unfold exWorld at h
  split at h
  · cases h; exact hl
  · split at h
    · cases h; exact hl
    · cases h

/-- The order theorem applies: the two schemes can be exchanged. -/
theorem C87_order_example : ∃ r1 r2 r3, [r1, r2, r3].map (·.file) = [exTypes, exFoo, exBar] ∧
    AllRead exWorld [] [r1, r2, r3] ∧ AllRead exWorld [] [r1, r3, r2] := by
  have h := C87_example.1
  cases hr : readAll exWorld [] [exTypes, exFoo, exBar] with
  | refused n => rw [hr] at h; cases h
  | duplicate t n o => rw [hr] at h; cases h
  | crash c => rw [hr] at h; cases h
  | ok s =>
    obtain ⟨rs, h1, h2, h3, hh⟩ := (C87_accept exWorld [] [exTypes, exFoo, exBar]
      (fun f hf => by
        simp only [List.mem_cons, List.not_mem_nil, or_false] at hf
        rcases hf with rfl | rfl | rfl <;> exact exEnv_ok) s.tables _).1 ⟨s, hr, rfl, rfl⟩
    obtain ⟨r1, r2, r3, rfl⟩ : ∃ r1 r2 r3, rs = [r1, r2, r3] := by
      have hl : rs.length = 3 := by rw [← List.length_map (f := fun x : Read => x.file), h1]; rfl
      clear h1 h2 h3 hh
      match rs, hl with
      | [r1, r2, r3], _ => exact ⟨r1, r2, r3, rfl⟩
    simp only [List.map_cons, List.map_nil, List.cons.injEq, and_true] at h1
    have hty : (allTables [r1, r2, r3]).map (·.type) =
        [some "ddt".toList, some "scheme".toList, some "scheme".toList] := by
      have e1 : (allTables [r1, r2, r3]).map (·.type) = s.tables.map (·.2.type) := by rw [h3]; simp
      have e2 : (match readAll exWorld [] [exTypes, exFoo, exBar] with
          | .ok s => s.tables.map (·.2.type)
          | _ => []) = [some "ddt".toList, some "scheme".toList, some "scheme".toList] := by decide +kernel
      rw [hr] at e2
      rw [e1]
      exact e2
    have hk : ∀ r ∈ [r1, r2, r3], r.file.name ≠ "types.meta".toList → r.fort = [] := by
      intro r hrm hne
      obtain ⟨i, hi⟩ := List.mem_iff_getElem?.1 hrm
      obtain ⟨_, path, src, hf, hw, hs⟩ := h2.reads i r hi
      unfold exWorld at hw
      split at hw
      · rename_i hp
        exfalso
        simp only [List.mem_cons, List.not_mem_nil, or_false] at hrm
        have : findFortran (fun n => (exWorld n).isSome) r.file.name = some path := by
          rw [findFortran_iff]
          simpa only [Option.isSome_iff_ne_none] using hf
        rw [hp] at this
        rcases hrm with rfl | rfl | rfl
        · exact hne (by rw [h1.1]; rfl)
        · rw [h1.2.1] at this; exact absurd this (by decide +kernel)
        · rw [h1.2.2] at this; exact absurd this (by decide +kernel)
      · split at hw
        · cases hw; exact (Option.some.inj hs).symm
        · cases hw
    have hf2 : r2.fort = [] := hk r2 (by simp) (by rw [h1.2.1]; decide)
    have hf3 : r3.fort = [] := hk r3 (by simp) (by rw [h1.2.2]; decide)
    -- the first file has the only table of type ddt
    have hfirst : ∃ t, t ∈ r1.tables := by
      obtain ⟨⟨docs, ht, hm⟩, _⟩ := h2.reads 0 r1 rfl
      rw [List.take_zero, h1.1] at hm
      rw [h1.1] at ht
      obtain ⟨ty, hp⟩ := (parseFile_iff exEnv_ok (typesAfter [] []) (PO.logical exTypes.lines) r1.tables).2 ⟨docs, ht, hm⟩
      cases hc : r1.tables with
      | cons t _ => exact ⟨t, by simp⟩
      | nil =>
        rw [hc] at hp
        have : ((parseFile exEnv (typesAfter [] []) (PO.logical exTypes.lines)).map fun x => x.1.length) = some 1 := by
          decide +kernel
        rw [hp] at this
        cases this
    have hno : ∀ t ∈ r2.tables ++ r3.tables, t.type = some "scheme".toList := by
      obtain ⟨t0, ht0⟩ := hfirst
      have e : allTables [r1, r2, r3] = r1.tables ++ (r2.tables ++ r3.tables) := by simp [allTables]
      rw [e, List.map_append] at hty
      cases hc : r1.tables with
      | nil => rw [hc] at ht0; cases ht0
      | cons x xs =>
        rw [hc, List.map_cons, List.cons_append, List.cons.injEq] at hty
        intro t ht
        have : t.type ∈ xs.map (·.type) ++ (r2.tables ++ r3.tables).map (·.type) :=
          List.mem_append_right _ (List.mem_map_of_mem ht)
        rw [hty.2] at this
        simpa using this
    have hd : ∀ ts : List Table, (∀ t ∈ ts, t.type = some "scheme".toList) → ddtNames ts = [] ∧ ddtSections ts = [] := by
      intro ts hts
      unfold ddtNames ddtSections
      rw [List.filterMap_eq_nil_iff, List.filterMap_eq_nil_iff]
      have hne : ∀ t ∈ ts, t.type ≠ some "ddt".toList := fun t ht => by rw [hts t ht]; decide
      exact ⟨fun t ht => if_neg (hne t ht), fun t ht => if_neg (fun h => hne t ht h.1)⟩
    obtain ⟨d2, d2'⟩ := hd r2.tables fun t ht => hno t (List.mem_append_left _ ht)
    obtain ⟨d3, d3'⟩ := hd r3.tables fun t ht => hno t (List.mem_append_right _ ht)
    refine ⟨r1, r2, r3, by simp [h1], h2, ?_⟩
    have hall : ∀ r ∈ [r1, r2, r3], EnvMono r.file.env := by
      intro r hr
      simp only [List.mem_cons, List.not_mem_nil, or_false] at hr
      rcases hr with rfl | rfl | rfl
      · rw [h1.1]; exact exEnv_mono
      · rw [h1.2.1]; exact exEnv_mono
      · rw [h1.2.2]; exact exEnv_mono
    refine C87_order exWorld [] [r1, r2, r3] [r1, r3, r2] (.cons _ (.swap _ _ _)) hall exWorld_mono h2 ?_
    intro j r hj
    match j, hj with
    | 0, hj =>
      refine ⟨0, hj, fun n h => h, fun n h => h⟩
    | 1, hj =>
      cases hj
      refine ⟨2, rfl, ?_, ?_⟩
      · simp [typesAfter, allTables, ddtNames_append, d2]
      · simp [typesAfter, d2', hf2]
    | 2, hj =>
      cases hj
      refine ⟨1, rfl, ?_, ?_⟩
      · simp only [typesAfter, allTables, List.take, List.flatMap_cons, List.flatMap_nil, ddtNames_append, List.append_nil]
        intro n hn
        exact List.mem_append_left _ hn
      · simp only [typesAfter, List.take, List.flatMap_cons, List.flatMap_nil, List.append_nil, List.nil_append]
        intro n hn
        exact List.mem_append_left _ hn

/-- **C87 is violated (1), examples.**  A second table foo: instead of an error message there is a KeyError (the title of a
section of a scheme is looked up among the tables), an AttributeError or, if no section has been read before, an
UnboundLocalError. -/
theorem C87_table_violated_example :
    exView (readAll exWorld [] [exTypes, exFoo, exFoo2]) = .crash .key ∧
    exView (readAll exWorld [] [exTypes, exFoo2, exFoo]) = .crash .attribute ∧
    exView (readAll exWorld [] [exBar, exBar]) = .crash .unbound := by
  refine ⟨?_, ?_, ?_⟩ <;> decide +kernel

/-- **C87 is violated (2).**  Fortran names do not distinguish upper and lower case, but two tables for the same derived
type (and two sections) are accepted if they are written differently. -/
theorem C87_case_violated :
    exView (readAll exWorld [] [exTypes, exUpper]) =
      .ok ([some "vmr_t".toList, some "VMR_T".toList],
        [("vmr_t".toList, "types.meta".toList), ("VMR_T".toList, "upper.meta".toList)]) ∧
    lower "VMR_T".toList = lower "vmr_t".toList := by
  refine ⟨?_, ?_⟩ <;> decide +kernel

end Ccpp.CF
