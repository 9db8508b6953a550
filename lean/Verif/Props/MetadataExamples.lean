import Verif.Props.MetadataFileMain
/-!
# C62: examples; C63: what is written takes effect
-/
namespace Ccpp.MF

open Ccpp.FDecl (Str)
open Ccpp.FSub (Begins)

/-- A framework for the examples: text properties, dimensions, types; a derived type must be registered. -/
def exEnv : Env where
  value := fun k v =>
    if k = "dimensions".toList then (Chk.listMatch v).map fun l => .list (if l = [[]] then [] else l)
    else if k ∈ ["local_name".toList, "standard_name".toList, "units".toList, "type".toList, "kind".toList, "intent".toList]
    then some (.text v) else none
  intrinsic := fun v => decide (v ∈ ["real".toList, "integer".toList, "logical".toList])
  accept := fun _ reg p => (p "standard_name".toList).isSome &&
    (match p "ddt_type".toList with
      | some (.text t) => reg t
      | _ => (p "type".toList).isSome)
  addOk := fun done p => done.all fun q => q "standard_name".toList != p "standard_name".toList
  join := fun a b => a ++ '/' :: b
  abspath := id
  dirname := "/src".toList
  defaultModule := "mod".toList

theorem exEnv_ok : exEnv.Ok := by
  refine ⟨?_, fun v => ?_, ?_⟩
  · intro k v w h
    unfold exEnv at h
    simp only at h
    split at h
    · rename_i hk; rw [hk]; decide
    · split at h
      · rename_i hk
        simp only [List.mem_cons, List.not_mem_nil, or_false] at hk
        rcases hk with rfl | rfl | rfl | rfl | rfl | rfl <;> decide
      · cases h
  · unfold exEnv
    simp only
    rw [if_neg (by decide), if_neg (by decide)]
  · intro v w h
    unfold exEnv at h
    simp only at h
    rw [if_pos trivial, Option.map_eq_some_iff] at h
    obtain ⟨l, _, rfl⟩ := h
    exact ⟨_, rfl⟩

/-- A file with a derived type and a scheme. -/
def exFile : List Str :=
  ["# types and a scheme".toList,
   "[ccpp-table-properties]".toList,
   "  name = vmr_t".toList,
   "  type = ddt".toList,
   "  dependencies = a.F90, b.F90".toList,
   "  relative_path = ../lib".toList,
   "[ccpp-arg-table]".toList,
   "  name = vmr_t | type = ddt".toList,
   "[ nvmr ]".toList,
   "  standard_name = number | units = count".toList,
   "  type = integer | dimensions = ()".toList,
   "".toList,
   "[ccpp-table-properties]".toList,
   "  name = foo".toList,
   "  type = scheme".toList,
   "[ccpp-arg-table]".toList,
   "  name = foo_run".toList,
   "  type = scheme".toList,
   "; the arguments".toList,
   "[ q(:, \\".toList,
   "index) ]".toList,
   "  standard_name = water | units = kg".toList,
   "  type = real | kind = kind_phys".toList,
   "  dimensions = (ncol)".toList,
   "[ v ]".toList,
   "  standard_name = ratios | type = vmr_t | dimensions = ()".toList]

/-- Name, type and dependencies of all tables. -/
def exTables (r : List Table × Types) : List (Option Str × Option Str × List Str) :=
  r.1.map fun t => (t.name, t.type, t.deps)

/-- Title, type, module of all sections. -/
def exSects (r : List Table × Types) : List (Str × Str × Str) :=
  r.1.flatMap fun t => t.sects.map fun s => (s.title, s.type, s.module)

/-- The properties of all variables. -/
def exProp (k : Str) (r : List Table × Types) : List (Option Val) :=
  r.1.flatMap fun t => t.sects.flatMap fun s => s.vars.map fun p => p k

/-- The example file is read (the lines are also joined: `[ q(:, index) ]` is written on two lines). -/
theorem C62_example :
    (parseFile exEnv ⟨[], []⟩ (PO.logical exFile)).map exTables = some
      [(some "vmr_t".toList, some "ddt".toList, ["/src/../lib/a.F90".toList, "/src/../lib/b.F90".toList]),
        (some "foo".toList, some "scheme".toList, [])] ∧
    (parseFile exEnv ⟨[], []⟩ (PO.logical exFile)).map exSects = some
      [("vmr_t".toList, "ddt".toList, "mod".toList), ("foo_run".toList, "scheme".toList, "mod".toList)] ∧
    (parseFile exEnv ⟨[], []⟩ (PO.logical exFile)).map (fun r => r.2.known) = some ["vmr_t".toList, "vmr_t".toList] ∧
    (parseFile exEnv ⟨[], []⟩ (PO.logical exFile)).map (exProp "local_name".toList) =
      some [some (.text "nvmr".toList), some (.text "q(:, index)".toList), some (.text "v".toList)] ∧
    (parseFile exEnv ⟨[], []⟩ (PO.logical exFile)).map (exProp "dimensions".toList) =
      some [some (.list []), some (.list ["ccpp_constant_one:ncol".toList]), some (.list [])] ∧
    (parseFile exEnv ⟨[], []⟩ (PO.logical exFile)).map (exProp "ddt_type".toList) =
      some [none, none, some (.text "vmr_t".toList)] := by
  refine ⟨by decide, by decide, by decide, by decide, by decide, by decide⟩

/-- So the right side of C62 holds for it. -/
theorem C62_example_meets : ∃ ts docs, FileText (PO.logical exFile) docs ∧ FileMeans exEnv ⟨[], []⟩ docs ts := by
  have h := C62_example.1
  cases hp : parseFile exEnv ⟨[], []⟩ (PO.logical exFile) with
  | none => rw [hp] at h; cases h
  | some r =>
    obtain ⟨docs, h⟩ := (C62_metadata_file exEnv_ok ⟨[], []⟩ exFile r.1).1.1 ⟨r.2, hp⟩
    exact ⟨r.1, docs, h⟩

end Ccpp.MF
