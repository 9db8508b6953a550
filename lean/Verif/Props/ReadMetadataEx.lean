import Verif.Props.ReadMetadata
import Verif.Props.MetadataFileMain
/-! # C80: violations and an example -/
namespace Ccpp.RM
open FDecl (Str)
open MF (All2)

/-! ## Dimensions of parsed variables -/

theorem varProp_ranges {env : MF.Env} {known : List Str} {d d' : MF.Props} {e : Str × Str} (h : MF.varProp env known d e = some d')
    (hd : ∀ ds, d "dimensions".toList = some (.list ds) → ∀ x ∈ ds, ':' ∈ x) :
    ∀ ds, d' "dimensions".toList = some (.list ds) → ∀ x ∈ ds, ':' ∈ x := by
  unfold MF.varProp at h
  split at h
  · split at h
    · cases h
      intro ds hds
      unfold MF.Props.set at hds
      rw [if_neg (by decide)] at hds
      exact hd ds hds
    · cases h
  · obtain ⟨v, hv, h⟩ := Option.map_eq_some_iff.1 h
    cases h
    intro ds hds
    unfold MF.Props.set at hds
    split at hds
    · next he =>
      unfold MF.rangesOf at hds
      rw [if_pos he.symm] at hds
      cases v with
      | list l =>
        simp only [Option.some.injEq, MF.Val.list.injEq] at hds
        subst hds
        intro x hx
        obtain ⟨y, _, rfl⟩ := List.mem_map.1 hx
        unfold MF.dimRange
        split
        · next hy => exact hy
        · simp
      | text s => cases hds
      | flag s => cases hds
      | number s => cases hds
    · exact hd ds hds

/-- Every dimension of a variable that was read from a metadata file is a range. -/
theorem C80_dims_are_ranges {env : MF.Env} {stype : Str} {known reg : List Str} {c : Str × List Str} {d : MF.Props}
    (h : MF.parseVariable env stype known reg c = some d) {ds : List Str} (hd : d "dimensions".toList = some (.list ds)) : ∀ x ∈ ds, ':' ∈ x := by
  unfold MF.parseVariable at h
  obtain ⟨name, _, h⟩ := Option.bind_eq_some_iff.1 h
  obtain ⟨es, _, h⟩ := Option.bind_eq_some_iff.1 h
  obtain ⟨d1, h1, h⟩ := Option.bind_eq_some_iff.1 h
  obtain ⟨sub, _, h⟩ := Option.bind_eq_some_iff.1 h
  have hall : ∀ (es : List (Str × Str)) (d0 d1 : MF.Props), (∀ ds, d0 "dimensions".toList = some (.list ds) → ∀ x ∈ ds, ':' ∈ x) →
      MF.varProps env known d0 es = some d1 → ∀ ds, d1 "dimensions".toList = some (.list ds) → ∀ x ∈ ds, ':' ∈ x := by
    intro es
    induction es with
    | nil => intro d0 d1 h0 he; cases he; exact h0
    | cons e es ih =>
      intro d0 d1 h0 he
      rw [MF.varProps] at he
      obtain ⟨d2, h2, he⟩ := Option.bind_eq_some_iff.1 he
      exact ih d2 d1 (varProp_ranges h2 h0) he
  have h0 := hall es _ d1 (by
    intro ds hds
    unfold MF.Props.set at hds
    rw [if_neg (by decide)] at hds
    cases hds) h1
  cases sub with
  | none =>
    simp only at h
    split at h
    · cases h; exact h0 ds hd
    · cases h
  | some n =>
    simp only at h
    split at h
    · cases h
      simp only [MF.Props.set] at hd
      rw [if_neg (by decide)] at hd
      exact h0 ds hd
    · cases h

/-- **The code violates C80, dimensions**: for variables as they are read from metadata files, the dimensions are never tested: a table of a run
phase with the dimension `horizontal_dimension` (read as `ccpp_constant_one:horizontal_dimension`) is accepted like any other. -/
theorem C80_dims_violated (ts : List NTable) (m table : Str) (scheme : Option Str) (h : ∀ v ∈ tableVars ts table, ∀ d ∈ v.dims, ':' ∈ d)
    (hact : ∀ v ∈ tableVars ts table, lower v.active = ".true.".toList ∧ v.optional = false ∧ v.std ≠ "horizontal_loop_extent".toList ∧ v.std ≠ "horizontal_dimension".toList)
    (hnd : ((tableVars ts table).map (·.std)).Nodup) : (readNew ts m table scheme).isSome = true := by
  rw [C80_accept_partial]
  refine ⟨fun v hv => ?_, hnd⟩
  obtain ⟨h1, h2, h3, h4⟩ := hact v hv
  have hno : ∀ x : Str, ':' ∉ x → x ∉ v.dims := fun x hx hm => hx (h v hv x hm)
  cases scheme with
  | some s => exact ⟨fun _ => ⟨h3, hno _ (by decide)⟩, fun _ => ⟨h4, hno _ (by decide)⟩, h1⟩
  | none => exact ⟨hno _ (by decide), h2, active_ne h1⟩

/-- **The code violates C80, missing tables**: a table that the file does not have is accepted and has no variables. -/
theorem C80_missing_violated (ts : List NTable) (m table : Str) (scheme : Option Str) (h : ∀ t ∈ ts, ∀ s ∈ t.sects, s.title ≠ table) :
    readNew ts m table scheme = some ([], []) := by
  have hv : ∀ {β : Type} (f : NTable → NSect → List β), (ts.flatMap fun t => t.sects.flatMap fun s => if s.title = table then f t s else []) = [] := by
    intro β f
    rw [List.flatMap_eq_nil_iff]
    intro t ht
    rw [List.flatMap_eq_nil_iff]
    intro s hs
    rw [if_neg (h t ht s hs)]
  rw [readNew_eq, tableVars, hv fun _ s => s.vars, hv fun t _ => depsOf t]
  rfl

/-! ## Example -/

def exVar (n : String) (dims : List String) (act : String) : NVar :=
  ⟨n.toList, n.toList, "K".toList, "x".toList, "REAL".toList, dims.map String.toList, "kind_phys".toList, false, some "in".toList, act.toList, false⟩

def exTables : List NTable :=
  [⟨"util".toList, ["a.F90".toList, "/b.F90".toList], [⟨"foo_init".toList, []⟩,
    ⟨"foo_run".toList, [exVar "air_temperature" ["ccpp_constant_one:horizontal_loop_extent"] ".TRUE.", { exVar "t" [] ".true." with ddt := true }]⟩]⟩]

/-- The table of `foo_run` -/
theorem C80_example : readNew exTables "foo".toList "foo_run".toList (some "foo".toList) =
    some ([("air_temperature".toList, ⟨"air_temperature".toList, "air_temperature".toList, "K".toList, "x".toList, "real".toList,
        ["ccpp_constant_one:horizontal_loop_extent".toList], "MODULE_foo SCHEME_foo SUBROUTINE_foo_run".toList, "kind_phys".toList, some "in".toList, ['T'], ['F']⟩),
      ("t".toList, ⟨"t".toList, "t".toList, "K".toList, "x".toList, "real".toList, [], "MODULE_foo SCHEME_foo SUBROUTINE_foo_run".toList, [],
        some "in".toList, ['T'], ['F']⟩)],
      ["util/a.F90".toList, "/b.F90".toList]) := by decide +kernel

/-- `horizontal_dimension` as a variable of a run phase is refused; a host variable has its condition without superfluous blanks. -/
theorem C80_example_refused : readNew [⟨[], [], [⟨"foo_run".toList, [exVar "horizontal_dimension" [] ".true."]⟩]⟩] "foo".toList "foo_run".toList (some "foo".toList) = none ∧
    (readNew [⟨[], [], [⟨"mod".toList, [exVar "t" [] " (a   >  b) "]⟩]⟩] "mod".toList "mod".toList none).map (fun r => r.1.map fun e => (e.2.active, e.2.container)) =
      some [("(a > b)".toList, "MODULE_mod".toList)] := by decide +kernel

end Ccpp.RM
