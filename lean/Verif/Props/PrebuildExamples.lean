import Verif.Props.PrebuildMain
/-!
# C69: examples and violations
-/
namespace Ccpp.PB

/-- A requested variable. -/
def rq (std type kind units intent : String) (dims : List String) (sub : String) : Var :=
  { std := std.toList, units := units.toList, loc := "x".toList, type := type.toList, dims := dims.map String.toList,
    kind := kind.toList, intent := intent.toList, active := "T".toList,
    container := some ("MODULE_s SCHEME_s SUBROUTINE_".toList ++ sub.toList) }

/-- A table with the error variables and one more. -/
def tab (sub : String) (v : String → Var) : List Var :=
  [v sub, rq "ccpp_error_message" "character" "len=*" "none" "out" [] sub, rq "ccpp_error_code" "integer" "" "1" "out" [] sub]

/-- A variable of the host. -/
def hvar (std loc type kind units : String) (dims : List String) : Var :=
  { std := std.toList, units := units.toList, loc := loc.toList, type := type.toList, dims := dims.map String.toList,
    kind := kind.toList, intent := "none".toList, active := "T".toList, container := some "MODULE_hm".toList }

/-- Its entry. -/
def hv (std loc type kind units : String) (dims : List String) : Str × List Var :=
  (std.toList, [hvar std loc type kind units dims])

/-- A host. -/
def exHost : Dict :=
  [hv "ccpp_error_message" "cdata%errmsg" "character" "len=512" "none" [], hv "ccpp_error_code" "cdata%errflg" "integer" "" "1" [],
   hv "ccpp_loop_counter" "cdata%loop_cnt" "integer" "" "index" [], hv "ccpp_loop_extent" "cdata%loop_max" "integer" "" "count" [],
   hv "length" "len10" "character" "len=10" "none" [],
   hv "temp" "tt" "real" "kind_phys" "K" ["horizontal_loop_extent", "vertical_dimension"]]

theorem get_mem {d : Dict} {k : Str} {l : List Var} (h : get d k = some l) : (k, l) ∈ d := by
  induction d with
  | nil => cases h
  | cons e d ih =>
    rw [get] at h
    split at h
    · rename_i hk
      cases h; subst hk
      exact List.mem_cons_self
    · exact List.mem_cons_of_mem _ (ih h)

theorem exHost_ok : HostOk exHost := by
  have key : ∀ e ∈ exHost, e.2 ≠ [] ∧ ∀ h ∈ e.2, h.std = e.1 ∧ h.container = some ("MODULE_".toList ++ "hm".toList) := by decide
  constructor
  · intro k l hg
    have := key _ (get_mem hg)
    exact ⟨this.1, fun h hh => (this.2 h hh).1⟩
  · intro k l hg h hh
    exact ⟨"hm".toList, by decide, Or.inl ((key _ (get_mem hg)).2 h hh).2⟩

theorem success_of {host : Dict} {files : List (List (List Var))} (h : (matchVars host files).map (·.1) = some true) :
    ∃ ms md, matchVars host files = some (true, ms, md) := by
  obtain ⟨⟨b, ms, md⟩, h1, h2⟩ := Option.map_eq_some_iff.1 h
  cases h2
  exact ⟨ms, md, h1⟩

/-- Two files: the temperature in other units, and in those of the host. -/
def exFiles : List (List (List Var)) :=
  [[tab "a_run" (rq "temp" "real" "kind_phys" "C" "inout" ["horizontal_loop_extent", "vertical_dimension"])],
   [tab "b_run" (rq "temp" "real" "kind_phys" "K" "in" ["horizontal_loop_extent", "vertical_dimension"]), []]]

/-- The theorems apply: the two requests of the temperature are matched, the first one with conversions. -/
theorem ex_matched : ∃ ms md, matchVars exHost exFiles = some (true, ms, md) ∧ ms = ["hm".toList] ∧
    (get md "temp".toList).map (·.map fun v => (v.target, v.actIn, v.actOut)) =
      some [(some "tt".toList, some "{var}-273.15{kind}".toList, some "{var}+273.15{kind}".toList), (some "tt".toList, none, none)] ∧
    (get md "ccpp_error_message".toList).map (·.map (·.kind)) = some ["len=512".toList, "len=512".toList] := by
  obtain ⟨ms, md, h⟩ := success_of (host := exHost) (files := exFiles) (by decide +kernel)
  have h1 : (matchVars exHost exFiles).map (·.2.1) = some ["hm".toList] := by decide +kernel
  have h2 : (matchVars exHost exFiles).bind (fun r => (get r.2.2 "temp".toList).map (·.map fun v => (v.target, v.actIn, v.actOut))) =
      some [(some "tt".toList, some "{var}-273.15{kind}".toList, some "{var}+273.15{kind}".toList), (some "tt".toList, none, none)] := by
    decide +kernel
  have h3 : (matchVars exHost exFiles).bind (fun r => (get r.2.2 "ccpp_error_message".toList).map (·.map (·.kind))) =
      some ["len=512".toList, "len=512".toList] := by decide +kernel
  rw [h] at h1 h2 h3
  exact ⟨ms, md, h, Option.some.inj h1, h2, h3⟩

example : Acceptable exHost exFiles := by
  obtain ⟨ms, md, h, _⟩ := ex_matched
  exact (C69_accepted_iff exHost_ok exFiles).1 ⟨ms, md, h⟩

/-- A file that requests a character of a given length. -/
def lenFile (sub len : String) : List (List Var) := [tab sub (rq "length" "character" len "none" "in" [])]

/-- **C69**: after a request with assumed length one of another length than that of the host is accepted. -/
theorem C69_length_violated : ∃ (host : Dict) (files : List (List (List Var))) (ms : List Str) (md : Dict) (h v : Var),
    HostOk host ∧ matchVars host files = some (true, ms, md) ∧ get host v.std = some [h] ∧ v ∈ allReqs files v.std ∧
    v.type = "character".toList ∧ h.kind = "len=10".toList ∧ v.kind = "len=20".toList := by
  obtain ⟨ms, md, h⟩ := success_of (host := exHost) (files := [lenFile "a_run" "len=*", lenFile "b_run" "len=20"]) (by decide +kernel)
  exact ⟨exHost, _, ms, md, hvar "length" "len10" "character" "len=10" "none" [], rq "length" "character" "len=20" "none" "in" [] "b_run",
    exHost_ok, h, by decide +kernel, by decide +kernel, rfl, rfl, rfl⟩

/-- **C69**: the success depends on the order of the scheme files. -/
theorem C69_order_violated : ∃ (host : Dict) (f g : List (List Var)), HostOk host ∧
    (∃ ms md, matchVars host [f, g] = some (true, ms, md)) ∧ ¬ ∃ ms md, matchVars host [g, f] = some (true, ms, md) := by
  refine ⟨exHost, lenFile "a_run" "len=*", lenFile "b_run" "len=20", exHost_ok,
    success_of (by decide +kernel), ?_⟩
  rintro ⟨ms, md, h⟩
  have : ((matchVars exHost [lenFile "b_run" "len=20", lenFile "a_run" "len=*"]).map (·.1)) = some false := by decide +kernel
  rw [h] at this
  cases this

/-- **C69**: only the number of dimensions is compared: a request with the dimensions exchanged is matched. -/
theorem C69_dimensions_violated : ∃ (host : Dict) (files : List (List (List Var))) (ms : List Str) (md : Dict) (h v : Var),
    HostOk host ∧ matchVars host files = some (true, ms, md) ∧ get host v.std = some [h] ∧ v ∈ allReqs files v.std ∧
    h.dims = ["horizontal_loop_extent".toList, "vertical_dimension".toList] ∧
    v.dims = ["vertical_dimension".toList, "horizontal_loop_extent".toList] := by
  obtain ⟨ms, md, h⟩ := success_of (host := exHost)
    (files := [[tab "a_run" (rq "temp" "real" "kind_phys" "K" "in" ["vertical_dimension", "horizontal_loop_extent"])]]) (by decide +kernel)
  exact ⟨exHost, _, ms, md, hvar "temp" "tt" "real" "kind_phys" "K" ["horizontal_loop_extent", "vertical_dimension"],
    rq "temp" "real" "kind_phys" "K" "in" ["vertical_dimension", "horizontal_loop_extent"] "a_run",
    exHost_ok, h, by decide +kernel, by decide +kernel, rfl, rfl⟩

end Ccpp.PB
