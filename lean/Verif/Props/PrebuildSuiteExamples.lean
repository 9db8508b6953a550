import Verif.Props.PrebuildFilter
import Verif.Props.PrebuildExamples
/-!
# C70: examples and violations
-/
namespace Ccpp.PB

/-- A request by a stage of a scheme. -/
def rqs (n st std type kind units intent : String) (dims : List String) : Var :=
  { std := std.toList, units := units.toList, loc := "x".toList, type := type.toList, dims := dims.map String.toList,
    kind := kind.toList, intent := intent.toList, active := "T".toList,
    container := some ("MODULE_".toList ++ n.toList ++ " SCHEME_".toList ++ n.toList ++ " SUBROUTINE_".toList ++ n.toList ++
      "_".toList ++ st.toList) }

/-- A table with the error variables and one more. -/
def tabs (n st std type kind units intent : String) (dims : List String) : List Var :=
  [rqs n st std type kind units intent dims, rqs n st "ccpp_error_message" "character" "len=*" "none" "out" [],
   rqs n st "ccpp_error_code" "integer" "" "1" "out" []]

/-- A child that is a group. -/
def grp (name : String) (subs : List (Option Int × List String)) : Child :=
  ⟨.group, some name.toList, [], subs.map fun s => ⟨s.1, s.2.map String.toList⟩⟩

/-- A suite definition. -/
def sdf (name : String) (cs : List Child) : SuiteXml := ⟨"suite_".toList ++ name.toList ++ ".xml".toList, name.toList, cs⟩

/-- One suite with a subcycle. -/
def exX : SuiteXml := sdf "t" [⟨.init, some "i".toList, "a".toList, []⟩, grp "physics" [(some 2, ["s", "b"])]]

/-- Its contents. -/
def exS : Suite :=
  ⟨"t".toList, ["a".toList, "s".toList, "b".toList],
   ["a_init".toList, "s_tsinit".toList, "s_tsfinal".toList, "s_init".toList, "s_run".toList, "s_final".toList,
    "b_tsinit".toList, "b_tsfinal".toList, "b_init".toList, "b_run".toList, "b_final".toList],
   [⟨some "init".toList, .init, [(1, ["a".toList])]⟩, ⟨some "physics".toList, .group, [(2, ["s".toList, "b".toList])]⟩],
   [("i".toList, []), ("physics".toList, [])]⟩

theorem exS_parsed : Parsed [exX] [exS] := .cons (by decide +kernel) .nil

theorem exX_regular : ∀ x ∈ [exX], Regular x := by
  unfold Regular
  decide

theorem exX_noFinalize : NoFinalize [exX] := by
  unfold NoFinalize
  decide

/-- The scheme `s` is in the suite, `u` is not, and the host does not know what `u` requests. -/
def exF : List (List (List Var)) :=
  [[tabs "s" "run" "temp" "real" "kind_phys" "K" "in" ["horizontal_loop_extent", "vertical_dimension"], []],
   [tabs "u" "run" "unknown" "real" "kind_phys" "K" "in" []]]

theorem not_occurs {p s : Str} (h : (find p s).isNone = true) : ¬ Occurs p s := by
  rintro ⟨a, b, rfl⟩
  induction a with
  | nil =>
    cases hp : p ++ b with
    | nil =>
      have : p = [] := (List.append_eq_nil_iff.1 hp).1
      rw [List.nil_append, hp, find, if_pos this] at h
      cases h
    | cons c t =>
      rw [List.nil_append, hp, find, if_pos] at h
      · cases h
      · rw [startsWith_iff]; exact ⟨b, hp.symm⟩
  | cons c a ih =>
    apply ih
    rw [List.cons_append, List.cons_append, find] at h
    split at h
    · cases h
    · cases hf : find p (a ++ p ++ b) with
      | none => rfl
      | some i => rw [hf] at h; cases h

theorem clean_of {n : Str} (h : ([("timestep_init".toList), "timestep_finalize".toList, "finalize".toList, "SUBROUTINE".toList].all
    fun p => (find p n).isNone) = true) (h2 : ' ' ∉ n) (h3 : n.length < 8) : Clean n := by
  rw [List.all_eq_true] at h
  refine ⟨not_occurs (h _ (by simp)), not_occurs (h _ (by simp)), not_occurs (h _ (by simp)), ?_, h2, not_occurs (h _ (by simp))⟩
  intro a ha
  have := congrArg List.length ha
  have h8 : "timestep".toList.length = 8 := by decide
  rw [List.length_append, h8] at this
  omega

theorem exF_clean : ∀ v ∈ exF.flatten.flatten, CleanVar v := by
  have hs : Clean "s".toList := clean_of (by decide) (by decide) (by decide)
  have hu : Clean "u".toList := clean_of (by decide) (by decide) (by decide)
  have key : ∀ v ∈ exF.flatten.flatten, ∃ n ∈ ["s".toList, "u".toList],
      v.container = some ("MODULE_".toList ++ n ++ " SCHEME_".toList ++ n ++ " SUBROUTINE_".toList ++ n ++ "_".toList ++ "run".toList) := by
    decide
  intro v hv
  obtain ⟨n, hn, hc⟩ := key v hv
  have hcn : Clean n := by
    rcases List.mem_cons.1 hn with rfl | hn
    · exact hs
    · rcases List.mem_cons.1 hn with rfl | hn
      · exact hu
      · cases hn
  exact ⟨n, "run".toList, hcn, Or.inr (Or.inr (Or.inr (Or.inl rfl))), n, hcn.2.2.2.2.1, hcn.2.2.2.2.2, hc⟩

theorem success_of' {host : Dict} {ss : List Suite} {files : List (List (List Var))}
    (h : (matchSuites host ss files).map (·.1) = some true) : ∃ ms md, matchSuites host ss files = some (true, ms, md) := by
  obtain ⟨⟨b, ms, md⟩, h1, h2⟩ := Option.map_eq_some_iff.1 h
  cases h2
  exact ⟨ms, md, h1⟩

/-- The theorems apply: what only `u` requests is not needed; without the suite the matching fails. -/
theorem ex_filtered : (∃ ms md, matchSuites exHost [exS] exF = some (true, ms, md)) ∧ ¬ ∃ ms md, matchVars exHost exF = some (true, ms, md) := by
  refine ⟨success_of' (by decide +kernel), ?_⟩
  rintro ⟨ms, md, h⟩
  have : ((matchVars exHost exF).map (·.1)) = some false := by decide +kernel
  rw [h] at this
  cases this

/-- The requests that count exist. -/
theorem counts_exists (xs : List SuiteXml) (files : List (List (List Var))) : ∃ R, Counts xs files R := by
  classical
  refine ⟨fun k => if ∃ v ∈ reqs files.flatten.flatten k, CalledVar xs v then reqs files.flatten.flatten k else suiteReq k,
    fun k => ⟨fun h => if_pos h, fun h => if_neg h⟩⟩

example : ∃ R, Counts [exX] exF R ∧ AcceptableFor exHost R exF := by
  obtain ⟨R, hR⟩ := counts_exists [exX] exF
  exact ⟨R, hR, (C70_accepted_partial exHost_ok exS_parsed exX_regular exX_noFinalize exF_clean hR).1 ex_filtered.1⟩

/-! ## Violations -/

/-- A scheme called in the group of a suite. -/
def nmX (n : String) : SuiteXml := sdf "t" [grp "physics" [(some 1, [n])]]

/-- The file of a scheme that requests what the host does not provide. -/
def nmF (n st : String) : List (List (List Var)) := [[tabs n st "unknown" "real" "kind_phys" "K" "in" []]]

/-- **C70**: the variables of a called scheme whose name contains `finalize` are dropped: the matching succeeds although the host
does not provide what the scheme requests. -/
theorem C70_name_violated : ∃ (x : SuiteXml) (s : Suite) (n : Str) (v : Var) (files : List (List (List Var))) (ms : List Str) (md : Dict),
    Regular x ∧ parseSuite false x = some (some s) ∧ InGroup x n ∧ From v n "run".toList ∧ v ∈ files.flatten.flatten ∧
    get exHost v.std = none ∧ matchSuites exHost [s] files = some (true, ms, md) := by
  have hp : ∃ s, parseSuite false (nmX "finalize_it") = some (some s) ∧
      (matchSuites exHost [s] (nmF "finalize_it" "run")).map (·.1) = some true := by
    refine ⟨⟨"t".toList, ["finalize_it".toList], stages.map fun g => "finalize_it_".toList ++ g.2,
      [⟨some "physics".toList, .group, [(1, ["finalize_it".toList])]⟩], [("physics".toList, [])]⟩, by decide +kernel, by decide +kernel⟩
  obtain ⟨s, h1, h2⟩ := hp
  obtain ⟨ms, md, h3⟩ := success_of' h2
  refine ⟨_, s, "finalize_it".toList, rqs "finalize_it" "run" "unknown" "real" "kind_phys" "K" "in" [], _, ms, md, ?_, h1, ?_, ?_, ?_, ?_, h3⟩
  · unfold Regular; decide
  · exact ⟨grp "physics" [(some 1, ["finalize_it"])], by simp [nmX, sdf], rfl, ⟨some 1, ["finalize_it".toList]⟩, by simp [grp], by simp⟩
  · exact ⟨"finalize_it".toList, by decide, not_occurs (by decide), rfl⟩
  · decide
  · decide

/-- A suite with a scheme for the finalization of the whole suite. -/
def finX : SuiteXml := sdf "t" [⟨.finalize, some "f".toList, "s".toList, []⟩]

/-- **C70**: the variables of the scheme for the finalization of the whole suite are dropped. -/
theorem C70_finalize_violated : ∃ (x : SuiteXml) (s : Suite) (v : Var) (files : List (List (List Var))) (ms : List Str) (md : Dict),
    Regular x ∧ parseSuite false x = some (some s) ∧ CallsAt x "s".toList "finalize".toList ∧ Clean "s".toList ∧
    From v "s".toList "finalize".toList ∧ v ∈ files.flatten.flatten ∧ get exHost v.std = none ∧
    matchSuites exHost [s] files = some (true, ms, md) := by
  have hp : ∃ s, parseSuite false finX = some (some s) ∧ (matchSuites exHost [s] (nmF "s" "finalize")).map (·.1) = some true :=
    ⟨⟨"t".toList, ["s".toList], ["s_finalize".toList],
      [⟨some "finalize".toList, .finalize, [(1, ["s".toList])]⟩], [("f".toList, [])]⟩, by decide +kernel, by decide +kernel⟩
  obtain ⟨s, h1, h2⟩ := hp
  obtain ⟨ms, md, h3⟩ := success_of' h2
  refine ⟨_, s, rqs "s" "finalize" "unknown" "real" "kind_phys" "K" "in" [], _, ms, md, ?_, h1, ?_, ?_, ?_, ?_, ?_, h3⟩
  · unfold Regular; decide
  · exact Or.inr (Or.inr ⟨⟨_, List.mem_singleton.2 rfl, rfl, rfl⟩, rfl⟩)
  · exact clean_of (by decide) (by decide) (by decide)
  · exact ⟨"s".toList, by decide, not_occurs (by decide), rfl⟩
  · decide
  · decide

/-- **C70**: a scheme in no suite makes the matching fail if it requests a variable of a called scheme in units that cannot be
converted. -/
theorem C70_uncalled_violated : ∃ files : List (List (List Var)), ∃ v ∈ files.flatten.flatten, ¬ CalledVar [exX] v ∧
    (∃ ms md, matchSuites exHost [exS] (files.map fun f => f.map fun t => t.filter fun w => w.container != v.container) = some (true, ms, md)) ∧
    ¬ ∃ ms md, matchSuites exHost [exS] files = some (true, ms, md) := by
  refine ⟨[[tabs "s" "run" "temp" "real" "kind_phys" "K" "in" ["horizontal_loop_extent", "vertical_dimension"]],
    [tabs "u" "run" "temp" "real" "kind_phys" "m" "in" ["horizontal_loop_extent", "vertical_dimension"]]],
    rqs "u" "run" "temp" "real" "kind_phys" "m" "in" ["horizontal_loop_extent", "vertical_dimension"], by decide, ?_,
    success_of' (by decide +kernel), ?_⟩
  · have hc : CleanVar (rqs "u" "run" "temp" "real" "kind_phys" "m" "in" ["horizontal_loop_extent", "vertical_dimension"]) :=
      ⟨"u".toList, "run".toList, clean_of (by decide) (by decide) (by decide), Or.inr (Or.inr (Or.inr (Or.inl rfl))), "u".toList,
        by decide, not_occurs (by decide), rfl⟩
    obtain ⟨b, h1, h2⟩ := called_iff exS_parsed exX_regular exX_noFinalize hc
    intro h
    have h3 := h2.2 h
    subst h3
    revert h1
    decide +kernel
  · rintro ⟨ms, md, h⟩
    have : (matchSuites exHost [exS] [[tabs "s" "run" "temp" "real" "kind_phys" "K" "in" ["horizontal_loop_extent", "vertical_dimension"]],
      [tabs "u" "run" "temp" "real" "kind_phys" "m" "in" ["horizontal_loop_extent", "vertical_dimension"]]]).isNone = true := by decide +kernel
    rw [h] at this
    cases this

/-- **C70**: a scheme for the initialization of the whole suite without attribute `name` is an error, although the name is not used. -/
theorem C70_init_name_violated : ∃ x : SuiteXml, NameOk x ∧ (∀ c ∈ x.children, c.tag = .init) ∧ ∀ make, parseSuite make x = none :=
  ⟨sdf "t" [⟨.init, none, "s".toList, []⟩], nameOk_iff.1 (by decide), by decide, by decide⟩

/-- **C70**: an empty subcycle is an error if it is the first one, otherwise it takes the number of loops of the one before. -/
theorem C70_empty_violated :
    parseSuite false (sdf "t" [grp "g" [(some 3, [])]]) = none ∧
    ∃ s, parseSuite false (sdf "t" [grp "g" [(some 2, ["a"]), (some 3, [])]]) = some (some s) ∧
      s.groups.map (·.subs) = [[(2, ["a".toList]), (2, [])]] := by
  refine ⟨by decide +kernel, ⟨"t".toList, ["a".toList], ["a_tsinit".toList, "a_tsfinal".toList, "a_init".toList, "a_run".toList, "a_final".toList],
    [⟨some "g".toList, .group, [(2, ["a".toList]), (2, [])]⟩], [("g".toList, [])]⟩, by decide +kernel, rfl⟩

/-- **C70**: of two groups with the same name only the second is in the tree of calls. -/
theorem C70_tree_violated : ∃ (x : SuiteXml) (s : Suite), Regular x ∧ parseSuite true x = some (some s) ∧
    InGroup x "a".toList ∧ s.tree = [("g".toList, ["b".toList])] := by
  refine ⟨sdf "t" [grp "g" [(some 1, ["a"])], grp "g" [(some 1, ["b"])]], ⟨"t".toList, ["a".toList, "b".toList],
    ["a_tsinit".toList, "a_tsfinal".toList, "a_init".toList, "a_run".toList, "a_final".toList,
     "b_tsinit".toList, "b_tsfinal".toList, "b_init".toList, "b_run".toList, "b_final".toList],
    [⟨some "g".toList, .group, [(1, ["a".toList])]⟩, ⟨some "g".toList, .group, [(1, ["b".toList])]⟩], [("g".toList, ["b".toList])]⟩,
    ?_, by decide +kernel, ?_, rfl⟩
  · unfold Regular; decide
  · exact ⟨grp "g" [(some 1, ["a"])], by simp [sdf], rfl, ⟨some 1, ["a".toList]⟩, by simp [grp], by simp⟩

end Ccpp.PB
