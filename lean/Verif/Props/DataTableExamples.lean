import Verif.Props.DataTableVars
/-!
# C66: examples and violations
-/
namespace Ccpp.DT
open XF

/-- A variable for the examples. -/
def exVar (name intent : String) (prot : Bool) : Var :=
  { name := name.toList, intent := some intent.toList, localName := name.toList,
    props := if prot then [("protected".toList, "True".toList)] else [], dims := ["horizontal_dimension".toList],
    sourceType := "scheme".toList, sourceName := "s".toList }

/-- A scheme for the examples. -/
def exScheme (name : String) (vs : List Var) : Scheme :=
  { name := name.toList, dict := ⟨[], []⟩, callList := ⟨[], vs⟩, hasRun := true, subroutine := name.toList ++ "_run".toList,
    filename := name.toList ++ ".F90".toList }

/-- A group for the examples. -/
def exGroup (name : String) (vs : List Var) (parts : List Obj) : Group :=
  { name := name.toList, phase := "run".toList, dict := ⟨[], []⟩, callList := ⟨[], vs⟩, parts := parts }

/-- A suite for the examples. -/
def exSuite (name : String) (vs : List Var) (groups : List Group) : Suite :=
  { name := name.toList, sdf := '/' :: name.toList ++ ".xml".toList, dict := ⟨[], vs⟩, groups := groups }

/-- Data with these suites; the host has a protected variable `p` and a variable `q`. -/
def exData (suites : List Suite) : Data :=
  { kinds := "ccpp_kinds.F90".toList, sourceDir := "/src".toList, hostFiles := ["host_cap.F90".toList],
    suiteFiles := ["s_cap.F90".toList],
    headers := [⟨"rad_run".toList, some "radiation".toList, some "rad_mod".toList⟩,
      ⟨"mix_run".toList, none, some "mix_mod".toList⟩],
    suites := suites, hostName := "host".toList, host := ⟨[], [exVar "p" "in" true, exVar "q" "in" false]⟩,
    apiName := "ccpp_api".toList, api := ⟨[], []⟩, hostDeps := ["b.F90".toList], schemeDeps := ["a.F90".toList, "b.F90".toList] }

/-- One suite with two groups. -/
def exSuites : List Suite :=
  [exSuite "s" [exVar "u" "in" true] [
    exGroup "s_g1" [exVar "p" "in" false, exVar "t" "inout" false, exVar "w" "out" false]
      [.timeSplit "s_g1_ts".toList ⟨[], []⟩ [.scheme (exScheme "rad" [exVar "p" "in" false]),
        .subcycle "loop".toList "2".toList ⟨[], []⟩ [.scheme (exScheme "mix" [exVar "t" "inout" false])]]],
    exGroup "s_g2" [exVar "q" "in" false, exVar "u" "in" false] [.scheme (exScheme "mix" [exVar "q" "in" false])]]]

instance (s : Str) : Decidable (NoSlash s) := inferInstanceAs (Decidable (¬ _))
instance (s : Str) : Decidable (FileName s) := inferInstanceAs (Decidable (_ ∧ _))
instance (c : Char) : Decidable (NameChar c) := inferInstanceAs (Decidable (_ ∨ _))
instance (s : Str) : Decidable (Name s) := inferInstanceAs (Decidable (_ ∧ _))

theorem exVar_ok {n i : String} {b : Bool} (hn : NoSlash n.toList) (hi : NoSlash i.toList) : (exVar n i b).Ok := by
  refine ⟨hn, ?_, hn, ?_, ?_⟩
  · intro j hj
    injection hj with hj
    subst hj
    exact hi
  · intro a ha
    cases b with
    | false => cases ha
    | true =>
      have : a = ("protected".toList, "True".toList) := by simpa [exVar] using ha
      subst this
      decide
  · cases b with
    | false => exact List.nodup_nil
    | true => exact (by decide : (["protected".toList] : List Str).Nodup)

theorem dict_ok {vs : List Var} (h : ∀ v ∈ vs, v.Ok) (hn : (vs.map (·.name)).Nodup) : (Dict.mk [] vs).Ok := ⟨h, hn⟩

theorem exData_ok {ss : List Suite} (h1 : ∀ s ∈ ss, s.dict.Ok) (h2 : ∀ s ∈ ss, ∀ g ∈ s.groups, g.Ok (exData []).headers)
    (h3 : ∀ s ∈ ss, ∃ g ∈ s.groups, g.parts ≠ []) : (exData ss).Ok where
  kinds := (by decide : FileName (exData []).kinds)
  sourceDir := by
    intro f hf
    simp only [List.mem_cons, List.not_mem_nil, or_false] at hf
    rcases hf with rfl | rfl | rfl
    · exact (by decide : FileName (pathJoin (exData []).sourceDir "ccpp_constituent_prop_mod.F90".toList))
    · exact (by decide : FileName (pathJoin (exData []).sourceDir "ccpp_hashable.F90".toList))
    · exact (by decide : FileName (pathJoin (exData []).sourceDir "ccpp_hash_table.F90".toList))
  hostFiles := (by decide : ∀ f ∈ (exData []).hostFiles, FileName f)
  suiteFiles := (by decide : ∀ f ∈ (exData []).suiteFiles, FileName f)
  hostDeps := (by decide : ∀ f ∈ (exData []).hostDeps, FileName f)
  schemeDeps := (by decide : ∀ f ∈ (exData []).schemeDeps, FileName f)
  headers := (by decide : ((exData []).headers.map (·.title)).Nodup)
  process := (by decide : ∀ h ∈ (exData []).headers, h.process ≠ some [])
  host := by
    refine dict_ok ?_ (by decide)
    intro v hv
    simp only [List.mem_cons, List.not_mem_nil, or_false] at hv
    rcases hv with rfl | rfl <;> exact exVar_ok (by decide) (by decide)
  api := dict_ok (by simp) (by simp)
  dicts := h1
  groups := h2
  filled := h3

theorem exGroup_ok {n : String} {vs : List Var} {ps : List Obj} (hn : Name n.toList) (hs : NoSlash n.toList)
    (hv : ∀ v ∈ vs, v.Ok) (hd : (vs.map (·.name)).Nodup) (hp : ∀ o ∈ ps, Obj.Ok (exData []).headers o) :
    (exGroup n vs ps).Ok (exData []).headers where
  name := hn
  noSlash := hs
  phase := (by decide : Name "run".toList)
  noSlashPhase := (by decide : NoSlash "run".toList)
  dict := dict_ok (by simp) (by simp)
  callList := dict_ok hv hd
  parts := hp

theorem exRad_ok {vs : List Var} (hv : ∀ v ∈ vs, v.Ok) (hd : (vs.map (·.name)).Nodup) :
    Obj.Ok (exData []).headers (.scheme (exScheme "rad" vs)) :=
  .scheme (by decide : NoSlash "rad".toList) (by decide : "rad".toList ≠ "scheme".toList) (dict_ok (by simp) (by simp))
    (dict_ok hv hd) fun _ => ⟨_, List.mem_cons_self, rfl⟩

theorem exMix_ok {vs : List Var} (hv : ∀ v ∈ vs, v.Ok) (hd : (vs.map (·.name)).Nodup) :
    Obj.Ok (exData []).headers (.scheme (exScheme "mix" vs)) :=
  .scheme (by decide : NoSlash "mix".toList) (by decide : "mix".toList ≠ "scheme".toList) (dict_ok (by simp) (by simp))
    (dict_ok hv hd) fun _ => ⟨_, List.mem_cons_of_mem _ List.mem_cons_self, rfl⟩

theorem exSuites_ok : (exData exSuites).Ok := by
  apply exData_ok
  · intro s hs
    rw [exSuites, List.mem_singleton] at hs
    subst hs
    exact dict_ok (by simp only [List.mem_singleton, forall_eq]; exact exVar_ok (by decide) (by decide)) (by decide)
  · intro s hs g hg
    rw [exSuites, List.mem_singleton] at hs
    subst hs
    simp only [exSuite, List.mem_cons, List.not_mem_nil, or_false] at hg
    rcases hg with rfl | rfl
    · refine exGroup_ok (by decide) (by decide) ?_ (by decide) ?_
      · intro v hv
        simp only [List.mem_cons, List.not_mem_nil, or_false] at hv
        rcases hv with rfl | rfl | rfl <;> exact exVar_ok (by decide) (by decide)
      · simp only [List.mem_singleton, forall_eq]
        refine .timeSplit (by decide) (dict_ok (by simp) (by simp)) ?_
        intro o ho
        simp only [List.mem_cons, List.not_mem_nil, or_false] at ho
        rcases ho with rfl | rfl
        · exact exRad_ok (by simp only [List.mem_singleton, forall_eq]; exact exVar_ok (by decide) (by decide)) (by decide)
        · refine .subcycle (by decide) (by decide) (dict_ok (by simp) (by simp)) ?_
          simp only [List.mem_singleton, forall_eq]
          exact exMix_ok (by simp only [List.mem_singleton, forall_eq]; exact exVar_ok (by decide) (by decide)) (by decide)
    · refine exGroup_ok (by decide) (by decide) ?_ (by decide) ?_
      · intro v hv
        simp only [List.mem_cons, List.not_mem_nil, or_false] at hv
        rcases hv with rfl | rfl <;> exact exVar_ok (by decide) (by decide)
      · simp only [List.mem_singleton, forall_eq]
        exact exMix_ok (by simp only [List.mem_singleton, forall_eq]; exact exVar_ok (by decide) (by decide)) (by decide)
  · intro s hs
    rw [exSuites, List.mem_singleton] at hs
    subst hs
    exact ⟨_, List.mem_cons_self, List.cons_ne_nil _ _⟩

/-- The names of the dictionaries of an object, as a list. -/
theorem dictName_scheme {s : Scheme} {n : Str} (h : DictName (.scheme s) n) : n = s.name ∨ n = s.name ++ "_call_list".toList := by
  cases h
  · exact Or.inl rfl
  · exact Or.inr rfl

theorem exSuites_distinct : (exData exSuites).Distinct where
  groups := by decide
  before := by
    intro a s b h
    cases a with
    | nil =>
      injection h with h1 h2
      subst h1
      exact ⟨by decide, by decide, by simp⟩
    | cons x a =>
      injection h with h1 h2
      exact absurd h2 (by simp)
  parents := by
    intro s hs
    change s ∈ exSuites at hs
    rw [exSuites, List.mem_singleton] at hs
    subst hs
    refine ⟨by decide, by decide, ?_⟩
    intro t ht
    change t ∈ exSuites at ht
    rw [exSuites, List.mem_singleton] at ht
    subst ht
    rintro (h | ⟨g, hg, h⟩)
    · exact absurd h (by decide)
    · simp only [exSuite, List.mem_cons, List.not_mem_nil, or_false] at hg
      rcases hg with rfl | rfl
      · rcases h with h | h | ⟨o, ho, h⟩
        · exact absurd h (by decide)
        · exact absurd h (by decide)
        · simp only [exGroup, List.mem_singleton] at ho
          subst ho
          generalize hp : Suite.parent _ = P at h
          cases h with
          | timeSplit => exact absurd hp (by decide)
          | inTimeSplit ho h =>
            simp only [List.mem_cons, List.not_mem_nil, or_false] at ho
            rcases ho with rfl | rfl
            · rcases dictName_scheme h with h | h <;> (subst h; exact absurd hp (by decide))
            · cases h with
              | subcycle => exact absurd hp (by decide)
              | inSubcycle ho h =>
                simp only [List.mem_cons, List.not_mem_nil, or_false] at ho
                subst ho
                rcases dictName_scheme h with h | h <;> (subst h; exact absurd hp (by decide))
      · rcases h with h | h | ⟨o, ho, h⟩
        · exact absurd h (by decide)
        · exact absurd h (by decide)
        · simp only [exGroup, List.mem_singleton] at ho
          subst ho
          generalize hp : Suite.parent _ = P at h
          rcases dictName_scheme h with h | h <;> (subst h; exact absurd hp (by decide))

/-- The lists of the example: `p` is protected in the host and `u` in the suite. -/
example : items 2 (table (exData exSuites)) true (.varList .any "s".toList) = some ["q".toList, "t".toList, "w".toList] := by
  decide +kernel
example : items 2 (table (exData exSuites)) false (.varList .input "s".toList) =
    some ["p".toList, "q".toList, "t".toList, "u".toList] := by decide +kernel
example : items 2 (table (exData exSuites)) false .processList = some ["radiation=rad".toList] := by decide +kernel
example : items 2 (table (exData exSuites)) false .moduleList = some ["mix_mod".toList, "rad_mod".toList] := by decide +kernel
example : items 2 (table (exData exSuites)) false .dependencies = some ["a.F90".toList, "b.F90".toList] := by decide +kernel

/-- C66: the names of the utility files: exactly one slash after the directory. -/
theorem C66_paths (d f : Str) : pathJoin [] f = f ∧ pathJoin (d ++ "/".toList) f = d ++ "/".toList ++ f ∧
    (d ≠ [] → d.getLast? ≠ some '/' → pathJoin d f = d ++ "/".toList ++ f) := by
  refine ⟨rfl, ?_, ?_⟩
  · unfold pathJoin
    rw [if_neg (by simp), if_pos (by simp)]
  · intro h1 h2
    unfold pathJoin
    rw [if_neg h1, if_neg h2]
    simp

end Ccpp.DT
