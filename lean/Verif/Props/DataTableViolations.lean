import Verif.Props.DataTableExamples
/-!
# C66: refusals and violations
-/
namespace Ccpp.DT
open XF

theorem nodup_of_uniqueTitles {hs : List Header} (h : uniqueTitles hs = true) : (hs.map (·.title)).Nodup := by
  induction hs with
  | nil => exact List.nodup_nil
  | cons x xs ih =>
    rw [uniqueTitles, Bool.and_eq_true, List.all_eq_true] at h
    rw [List.map_cons, List.nodup_cons]
    refine ⟨?_, ih h.2⟩
    rw [List.mem_map]
    rintro ⟨y, hy, he⟩
    have := h.1 y hy
    rw [bne_iff_ne] at this
    exact this he

theorem ite_self_none {α : Type} {p : Prop} [Decidable p] (x : Option α) (h : x = none) : (if p then none else x) = none := by
  rw [h]
  split <;> rfl

theorem addPhase_missing {hs : List Header} {g : Group} {x : Scheme} (hr : x.hasRun = true)
    (hm : ∀ h ∈ hs, h.title ≠ x.subroutine) (e : Elem) : addPhase hs g x e = none := by
  cases e with
  | mk tag attrs text kids tail =>
    have : hs.find? (fun h => h.title == x.subroutine) = none := by
      rw [List.find?_eq_none]
      intro h hh
      rw [beq_iff_eq]
      exact hm h hh
    rw [addPhase, this, hr]
    by_cases h1 : phaseTag g = []
    · rw [if_pos h1]
    · rw [if_neg h1]
      exact ite_self_none _ rfl

theorem addScheme_missing {hs : List Header} {g : Group} {x : Scheme} (hr : x.hasRun = true)
    (hm : ∀ h ∈ hs, h.title ≠ x.subroutine) (es : List Elem) : addScheme hs g x es = none := by
  unfold addScheme
  simp only [addPhase_missing hr hm, Option.map_none]
  split
  · split <;> rfl
  · rfl

theorem addSchemes_missing {hs : List Header} {x : Scheme} (hr : x.hasRun = true) (hm : ∀ h ∈ hs, h.title ≠ x.subroutine)
    {l : List (Group × Scheme)} (hl : ∃ u ∈ l, u.2 = x) (es : List Elem) : addSchemes hs l es = none := by
  induction l generalizing es with
  | nil => obtain ⟨u, hu, _⟩ := hl; cases hu
  | cons u l ih =>
    obtain ⟨g, s⟩ := u
    rw [addSchemes]
    obtain ⟨w, hw, rfl⟩ := hl
    rcases List.mem_cons.1 hw with rfl | hw
    · rw [addScheme_missing hr hm]; rfl
    · cases addScheme hs g s es with
      | none => rfl
      | some es' => exact ih ⟨w, hw, rfl⟩ es'

/-- C66: there is no data table if two metadata headers have the same title or the routine of a scheme has none. -/
theorem C66_refused {d : Data} (h : ¬ (d.headers.map (·.title)).Nodup ∨
    ∃ x, Used d x ∧ x.hasRun = true ∧ ∀ h ∈ d.headers, h.title ≠ x.subroutine) : file d = none := by
  unfold file generate
  rcases h with h | ⟨x, hu, hr, hm⟩
  · rw [if_neg fun hh => h (nodup_of_uniqueTitles hh)]
    rfl
  · split
    · rw [addSchemes_missing hr hm (used_iff.1 hu)]
      rfl
    · rfl

/-! ## Violations -/

/-- A suite `x` from the file `x.xml` with a group `constituents`. -/
def loopData : Data :=
  exData [exSuite "x" [] [exGroup "x_constituents" [exVar "t" "in" false] [.scheme (exScheme "mix" [])]]]

theorem loopData_ok : loopData.Ok := by
  apply exData_ok
  · intro s hs
    rw [List.mem_singleton] at hs
    subst hs
    exact dict_ok (by simp) (by simp)
  · intro s hs g hg
    rw [List.mem_singleton] at hs
    subst hs
    rw [exSuite, List.mem_singleton] at hg
    subst hg
    refine exGroup_ok (by decide) (by decide) ?_ (by decide) ?_
    · simp only [List.mem_singleton, forall_eq]; exact exVar_ok (by decide) (by decide)
    · simp only [List.mem_singleton, forall_eq]; exact exMix_ok (by simp) (by simp)
  · intro s hs
    rw [List.mem_singleton] at hs
    subst hs
    exact ⟨_, List.mem_cons_self, List.cons_ne_nil _ _⟩

/-- The dictionary of the suite. -/
def loopSuite : Elem := dictEntry "x".toList "suite".toList (some "x_constituents".toList) ⟨[], []⟩
/-- The dictionary of the group. -/
def loopGroup : Elem := dictEntry "x_constituents".toList "group".toList (some "x".toList) ⟨[], []⟩
/-- The call list of the group. -/
def loopCall : Elem :=
  dictEntry "x_constituents_call_list".toList "group_call_list".toList (some "x".toList) ⟨[], [exVar "t" "in" false]⟩

theorem loop_parent : parentDict (table loopData) loopSuite = some loopGroup ∧
    parentDict (table loopData) loopGroup = some loopSuite ∧ parentDict (table loopData) loopCall = some loopSuite := by
  refine ⟨rfl, rfl, rfl⟩

theorem loop_protected (n : Nat) : isProtected (table loopData) "t".toList n (some loopSuite) = none ∧
    isProtected (table loopData) "t".toList n (some loopGroup) = none := by
  induction n with
  | zero => exact ⟨rfl, rfl⟩
  | succ n ih =>
    have h1 : protectedIn loopSuite "t".toList = false := by decide +kernel
    have h2 : protectedIn loopGroup "t".toList = false := by decide +kernel
    rw [isProtected, isProtected, h1, h2, loop_parent.1, loop_parent.2.1]
    exact ⟨ih.2, ih.1⟩

theorem loop_call (n : Nat) : isProtected (table loopData) "t".toList n (some loopCall) = none := by
  cases n with
  | zero => rfl
  | succ n =>
    have h1 : protectedIn loopCall "t".toList = false := by decide +kernel
    rw [isProtected, h1, loop_parent.2.2]
    exact (loop_protected n).1

theorem loop_items (n : Nat) (it : IntentType) : items n (table loopData) true (.varList it "x".toList) = none := by
  show variableList n (table loopData) "x".toList it true = none
  unfold variableList
  have hg : allSome (groupNames (table loopData) "x".toList) = some ["x_constituents".toList] := rfl
  rw [if_pos rfl, hg]
  cases n with
  | zero => rfl
  | succ n =>
    obtain ⟨ex, h1, h2⟩ := hostProtected_table loopData_ok n
    rw [h1, Option.bind_some, Option.bind_some, unionAll]
    have hf : findDict (table loopData) (some (callName "x_constituents".toList)) (some "group_call_list".toList) =
      some loopCall := rfl
    have hx : "t".toList ∉ ex := by
      rw [h2]
      rintro ⟨v, hv, hn, hp⟩
      change v ∈ [exVar "p" "in" true, exVar "q" "in" false] at hv
      rcases List.mem_cons.1 hv with rfl | hv
      · exact absurd hn (by decide)
      · rw [List.mem_singleton] at hv
        subst hv
        exact absurd hn (by decide)
    have hv : namesOf (varsOf loopCall) = ["t".toList] := rfl
    unfold groupVariables
    rw [hf]
    simp only
    rw [hv, keepIf, if_pos trivial, if_neg hx, loop_call]
    rfl

/-- C66 fails: the request for the variables of a suite `x` with a group `constituents` (without the protected ones) never
ends: the suite dictionary names its parent `x_constituents`, which is also the name of the group, and the parent of the group
is the suite. -/
theorem C66_violated_endless : loopData.Ok ∧ ∃ text, file loopData = some text ∧
    ∀ fuel it sep, report fuel text (.varList it "x".toList) sep true = none := by
  refine ⟨loopData_ok, ?_⟩
  obtain ⟨text, e', hf, hr, hi⟩ := file_items loopData_ok (leafFiles_table _) (trimmedFiles_table loopData_ok)
  refine ⟨text, hf, ?_⟩
  intro fuel it sep
  unfold report
  split
  · rfl
  · rw [hr, Option.bind_some, hi, loop_items]
    rfl

/-- Suite `a` with group `b_c` and suite `a_b` with group `c`. -/
def twinData : Data :=
  exData [exSuite "a" [] [exGroup "a_b_c" [exVar "t" "in" false] [.scheme (exScheme "mix" [])]],
    exSuite "a_b" [] [exGroup "a_b_c" [exVar "w" "in" false] [.scheme (exScheme "mix" [])]]]

theorem twinData_ok : twinData.Ok := by
  apply exData_ok
  · intro s hs
    simp only [List.mem_cons, List.not_mem_nil, or_false] at hs
    rcases hs with rfl | rfl <;> exact dict_ok (by simp) (by simp)
  · intro s hs g hg
    simp only [List.mem_cons, List.not_mem_nil, or_false] at hs
    rcases hs with rfl | rfl <;>
    · rw [exSuite, List.mem_singleton] at hg
      subst hg
      refine exGroup_ok (by decide) (by decide) ?_ (by decide) ?_
      · simp only [List.mem_singleton, forall_eq]; exact exVar_ok (by decide) (by decide)
      · simp only [List.mem_singleton, forall_eq]; exact exMix_ok (by simp) (by simp)
  · intro s hs
    simp only [List.mem_cons, List.not_mem_nil, or_false] at hs
    rcases hs with rfl | rfl <;> exact ⟨_, List.mem_cons_self, List.cons_ne_nil _ _⟩

/-- C66 fails: groups of two suites can have the same full name; the report about the second suite lists the variables of
the first. -/
theorem C66_violated_twins : twinData.Ok ∧ (∃ text, file twinData = some text ∧
    report 4 text (.varList .any "a_b".toList) ",".toList false = some "t".toList) ∧
    Needs twinData .any "a_b".toList false "w".toList ∧ ¬ Needs twinData .any "a_b".toList false "t".toList := by
  refine ⟨twinData_ok, ?_, ?_, ?_⟩
  · obtain ⟨text, e', hf, hr, hi⟩ := file_items twinData_ok (leafFiles_table _) (trimmedFiles_table twinData_ok)
    refine ⟨text, hf, ?_⟩
    unfold report
    rw [if_neg (by decide), hr, Option.bind_some, hi]
    decide +kernel
  · refine ⟨_, List.mem_cons_of_mem _ List.mem_cons_self, rfl, _, List.mem_cons_self, List.cons_ne_nil _ _, _,
      List.mem_cons_self, rfl, Or.inl rfl, ?_⟩
    intro h
    cases h
  · rintro ⟨s, hs, hn, g, hg, _, v, hv, hvn, _⟩
    change s ∈ [_, _] at hs
    simp only [List.mem_cons, List.not_mem_nil, or_false] at hs
    rcases hs with rfl | rfl
    · exact absurd hn (by decide)
    · rw [exSuite, List.mem_singleton] at hg
      subst hg
      rw [exGroup, List.mem_singleton] at hv
      subst hv
      exact absurd hvn (by decide)

/-- A suite that uses a scheme twice. -/
def twiceData : Data :=
  exData [exSuite "s" [] [exGroup "s_g" [] [.scheme (exScheme "rad" []), .scheme (exScheme "rad" [])]]]

theorem twiceData_ok : twiceData.Ok := by
  apply exData_ok
  · intro s hs
    rw [List.mem_singleton] at hs
    subst hs
    exact dict_ok (by simp) (by simp)
  · intro s hs g hg
    rw [List.mem_singleton] at hs
    subst hs
    rw [exSuite, List.mem_singleton] at hg
    subst hg
    refine exGroup_ok (by decide) (by decide) (by simp) (by simp) ?_
    intro o ho
    simp only [List.mem_cons, List.not_mem_nil, or_false] at ho
    rcases ho with rfl | rfl <;> exact exRad_ok (by simp) (by simp)
  · intro s hs
    rw [List.mem_singleton] at hs
    subst hs
    exact ⟨_, List.mem_cons_self, List.cons_ne_nil _ _⟩

/-- C66 fails: a process is listed once for every use of the scheme. -/
theorem C66_violated_repeated : twiceData.Ok ∧ ∃ text, file twiceData = some text ∧
    report 4 text .processList ",".toList false = some "radiation=rad,radiation=rad".toList := by
  refine ⟨twiceData_ok, ?_⟩
  obtain ⟨text, e', hf, hr, hi⟩ := file_items twiceData_ok (leafFiles_table _) (trimmedFiles_table twiceData_ok)
  refine ⟨text, hf, ?_⟩
  unfold report
  rw [if_neg (by decide), hr, Option.bind_some, hi]
  decide +kernel

/-- A suite with a scheme `rad` and a scheme `scheme`. -/
def schemeData : Data :=
  { exData [exSuite "s" [] [exGroup "s_g" [] [.scheme (exScheme "rad" []), .scheme (exScheme "scheme" [])]]] with
    headers := [⟨"rad_run".toList, none, none⟩, ⟨"scheme_run".toList, none, none⟩] }

/-- C66 fails: there is no data table if a scheme is called `scheme`. -/
theorem C66_violated_scheme : file schemeData = none := by decide +kernel

/-- A suite with a group without parts. -/
def emptyData : Data := exData [exSuite "s" [] [exGroup "s_g" [] []]]

/-- C66 fails: there is no data table if a suite has no group with parts (the slash in the file name cannot be written). -/
theorem C66_violated_empty : file emptyData = none := by decide +kernel

end Ccpp.DT
