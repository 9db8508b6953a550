import Verif.Props.SuitePhases
/-!
# C64: examples and violations
-/
namespace Ccpp.Seq

/-- No routine needs a vertical loop. -/
def noLoops : Vars := ⟨fun _ => [], fun _ => none⟩

/-- The metadata of the example: two schemes with three routines. -/
def exHeaders : List Header :=
  [⟨"b_run".toList, "mb".toList⟩, ⟨"a_run".toList, "ma".toList⟩, ⟨"a_init".toList, "ma".toList⟩,
   ⟨"b_init".toList, "mb".toList⟩]

/-- The suite of the example: `a` twice and `b` in one group, `b` in a second one. -/
def exSuite : List SuiteItem :=
  [.group "g".toList [.scheme "a".toList, .scheme "b".toList, .scheme "a".toList],
   .group "h".toList [.timeSplit [.scheme "b".toList]]]

/-- The calls of the subroutines of a suite (with all bounds equal to 2). -/
def calls (r : Option (List Sub)) : Option (List (Str × List Event)) :=
  r.map fun subs => subs.map fun s => (s.name, execAll (fun _ => 2) [] s.body)

/-- **C64, example.** -/
theorem C64_example : calls (generate loopProperty noLoops exHeaders "s".toList exSuite) =
    some [("s_register".toList, []),
      ("s_initialize".toList, [("b_init".toList, []), ("a_init".toList, [])]),
      ("s_timestep_initial".toList, []),
      ("s_g".toList, [("a_run".toList, []), ("b_run".toList, []), ("a_run".toList, [])]),
      ("s_h".toList, [("b_run".toList, [])]),
      ("s_timestep_final".toList, []), ("s_finalize".toList, [])] := by rfl

/-- The example meets the hypotheses of `C64_run_partial` and `C64_phase_partial`: no vertical loops are needed and no scheme
has the name of a routine. -/
theorem C64_example_meets : (∀ (r : Str → Option Header) ns, (needed r noLoops ns).Nodup) ∧
    (∀ x ∈ exHeaders, x.title ∉ (["a".toList, "b".toList] : List Str)) ∧
    (∀ l b, loopProperty l = some b → b = l) := by
  refine ⟨?_, by decide, fun l b h => by cases h⟩
  intro r ns
  have : needed r noLoops ns = [] := by
    unfold needed
    rw [List.flatMap_eq_nil_iff]
    intro n _
    cases r n <;> rfl
  rw [this]
  exact List.nodup_nil

/-- With a working property `loop` subcycles are repeated: the example of `C64_run_partial` with a nested subcycle. -/
theorem C64_example_subcycle :
    calls (generate some noLoops exHeaders "s".toList
      [.group "g".toList [.subcycle "2".toList [.scheme "a".toList, .timeSplit [.scheme "b".toList]]]]) =
    some [("s_register".toList, []),
      ("s_initialize".toList, [("b_init".toList, []), ("a_init".toList, [])]),
      ("s_timestep_initial".toList, []),
      ("s_g".toList, [("a_run".toList, [(none, 1)]), ("b_run".toList, [(none, 1)]),
        ("a_run".toList, [(none, 2)]), ("b_run".toList, [(none, 2)])]),
      ("s_timestep_final".toList, []), ("s_finalize".toList, [])] := by rfl

/-! ## Violations -/

theorem map_get_some {α β : Type} {r : Option (List α)} {i : Nat} {f : α → β} {b : β}
    (h : (r.bind fun l => l[i]?).map f = some b) : ∃ l a, r = some l ∧ l[i]? = some a ∧ f a = b := by
  rw [Option.map_eq_some_iff] at h
  obtain ⟨a, h, hb⟩ := h
  rw [Option.bind_eq_some_iff] at h
  obtain ⟨l, hl, ha⟩ := h
  exact ⟨l, a, hl, ha, hb⟩

/-- Both schemes work on single levels. -/
def vertical : Vars := ⟨fun t => if t = "a_run".toList ∨ t = "b_run".toList then ["k".toList] else [], fun _ => some "nz".toList⟩

/-- **C64 violated (vertical loops).**  Two schemes of one group work on single levels.  Only the first is called for each
level: the second one, and the second call of the first, are called once, with the loop index in whatever state the loop
left it. -/
theorem C64_vertical_violated :
    (∃ subs s, generate loopProperty vertical exHeaders "s".toList
        [.group "g".toList [.scheme "a".toList, .scheme "b".toList]] = some subs ∧ subs[3]? = some s ∧
      execAll (fun _ => 2) [] s.body =
        [("a_run".toList, [(some "k".toList, 1)]), ("a_run".toList, [(some "k".toList, 2)]), ("b_run".toList, [])]) ∧
    (∀ r, Routines exHeaders "run".toList r →
      intendedAll r vertical (fun _ => 2) [] [.scheme "a".toList, .scheme "b".toList] =
        [("a_run".toList, [(some "k".toList, 1)]), ("a_run".toList, [(some "k".toList, 2)]),
         ("b_run".toList, [(some "k".toList, 1)]), ("b_run".toList, [(some "k".toList, 2)])]) := by
  constructor
  · exact map_get_some (by rfl)
  · intro r hr
    have ha : r "a".toList = some ⟨"a_run".toList, "ma".toList⟩ :=
      (hr _ _).2 ⟨by decide, headerKey_iff.1 (by rfl)⟩
    have hb : r "b".toList = some ⟨"b_run".toList, "mb".toList⟩ :=
      (hr _ _).2 ⟨by decide, headerKey_iff.1 (by rfl)⟩
    rw [intendedAll, intendedAll, intendedAll, intended, intended, ha, hb]
    rfl

/-- The metadata of two schemes `x` and `x_init`. -/
def skippedHeaders : List Header :=
  [⟨"x_init_run".toList, "m2".toList⟩, ⟨"x_init_init".toList, "m2".toList⟩,
   ⟨"x_run".toList, "m1".toList⟩, ⟨"x_init".toList, "m1".toList⟩]

/-- **C64 violated (skipped routines).**  The suite uses the schemes `x_init` and `x`.  The routine `x_init` of the scheme `x`
for the initialize phase is not called, because a scheme of this name is already in the list. -/
theorem C64_skipped_violated :
    (∃ subs s, generate loopProperty noLoops skippedHeaders "s".toList
        [.group "g".toList [.scheme "x".toList, .scheme "x_init".toList]] = some subs ∧ subs[1]? = some s ∧
      s.phase = "initialize".toList ∧ routinesOf s.body = ["x_init_init".toList]) ∧
    (∀ r, Routines skippedHeaders "initialize".toList r → r "x".toList = some ⟨"x_init".toList, "m1".toList⟩) := by
  constructor
  · obtain ⟨subs, s, h1, h2, h3⟩ := map_get_some (r := generate loopProperty noLoops skippedHeaders "s".toList
        [.group "g".toList [.scheme "x".toList, .scheme "x_init".toList]]) (i := 1)
      (f := fun s => (s.phase, routinesOf s.body)) (b := ("initialize".toList, ["x_init_init".toList])) (by decide +kernel)
    rw [Prod.mk.injEq] at h3
    exact ⟨subs, s, h1, h2, h3⟩
  · intro r hr
    exact (hr _ _).2 ⟨by decide, headerKey_iff.1 (by rfl)⟩

theorem not_known_subcycle (l : Str) (items post : List Xml) : ∀ pre : List Xml,
    ¬ allKnown (fun l => (loopProperty l).isSome = true) (pre ++ .subcycle l items :: post)
  | [], h => by
    rw [List.nil_append, allKnown, Xml.Known] at h
    simp [loopProperty] at h
  | x :: pre, h => by
    rw [List.cons_append, allKnown] at h
    exact not_known_subcycle l items post pre h.2

/-- **C64 violated (subcycles).**  A suite with a subcycle anywhere in a group is refused. -/
theorem C64_subcycle_violated (vs : Vars) (hs : List Header) (suite n l : Str) (pre post items : List Xml)
    (a b : List SuiteItem) : generate loopProperty vs hs suite (a ++ .group n (pre ++ .subcycle l items :: post) :: b) = none := by
  cases h : generate loopProperty vs hs suite (a ++ .group n (pre ++ .subcycle l items :: post) :: b) with
  | none => rfl
  | some subs =>
    exfalso
    obtain ⟨hk, gs, runs, hg, hm, hsub⟩ := generate_some h
    unfold Groups at hg
    have hmem : (n, pre ++ .subcycle l items :: post) ∈ gs := by
      have : SuiteItem.group n (pre ++ .subcycle l items :: post) ∈ gs.map fun g => SuiteItem.group g.1 g.2 := by
        rw [← hg]; simp
      obtain ⟨g, hgm, he⟩ := List.mem_map.1 this
      injection he with h1 h2
      rw [← h1, ← h2]
      exact hgm
    obtain ⟨i, hi⟩ := List.mem_iff_getElem?.1 hmem
    have hri := mapM_get hm i
    rw [hi, Option.bind_some] at hri
    have hlen : i < runs.length := by
      rw [mapM_length hm]; exact (List.getElem?_eq_some_iff.1 hi).1
    have hsub' := mapM_get hsub (3 + i)
    have hlen' : 3 + i < subs.length := by
      rw [mapM_length hsub]
      unfold groupsOf
      simp
      omega
    rw [groupsOf_run _ _ _ _ hlen, List.getElem?_eq_getElem hlen', List.getElem?_eq_getElem hlen, Option.map_some,
      Option.bind_some] at hsub'
    obtain ⟨ps, idx, h1, h2, _⟩ := genGroup_some hsub'.symm
    rw [List.getElem?_eq_getElem hlen] at hri
    cases hrg : runGroup (pre ++ .subcycle l items :: post) with
    | none => rw [hrg] at hri; cases hri
    | some os =>
      rw [hrg, Option.map_some, Option.some.injEq] at hri
      rw [hri] at h1
      have hkn := (runGroup_known hrg h1 h2).1
      exact not_known_subcycle l items post pre hkn

/-- **C64 violated (suite routines).**  A suite with an element other than a group, such as `<init>`, is refused. -/
theorem C64_suite_routine_violated (loop : Str → Option Str) (vs : Vars) (hs : List Header) (suite tag : Str)
    (a b : List SuiteItem) : generate loop vs hs suite (a ++ .other tag :: b) = none := by
  cases h : generate loop vs hs suite (a ++ .other tag :: b) with
  | none => rfl
  | some subs =>
    exfalso
    obtain ⟨_, gs, _, hg, _⟩ := generate_some h
    unfold Groups at hg
    have : SuiteItem.other tag ∈ gs.map fun g => SuiteItem.group g.1 g.2 := by rw [← hg]; simp
    obtain ⟨g, _, he⟩ := List.mem_map.1 this
    cases he

/-- **C64 violated (group names).**  Two groups with the same name are accepted; the two subroutines have the same name. -/
theorem C64_names_violated : ∃ subs, generate loopProperty noLoops exHeaders "s".toList
      [.group "g".toList [.scheme "a".toList], .group "g".toList [.scheme "b".toList]] = some subs ∧
    ¬ (subs.map (·.name)).Nodup := by
  have h : (generate loopProperty noLoops exHeaders "s".toList
      [.group "g".toList [.scheme "a".toList], .group "g".toList [.scheme "b".toList]]).map (fun l => l.map (·.name)) =
      some ["s_register".toList, "s_initialize".toList, "s_timestep_initial".toList, "s_g".toList, "s_g".toList,
        "s_timestep_final".toList, "s_finalize".toList] := by rfl
  rw [Option.map_eq_some_iff] at h
  obtain ⟨subs, h1, h2⟩ := h
  refine ⟨subs, h1, ?_⟩
  rw [h2]
  decide

/-- **C64 violated (two indices).**  A routine that needs two vertical indices is refused. -/
theorem C64_two_indices_violated :
    generate loopProperty ⟨fun t => if t = "a_run".toList then ["k".toList, "k2".toList] else [], fun _ => some "nz".toList⟩
      exHeaders "s".toList [.group "g".toList [.scheme "a".toList]] = none := by rfl

end Ccpp.Seq
