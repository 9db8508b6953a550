import Verif.Props.SuiteCalls
/-!
# C64: theorems
-/
namespace Ccpp.Seq

theorem runGroups_iff : ∀ {items : List SuiteItem} {runs : List (Str × List Obj)},
    runGroups items = some runs ↔
      ∃ gs, Groups items gs ∧ gs.mapM (fun g => (runGroup g.2).map fun os => (g.1, os)) = some runs
  | [], runs => by
    rw [runGroups]
    constructor
    · intro h; injection h with h; subst h; exact ⟨[], rfl, rfl⟩
    · rintro ⟨gs, hg, hm⟩
      cases gs with
      | nil => simpa using hm
      | cons g gs => simp [Groups] at hg
  | .other t :: rest, runs => by
    rw [runGroups]
    constructor
    · intro h; cases h
    · rintro ⟨gs, hg, hm⟩
      cases gs with
      | nil => simp [Groups] at hg
      | cons g gs => simp [Groups] at hg
  | .group n items :: rest, runs => by
    rw [runGroups, Option.bind_eq_some_iff]
    constructor
    · rintro ⟨os, ho, h⟩
      rw [Option.map_eq_some_iff] at h
      obtain ⟨rs, hrs, rfl⟩ := h
      obtain ⟨gs, hg, hm⟩ := runGroups_iff.1 hrs
      refine ⟨(n, items) :: gs, ?_, mapM_cons_some.2 ⟨(n, os), rs, by simp [ho], hm, rfl⟩⟩
      unfold Groups at hg ⊢
      rw [hg]
      rfl
    · rintro ⟨gs, hg, hm⟩
      cases gs with
      | nil => simp [Groups] at hg
      | cons g gs =>
        unfold Groups at hg
        simp only [List.map_cons, List.cons.injEq, SuiteItem.group.injEq] at hg
        obtain ⟨⟨rfl, rfl⟩, rfl⟩ := hg
        obtain ⟨b, bs, h1, h2, rfl⟩ := mapM_cons_some.1 hm
        rw [Option.map_eq_some_iff] at h1
        obtain ⟨os, ho, rfl⟩ := h1
        refine ⟨os, ho, ?_⟩
        rw [runGroups_iff.2 ⟨gs, rfl, h2⟩]
        rfl

theorem runGroup_names {items : List Xml} {os : List Obj} (h : runGroup items = some os) : schemesOf os = namesOf items := by
  unfold runGroup at h
  split at h
  · exact objs_names _ h
  · rw [Option.map_eq_some_iff] at h
    obtain ⟨os', ho, rfl⟩ := h
    rw [schemesOf, schemesOf, List.append_nil, Obj.schemes, objs_names _ ho]

theorem runGroup_run {loop : Str → Option Str} {vs : Vars} {hs : List Header} {ph : Str} {val : Str → Nat}
    (hl : ∀ l b, loop l = some b → b = l) {items : List Xml} {os : List Obj} {ps : List Part} {idx' : List Str}
    {ss : List Stmt} (env : List (Option Str × Nat)) (h1 : runGroup items = some os)
    (h2 : analyzeObjs vs (libOf hs) ph [] os = some (ps, idx')) (h3 : writeParts loop ps = some ss)
    (hn : (needed (routine hs ph) vs (namesOf items)).Nodup) :
    execAll val env ss = intendedAll (routine hs ph) vs val env items := by
  unfold runGroup at h1
  split at h1
  · exact (objs_run hl _ env h1 h2 h3 hn).2
  · have hw : newObjects [Xml.timeSplit items] = some os := by
      rw [newObjects, newObject, newObjects, Option.map_eq_some_iff] at *
      obtain ⟨os', ho, rfl⟩ := h1
      rw [ho]
      rfl
    have := (objs_run (val := val) hl [Xml.timeSplit items] env hw h2 h3 (by simpa [namesOf, Xml.names] using hn)).2
    rw [this, intendedAll, intendedAll, intended, List.append_nil]

theorem genGroup_some {loop : Str → Option Str} {vs : Vars} {lib : Library} {suite : Str} {g : Group} {s : Sub}
    (h : genGroup loop vs lib suite g = some s) : ∃ ps idx, analyzeObjs vs lib g.phase [] g.parts = some (ps, idx) ∧
      writeParts loop ps = some s.body ∧ s.name = g.name ∧ s.phase = g.phase ∧ s.uses = usesOf ps ∧
      ¬ (g.phase = "run".toList ∧ g.name ∈ fullPhases.map (fun ph => suite ++ '_' :: ph)) := by
  unfold genGroup at h
  split at h
  · cases h
  · rename_i hno
    rw [Option.bind_eq_some_iff] at h
    obtain ⟨r, hr, h⟩ := h
    rw [Option.map_eq_some_iff] at h
    obtain ⟨ss, hss, rfl⟩ := h
    exact ⟨r.1, r.2, hr, hss, rfl, rfl, rfl, hno⟩

theorem generate_some {loop : Str → Option Str} {vs : Vars} {hs : List Header} {suite : Str} {items : List SuiteItem}
    {subs : List Sub} (h : generate loop vs hs suite items = some subs) :
    (hs.map headerKey).Nodup ∧ ∃ gs runs, Groups items gs ∧
      gs.mapM (fun g => (runGroup g.2).map fun os => (g.1, os)) = some runs ∧
      (groupsOf (libOf hs) suite runs).mapM (genGroup loop vs (libOf hs) suite) = some subs := by
  unfold generate at h
  rw [Option.bind_eq_some_iff] at h
  obtain ⟨lib, hlib, h⟩ := h
  obtain ⟨hk, rfl⟩ := (library_iff hs lib).1 hlib
  rw [Option.bind_eq_some_iff] at h
  obtain ⟨runs, hr, h⟩ := h
  obtain ⟨gs, hg, hm⟩ := runGroups_iff.1 hr
  exact ⟨hk, gs, runs, hg, hm, h⟩

/-- The name and phase of the subroutines. -/
def subNames (suite : Str) (parts : List Str) : List (Str × Str) :=
  before.map (fun ph => (subName suite ph, ph)) ++ parts.map (fun n => (subName suite n, "run".toList)) ++
    after.map (fun ph => (subName suite ph, ph))

theorem groupsOf_names (lib : Library) (suite : Str) (runs : List (Str × List Obj)) :
    (groupsOf lib suite runs).map (fun g => (g.name, g.phase)) = subNames suite (runs.map (·.1)) := by
  unfold groupsOf subNames before after subName
  simp only [List.map_append, List.map_cons, List.map_nil, List.map_map]
  rfl

theorem mapM_pair_names {gs : List (Str × List Xml)} {runs : List (Str × List Obj)}
    (h : gs.mapM (fun g => (runGroup g.2).map fun os => (g.1, os)) = some runs) : runs.map (·.1) = gs.map (·.1) := by
  induction gs generalizing runs with
  | nil => simp at h; subst h; rfl
  | cons g gs ih =>
    obtain ⟨b, bs, h1, h2, rfl⟩ := mapM_cons_some.1 h
    rw [Option.map_eq_some_iff] at h1
    obtain ⟨os, ho, rfl⟩ := h1
    simp [ih h2]

theorem mapM_map_eq {α β γ : Type} {f : α → Option β} {g : α → γ} {k : β → γ} (hfg : ∀ a b, f a = some b → k b = g a) :
    ∀ {l : List α} {r : List β}, l.mapM f = some r → r.map k = l.map g
  | [], r, h => by simp at h; subst h; rfl
  | a :: l, r, h => by
    obtain ⟨b, bs, h1, h2, rfl⟩ := mapM_cons_some.1 h
    simp [hfg a b h1, mapM_map_eq hfg h2]

/-- **C64, subroutines.**  The suite definition consists of groups, and the suite cap has one subroutine for each phase that
runs once for the suite and one for each group, in their order. -/
theorem C64_subroutines {loop : Str → Option Str} {vs : Vars} {hs : List Header} {suite : Str} {items : List SuiteItem}
    {subs : List Sub} (h : generate loop vs hs suite items = some subs) : ∃ gs, Groups items gs ∧
      subs.map (fun s => (s.name, s.phase)) =
        before.map (fun ph => (subName suite ph, ph)) ++ gs.map (fun g => (subName suite g.1, "run".toList)) ++
        after.map (fun ph => (subName suite ph, ph)) := by
  obtain ⟨_, gs, runs, hg, hm, hs⟩ := generate_some h
  refine ⟨gs, hg, ?_⟩
  rw [mapM_map_eq (g := fun g : Group => (g.name, g.phase)) (fun g s hgs => ?_) hs, groupsOf_names, subNames,
    mapM_pair_names hm, List.map_map]
  · rfl
  · obtain ⟨_, _, _, _, h1, h2, _⟩ := genGroup_some hgs
    rw [h1, h2]

theorem groupsOf_run (lib : Library) (suite : Str) (runs : List (Str × List Obj)) (i : Nat) (hi : i < runs.length) :
    (groupsOf lib suite runs)[3 + i]? = runs[i]?.map fun r => ⟨suite ++ '_' :: r.1, "run".toList, r.2⟩ := by
  unfold groupsOf
  simp only
  rw [List.getElem?_append_left (by simp; omega), List.getElem?_append_right (by simp)]
  simp

/-- **C64, run phase (partial).**  The subroutine of a group calls, when no routine reports an error, exactly the run routines
of the schemes of the group in the order of the suite definition file, with subcycles repeated; a routine that works on
single levels is called for each level.  (The schemes without run routine are skipped.)  The hypothesis `hl` says that a
written subcycle has the extent of the suite definition: it holds for the code as it is, which writes none, and for a
corrected one.  The last hypothesis says that no two calls of the group need a loop over the same vertical index; without it
the statement is false (`C64_vertical_violated`). -/
theorem C64_run_partial {loop : Str → Option Str} (hl : ∀ l b, loop l = some b → b = l) {vs : Vars} {hs : List Header}
    {suite : Str} {items : List SuiteItem} {subs : List Sub} (h : generate loop vs hs suite items = some subs)
    (val : Str → Nat) : ∃ gs r, Groups items gs ∧ Routines hs "run".toList r ∧
      ∀ (i : Nat) g s, gs[i]? = some g → subs[3 + i]? = some s → (needed r vs (namesOf g.2)).Nodup →
        execAll val [] s.body = intendedAll r vs val [] g.2 := by
  obtain ⟨hk, gs, runs, hg, hm, hsub⟩ := generate_some h
  refine ⟨gs, routine hs "run".toList, hg, routine_routines hk _, ?_⟩
  intro i g s hgi hsi hn
  have hri := mapM_get hm i
  rw [hgi, Option.bind_some] at hri
  have hlen : i < runs.length := by
    rw [mapM_length hm]; exact (List.getElem?_eq_some_iff.1 hgi).1
  have hsub' := mapM_get hsub (3 + i)
  rw [groupsOf_run _ _ _ _ hlen, hsi, List.getElem?_eq_getElem hlen, Option.map_some, Option.bind_some] at hsub'
  obtain ⟨ps, idx, h1, h2, _⟩ := genGroup_some hsub'.symm
  rw [List.getElem?_eq_getElem hlen] at hri
  cases hrg : runGroup g.2 with
  | none => rw [hrg] at hri; cases hri
  | some os =>
    rw [hrg, Option.map_some, Option.some.injEq] at hri
    rw [hri] at h1
    exact runGroup_run hl [] hrg h1 h2 hn

/-- **C64, imports.**  Every subroutine imports exactly the routines it calls, each from the module of its metadata. -/
theorem C64_imports {loop : Str → Option Str} {vs : Vars} {hs : List Header} {suite : Str} {items : List SuiteItem}
    {subs : List Sub} (h : generate loop vs hs suite items = some subs) : ∀ s ∈ subs,
      s.uses.map (·.2) = routinesOf s.body ∧ ∀ u ∈ s.uses, (⟨u.2, u.1⟩ : Header) ∈ hs := by
  obtain ⟨hk, gs, runs, hg, hm, hsub⟩ := generate_some h
  intro s hs'
  obtain ⟨i, hi⟩ := List.mem_iff_getElem?.1 hs'
  have := mapM_get hsub i
  rw [hi, eq_comm, Option.bind_eq_some_iff] at this
  obtain ⟨g, _, hgs⟩ := this
  obtain ⟨ps, idx, h1, h2, _, _, h5, _⟩ := genGroup_some hgs
  rw [h5]
  exact ⟨parts_uses ps h2, objs_uses hk _ h1⟩

end Ccpp.Seq
