import Verif.Props.SuiteCallsMain
/-!
# C64: the phases other than run, and acceptance
-/
namespace Ccpp.Seq

/-- The scheme of a library entry, if it belongs to the phase. -/
def phaseEntry (used : List Str) (ph : Str) (p : Option Str × List (Option Str × Header)) : Option Str :=
  p.1.bind fun n => if n ∈ used ∧ (look p.2 (some ph)).isSome then some n else none

theorem fullParts_eq {used : List Str} {ph : Str} : ∀ {lib : Library} {parts : List Str},
    (∀ p ∈ lib, ∀ h, look p.2 (some ph) = some h → h.title ∉ used) → (∀ n ∈ parts, n ∈ used) →
    fullParts used ph parts lib = parts ++ lib.filterMap (phaseEntry used ph)
  | [], parts, _, _ => by simp [fullParts]
  | (m, e) :: rest, parts, hno, hp => by
    have hrest : ∀ p ∈ rest, ∀ h, look p.2 (some ph) = some h → h.title ∉ used := fun p hp' => hno p (by simp [hp'])
    rw [fullParts, List.filterMap_cons]
    cases m with
    | none =>
      have h1 : addPart used ph parts (none, e) = parts := rfl
      have h2 : phaseEntry used ph (none, e) = none := rfl
      rw [h1, h2]
      exact fullParts_eq hrest hp
    | some n =>
      cases hl : look e (some ph) with
      | none =>
        have h1 : addPart used ph parts (some n, e) = parts := by simp only [addPart, hl]
        have h2 : phaseEntry used ph (some n, e) = none := by simp [phaseEntry, hl]
        rw [h1, h2]
        exact fullParts_eq hrest hp
      | some h =>
        have ht : h.title ∉ parts := fun hc => hno (some n, e) (by simp) h hl (hp _ hc)
        by_cases hu : n ∈ used
        · have h1 : addPart used ph parts (some n, e) = parts ++ [n] := by
            simp only [addPart, hl]; rw [if_pos ⟨hu, ht⟩]
          have h2 : phaseEntry used ph (some n, e) = some n := by simp [phaseEntry, hl, hu]
          rw [h1, h2, fullParts_eq hrest (by
            intro x hx
            rcases List.mem_append.1 hx with hx | hx
            · exact hp x hx
            · simp only [List.mem_singleton] at hx; subst hx; exact hu)]
          simp
        · have h1 : addPart used ph parts (some n, e) = parts := by
            simp only [addPart, hl]; rw [if_neg (fun hc => hu hc.1)]
          have h2 : phaseEntry used ph (some n, e) = none := by simp [phaseEntry, hu]
          rw [h1, h2]
          exact fullParts_eq hrest hp

theorem addPart_mem {used parts : List Str} {ph n : Str} {p : Option Str × List (Option Str × Header)}
    (h : n ∈ addPart used ph parts p) : n ∈ parts ∨ p.1 = some n := by
  unfold addPart at h
  split at h
  · rename_i m _ hm _
    split at h
    · rcases List.mem_append.1 h with h | h
      · exact .inl h
      · simp only [List.mem_singleton] at h; subst h; exact .inr hm
    · exact .inl h
  · exact .inl h

theorem fullParts_mem {used : List Str} {ph n : Str} : ∀ {lib : Library} {parts : List Str},
    n ∈ fullParts used ph parts lib → n ∈ parts ∨ ∃ e, (some n, e) ∈ lib
  | [], parts, h => .inl (by simpa [fullParts] using h)
  | (m, e) :: rest, parts, h => by
    rw [fullParts] at h
    rcases fullParts_mem h with h | ⟨e', h⟩
    · rcases addPart_mem h with h | h
      · exact .inl h
      · exact .inr ⟨e, by simp only at h; simp [h]⟩
    · exact .inr ⟨e', by simp [h]⟩

theorem filterMap_sublist {α : Type} {f : Option α → Option α} (hf : ∀ k n, f k = some n → k = some n) :
    ∀ l : List (Option α), ((l.filterMap f).map some).Sublist l
  | [] => by simp
  | k :: l => by
    rw [List.filterMap_cons]
    cases hk : f k with
    | none => exact (filterMap_sublist hf l).cons k
    | some n =>
      simp only [List.map_cons]
      rw [← hf k n hk]
      exact (filterMap_sublist hf l).cons_cons k

theorem phase_order {hs : List Header} (hk : (hs.map headerKey).Nodup) (used : List Str) (ph : Str)
    (hno : ∀ h ∈ hs, h.title ∉ used) :
    PhaseOrder hs (routine hs ph) used (fullParts used ph [] (libOf hs)) := by
  have heq : fullParts used ph [] (libOf hs) = (firsts (hs.map fun h => (headerKey h).1)).filterMap
      (fun k => phaseEntry used ph (k, entryOf hs k)) := by
    rw [fullParts_eq (parts := []) ?_ (by simp), List.nil_append]
    · unfold libOf
      rw [List.filterMap_map]
      rfl
    · intro p hp h hl
      unfold libOf at hp
      rw [List.mem_map] at hp
      obtain ⟨k, _, rfl⟩ := hp
      exact hno h ((look_entry hk _ _ _).1 hl).1
  have hsub : ∀ k n, phaseEntry used ph (k, entryOf hs k) = some n → k = some n := by
    intro k n h
    cases k with
    | none => simp [phaseEntry] at h
    | some m =>
      simp only [phaseEntry, Option.bind_some] at h
      split at h
      · injection h with h; rw [h]
      · cases h
  have hs1 := filterMap_sublist (f := fun k => phaseEntry used ph (k, entryOf hs k)) hsub
    (firsts (hs.map fun h => (headerKey h).1))
  rw [heq]
  refine ⟨?_, ?_, ?_⟩
  · have := (firsts_nodup (hs.map fun h => (headerKey h).1)).sublist hs1
    unfold List.Nodup at this
    rw [List.pairwise_map] at this
    exact this.imp fun h e => h (by rw [e])
  · intro n
    rw [List.mem_filterMap]
    constructor
    · rintro ⟨k, hkm, he⟩
      have := hsub k n he
      subst this
      simp only [phaseEntry, Option.bind_some] at he
      split at he
      · rename_i hc
        exact ⟨hc.1, Option.isSome_iff_exists.1 hc.2⟩
      · cases he
    · rintro ⟨hu, h, hr⟩
      refine ⟨some n, mem_firsts.2 ?_, ?_⟩
      · have := (look_entry hk _ _ _).1 hr
        exact List.mem_map.2 ⟨h, this.1, by rw [this.2]⟩
      · simp only [phaseEntry, Option.bind_some]
        rw [if_pos ⟨hu, by unfold routine at hr; rw [hr]; rfl⟩]
  · intro a b hab
    have : [some a, some b].Sublist (firsts (hs.map fun h => (headerKey h).1)) := by
      have h2 := hab.map some
      exact h2.trans hs1
    obtain ⟨pre, post, he, hb⟩ := firsts_sorted this
    rw [List.map_eq_append_iff] at he
    obtain ⟨p1, p2, rfl, rfl, he⟩ := he
    rw [List.map_eq_cons_iff] at he
    obtain ⟨h, p3, rfl, hh, rfl⟩ := he
    refine ⟨p1, h, p3, rfl, headerKey_name.1 hh, ?_⟩
    intro x hx ph hr
    exact hb (List.mem_map.2 ⟨x, hx, headerKey_name.2 ⟨ph, hr⟩⟩)

theorem newObjects_schemes : ∀ ns : List Str, newObjects (ns.map Xml.scheme) = some (ns.map Obj.scheme)
  | [] => rfl
  | n :: ns => by rw [List.map_cons, newObjects, newObject, newObjects_schemes ns]; rfl

theorem namesOf_schemes : ∀ ns : List Str, namesOf (ns.map Xml.scheme) = ns
  | [] => rfl
  | n :: ns => by rw [List.map_cons, namesOf, namesOf_schemes ns]; rfl

theorem intendedAll_schemes (r : Str → Option Header) (vs : Vars) (val : Str → Nat) (env : List (Option Str × Nat)) :
    ∀ ns : List Str, intendedAll r vs val env (ns.map Xml.scheme) = ns.flatMap fun n => callOf vs val env (r n)
  | [] => rfl
  | n :: ns => by
    rw [List.map_cons, intendedAll, intended, intendedAll_schemes r vs val env ns, List.flatMap_cons]

theorem used_eq {gs : List (Str × List Xml)} {runs : List (Str × List Obj)}
    (h : gs.mapM (fun g => (runGroup g.2).map fun os => (g.1, os)) = some runs) :
    (runs.flatMap fun r => schemesOf r.2) = gs.flatMap fun g => namesOf g.2 := by
  induction gs generalizing runs with
  | nil => simp at h; subst h; rfl
  | cons g gs ih =>
    obtain ⟨b, bs, h1, h2, rfl⟩ := mapM_cons_some.1 h
    rw [Option.map_eq_some_iff] at h1
    obtain ⟨os, ho, rfl⟩ := h1
    rw [List.flatMap_cons, List.flatMap_cons, ih h2, runGroup_names ho]

theorem groupsOf_full {lib : Library} {suite : Str} {runs : List (Str × List Obj)} {g : Group}
    (hg : g ∈ groupsOf lib suite runs) (hp : g.phase ≠ "run".toList) :
    g.parts = (fullParts (runs.flatMap fun r => schemesOf r.2) g.phase [] lib).map .scheme := by
  unfold groupsOf at hg
  simp only [List.mem_append, List.mem_cons, List.not_mem_nil, or_false, List.mem_map] at hg
  rcases hg with ((rfl | rfl | rfl) | ⟨r, _, rfl⟩) | (rfl | rfl)
  · rfl
  · rfl
  · rfl
  · exact absurd rfl hp
  · rfl
  · rfl

/-- **C64, other phases (partial).**  The subroutine of a phase other than run calls, when no routine reports an error, the
routine of this phase of every scheme of the suite that has one, exactly once however often the scheme is used (or once for
each level), in the order in which the schemes are first mentioned in the metadata.  The hypothesis on titles says that no
scheme used in the suite has the name of a routine; without it the statement is false (`C64_skipped_violated`); the last
hypothesis is that of `C64_run_partial`. -/
theorem C64_phase_partial {loop : Str → Option Str} (hl : ∀ l b, loop l = some b → b = l) {vs : Vars} {hs : List Header}
    {suite : Str} {items : List SuiteItem} {subs : List Sub} (h : generate loop vs hs suite items = some subs)
    (val : Str → Nat) : ∃ gs, Groups items gs ∧
      ∀ s ∈ subs, s.phase ≠ "run".toList → ∃ r, Routines hs s.phase r ∧
        ((∀ x ∈ hs, x.title ∉ gs.flatMap fun g => namesOf g.2) →
          ∃ order, PhaseOrder hs r (gs.flatMap fun g => namesOf g.2) order ∧
            ((needed r vs order).Nodup → execAll val [] s.body = order.flatMap fun n => callOf vs val [] (r n))) := by
  obtain ⟨hk, gs, runs, hg, hm, hsub⟩ := generate_some h
  refine ⟨gs, hg, ?_⟩
  intro s hs' hph
  obtain ⟨i, hi⟩ := List.mem_iff_getElem?.1 hs'
  have hgi := mapM_get hsub i
  rw [hi, eq_comm, Option.bind_eq_some_iff] at hgi
  obtain ⟨g, hgm, hgs⟩ := hgi
  obtain ⟨ps, idx, h1, h2, _, h4, _, _⟩ := genGroup_some hgs
  have hparts := groupsOf_full (List.mem_of_getElem? hgm) (by rw [← h4]; exact hph)
  rw [used_eq hm, ← h4] at hparts
  refine ⟨routine hs s.phase, routine_routines hk _, fun hno => ?_⟩
  refine ⟨_, phase_order hk _ s.phase hno, fun hn => ?_⟩
  rw [hparts, ← h4] at h1
  have := (objs_run (val := val) hl _ [] (newObjects_schemes _) h1 h2 (by rw [namesOf_schemes]; exact hn)).2
  rw [this, intendedAll_schemes]

/-! ## Acceptance -/

theorem registered_iff (hs : List Header) (n : Str) :
    (∃ e, look (libOf hs) (some n) = some e) ↔ ∃ h ∈ hs, ∃ ph, IsRoutine h n ph := by
  rw [look_libOf]
  constructor
  · rintro ⟨e, h⟩
    split at h
    · rename_i hm
      obtain ⟨x, hx, he⟩ := List.mem_map.1 hm
      exact ⟨x, hx, headerKey_name.1 he⟩
    · cases h
  · rintro ⟨x, hx, hr⟩
    exact ⟨_, if_pos (List.mem_map.2 ⟨x, hx, headerKey_name.2 hr⟩)⟩

mutual
theorem obj_known {loop : Str → Option Str} {vs : Vars} {hs : List Header} {ph : Str} : ∀ (x : Xml) {o : Obj} {idx j : List Str}
    {p : Part} {ss : List Stmt}, newObject x = some o → analyzeObj vs (libOf hs) ph idx o = some (p, j) →
    p.write loop = some ss →
    x.Known (fun l => (loop l).isSome = true) ∧ ∀ n ∈ x.names, ∃ e, look (libOf hs) (some n) = some e
  | .scheme n, o, idx, j, p, ss, h1, h2, h3 => by
    simp only [newObject, Option.some.injEq] at h1
    subst h1
    rw [analyzeObj] at h2
    refine ⟨trivial, fun m hm => ?_⟩
    simp only [Xml.names, List.mem_singleton] at hm
    subst hm
    unfold analyzeScheme at h2
    rw [Option.bind_eq_some_iff] at h2
    obtain ⟨e, he, _⟩ := h2
    exact ⟨e, he⟩
  | .subcycle l items, o, idx, j, p, ss, h1, h2, h3 => by
    rw [newObject] at h1
    split at h1
    · rename_i hd
      rw [Option.map_eq_some_iff] at h1
      obtain ⟨os, ho, rfl⟩ := h1
      rw [analyzeObj, Option.map_eq_some_iff] at h2
      obtain ⟨⟨ps, j'⟩, ha, hb⟩ := h2
      simp only [Prod.mk.injEq] at hb
      obtain ⟨rfl, rfl⟩ := hb
      rw [Part.write, Option.bind_eq_some_iff] at h3
      obtain ⟨b, hb, h3⟩ := h3
      rw [Option.map_eq_some_iff] at h3
      obtain ⟨body, hbody, rfl⟩ := h3
      obtain ⟨i1, i2⟩ := objs_known items ho ha hbody
      refine ⟨?_, by rw [Xml.names]; exact i2⟩
      rw [Xml.Known]
      exact ⟨hd.1, List.all_eq_true.1 hd.2, by rw [hb]; rfl, i1⟩
    · cases h1
  | .timeSplit items, o, idx, j, p, ss, h1, h2, h3 => by
    rw [newObject, Option.map_eq_some_iff] at h1
    obtain ⟨os, ho, rfl⟩ := h1
    rw [analyzeObj, Option.map_eq_some_iff] at h2
    obtain ⟨⟨ps, j'⟩, ha, hb⟩ := h2
    simp only [Prod.mk.injEq] at hb
    obtain ⟨rfl, rfl⟩ := hb
    rw [Part.write] at h3
    rw [Xml.Known, Xml.names]
    exact objs_known items ho ha h3
  | .other _, o, idx, j, p, ss, h1, h2, h3 => by
    rw [newObject] at h1
    cases h1
theorem objs_known {loop : Str → Option Str} {vs : Vars} {hs : List Header} {ph : Str} : ∀ (xs : List Xml) {os : List Obj}
    {idx j : List Str} {ps : List Part} {ss : List Stmt}, newObjects xs = some os →
    analyzeObjs vs (libOf hs) ph idx os = some (ps, j) → writeParts loop ps = some ss →
    allKnown (fun l => (loop l).isSome = true) xs ∧ ∀ n ∈ namesOf xs, ∃ e, look (libOf hs) (some n) = some e
  | [], os, idx, j, ps, ss, h1, h2, h3 => ⟨trivial, fun n hn => by cases hn⟩
  | x :: xs, os, idx, j, ps, ss, h1, h2, h3 => by
    rw [newObjects, Option.bind_eq_some_iff] at h1
    obtain ⟨o, ho, h1⟩ := h1
    rw [Option.map_eq_some_iff] at h1
    obtain ⟨os', hos, rfl⟩ := h1
    rw [analyzeObjs, Option.bind_eq_some_iff] at h2
    obtain ⟨⟨p, j1⟩, ha, h2⟩ := h2
    rw [Option.map_eq_some_iff] at h2
    obtain ⟨⟨ps', j2⟩, hb, h2⟩ := h2
    simp only [Prod.mk.injEq] at h2
    obtain ⟨rfl, rfl⟩ := h2
    rw [writeParts, Option.bind_eq_some_iff] at h3
    obtain ⟨s, hs1, h3⟩ := h3
    rw [Option.map_eq_some_iff] at h3
    obtain ⟨ss', hs2, rfl⟩ := h3
    obtain ⟨i1, i2⟩ := obj_known x ho ha hs1
    obtain ⟨i3, i4⟩ := objs_known xs hos hb hs2
    refine ⟨?_, ?_⟩
    · rw [allKnown]; exact ⟨i1, i3⟩
    · intro n hn
      rw [namesOf] at hn
      rcases List.mem_append.1 hn with hn | hn
      · exact i2 n hn
      · exact i4 n hn
end

mutual
theorem known_obj {loop : Str → Option Str} {vs : Vars} (hv : ∀ t, vs.needs t = []) {lib : Library} {ph : Str} : ∀ (x : Xml),
    x.Known (fun l => (loop l).isSome = true) → (∀ n ∈ x.names, ∃ e, look lib (some n) = some e) →
    ∃ o, newObject x = some o ∧ ∀ idx, ∃ p ss, analyzeObj vs lib ph idx o = some (p, idx) ∧ p.write loop = some ss
  | .scheme n, _, hr => by
    refine ⟨.scheme n, by rw [newObject], fun idx => ?_⟩
    obtain ⟨e, he⟩ := hr n (by simp [Xml.names])
    rw [analyzeObj]
    unfold analyzeScheme
    rw [he, Option.bind_some]
    cases hl : look e (some ph) with
    | none => exact ⟨_, _, rfl, by rw [Part.write]⟩
    | some h =>
      simp only [hv, List.find?_nil]
      exact ⟨_, _, rfl, by rw [Part.write]⟩
  | .subcycle l items, hk, hr => by
    rw [Xml.Known] at hk
    rw [Xml.names] at hr
    obtain ⟨os, ho, hall⟩ := known_objs hv (ph := ph) items hk.2.2.2 hr
    refine ⟨.subcycle l os, ?_, fun idx => ?_⟩
    · rw [newObject, if_pos ⟨hk.1, List.all_eq_true.2 hk.2.1⟩, ho]
      rfl
    · obtain ⟨ps, ss, h1, h2⟩ := hall idx
      obtain ⟨b, hb⟩ := Option.isSome_iff_exists.1 hk.2.2.1
      rw [analyzeObj, h1]
      refine ⟨.subcycle l ps, [.loop none b ss], rfl, ?_⟩
      rw [Part.write, hb, h2]
      rfl
  | .timeSplit items, hk, hr => by
    rw [Xml.Known] at hk
    rw [Xml.names] at hr
    obtain ⟨os, ho, hall⟩ := known_objs hv (ph := ph) items hk hr
    refine ⟨.timeSplit os, ?_, fun idx => ?_⟩
    · rw [newObject, ho]
      rfl
    · obtain ⟨ps, ss, h1, h2⟩ := hall idx
      rw [analyzeObj, h1]
      exact ⟨_, ss, rfl, by rw [Part.write]; exact h2⟩
  | .other _, hk, _ => by rw [Xml.Known] at hk; exact hk.elim
theorem known_objs {loop : Str → Option Str} {vs : Vars} (hv : ∀ t, vs.needs t = []) {lib : Library} {ph : Str} :
    ∀ (xs : List Xml), allKnown (fun l => (loop l).isSome = true) xs →
    (∀ n ∈ namesOf xs, ∃ e, look lib (some n) = some e) →
    ∃ os, newObjects xs = some os ∧ ∀ idx, ∃ ps ss, analyzeObjs vs lib ph idx os = some (ps, idx) ∧ writeParts loop ps = some ss
  | [], _, _ => ⟨[], by rw [newObjects], fun idx => ⟨[], [], by rw [analyzeObjs], by rw [writeParts]⟩⟩
  | x :: xs, hk, hr => by
    rw [allKnown] at hk
    rw [namesOf] at hr
    obtain ⟨o, ho, hall⟩ := known_obj hv (ph := ph) x hk.1 fun n hn => hr n (List.mem_append_left _ hn)
    obtain ⟨os, hos, halls⟩ := known_objs hv (ph := ph) xs hk.2 fun n hn => hr n (List.mem_append_right _ hn)
    refine ⟨o :: os, ?_, fun idx => ?_⟩
    · rw [newObjects, ho, hos]
      rfl
    · obtain ⟨p, s, h1, h2⟩ := hall idx
      obtain ⟨ps, ss, h3, h4⟩ := halls idx
      refine ⟨p :: ps, s ++ ss, ?_, ?_⟩
      · rw [analyzeObjs, h1, Option.bind_some, h3]
        rfl
      · rw [writeParts, h2, Option.bind_some, h4]
        rfl
end

theorem headerKey_none {h : Header} : headerKey h = (none, none) ↔ ∀ n ph, ¬ IsRoutine h n ph := by
  constructor
  · intro he n ph hr
    rw [headerKey_iff.2 hr] at he
    cases he
  · intro hno
    unfold headerKey
    cases hm : SM.functionMatch SM.ccppMachine h.title with
    | none => rfl
    | some r =>
      exfalso
      refine hno r.1 r.2.2 (headerKey_iff.1 ?_)
      unfold headerKey
      rw [hm]

theorem distinct_iff (hs : List Header) : (hs.map headerKey).Nodup ↔ Distinct hs := by
  unfold List.Nodup Distinct
  rw [List.pairwise_map]
  have hcase : ∀ h : Header, (∃ n ph, headerKey h = (some n, some ph)) ∨ headerKey h = (none, none) := by
    intro h
    by_cases hc : ∃ n ph, IsRoutine h n ph
    · obtain ⟨n, ph, hr⟩ := hc
      exact .inl ⟨n, ph, headerKey_iff.2 hr⟩
    · exact .inr (headerKey_none.2 fun n ph hr => hc ⟨n, ph, hr⟩)
  have key : ∀ a b : Header, headerKey a ≠ headerKey b ↔ (∀ n ph, IsRoutine a n ph → ¬ IsRoutine b n ph) ∧
      ((∃ n ph, IsRoutine a n ph) ∨ (∃ n ph, IsRoutine b n ph)) := by
    intro a b
    constructor
    · intro hne
      refine ⟨fun n ph ha hb => hne ((headerKey_iff.2 ha).trans (headerKey_iff.2 hb).symm), ?_⟩
      rcases hcase a with ⟨n, ph, ha⟩ | ha
      · exact .inl ⟨n, ph, headerKey_iff.1 ha⟩
      · rcases hcase b with ⟨n, ph, hb⟩ | hb
        · exact .inr ⟨n, ph, headerKey_iff.1 hb⟩
        · exact absurd (ha.trans hb.symm) hne
    · rintro ⟨h1, h2⟩ he
      rcases hcase a with ⟨n, ph, ha⟩ | ha
      · exact h1 n ph (headerKey_iff.1 ha) (headerKey_iff.1 (he ▸ ha))
      · rcases h2 with ⟨n, ph, hr⟩ | ⟨n, ph, hr⟩
        · exact headerKey_none.1 ha n ph hr
        · exact headerKey_none.1 (he ▸ ha) n ph hr
  exact ⟨fun h => h.imp fun hab => (key _ _).1 hab, fun h => h.imp fun hab => (key _ _).2 hab⟩

theorem runGroup_known {loop : Str → Option Str} {vs : Vars} {hs : List Header} {ph : Str} {items : List Xml} {os : List Obj}
    {ps : List Part} {j : List Str} {ss : List Stmt} (h1 : runGroup items = some os)
    (h2 : analyzeObjs vs (libOf hs) ph [] os = some (ps, j)) (h3 : writeParts loop ps = some ss) :
    allKnown (fun l => (loop l).isSome = true) items ∧ ∀ n ∈ namesOf items, ∃ e, look (libOf hs) (some n) = some e := by
  unfold runGroup at h1
  split at h1
  · exact objs_known _ h1 h2 h3
  · have hw : newObjects [Xml.timeSplit items] = some os := by
      rw [newObjects, newObject, newObjects, Option.map_eq_some_iff] at *
      obtain ⟨os', ho, rfl⟩ := h1
      rw [ho]
      rfl
    obtain ⟨i1, i2⟩ := objs_known [Xml.timeSplit items] hw h2 h3
    rw [allKnown, Xml.Known] at i1
    exact ⟨i1.1, fun n hn => i2 n (by rw [namesOf, Xml.names]; exact List.mem_append_left _ hn)⟩

theorem known_runGroup {loop : Str → Option Str} {vs : Vars} (hv : ∀ t, vs.needs t = []) {lib : Library} {ph : Str}
    {items : List Xml} (h1 : allKnown (fun l => (loop l).isSome = true) items)
    (h2 : ∀ n ∈ namesOf items, ∃ e, look lib (some n) = some e) :
    ∃ os ps ss, runGroup items = some os ∧ analyzeObjs vs lib ph [] os = some (ps, []) ∧ writeParts loop ps = some ss := by
  obtain ⟨os, ho, hall⟩ := known_objs hv (ph := ph) items h1 h2
  obtain ⟨ps, ss, h3, h4⟩ := hall []
  unfold runGroup
  split
  · exact ⟨os, ps, ss, ho, h3, h4⟩
  · refine ⟨[.timeSplit os], [.timeSplit ps], ss, by rw [ho]; rfl, ?_, ?_⟩
    · rw [analyzeObjs, analyzeObj, h3, Option.map_some, Option.bind_some, analyzeObjs]
      rfl
    · rw [writeParts, Part.write, h4, Option.bind_some, writeParts]
      simp

theorem name_reserved (suite n : Str) :
    suite ++ '_' :: n ∈ fullPhases.map (fun ph => suite ++ '_' :: ph) ↔ n ∈ before ++ after := by
  have : ∀ ph : Str, suite ++ '_' :: ph = suite ++ '_' :: n ↔ ph = n := by
    intro ph
    simp
  rw [List.mem_map]
  simp only [this]
  unfold fullPhases before after
  constructor
  · rintro ⟨ph, h, rfl⟩
    simp only [List.mem_cons, List.not_mem_nil, or_false] at h
    rcases h with rfl | rfl | rfl | rfl | rfl <;> decide
  · intro h
    refine ⟨n, ?_, rfl⟩
    simp only [List.mem_append, List.mem_cons, List.not_mem_nil, or_false] at h
    rcases h with (rfl | rfl | rfl) | (rfl | rfl) <;> decide

/-- **C64, acceptance.**  If no routine needs a vertical loop, a suite cap is generated exactly for suite definitions that
consist of groups with names other than those of the phases, whose elements are schemes described by the metadata,
`time_split`s and subcycles that can be written (at present none: `loopProperty`), and for metadata without duplicates. -/
theorem C64_accepted {loop : Str → Option Str} {vs : Vars} (hv : ∀ t, vs.needs t = []) (hs : List Header)
    (suite : Str) (items : List SuiteItem) :
    (∃ subs, generate loop vs hs suite items = some subs) ↔
      Distinct hs ∧ ∃ gs, Groups items gs ∧ ∀ g ∈ gs, g.1 ∉ before ++ after ∧
        allKnown (fun l => (loop l).isSome = true) g.2 ∧ ∀ n ∈ namesOf g.2, ∃ h ∈ hs, ∃ ph, IsRoutine h n ph := by
  rw [← distinct_iff]
  constructor
  · rintro ⟨subs, h⟩
    obtain ⟨hk, gs, runs, hg, hm, hsub⟩ := generate_some h
    refine ⟨hk, gs, hg, fun g hgm => ?_⟩
    obtain ⟨i, hi⟩ := List.mem_iff_getElem?.1 hgm
    have hri := mapM_get hm i
    rw [hi, Option.bind_some] at hri
    have hlen : i < runs.length := by
      rw [mapM_length hm]; exact (List.getElem?_eq_some_iff.1 hi).1
    have hsub' := mapM_get hsub (3 + i)
    have hlen' : 3 + i < subs.length := by
      rw [mapM_length hsub]
      unfold groupsOf
      simp
      omega
    rw [groupsOf_run _ _ _ _ hlen, List.getElem?_eq_getElem hlen', List.getElem?_eq_getElem hlen, Option.map_some,
      Option.bind_some] at hsub'
    obtain ⟨ps, idx, h1, h2, _, _, _, h6⟩ := genGroup_some hsub'.symm
    rw [List.getElem?_eq_getElem hlen] at hri
    cases hrg : runGroup g.2 with
    | none => rw [hrg] at hri; cases hri
    | some os =>
      rw [hrg, Option.map_some, Option.some.injEq] at hri
      rw [hri] at h1 h6
      obtain ⟨i1, i2⟩ := runGroup_known hrg h1 h2
      refine ⟨fun hc => h6 ⟨rfl, (name_reserved suite g.1).2 hc⟩, i1, fun n hn => (registered_iff hs n).1 (i2 n hn)⟩
  · rintro ⟨hk, gs, hg, hall⟩
    have hr : ∃ runs, gs.mapM (fun g => (runGroup g.2).map fun os => (g.1, os)) = some runs := by
      rw [mapM_isSome]
      intro g hgm
      obtain ⟨h1, h2, h3⟩ := hall g hgm
      obtain ⟨os, _, _, ho, _⟩ := known_runGroup (loop := loop) hv (ph := "run".toList) h2
        (fun n hn => (registered_iff hs n).2 (h3 n hn))
      exact ⟨(g.1, os), by rw [ho]; rfl⟩
    obtain ⟨runs, hm⟩ := hr
    unfold generate
    rw [(library_iff hs _).2 ⟨hk, rfl⟩, Option.bind_some, runGroups_iff.2 ⟨gs, hg, hm⟩, Option.bind_some]
    rw [mapM_isSome]
    intro g hgm
    by_cases hrun : g.phase = "run".toList
    · have hex : ∃ x ∈ gs, ∃ os, runGroup x.2 = some os ∧ g.name = suite ++ '_' :: x.1 ∧ g.parts = os := by
        unfold groupsOf at hgm
        simp only [List.mem_append, List.mem_cons, List.not_mem_nil, or_false, List.mem_map] at hgm
        rcases hgm with ((rfl | rfl | rfl) | ⟨r, hrm, rfl⟩) | (rfl | rfl)
        · exact absurd hrun (by show ¬ "register".toList = "run".toList; decide)
        · exact absurd hrun (by show ¬ "initialize".toList = "run".toList; decide)
        · exact absurd hrun (by show ¬ "timestep_initial".toList = "run".toList; decide)
        · obtain ⟨i, hi⟩ := List.mem_iff_getElem?.1 hrm
          have := mapM_get hm i
          rw [hi, eq_comm, Option.bind_eq_some_iff] at this
          obtain ⟨x, hx, hxr⟩ := this
          rw [Option.map_eq_some_iff] at hxr
          obtain ⟨os, ho, rfl⟩ := hxr
          exact ⟨x, List.mem_of_getElem? hx, os, ho, rfl, rfl⟩
        · exact absurd hrun (by show ¬ "timestep_final".toList = "run".toList; decide)
        · exact absurd hrun (by show ¬ "finalize".toList = "run".toList; decide)
      obtain ⟨x, hx, os, ho, hname, hparts⟩ := hex
      obtain ⟨h1, h2, h3⟩ := hall x hx
      obtain ⟨os', ps, ss, ho', ha, hw⟩ := known_runGroup (loop := loop) hv (ph := g.phase) h2
        (fun n hn => (registered_iff hs n).2 (h3 n hn))
      rw [ho, Option.some.injEq] at ho'
      subst ho'
      unfold genGroup
      rw [if_neg (fun hc => h1 ((name_reserved suite x.1).1 (by rw [← hname]; exact hc.2))), hparts, ha, Option.bind_some, hw]
      exact ⟨_, rfl⟩
    · have hparts := groupsOf_full hgm hrun
      obtain ⟨os, ho, hall'⟩ := known_objs (loop := loop) hv (ph := g.phase) (lib := libOf hs)
        ((fullParts (runs.flatMap fun r => schemesOf r.2) g.phase [] (libOf hs)).map Xml.scheme)
        (by
          generalize fullParts (runs.flatMap fun r => schemesOf r.2) g.phase [] (libOf hs) = ns
          induction ns with
          | nil => trivial
          | cons n ns ih => rw [List.map_cons, allKnown]; exact ⟨trivial, ih⟩)
        (by
          rw [namesOf_schemes]
          intro n hn
          rcases fullParts_mem hn with h | ⟨e, he⟩
          · cases h
          · rw [look_libOf]
            unfold libOf at he
            rw [List.mem_map] at he
            obtain ⟨k, hk', he⟩ := he
            simp only [Prod.mk.injEq] at he
            rw [he.1] at hk'
            exact ⟨_, if_pos (mem_firsts.1 hk')⟩)
      rw [newObjects_schemes, Option.some.injEq] at ho
      obtain ⟨ps, ss, ha, hw⟩ := hall' []
      unfold genGroup
      rw [if_neg (fun hc => hrun hc.1), hparts, ho, ha, Option.bind_some, hw]
      exact ⟨_, rfl⟩

end Ccpp.Seq
