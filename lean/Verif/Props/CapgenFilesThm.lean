import Verif.Props.CapgenFiles
/-!
# C87: the theorems
-/
namespace Ccpp.CF

open Ccpp.FDecl (Str)
open Ccpp.MF

theorem allTables_append (a b : List Read) : allTables (a ++ b) = allTables a ++ allTables b := List.flatMap_append
theorem allSections_append (a b : List Read) : allSections (a ++ b) = allSections a ++ allSections b :=
  List.flatMap_append

/-- The header dictionary for some files. -/
def allHeaders (rs : List Read) : List (Str × Section × Str) :=
  rs.flatMap fun r => headerEntries r.file.name (sectionsOf r.tables)

theorem allHeaders_append (a b : List Read) : allHeaders (a ++ b) = allHeaders a ++ allHeaders b := List.flatMap_append

theorem allHeaders_titles (rs : List Read) : (allHeaders rs).map (·.1) = (allSections rs).map (·.title) := by
  induction rs with
  | nil => rfl
  | cons r rs ih =>
    have h1 : allHeaders (r :: rs) = headerEntries r.file.name (sectionsOf r.tables) ++ allHeaders rs := rfl
    have h2 : allSections (r :: rs) = sectionsOf r.tables ++ allSections rs := rfl
    rw [h1, h2, List.map_append, List.map_append, ih]
    simp [headerEntries]

theorem tableEntries_names (ts : List Table) : (tableEntries ts).map (·.1) = ts.map (·.name) := by
  simp [tableEntries]

/-- The state after some files. -/
structure Inv (reg : List Str) (rs : List Read) (s : St) : Prop where
  tables : s.tables = tableEntries (allTables rs)
  headers : s.headers = allHeaders rs
  known : ∀ n, n ∈ s.types.known ↔ n ∈ (typesAfter reg rs).known
  registered : ∀ n, n ∈ s.types.registered ↔ n ∈ (typesAfter reg rs).registered

/-- Reading a file that can be read, up to the loops over tables and headers. -/
theorem readFile_reads {world : Str → Option FortSrc} {reg : List Str} {rs : List Read} {s : St} (hi : Inv reg rs s)
    (r : Read) (hok : r.file.env.Ok) (h : Reads world (typesAfter reg rs) r) :
    ∃ ty : Types, (∀ n, n ∈ ty.known ↔ n ∈ (typesAfter reg (rs ++ [r])).known) ∧
      (∀ n, n ∈ ty.registered ↔ n ∈ (typesAfter reg (rs ++ [r])).registered) ∧
      readFile world s r.file = (addTables { s with types := ty } r.tables).bind fun s' =>
        addHeaders r.file.name s' (sectionsOf r.tables) := by
  obtain ⟨⟨docs, ht, hm⟩, path, src, hf, hw, hs⟩ := h
  obtain ⟨ty, hp⟩ := (parseFile_iff hok s.types (PO.logical r.file.lines) r.tables).2
    ⟨docs, ht, (fileMeans_congr hi.known hi.registered docs _).2 hm⟩
  obtain ⟨k1, k2⟩ := parseFile_types hok hp
  have hf' : findFortran (fun n => (world n).isSome) r.file.name = some path := by
    rw [findFortran_iff]
    simpa only [Option.isSome_iff_ne_none] using hf
  have hs' : (world path).bind (fun src => src (fun n => decide (n ∈ ty.registered)) (sectionsOf r.tables)) = some r.fort := by
    rw [hw, Option.bind_some, ← hs]
    refine congrArg (fun g => src g _) (funext fun n => ?_)
    simp only [k2, hi.registered]
  refine ⟨⟨ty.known, ty.registered ++ r.fort⟩, fun n => ?_, fun n => ?_, ?_⟩
  · simp only [k1, hi.known, typesAfter, allTables_append, ddtNames_append, List.mem_append]
    simp [allTables]
  · simp only [List.mem_append, k2, hi.registered, typesAfter, List.flatMap_append]
    simp [or_assoc]
  · unfold readFile
    rw [hp]
    simp only
    rw [hf']
    simp only
    rw [hs']

/-- What a file that is not refused contains. -/
theorem readFile_not_refused {world : Str → Option FortSrc} {reg : List Str} {rs : List Read} {s : St} (hi : Inv reg rs s)
    (f : Source) (hok : f.env.Ok) (h : readFile world s f ≠ .refused f.name) :
    ∃ r : Read, r.file = f ∧ Reads world (typesAfter reg rs) r := by
  unfold readFile at h
  split at h
  · exact absurd rfl h
  · rename_i ts ty hp
    split at h
    · exact absurd rfl h
    · rename_i path hf
      split at h
      · exact absurd rfl h
      · rename_i fort hs
        obtain ⟨docs, ht, hm⟩ := (parseFile_iff hok s.types (PO.logical f.lines) ts).1 ⟨ty, hp⟩
        obtain ⟨k1, k2⟩ := parseFile_types hok hp
        refine ⟨⟨f, ts, fort⟩, rfl, ⟨docs, ht, (fileMeans_congr hi.known hi.registered docs _).1 hm⟩, ?_⟩
        rw [Option.bind_eq_some_iff] at hs
        obtain ⟨src, hw, hs⟩ := hs
        refine ⟨path, src, ?_, hw, ?_⟩
        · rw [findFortran_iff] at hf
          simpa only [Option.isSome_iff_ne_none] using hf
        · rw [← hs]
          refine congrArg (fun g => src g _) (funext fun n => ?_)
          simp only [k2, hi.registered]

/-- The next file can be added. -/
theorem readFile_ok {world : Str → Option FortSrc} {reg : List Str} {rs : List Read} {s : St} (hi : Inv reg rs s)
    (r : Read) (hok : r.file.env.Ok) (h : Reads world (typesAfter reg rs) r)
    (ht : ((allTables (rs ++ [r])).map (·.name)).Nodup) (hs : ((allSections (rs ++ [r])).map (·.title)).Nodup) :
    ∃ s', readFile world s r.file = .ok s' ∧ Inv reg (rs ++ [r]) s' := by
  obtain ⟨ty, k1, k2, hr⟩ := readFile_reads hi r hok h
  have one : allTables [r] = r.tables := by simp [allTables]
  have hone : allSections [r] = sectionsOf r.tables := by simp [allSections, sectionsOf]
  have h1 : allHeaders [r] = headerEntries r.file.name (sectionsOf r.tables) := by simp [allHeaders]
  rw [addTables_ok] at hr
  · simp only [Outcome.bind] at hr
    rw [addHeaders_ok] at hr
    · refine ⟨_, hr, ?_, ?_, fun n => ?_, fun n => ?_⟩
      · simp only [withHeaders, hi.tables, allTables_append, one, tableEntries, List.map_append]
      · simp only [withHeaders, hi.headers, allHeaders_append, h1]
      · simp only [withHeaders, List.mem_append, List.mem_map, List.mem_filter, decide_eq_true_eq]
        rw [k1]
        constructor
        · rintro (h2 | ⟨x, ⟨hx, hd⟩, rfl⟩)
          · exact h2
          · obtain ⟨⟨docs, _, hm⟩, _⟩ := h
            have := ddt_section hm hx hd
            simp only [typesAfter, allTables_append, ddtNames_append, List.mem_append, one]
            exact .inr this
        · exact .inl
      · simp only [withHeaders]
        exact k2 n
    · simp only [hi.headers]
      rw [allHeaders_titles]
      simpa [allSections_append, hone] using hs
  · simp only [hi.tables]
    rw [tableEntries_names]
    simpa [allTables_append, one] using ht

/-- The start. -/
theorem inv_nil (reg : List Str) : Inv reg [] { types := ⟨[], reg⟩ } :=
  ⟨rfl, rfl, by simp [typesAfter, allTables, ddtNames], by simp [typesAfter]⟩

/-- Where reading of some files stops. -/
inductive Stops (world : Str → Option FortSrc) (reg : List Str) (rs : List Read) (f : Source) : Outcome St → Prop where
  | refused : (¬ ∃ r : Read, r.file = f ∧ Reads world (typesAfter reg rs) r) → Stops world reg rs f (.refused f.name)
  | table {r c} : r.file = f → Reads world (typesAfter reg rs) r → ¬ ((allTables (rs ++ [r])).map (·.name)).Nodup →
      Stops world reg rs f (.crash c)
  | header {r a h b o} : r.file = f → Reads world (typesAfter reg rs) r → sectionsOf r.tables = a ++ h :: b →
      (∃ e ∈ allHeaders rs ++ headerEntries f.name a, e.1 = h.title ∧ e.2.2 = o) →
      Stops world reg rs f (.duplicate h.title f.name o)

/-- One file: it is read, or reading stops. -/
theorem readFile_cases {world : Str → Option FortSrc} {reg : List Str} {rs : List Read} {s : St} (hi : Inv reg rs s)
    (h0 : ((allTables rs).map (·.name)).Nodup) (h1 : ((allSections rs).map (·.title)).Nodup) (f : Source) (hok : f.env.Ok) :
    (∃ r s', r.file = f ∧ Reads world (typesAfter reg rs) r ∧ ((allTables (rs ++ [r])).map (·.name)).Nodup ∧
      ((allSections (rs ++ [r])).map (·.title)).Nodup ∧ readFile world s f = .ok s' ∧ Inv reg (rs ++ [r]) s') ∨
    Stops world reg rs f (readFile world s f) := by
  by_cases hR : ∃ r : Read, r.file = f ∧ Reads world (typesAfter reg rs) r
  · obtain ⟨r, rfl, h⟩ := hR
    have one : allTables [r] = r.tables := by simp [allTables]
    have hone : allSections [r] = sectionsOf r.tables := by simp [allSections, sectionsOf]
    by_cases ht : ((allTables (rs ++ [r])).map (·.name)).Nodup
    · by_cases hs : ((allSections (rs ++ [r])).map (·.title)).Nodup
      · obtain ⟨s', h2, h3⟩ := readFile_ok hi r hok h ht hs
        exact .inl ⟨r, s', rfl, h, ht, hs, h2, h3⟩
      · right
        obtain ⟨ty, k1, k2, hr⟩ := readFile_reads hi r hok h
        rw [addTables_ok] at hr
        · simp only [Outcome.bind] at hr
          obtain ⟨a, x, b, o, e1, e2, e3⟩ := addHeaders_dup r.file.name
            { s with tables := s.tables ++ tableEntries r.tables, types := ty } (sectionsOf r.tables)
            (by simp only [hi.headers]; rw [allHeaders_titles]; exact h1)
            (by simp only [hi.headers]; rw [allHeaders_titles]; simpa [allSections_append, hone] using hs)
          rw [hr, e2]
          simp only [hi.headers] at e3
          exact .header rfl h e1 e3
        · simp only [hi.tables]
          rw [tableEntries_names]
          simpa [allTables_append, one] using ht
    · right
      obtain ⟨ty, k1, k2, hr⟩ := readFile_reads hi r hok h
      obtain ⟨c, hc⟩ := addTables_crash { s with types := ty } r.tables
        (by simp only [hi.tables]; rw [tableEntries_names]; exact h0)
        (by simp only [hi.tables]; rw [tableEntries_names]; simpa [allTables_append, one] using ht)
      rw [hr, hc]
      exact .table rfl h ht
  · right
    have : readFile world s f = .refused f.name := by
      refine Classical.byContradiction fun hn => hR (readFile_not_refused hi f hok hn)
    rw [this]
    exact .refused hR

theorem allRead_take {world : Str → Option FortSrc} {reg : List Str} {rs : List Read} (h : AllRead world reg rs) {r : Read}
    (hr : Reads world (typesAfter reg rs) r) (ht : ((allTables (rs ++ [r])).map (·.name)).Nodup)
    (hs : ((allSections (rs ++ [r])).map (·.title)).Nodup) : AllRead world reg (rs ++ [r]) := by
  refine ⟨fun i x hx => ?_, ht, hs⟩
  rcases Nat.lt_trichotomy i rs.length with hl | rfl | hl
  · rw [List.getElem?_append_left hl] at hx
    rw [List.take_append_of_le_length (Nat.le_of_lt hl)]
    exact h.reads i x hx
  · rw [List.getElem?_append_right (Nat.le_refl _)] at hx
    simp only [Nat.sub_self, List.getElem?_cons_zero, Option.some.injEq] at hx
    subst hx
    rw [List.take_append_of_le_length (Nat.le_refl _), List.take_length]
    exact hr
  · rw [List.getElem?_eq_none (by simp; omega)] at hx
    cases hx

/-- All files: they are read, or reading stops at one. -/
theorem readFiles_cases {world : Str → Option FortSrc} {reg : List Str} (fs : List Source) (hok : ∀ f ∈ fs, f.env.Ok)
    {rs : List Read} {s : St} (hi : Inv reg rs s) (hA : AllRead world reg rs) :
    (∃ new s', new.map (·.file) = fs ∧ AllRead world reg (rs ++ new) ∧ readFiles world s fs = .ok s' ∧ Inv reg (rs ++ new) s') ∨
    ∃ new f post, fs = new.map (·.file) ++ f :: post ∧ AllRead world reg (rs ++ new) ∧
      Stops world reg (rs ++ new) f (readFiles world s fs) := by
  induction fs generalizing rs s with
  | nil => exact .inl ⟨[], s, rfl, by simpa using hA, rfl, by simpa using hi⟩
  | cons f fs ih =>
    rcases readFile_cases (world := world) hi hA.tables hA.sections f (hok f (by simp)) with
      ⟨r, s', rfl, h1, h2, h3, h4, h5⟩ | h
    · have hrf : readFiles world s (r.file :: fs) = readFiles world s' fs := by
        rw [readFiles, h4]; rfl
      rw [hrf]
      rcases ih (fun x hx => hok x (by simp [hx])) h5 (allRead_take hA h1 h2 h3) with
        ⟨new, s2, e1, e2, e3, e4⟩ | ⟨new, g, post, e1, e2, e3⟩
      · exact .inl ⟨r :: new, s2, by simp [e1], by simpa using e2, e3, by simpa using e4⟩
      · exact .inr ⟨r :: new, g, post, by simp [e1], by simpa using e2, by simpa using e3⟩
    · right
      refine ⟨[], f, fs, rfl, by simpa using hA, ?_⟩
      rw [List.append_nil]
      have : readFiles world s (f :: fs) = readFile world s f := by
        rw [readFiles]
        generalize readFile world s f = o at h ⊢
        cases h <;> rfl
      rw [this]
      exact h

theorem allRead_nil (world : Str → Option FortSrc) (reg : List Str) : AllRead world reg [] :=
  ⟨fun i x hx => by simp at hx, by simp [allTables], by simp [allSections]⟩

/-- If all files are read then they are accepted. -/
theorem readFiles_ok {world : Str → Option FortSrc} {reg : List Str} (new : List Read) (hok : ∀ r ∈ new, r.file.env.Ok)
    {rs : List Read} {s : St} (hi : Inv reg rs s) (hA : AllRead world reg (rs ++ new)) :
    ∃ s', readFiles world s (new.map (·.file)) = .ok s' ∧ Inv reg (rs ++ new) s' := by
  induction new generalizing rs s with
  | nil => exact ⟨s, rfl, by simpa using hi⟩
  | cons r new ih =>
    have hr : Reads world (typesAfter reg rs) r := by
      have := hA.reads rs.length r (by simp)
      rwa [List.take_append_of_le_length (Nat.le_refl _), List.take_length] at this
    have hsub : (rs ++ [r]) ++ new = rs ++ r :: new := by simp
    have ht : ((allTables (rs ++ [r])).map (·.name)).Nodup := by
      have := hA.tables
      rw [← hsub, allTables_append, List.map_append] at this
      exact (List.nodup_append.1 this).1
    have hs : ((allSections (rs ++ [r])).map (·.title)).Nodup := by
      have := hA.sections
      rw [← hsub, allSections_append, List.map_append] at this
      exact (List.nodup_append.1 this).1
    obtain ⟨s', h1, h2⟩ := readFile_ok hi r (hok r (by simp)) hr ht hs
    obtain ⟨s2, h3, h4⟩ := ih (fun x hx => hok x (by simp [hx])) h2 (by rw [hsub]; exact hA)
    refine ⟨s2, ?_, by rw [← hsub]; exact h4⟩
    rw [List.map_cons, readFiles, h1]
    exact h3

/-- **C87, accepted files.**  A list of metadata files (of the host, or of the schemes) is accepted exactly if every
file is a metadata file in the sense of C62, where the derived types of the tables before are known, if its Fortran file
exists and agrees with it, and if all tables of all files have different names and all sections different titles.  The
result is all tables and all sections, in the order of the files, each under its name. -/
theorem C87_accept (world : Str → Option FortSrc) (reg : List Str) (fs : List Source) (hok : ∀ f ∈ fs, f.env.Ok)
    (tables : List (Option Str × Table)) (headers : List (Str × Section)) :
    (∃ s, readAll world reg fs = .ok s ∧ s.tables = tables ∧ s.headers.map (fun e => (e.1, e.2.1)) = headers) ↔
    ∃ rs, rs.map (·.file) = fs ∧ AllRead world reg rs ∧
      tables = (allTables rs).map (fun t => (t.name, t)) ∧ headers = (allSections rs).map (fun h => (h.title, h)) := by
  have hh : ∀ rs : List Read, (allHeaders rs).map (fun e => (e.1, e.2.1)) = (allSections rs).map (fun h => (h.title, h)) := by
    intro rs
    induction rs with
    | nil => rfl
    | cons r rs ih =>
      have h1 : allHeaders (r :: rs) = headerEntries r.file.name (sectionsOf r.tables) ++ allHeaders rs := rfl
      have h2 : allSections (r :: rs) = sectionsOf r.tables ++ allSections rs := rfl
      rw [h1, h2, List.map_append, List.map_append, ih]
      simp [headerEntries]
  unfold readAll
  constructor
  · rintro ⟨s, h1, rfl, rfl⟩
    rcases readFiles_cases fs hok (inv_nil reg) (allRead_nil world reg) with ⟨new, s', e1, e2, e3, e4⟩ | ⟨_, f, _, _, _, h⟩
    · rw [e3] at h1
      cases h1
      exact ⟨new, e1, by simpa using e2, by simpa [tableEntries] using e4.tables, by rw [e4.headers, hh]; rfl⟩
    · rw [h1] at h; cases h
  · rintro ⟨rs, rfl, hA, rfl, rfl⟩
    obtain ⟨s, h1, h2⟩ := readFiles_ok rs (fun r hr => hok _ (List.mem_map_of_mem hr)) (inv_nil reg) (by simpa using hA)
    exact ⟨s, h1, by simpa [tableEntries] using h2.tables, by rw [h2.headers, hh]; rfl⟩

/-- **C87, refused files.**  If a file is named as refused then all files before it are read, and it can not be: it is no
metadata file, or its Fortran file does not exist or does not agree. -/
theorem C87_refused (world : Str → Option FortSrc) (reg : List Str) (fs : List Source) (hok : ∀ f ∈ fs, f.env.Ok) (n : Str)
    (h : readAll world reg fs = .refused n) :
    ∃ rs f post, fs = rs.map (·.file) ++ f :: post ∧ f.name = n ∧ AllRead world reg rs ∧
      ¬ ∃ r : Read, r.file = f ∧ Reads world (typesAfter reg rs) r := by
  unfold readAll at h
  rcases readFiles_cases fs hok (inv_nil reg) (allRead_nil world reg) with ⟨new, s', _, _, e3, _⟩ | ⟨new, f, post, e1, e2, e3⟩
  · rw [h] at e3; cases e3
  · rw [h] at e3
    generalize hx : Outcome.refused n = x at e3
    cases e3 with
    | refused hr =>
      cases hx
      exact ⟨new, f, post, e1, rfl, by simpa using e2, by simpa using hr⟩
    | table => cases hx
    | header => cases hx

/-- **C87, duplicate sections.**  If a section is reported as a duplicate then it is in the file named, and a section
with the same title comes before it, in the file named as the original. -/
theorem C87_duplicate (world : Str → Option FortSrc) (reg : List Str) (fs : List Source) (hok : ∀ f ∈ fs, f.env.Ok)
    (title file original : Str) (h : readAll world reg fs = .duplicate title file original) :
    ∃ rs r post, fs = rs.map (·.file) ++ r.file :: post ∧ AllRead world reg rs ∧ Reads world (typesAfter reg rs) r ∧
      r.file.name = file ∧ ∃ a h b, r.tables.flatMap (·.sects) = a ++ h :: b ∧ h.title = title ∧
      ((∃ q ∈ rs, q.file.name = original ∧ ∃ g ∈ q.tables.flatMap (·.sects), g.title = title) ∨
        (original = file ∧ ∃ g ∈ a, g.title = title)) := by
  unfold readAll at h
  rcases readFiles_cases fs hok (inv_nil reg) (allRead_nil world reg) with ⟨new, s', _, _, e3, _⟩ | ⟨new, f, post, e1, e2, e3⟩
  · rw [h] at e3; cases e3
  · rw [h] at e3
    generalize hx : Outcome.duplicate title file original = x at e3
    cases e3 with
    | refused hr => cases hx
    | table => cases hx
    | header h1 h2 h3 h4 =>
      rename_i r a x b o
      cases hx
      subst h1
      refine ⟨new, r, post, e1, by simpa using e2, by simpa using h2, rfl, a, x, b, h3, rfl, ?_⟩
      obtain ⟨e, he, h5, h6⟩ := h4
      rw [List.nil_append, List.mem_append] at he
      rcases he with he | he
      · left
        unfold allHeaders at he
        rw [List.mem_flatMap] at he
        obtain ⟨q, hq, he⟩ := he
        unfold headerEntries at he
        rw [List.mem_map] at he
        obtain ⟨g, hg, rfl⟩ := he
        exact ⟨q, hq, h6, g, hg, h5⟩
      · right
        unfold headerEntries at he
        rw [List.mem_map] at he
        obtain ⟨g, hg, rfl⟩ := he
        exact ⟨h6.symm, g, hg, h5⟩

/-- **C87, another exception.**  Reading ends in an exception that is no error of the framework only for two tables of the
same name. -/
theorem C87_crash (world : Str → Option FortSrc) (reg : List Str) (fs : List Source) (hok : ∀ f ∈ fs, f.env.Ok)
    (c : Crash) (h : readAll world reg fs = .crash c) :
    ∃ rs r post, fs = rs.map (·.file) ++ r.file :: post ∧ AllRead world reg rs ∧ Reads world (typesAfter reg rs) r ∧
      ∃ t ∈ r.tables, ∃ q ∈ rs, ∃ u ∈ q.tables, t.name = u.name := by
  unfold readAll at h
  rcases readFiles_cases fs hok (inv_nil reg) (allRead_nil world reg) with ⟨new, s', _, _, e3, _⟩ | ⟨new, f, post, e1, e2, e3⟩
  · rw [h] at e3; cases e3
  · rw [h] at e3
    generalize hx : Outcome.crash c = x at e3
    cases e3 with
    | refused hr => cases hx
    | header => cases hx
    | table h1 h2 h3 =>
      rename_i r c'
      subst h1
      simp only [List.nil_append] at e2 h2 h3
      refine ⟨new, r, post, e1, e2, h2, ?_⟩
      rw [allTables_append, List.map_append, List.nodup_append] at h3
      refine Classical.byContradiction fun hn => h3 ⟨e2.tables, ?_, ?_⟩
      · obtain ⟨⟨docs, _, hm⟩, _⟩ := h2
        simpa [allTables] using hm.1
      · intro x hx y hy hxy
        subst hxy
        rw [List.mem_map] at hx hy
        obtain ⟨u, hu, rfl⟩ := hx
        obtain ⟨t, ht, htu⟩ := hy
        unfold allTables at hu ht
        rw [List.mem_flatMap] at hu
        obtain ⟨q, hq, hu⟩ := hu
        simp only [List.flatMap_cons, List.flatMap_nil, List.append_nil] at ht
        exact hn ⟨t, ht, q, hq, u, hu, htu⟩

theorem readFiles_append (world : Str → Option FortSrc) (s : St) (a b : List Source) :
    readFiles world s (a ++ b) = (readFiles world s a).bind fun s' => readFiles world s' b := by
  induction a generalizing s with
  | nil => rfl
  | cons f a ih =>
    rw [List.cons_append, readFiles, readFiles]
    cases readFile world s f with
    | ok s' => exact ih s'
    | refused n => rfl
    | duplicate t n o => rfl
    | crash c => rfl

/-- **C87 is violated (1).**  Whenever a file that can be read has a table with the name of a table of a file before it,
there is no error message: the code that should write it raises a KeyError, an UnboundLocalError or an
AttributeError. -/
theorem C87_table_violated (world : Str → Option FortSrc) (reg : List Str) (rs : List Read) (r : Read) (post : List Source)
    (hok : ∀ q ∈ rs ++ [r], q.file.env.Ok) (hA : AllRead world reg rs) (hr : Reads world (typesAfter reg rs) r)
    (t : Table) (ht : t ∈ r.tables) (q : Read) (hq : q ∈ rs) (u : Table) (hu : u ∈ q.tables) (hn : t.name = u.name) :
    ∃ c, readAll world reg (rs.map (·.file) ++ r.file :: post) = .crash c := by
  obtain ⟨s, h1, hi⟩ := readFiles_ok rs (fun x hx => hok x (by simp [hx])) (inv_nil reg) (by simpa using hA)
  rw [List.nil_append] at hi
  unfold readAll
  rw [readFiles_append, h1]
  obtain ⟨ty, _, _, h2⟩ := readFile_reads hi r (hok r (by simp)) hr
  obtain ⟨c, hc⟩ := addTables_crash { s with types := ty } r.tables
    (by simp only [hi.tables]; rw [tableEntries_names]; exact hA.tables)
    (by
      simp only [hi.tables]
      rw [tableEntries_names, List.nodup_append]
      intro h
      exact h.2.2 u.name (List.mem_map_of_mem (by unfold allTables; exact List.mem_flatMap.2 ⟨q, hq, hu⟩)) t.name
        (List.mem_map_of_mem ht) hn.symm)
  refine ⟨c, ?_⟩
  simp only [Outcome.bind, readFiles]
  rw [h2, hc]
  rfl

end Ccpp.CF
