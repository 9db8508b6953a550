import Verif.Props.FortranFileMod
/-!
# C89: every table of a file is found
-/
namespace Ccpp.FFile

open Ccpp.FDecl (Str VarRec Blank)
open Ccpp.FSub (Begins isContains)

/-- The statements of a module after the first one. -/
def Mod.inner (m : Mod) : List Str :=
  m.parts.flatMap Part.stmts ++ m.sections.flatMap Section.stmts ++
    (match m.rest with
      | none => []
      | some (c, rs) => c :: rs.flatMap Routine.stmts) ++ [m.e]

/-- A module with `contains`. -/
theorem module_contains (logger : Bool) {m : Mod} (hok : m.Ok) (hr : m.rest ≠ none) {fuel : Nat} {src : Src} {ss : List Str}
    (hs : Holds src (m.inner ++ ss)) (hn : (m.inner ++ ss).length + 1 ≤ fuel) :
    ∃ src', module logger fuel m.name [] src = .ok (m.tables, m.plain, [], some src') ∧ Holds src' ss := by
  cases hx : m.rest with
  | none => exact absurd hx hr
  | some x =>
    obtain ⟨c, rs⟩ := x
    obtain ⟨hc, hrs⟩ := hok.contains _ hx
    obtain ⟨c1, c2, c3, c4⟩ := contains_facts hc
    have e : m.inner ++ ss = m.parts.flatMap Part.stmts ++ m.sections.flatMap Section.stmts ++ c ::
        (rs.flatMap Routine.stmts ++ m.e :: ss) := by
      unfold Mod.inner
      rw [hx]
      simp
    rw [e] at hs hn
    obtain ⟨rest1, h1, h2⟩ := spec_all logger hok.parts hok.sections hok.vars
      ⟨c1, c2, by rw [c4, Bool.or_true]⟩ hs hn
    have hlen : (rs.flatMap Routine.stmts ++ m.e :: ss).length + 0 ≤ fuel := by
      simp only [List.length_append, List.length_cons] at hn ⊢
      omega
    obtain ⟨j, h3⟩ := mod_routines logger (mod := m.name) (regions := [(true, m.name)]) rs hrs (specTables m.name m.sections) []
      false
    obtain ⟨n', ⟨cur, rest2⟩, h4, h5, h6⟩ := h3 0 fuel ([], rest1) (m.e :: ss) h2 hlen
    obtain ⟨rest3, h7, h8⟩ := next_holds h5
    refine ⟨([], rest3), ?_, h8⟩
    unfold module
    have he : enter true m.name [] = some [(true, m.name)] := rfl
    rw [he]
    simp only [h1, Option.getD_some]
    rw [h6]
    cases n' with
    | zero => simp at h4
    | succ n' =>
      obtain ⟨e1, e2, e3, e4⟩ := hok.stop.facts
      rw [moduleLoop, h7]
      simp only [e1, e3, e4, leave, true_and, or_true, if_true]
      simp [Mod.tables, Mod.plain, Mod.routines, hx]

/-- A module without `contains`: the rest of the file is read as if it belonged to it. -/
theorem module_last (logger : Bool) {m : Mod} (hok : m.Ok) (hr : m.rest = none) {fuel : Nat} {src : Src} {tail : List Str}
    (ht : ∀ s ∈ tail, Between s) (hs : Holds src (m.inner ++ tail)) (hn : (m.inner ++ tail).length + 1 ≤ fuel) :
    module logger fuel m.name [] src = .ok (m.tables, m.plain, [(true, m.name)], none) := by
  have e : m.inner ++ tail = m.parts.flatMap Part.stmts ++ m.sections.flatMap Section.stmts ++ m.e :: tail := by
    unfold Mod.inner
    rw [hr]
    simp
  rw [e] at hs hn
  obtain ⟨e1, e2, e3, e4⟩ := hok.stop.facts
  obtain ⟨rest1, h1, h2⟩ := spec_all logger hok.parts hok.sections hok.vars ⟨e1, e2, by rw [e3]; rfl⟩ hs hn
  have h3 : Reaches (moduleLoop logger m.name [(true, m.name)]) tail ⟨specTables m.name m.sections, none, [], false, false⟩
      ⟨specTables m.name m.sections, none, [], false, false⟩ := Reaches.all fun s hs => mod_between logger (ht s hs) _ rfl
  obtain ⟨n', ⟨cur, rest2⟩, h4, h5, h6⟩ := h3 1 fuel ([], rest1) [] (by simpa using h2) (by
    simp only [List.length_append, List.length_cons, List.append_nil] at hn ⊢
    omega)
  unfold module
  have he : enter true m.name [] = some [(true, m.name)] := rfl
  rw [he]
  simp only [h1, Option.getD_some]
  rw [h6]
  cases n' with
  | zero => simp at h4
  | succ n' =>
    rw [moduleLoop, next_end h5]
    simp [Mod.tables, Mod.plain, Mod.routines, hr]

/-- Statements outside. -/
theorem file_outside (logger : Bool) (fuel : Nat) (tables : List Tbl) (routines : Option (List Str)) {ss : List Str}
    (h : ∀ s ∈ ss, Outside s) :
    Reaches (fun n (_ : Unit) src => fileLoop logger fuel n tables routines [] src) ss () () := by
  refine Reaches.all fun s hs => Reaches.one fun n cur rest rest' hx => ?_
  obtain ⟨h1, h2⟩ := h s hs
  show fileLoop logger fuel (n + 1) tables routines [] (cur, rest) = _
  rw [fileLoop, hx]
  simp only [unitStart_none h1, unitStart_none h2]

theorem file_mods (logger : Bool) (fuel : Nat) {tail : List Str} (ht : ∀ s ∈ tail, Outside s ∧ Between s) :
    ∀ (mods : List (List Str × Mod)) (tables : List Tbl) (routines : Option (List Str)) (n : Nat) (src : Src),
    (∀ x ∈ mods, (∀ s ∈ x.1, Outside s) ∧ x.2.Ok) → (∀ x ∈ mods.dropLast, x.2.rest ≠ none) →
    Holds src (mods.flatMap (fun x => x.1 ++ x.2.stmts) ++ tail) →
    (mods.flatMap (fun x => x.1 ++ x.2.stmts) ++ tail).length + 1 ≤ n →
    (mods.flatMap (fun x => x.1 ++ x.2.stmts) ++ tail).length + 1 ≤ fuel →
    fileLoop logger fuel n tables routines [] src = .ok (tables ++ mods.flatMap (fun x => x.2.tables),
      match mods.getLast? with
      | none => routines
      | some x => some x.2.plain)
  | [], tables, routines, n, src, _, _, hs, hn, _ => by
    obtain ⟨n', ⟨cur, rest⟩, h1, h2, h3⟩ := file_outside logger fuel tables routines (fun s hs => (ht s hs).1) 1 n src []
      (by simpa using hs) (by simpa using hn)
    simp only at h3
    rw [h3]
    cases n' with
    | zero => simp at h1
    | succ n' =>
      rw [fileLoop, next_end h2]
      simp
  | (pre, m) :: mods, tables, routines, n, src, hok, hc, hs, hn, hf => by
    obtain ⟨hpre, hm⟩ := hok _ List.mem_cons_self
    have e : ((pre, m) :: mods).flatMap (fun x => x.1 ++ x.2.stmts) ++ tail =
        pre ++ (m.header :: (m.inner ++ (mods.flatMap (fun x => x.1 ++ x.2.stmts) ++ tail))) := by
      have : m.stmts = m.header :: m.inner := by
        unfold Mod.stmts Mod.inner
        cases m.rest <;> rfl
      simp [this]
    rw [e] at hs hn hf
    obtain ⟨n', ⟨cur, rest⟩, h1, h2, h3⟩ := file_outside logger fuel tables routines hpre 1 n src _ hs hn
    simp only at h3
    rw [h3]
    obtain ⟨rest', h4, h5⟩ := next_holds h2
    obtain ⟨s1, s2⟩ := starts_unit (by decide) hm.start
    have s3 : unitStart "program".toList m.header = none :=
      unitStart_none fun hb => clash hb s2 (by decide) (by decide) 1 (by decide)
    have hfm : (m.inner ++ (mods.flatMap (fun x => x.1 ++ x.2.stmts) ++ tail)).length + 1 ≤ fuel := by
      simp only [List.length_append, List.length_cons] at hf ⊢
      omega
    cases n' with
    | zero => simp at h1
    | succ n' =>
      rw [fileLoop, h4]
      simp only [s1, s3]
      by_cases hr : m.rest = none
      · have hnil : mods = [] := by
          cases mods with
          | nil => rfl
          | cons y mods => exact absurd hr (hc (pre, m) (by simp))
        subst hnil
        have h5' : Holds ([], rest') (m.inner ++ tail) := by simpa using h5
        rw [module_last logger hm hr (fun s hs => (ht s hs).2) h5' (by simpa using hfm)]
        simp only [Option.getD_none]
        cases n' with
        | zero =>
          exfalso
          simp only [List.length_cons, List.length_append, Mod.inner] at h1
          simp at h1
        | succ n' =>
          rw [fileLoop]
          simp [next]
      · obtain ⟨⟨cur2, rest2⟩, h6, h7⟩ := module_contains logger hm hr h5 hfm
        rw [h6]
        simp only [Option.getD_some]
        rw [file_mods logger fuel ht mods _ _ n' (cur2, rest2) (fun x hx => hok x (by simp [hx])) ?_ h7 ?_ ?_]
        · rw [List.flatMap_cons, List.append_assoc]
          congr 2
          cases mods with
          | nil => simp
          | cons y mods => rw [List.getLast?_cons_cons, List.getLast?_eq_some_getLast (by simp)]
        · intro x hx
          cases mods with
          | nil => cases hx
          | cons y mods => exact hc x (by rw [List.dropLast_cons_of_ne_nil (by simp)]; exact List.mem_cons_of_mem _ hx)
        · simp only [List.length_append, List.length_cons] at h1 ⊢
          omega
        · simp only [List.length_append] at hfm ⊢
          omega

theorem size_flatten : ∀ (ls : List (List Str)), ls.flatten.length ≤ size ls
  | [] => by simp
  | l :: ls => by
    have := size_flatten ls
    rw [size_cons, List.flatten_cons, List.length_append]
    omega

/-- **C89 (partial).**  A well-formed file, with at most one statement on each line: the result is the list of exactly the
announced tables, in the order of the source (types, the module, its schemes), with their variables; and the names of the
subroutines without table of the last module. -/
theorem C89_file_partial (logger : Bool) {ls : List (List (List Char))} {f : FileText} (hl : OnePerLine ls f.stmts) (hok : f.Ok) :
    file logger ls = .ok (f.tables, f.plain) := by
  have hs : Holds ([], ls) f.stmts :=
    ⟨fun l h => by
      rcases List.mem_cons.1 h with rfl | h
      · simp
      · exact hl.1 l h, by simpa using hl.2⟩
  have hlen : f.stmts.length ≤ size ls := by rw [← hl.2]; exact size_flatten ls
  have hmain := file_mods logger (size ls + 2) (tail := f.tail) hok.tail f.mods [] none (size ls + 2) ([], ls) hok.mods
    hok.contains hs (by show f.stmts.length + 1 ≤ _; omega) (by show f.stmts.length + 1 ≤ _; omega)
  obtain ⟨x, mods, hx⟩ : ∃ x mods, f.mods = x :: mods := by
    cases h : f.mods with
    | nil => exact absurd h hok.ne
    | cons x mods => exact ⟨x, mods, rfl⟩
  obtain ⟨s, ss, hss⟩ : ∃ s ss, f.stmts = s :: ss := by
    cases h : f.stmts with
    | nil =>
      unfold FileText.stmts at h
      rw [hx] at h
      simp [Mod.stmts] at h
    | cons s ss => exact ⟨s, ss, rfl⟩
  rw [hss] at hs
  obtain ⟨rest', h1, _⟩ := next_holds hs
  unfold file
  rw [h1, hmain]
  have hg : f.mods.getLast? = some (f.mods.getLast hok.ne) := List.getLast?_eq_some_getLast hok.ne
  rw [hg]
  simp [FileText.tables, FileText.plain, hg]


end Ccpp.FFile
