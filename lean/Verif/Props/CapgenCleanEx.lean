import Verif.Props.CapgenCleanThm
import Verif.Props.XmlFileExamples
/-!
# C88: where the code violates the property; examples
-/
namespace Ccpp.CG

open Ccpp.XF (Str begTag endTag simpleTag prettyLoop indent)

mutual
theorem toString_newline : ∀ (e : XF.Elem), OneLine e → '\n' ∉ XF.toString e
  | .mk tag attrs text kids tail, h => by
    rw [OneLine] at h
    obtain ⟨h1, h2, h3, h4, h5⟩ := h
    have esc : ∀ s : Str, '\n' ∉ s → '\n' ∉ s.flatMap XF.escText := by
      intro s hs hm
      rw [List.mem_flatMap] at hm
      obtain ⟨c, hc, hm⟩ := hm
      rcases XF.escText_cases c with hx | ⟨hx, _⟩
      · have := (hx _ hm)
        unfold XF.Solid at this
        revert this
        decide
      · rw [hx, List.mem_singleton] at hm
        subst hm
        exact hs hc
    have attr : '\n' ∉ XF.headText tag attrs := by
      unfold XF.headText
      intro hm
      rcases List.mem_append.1 hm with hm | hm
      · exact h1 hm
      · rw [List.mem_flatMap] at hm
        obtain ⟨a, ha, hm⟩ := hm
        unfold XF.attrText at hm
        simp only [List.cons_append, List.mem_cons, List.mem_append, List.not_mem_nil, or_false, or_assoc] at hm
        rcases hm with hm | hm | hm | hm | hm | hm
        · revert hm; decide
        · exact h2 a ha hm
        · revert hm; decide
        · revert hm; decide
        · rw [List.mem_flatMap] at hm
          obtain ⟨c, _, hm⟩ := hm
          unfold XF.escAttr at hm
          split at hm
          · revert hm; decide
          · split at hm
            · revert hm; decide
            · split at hm
              · revert hm; decide
              · split at hm
                · revert hm; decide
                · rename_i hc _
                  rcases XF.escText_cases c with hx | ⟨hx, _⟩
                  · have := (hx _ hm)
                    unfold XF.Solid at this
                    revert this
                    decide
                  · rw [hx, List.mem_singleton] at hm
                    exact hc hm.symm
        · revert hm; decide
    have hk := toStrings_newline kids h4
    rw [XF.toString]
    intro hm
    rcases List.mem_append.1 hm with hm | hm
    · split at hm
      · rcases List.mem_append.1 hm with hm | hm
        · rcases List.mem_cons.1 hm with hm | hm
          · revert hm; decide
          · exact attr hm
        · revert hm; decide
      · simp only [List.cons_append, List.mem_cons, List.mem_append, List.not_mem_nil, or_false, or_assoc] at hm
        rcases hm with hm | hm | hm | hm | hm | hm | hm | hm | hm
        · revert hm; decide
        · exact attr hm
        · revert hm; decide
        · exact esc _ h3 hm
        · exact hk hm
        · revert hm; decide
        · revert hm; decide
        · exact h1 hm
        · revert hm; decide
    · exact esc _ h5 hm
theorem toStrings_newline : ∀ (es : List XF.Elem), allOneLine es → '\n' ∉ XF.toStrings es
  | [], _ => by rw [XF.toStrings]; simp
  | e :: es, h => by
    rw [allOneLine] at h
    rw [XF.toStrings]
    intro hm
    rcases List.mem_append.1 hm with hm | hm
    · exact toString_newline e h.1 hm
    · exact toStrings_newline es h.2 hm
end

theorem toString_ends (e : XF.Elem) (h : e.tail = []) : Ends (XF.toString e) := by
  cases e with
  | mk tag attrs text kids tail =>
    have : tail = [] := h
    subst this
    rw [XF.toString]
    simp only [List.flatMap_nil, List.append_nil]
    split
    · refine ends_of_eq ('<' :: XF.headText tag attrs ++ [' ', '/']) ?_
      have e : " />".toList = [' ', '/', '>'] := rfl
      rw [e]
      simp
    · exact ends_append rfl

/-- The lines of a data table end with a closing bracket. -/
theorem table_lines {e : XF.Elem} {text : Str} (ho : OneLine e) (ht : e.tail = []) (hw : XF.write e = some text) :
    GoodLines text := by
  unfold XF.write at hw
  have hE := strip_ends (toString_ends e ht)
  refine pretty_lines _ _ _ _ _ ?_ (.inr hE) hw
  intro hm
  exact toString_newline e ho (XF.strip_mem hm)

theorem norm_ends {root q : Str} (hr : Dir root) (hq : isAbs q = false) (he : Ends q) : Ends (normpath (pathJoin root q)) := by
  rw [norm_join hr hq]
  -- the last component is kept
  have hlast : ∃ init l, Chk.splitOn '/' q = init ++ [l] ∧ Ends l := by
    clear hq hr
    induction q with
    | nil => cases he
    | cons c q ih =>
      cases q with
      | nil =>
        have : c = '>' := by
          unfold Ends at he
          simpa using he
        subst this
        exact ⟨[], ['>'], by decide, rfl⟩
      | cons d q =>
        obtain ⟨init, l, h1, h2⟩ := ih (by
          unfold Ends at he ⊢
          rwa [List.getLast?_cons_cons] at he)
        rw [Chk.splitOn]
        split
        · exact ⟨[] :: init, l, by rw [h1]; rfl, h2⟩
        · rw [h1]
          cases init with
          | nil => exact ⟨[], c :: l, rfl, ends_append (a := [c]) h2⟩
          | cons x xs => exact ⟨(c :: x) :: xs, l, rfl, h2⟩
  obtain ⟨init, l, h1, h2⟩ := hlast
  rw [h1, List.foldl_append]
  generalize init.foldl (normStep true) _ = d
  have : [l].foldl (normStep true) d = d ++ [l] := by
    show normStep true d l = d ++ [l]
    unfold normStep
    have hne : l ≠ [] ∧ l ≠ ['.'] ∧ l ≠ ['.', '.'] := by
      refine ⟨?_, ?_, ?_⟩ <;> (rintro rfl; revert h2; unfold Ends; decide)
    rw [if_neg (by rintro (h | h); exact hne.1 h; exact hne.2.1 h), if_pos (.inl hne.2.2)]
  rw [this]
  unfold absolute
  have hj : ∀ d : List Str, Ends (['/'].intercalate (d ++ [l])) := by
    intro d
    rw [← slashJoin_eq]
    induction d with
    | nil => exact h2
    | cons x d ih =>
      cases d with
      | nil => exact ends_append (a := x ++ ['/']) (b := l) h2 |> fun h => by simpa [slashJoin] using h
      | cons y d =>
        have : slashJoin (x :: y :: d ++ [l]) = (x ++ ['/']) ++ slashJoin (y :: d ++ [l]) := by
          simp [slashJoin]
        rw [this]
        exact ends_append ih
  exact ends_append (a := ['/']) (hj d)

theorem path_ends {root line p : Str} (hr : Dir root) (hl : line = [] ∨ Ends line) (h : linePath root line = some p) :
    Ends p := by
  unfold linePath at h
  rcases hl with rfl | hl
  · cases h
  · have hs := strip_ends hl
    split at h
    · cases h
    · rename_i c q hq
      rw [hq] at hs
      split at h
      · simp only [Option.some.injEq] at h
        rw [← h]
        split
        · exact hs
        · rename_i ha
          exact norm_ends hr (by simpa using ha) hs
      · cases h

theorem strip_head {l : Str} (h : l.head? = some '<') (he : Ends (XF.strip l)) : (XF.strip l).head? = some '<' := by
  obtain ⟨a, b, hs, ha, hb⟩ := XF.strip_split l
  cases a with
  | nil =>
    cases hx : XF.strip l with
    | nil => rw [hx] at he; cases he
    | cons c r =>
      rw [hs, hx] at h
      exact h
  | cons c a =>
    rw [hs] at h
    simp only [List.cons_append, List.head?_cons, Option.some.injEq] at h
    subst h
    exact absurd (ha '<' (by simp)) (by decide)

theorem pretty_head0 {fuel : Nat} {s o : Str} (hs : s.head? = some '<') (h : prettyLoop fuel 0 false s = some o) :
    o.head? = some '<' := by
  have key : ∀ (t rest : Str), t.head? = some '<' → (indent 0 ++ t ++ rest).head? = some '<' := by
    intro t rest ht
    cases t with
    | nil => cases ht
    | cons x t => exact ht
  cases s with
  | nil => cases hs
  | cons c s =>
    simp only [List.head?_cons, Option.some.injEq] at hs
    subst hs
    cases fuel with
    | zero => rw [prettyLoop] at h; cases h; all_goals simp
    | succ fuel =>
      rw [prettyLoop] at h
      · split at h
        · rename_i t r hb
          obtain ⟨_, _, h3⟩ := begTag_spec hb
          split at h
          · cases h
          · rw [Option.map_eq_some_iff] at h
            obtain ⟨o', _, rfl⟩ := h
            rw [List.append_assoc]
            exact key _ _ h3
        · split at h
          · rename_i t r hb
            obtain ⟨_, _, h3⟩ := endTag_spec hb
            rw [Option.map_eq_some_iff] at h
            obtain ⟨o', _, rfl⟩ := h
            rw [List.append_assoc]
            exact key _ _ h3
          · split at h
            · rename_i t r hb
              obtain ⟨_, _, h3⟩ := simpleTag_spec hb
              rw [Option.map_eq_some_iff] at h
              obtain ⟨o', _, rfl⟩ := h
              rw [List.append_assoc]
              exact key _ _ h3
            · simp at h
      · simp

theorem text_head {e : XF.Elem} {text : Str} (ht : e.tail = []) (hw : XF.write e = some text) : text.head? = some '<' := by
  unfold XF.write at hw
  refine pretty_head0 (strip_head ?_ (strip_ends (toString_ends e ht))) hw
  have := XF.toString_head e []
  rwa [List.append_nil] at this

/-- **C88 is violated.**  The file of the generated files is the data table, an XML file.  Whatever data table has been
written (in which no text contains a line break), cleaning removes no file except the data table itself, unless its name
ends with `>`; and if there is no file with such a name it reports errors. -/
theorem C88_datatable_violated (real : Str → Str) (root capfile text : Str) (files : Str → Bool) (hr : Dir root)
    (e : XF.Elem) (ho : OneLine e) (ht : e.tail = []) (hw : XF.write e = some text) :
    (∀ x, files x = true → x ≠ real capfile → (∀ p, p.getLast? = some '>' → real p ≠ x) →
      (deletePathnames real root capfile text files).files x = true) ∧
    ((∀ p, p.getLast? = some '>' → files (real p) = false) →
      (deletePathnames real root capfile text files).success = false ∧
      ∀ x, (deletePathnames real root capfile text files).files x = true ↔ files x = true ∧ x ≠ real capfile) := by
  have hg := table_lines ho ht hw
  have hps : ∀ p ∈ (Chk.splitOn '\n' text).filterMap (linePath root), Ends p := by
    intro p hp
    rw [List.mem_filterMap] at hp
    obtain ⟨l, hl, hp⟩ := hp
    exact path_ends hr (hg l hl) hp
  have hd : deletePathnames real root capfile text files =
      ((Chk.splitOn '\n' text).filterMap (linePath root) ++ [capfile]).foldl (remove real) ⟨files, true⟩ := by
    unfold deletePathnames
    rw [removeLines_eq, List.foldl_append]
    rfl
  obtain ⟨h1, h2⟩ := foldl_remove real ((Chk.splitOn '\n' text).filterMap (linePath root) ++ [capfile]) ⟨files, true⟩
  rw [hd]
  refine ⟨fun x hx hc hp => ?_, fun hno => ⟨?_, fun x => ?_⟩⟩
  · rw [h1]
    refine ⟨hx, fun p hpm => ?_⟩
    rcases List.mem_append.1 hpm with hpm | hpm
    · exact (hp p (hps p hpm)).symm
    · rw [List.mem_singleton.1 hpm]; exact hc
  · rw [← Bool.not_eq_true, h2]
    rintro ⟨_, _, h3⟩
    -- there is at least one entry: the first line
    have hne : (Chk.splitOn '\n' text).filterMap (linePath root) ≠ [] := by
      have hhead : text.head? = some '<' := text_head ht hw
      obtain ⟨l, ls, hl, hlh⟩ : ∃ l ls, Chk.splitOn '\n' text = l :: ls ∧ l.head? = some '<' := by
        cases text with
        | nil => cases hhead
        | cons c r =>
          simp only [List.head?_cons, Option.some.injEq] at hhead
          subst hhead
          rw [Chk.splitOn, if_neg (by decide)]
          split
          · exact ⟨_, _, rfl, rfl⟩
          · exact ⟨_, _, rfl, rfl⟩
      have hstart : ∃ p, linePath root l = some p := by
        have hEl := (hg l (by rw [hl]; simp)).resolve_left (by rintro rfl; cases hlh)
        have hs := strip_head hlh (strip_ends hEl)
        unfold linePath
        cases hx : XF.strip l with
        | nil => rw [hx] at hs; cases hs
        | cons x xs =>
          rw [hx] at hs
          simp only [List.head?_cons, Option.some.injEq] at hs
          subst hs
          simp only
          rw [if_pos (by decide)]
          exact ⟨_, rfl⟩
      obtain ⟨p, hp⟩ := hstart
      rw [hl, List.filterMap_cons_some hp]
      simp
    obtain ⟨p, ps, hpp⟩ := List.exists_cons_of_ne_nil hne
    have this : files (real p) = true := h3 p (by rw [hpp]; simp)
    rw [hno p (hps p (by rw [hpp]; simp))] at this
    cases this
  · rw [h1]
    constructor
    · rintro ⟨a, b⟩
      exact ⟨a, b capfile (by simp)⟩
    · rintro ⟨a, b⟩
      refine ⟨a, fun p hp => ?_⟩
      rcases List.mem_append.1 hp with hp | hp
      · rintro rfl
        have := hno p (hps p hp)
        have a' : files (real p) = true := a
        rw [this] at a'; cases a'
      · rw [List.mem_singleton.1 hp]; exact b

/-- **C88 is violated, in terms of capgen.**  Whatever capgen has written into the data table `capfile`, cleaning leaves
every generated file in place if it is not the data table (and file names do not end with `>`), but removes the data table:
cleaning again only reports that it is not found. -/
theorem C88_generated_violated (real : Str → Str) (root capfile : Str) (content : Str → Str) (files : Str → Bool) (hr : Dir root)
    (d : DT.Data) (e : XF.Elem) (he : DT.generate d = some e) (ho : OneLine e) (hw : DT.file d = some (content (real capfile)))
    (hc : files (real capfile) = true) (hno : ∀ p, p.getLast? = some '>' → files (real p) = false) :
    ∃ s, clean real root capfile content files = some s ∧ s.success = false ∧
      (∀ f ∈ d.kinds :: d.hostFiles ++ d.suiteFiles, real f ≠ real capfile → files (real f) = true → s.files (real f) = true) ∧
      clean real root capfile content s.files = none := by
  have ht : e.tail = [] := by
    unfold DT.generate at he
    split at he
    · rw [Option.map_eq_some_iff] at he
      obtain ⟨_, _, rfl⟩ := he
      rfl
    · cases he
  have hw' : XF.write e = some (content (real capfile)) := by
    unfold DT.file at hw
    rwa [he] at hw
  obtain ⟨_, h2⟩ := C88_datatable_violated real root capfile _ files hr e ho ht hw'
  obtain ⟨h3, h4⟩ := h2 hno
  refine ⟨_, by unfold clean; rw [if_pos hc], h3, fun f _ hf hx => (h4 _).2 ⟨hx, hf⟩, ?_⟩
  unfold clean
  rw [if_neg]
  intro h
  exact ((h4 _).1 h).2 rfl

/-- A data table with the generated files of a run. -/
def exTable : XF.Elem :=
  .mk "ccpp_datatable".toList [("version".toList, "1.0".toList)] []
    [.mk "ccpp_files".toList [] []
      [.mk "suite_files".toList [] [] [.mk "file".toList [] "/out/ccpp_s_cap.F90".toList [] []] []] []] []

/-- Its text. -/
def exText : Str :=
  "<ccpp_datatable version=\"1.0\">\n  <ccpp_files>\n    <suite_files>\n      <file>/out/ccpp_s_cap.F90</file>\n    </suite_files>\n  </ccpp_files>\n</ccpp_datatable>\n".toList

/-- Files of the examples. -/
def exFiles : Str → Bool := fun x =>
  x ∈ ["/out/datatable.xml".toList, "/out/ccpp_s_cap.F90".toList, "/out/ccpp_kinds.F90".toList, "/home/x.F90".toList]

/-- The data table is written as shown; cleaning removes it, but not the cap. -/
theorem C88_example_datatable : XF.write exTable = some exText ∧ OneLine exTable ∧ exTable.tail = [] ∧
    (deletePathnames id "/out".toList "/out/datatable.xml".toList exText exFiles).success = false ∧
    (["/out/datatable.xml".toList, "/out/ccpp_s_cap.F90".toList, "/out/ccpp_kinds.F90".toList].map
      (deletePathnames id "/out".toList "/out/datatable.xml".toList exText exFiles).files) = [false, true, true] := by
  refine ⟨by decide +kernel, ?_, rfl, by decide +kernel, by decide +kernel⟩
  refine ⟨by decide, by decide, by decide, ⟨⟨by decide, by decide, by decide, ⟨⟨by decide, by decide, by decide,
    ⟨⟨by decide, by decide, by decide, trivial, by decide⟩, trivial⟩, by decide⟩, trivial⟩, by decide⟩, trivial⟩, by decide⟩

/-- A list of paths, with a comment, a blank line, a relative path and steps back. -/
def exList : Str := "# files\n\n  ccpp_s_cap.F90  \n./sub/../ccpp_kinds.F90\n/home/x.F90".toList

/-- With a list of paths cleaning works. -/
theorem C88_example_list :
    (deletePathnames id "/out".toList "/out/datatable.xml".toList exList exFiles).success = true ∧
    (["/out/datatable.xml".toList, "/out/ccpp_s_cap.F90".toList, "/out/ccpp_kinds.F90".toList, "/home/x.F90".toList].map
      (deletePathnames id "/out".toList "/out/datatable.xml".toList exList exFiles).files) = [false, false, false, false] := by
  refine ⟨by decide +kernel, by decide +kernel⟩

end Ccpp.CG
