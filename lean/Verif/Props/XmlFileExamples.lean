import Verif.Props.XmlFile
/-!
# C65: examples and violations
-/
namespace Ccpp.XF

/-- A data table with a suite, a text with special characters and an empty element. -/
def exTable : Elem :=
  .mk "ccpp_datatable".toList [("version".toList, "1.0".toList)] [] [
    .mk "file".toList [("kind".toList, "a\"b\n".toList)] " x < y & z é ".toList [] [],
    .mk "schemes".toList [] [] [.mk "scheme".toList [("name".toList, "rad".toList)] [] [] []] []] []

theorem exTable_named : exTable.Named := by
  simp only [exTable, Elem.Named, allNamed, Name]
  refine ⟨⟨by decide, ?_⟩, ?_, ⟨⟨by decide, ?_⟩, ?_, trivial⟩, ⟨⟨by decide, ?_⟩, by simp,
    ⟨⟨by decide, ?_⟩, ?_, trivial⟩, trivial⟩, trivial⟩
  all_goals first
    | (intro c hc; unfold NameChar; revert hc; revert c; decide)
    | (intro a ha
       simp only [List.mem_singleton] at ha
       subst ha
       refine ⟨by decide, ?_⟩
       intro c hc; unfold NameChar; revert hc; revert c; decide)

theorem exTable_writable : exTable.Writable := by
  simp only [exTable, Elem.Writable, allWritable]
  refine ⟨by rw [if_neg (by simp)]; decide, ⟨by rw [if_neg (by simp)]; decide, trivial⟩,
    ⟨by rw [if_neg (by simp)]; decide, ⟨by rw [if_pos (by simp)]; decide, trivial⟩, trivial⟩, trivial⟩

/-- The hypotheses of the theorems hold for the example. -/
theorem C65_example : ∃ s e', write exTable = some s ∧ read s = some e' ∧ Same exTable e' := by
  obtain ⟨s, hs⟩ := (C65_written_partial exTable_named rfl).2 exTable_writable
  obtain ⟨e', h1, h2⟩ := C65_read_back exTable_named rfl hs
  exact ⟨s, e', hs, h1, h2⟩

/-- The file of the example. -/
theorem C65_example_text : write exTable =
    some ("<ccpp_datatable version=\"1.0\">\n  <file kind=\"a&quot;b&#10;\">x &lt; y &amp; z &#233;</file>\n" ++
      "  <schemes>\n    <scheme name=\"rad\" />\n  </schemes>\n</ccpp_datatable>\n").toList := by decide +kernel

/-- The data table entry of a suite without groups (ccpp_datafile.py:949-978): its file name contains slashes. -/
def exSuite (path : Str) : Elem :=
  .mk "suites".toList [] [] [.mk "suite".toList [("name".toList, "s".toList), ("filename".toList, path)] [] [] []] []

/-- C65 does not hold in general: an element without sub-elements cannot be written if a value contains a slash, such as
the name of a file. -/
theorem C65_violated_slash : write (exSuite "/x.xml".toList) = none ∧
    ∃ s, write (exSuite "x.xml".toList) = some s := by
  refine ⟨by decide +kernel, ?_⟩
  have h : (write (exSuite "x.xml".toList)).isSome = true := by decide +kernel
  exact Option.isSome_iff_exists.1 h

/-- C65 does not hold in general: an element with a text and a tag of one letter cannot be written. -/
theorem C65_violated_letter : write (.mk ['a'] [] ['t'] [] []) = none ∧ (Elem.mk ['a'] [] ['t'] [] []).Named := by
  refine ⟨by decide +kernel, ?_⟩
  simp only [Elem.Named, allNamed, Name]
  refine ⟨⟨by decide, ?_⟩, by simp, trivial⟩
  intro c hc
  unfold NameChar
  revert hc; revert c; decide

end Ccpp.XF
