import Verif.Props.TrackVariablesThm
import Verif.Props.MetadataExamples
/-! # C78: examples and violations -/
namespace Ccpp.TV
open FDecl (Str Blank)
open MF

/-- A line with a bracket first -/
def bracket (l : Str) : Bool := (lstrip l).head? == some '['

/-- Every table has one name, and the last a section. -/
def namesOk (ls : List Str) : Bool :=
  ((chunks tableStart ls).2.all fun c =>
    decide ((entries (c.2.takeWhile fun l => !bracket l)).map (fun es => (valuesOf es "name".toList).length) = some 1)) &&
  ((chunks tableStart ls).2.getLast?.all fun c => c.2.any bracket)

theorem takeWhile_stop {p : Str → Bool} {a b : List Str} (ha : ∀ x ∈ a, p x = true) (hb : ∀ x, b.head? = some x → p x = false) :
    (a ++ b).takeWhile p = a := by
  induction a with
  | nil =>
    cases b with
    | nil => rfl
    | cons x b => rw [List.nil_append, List.takeWhile_cons, hb x rfl]; rfl
  | cons x a ih => rw [List.cons_append, List.takeWhile_cons, ha x (by simp), if_pos rfl, ih fun y hy => ha y (by simp [hy])]

theorem table_header {l : Str} {body : List Str} {d : TableDoc} (h : TableText (l :: body) d) (hk : ∀ e ∈ d.entries, e.1.head? ≠ some '[') :
    entries (body.takeWhile fun l => !bracket l) = some d.entries ∧ (d.sects = [] → ∀ x ∈ body, bracket x = false) := by
  obtain ⟨l', hdr, sls, he, _, hh, hs⟩ := h
  injection he with _ he
  subst he
  have hnb : ∀ x ∈ hdr, bracket x = false := fun x hx => beq_false_of_ne (hh.noBracket hk x hx)
  refine ⟨?_, fun hd => ?_⟩
  · rw [takeWhile_stop (fun x hx => by rw [hnb x hx]; rfl), entries_iff]
    · exact hh
    · intro x hx
      generalize d.sects = ss at hs
      cases hs with
      | nil => cases hx
      | cons h1 _ =>
        obtain ⟨l1, h', v1, rfl, hl1, _⟩ := h1
        cases hx
        have := isHeader_head _ ((headerStart_iff _).2 hl1)
        simp [bracket, this]
  · rw [hd] at hs
    cases hs
    simpa using hnb

theorem FileOk.check {env : Env} (hok : env.Ok) {read : Str → Option (List Table)} {f : Str × List Str} {ty : Types}
    (h1 : (f.2.all fun l => (rstrip l).getLast? != some '\\') = true) (hr : read f.1 = (parseFile env ty (f.2.map rstrip)).map (·.1))
    (hs : (parseFile env ty (f.2.map rstrip)).isSome = true) (hn : namesOk (f.2.map rstrip) = true) : FileOk env read f := by
  refine ⟨fun l hl => ?_, ?_⟩
  · have := List.all_eq_true.1 h1 l hl; simpa using this
  obtain ⟨⟨ts, ty'⟩, hp⟩ := Option.isSome_iff_exists.1 hs
  rw [hp] at hr
  have hb : ∃ docs, FileText (f.2.map rstrip) docs ∧ FileMeans env ty docs ts ∧
      All2 (fun c d => TableText (c.1 :: c.2) d) (chunks tableStart (f.2.map rstrip)).2 docs := by
    have base := fun cs hc => tables_iff hok ty cs hc ty [] (by simp [ddtNames]) (by simp [ddtSections]) ts
    simp only [List.nil_append] at base
    unfold parseFile at hp
    simp only at hp
    split at hp
    · rename_i hb
      obtain ⟨new, docs, rfl, i1, i2, i3, i4⟩ := (base _ (chunks_split tableStart _).2.2).1 ⟨ty', hp⟩
      refine ⟨docs, ⟨_, _, (chunks_split tableStart _).1, ?_, All2.map_left.2 i1⟩, ⟨(names_nodup _).1 i2, i3, i4⟩, i1⟩
      intro l hl
      exact (isBlank_iff l).1 (List.all_eq_true.1 hb l hl)
    · cases hp
  obtain ⟨docs, ht, hm, hc⟩ := hb
  unfold namesOk at hn
  rw [Bool.and_eq_true] at hn
  have hkeys : ∀ d ∈ docs, ∀ e ∈ d.entries, e.1.head? ≠ some '[' := by
    intro d hd e he
    obtain ⟨i, hi⟩ := List.mem_iff_getElem?.1 hd
    have hlt : i < ts.length := by rw [← hm.2.1]; exact (List.getElem?_eq_some_iff.1 hi).1
    exact tableEntry_head ((hm.2.2 i d ts[i] hi (List.getElem?_eq_getElem hlt)).keys e he)
  refine ⟨docs, ty, ts, ht, hm, hr, fun d hd => ?_, fun d hd => ?_⟩
  · obtain ⟨c, hcm, hcd⟩ := hc.mem_right hd
    have h2 := List.all_eq_true.1 hn.1 c hcm
    rw [(table_header hcd (hkeys d hd)).1, decide_eq_true_iff] at h2
    simpa using h2
  · intro hsec
    have hlast : ∀ {cs : List (Str × List Str)} {ds : List TableDoc}, All2 (fun c d => TableText (c.1 :: c.2) d) cs ds → ∀ d, ds.getLast? = some d →
        ∃ c, cs.getLast? = some c ∧ TableText (c.1 :: c.2) d := by
      intro cs ds h
      induction h with
      | nil => intro d h; cases h
      | @cons c d' cs ds h1 h2 ih =>
        intro d hd
        cases h2 with
        | nil => cases hd; exact ⟨c, rfl, h1⟩
        | cons h3 h4 =>
          rw [List.getLast?_cons_cons] at hd ⊢
          exact ih d hd
    obtain ⟨c, hcl, hcd⟩ := hlast hc d hd
    have h3 := hn.2
    rw [hcl] at h3
    obtain ⟨x, hx, hxb⟩ := List.any_eq_true.1 (show c.2.any bracket = true from h3)
    have := (table_header hcd (hkeys d (List.mem_of_getLast? hd))).2 hsec x hx
    rw [this] at hxb; cases hxb

/-! ## An example -/

/-- A metadata file of two schemes -/
def exA : List Str :=
  ["# schemes".toList, "[ccpp-table-properties]".toList, "  name = rad".toList, "  type = scheme".toList,
    "[ccpp-arg-table]".toList, "  name = rad_init".toList, "  type = scheme".toList,
    "[ n ]".toList, "  standard_name = number_of_bands".toList, "  type = integer | intent = in".toList,
    "[ccpp-arg-table]".toList, "  name = rad_run".toList, "  type = scheme".toList,
    "[ t ]".toList, "  standard_name = air_temperature".toList, "  type = real | intent = in ".toList,
    "[ dt ]".toList, "  standard_name = tendency_of_air_temperature".toList, "  type = real | intent = out".toList,
    "########".toList,
    "[ccpp-table-properties]".toList, "  name = conv".toList, "  type = scheme".toList,
    "[ccpp-arg-table]".toList, "  name = conv_run".toList, "  type = scheme".toList,
    "[ t ]".toList, "  standard_name = air_temperature".toList, "  type = real | intent = inout".toList]

/-- A metadata file of one scheme -/
def exB : List Str :=
  ["[ccpp-table-properties]".toList, "  name = pbl".toList, "  type = scheme".toList, [],
    "[ccpp-arg-table]".toList, "  name = pbl_run".toList, "  type = scheme".toList,
    "[ u ]".toList, "  standard_name = x_wind".toList, "  type = real | intent = inout".toList]

/-- The same scheme with a different use -/
def exB' : List Str :=
  ["[ccpp-table-properties]".toList, "  name = pbl".toList, "  type = scheme".toList,
    "[ccpp-arg-table]".toList, "  name = pbl_run".toList, "  type = scheme".toList,
    "[ u ]".toList, "  standard_name = x_wind".toList, "  type = real | intent = in".toList]

def exFiles : List (Str × List Str) := [("a.meta".toList, exA), ("b.meta".toList, exB), ("c.meta".toList, exB')]

def exRead (fn : Str) : Option (List Table) :=
  (exFiles.lookup fn).bind fun ls => (parseFile exEnv ⟨[], []⟩ (ls.map rstrip)).map (·.1)

theorem exFiles_ok : ∀ f ∈ exFiles, FileOk exEnv exRead f := by
  intro f hf
  simp only [exFiles, List.mem_cons, List.not_mem_nil, or_false] at hf
  rcases hf with rfl | rfl | rfl <;>
    exact FileOk.check exEnv_ok (ty := ⟨[], []⟩) (by decide +kernel) rfl (by decide +kernel) (by decide +kernel)

def exTree : List (Str × List Str) := [("radiation".toList, ["rad".toList]), ("rest".toList, ["conv".toList, "pbl".toList, "rad".toList])]

/-- The directory of the example meets the hypotheses, and the report is this. -/
theorem C78_example :
    (∀ f ∈ exFiles.take 2, FileOk exEnv exRead f) ∧
    ((track (exFiles.take 2) exRead exTree "air_temperature".toList).map (·.success) = some true ∧
      (track (exFiles.take 2) exRead exTree "air_temperature".toList).map (·.graph) = some [("radiation".toList, [("rad_run".toList, "in".toList)]),
        ("rest".toList, [("conv_run".toList, "inout".toList), ("rad_run".toList, "in".toList)])]) ∧
    ((track (exFiles.take 2) exRead exTree "temperature".toList).map (·.success) = some false ∧
      (track (exFiles.take 2) exRead exTree "temperature".toList).map (·.partials) = some
        [("rad_run".toList, ["air_temperature".toList, "tendency_of_air_temperature".toList]), ("conv_run".toList, ["air_temperature".toList])]) ∧
    (track (exFiles.take 2) exRead [("g".toList, ["nil".toList])] "temperature".toList).isNone = true :=
  ⟨fun f hf => exFiles_ok f (List.mem_of_mem_take hf), by decide +kernel, by decide +kernel, by decide +kernel⟩

/-! ## Violations -/

/-- **Violation**: if two files of the directory have a table of the scheme, the report depends on the order in which the directory is listed;
there is no error. -/
theorem C78_order_violated : (∀ f ∈ exFiles, FileOk exEnv exRead f) ∧
    (track exFiles exRead [("g".toList, ["pbl".toList])] "x_wind".toList).map (·.graph) =
      some [("g".toList, [("pbl_run".toList, "in".toList)])] ∧
    (track exFiles.reverse exRead [("g".toList, ["pbl".toList])] "x_wind".toList).map (·.graph) =
      some [("g".toList, [("pbl_run".toList, "inout".toList)])] :=
  ⟨exFiles_ok, by decide +kernel, by decide +kernel⟩

/-- A file with a continued line in the properties of a table -/
def exCont : List Str :=
  ["[ccpp-table-properties]".toList, "  name = pbl".toList, "  type = scheme | \\".toList, "  dependencies = a.F90".toList,
    "[ccpp-arg-table]".toList, "  name = pbl_run".toList, "  type = scheme".toList,
    "[ u ]".toList, "  standard_name = x_wind".toList, "  type = real | intent = in".toList]

/-- A file that ends with a table that has no section -/
def exNoSect : List Str := exB ++ ["[ccpp-table-properties]".toList, "  name = deps".toList, "  type = scheme".toList, "  dependencies = a.F90".toList]

/-- **Violation**: a file that is read by the parser of metadata, with a continued line among the properties of a table, ends the report with an
exception. -/
theorem C78_continued_violated : (parseFile exEnv ⟨[], []⟩ (PO.logical exCont)).isSome = true ∧
    ∀ read tree var, track [("b.meta".toList, exCont)] read tree var = none := by
  refine ⟨by decide +kernel, fun read tree var => ?_⟩
  have : findNames false exCont = none := by decide +kernel
  simp [track, fileDict, this]

/-- **Violation**: so does a file that ends with the properties of a table, which the parser reads. -/
theorem C78_end_violated : (parseFile exEnv ⟨[], []⟩ (PO.logical exNoSect)).isSome = true ∧
    ∀ read tree var, track [("b.meta".toList, exNoSect)] read tree var = none := by
  refine ⟨by decide +kernel, fun read tree var => ?_⟩
  have : findNames false exNoSect = none := by decide +kernel
  simp [track, fileDict, this]

end Ccpp.TV
