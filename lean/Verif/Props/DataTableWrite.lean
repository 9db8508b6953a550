import Verif.Props.DataTableNorm
/-!
# C66: the data table can be written
-/
namespace Ccpp.DT
open XF

instance (c : Char) : Decidable (NameChar c) := by unfold NameChar; infer_instance
instance (n : List Char) : Decidable (Name n) := by unfold Name; infer_instance

/-! ## Elements that can be written -/

/-- Legal and writable. -/
def Good (e : Elem) : Prop := e.Named ∧ e.Writable

theorem allNamed_iff {es : List Elem} : allNamed es ↔ ∀ e ∈ es, e.Named := by
  induction es with
  | nil => simp [allNamed]
  | cons e es ih => rw [allNamed, ih]; simp

theorem allWritable_iff {es : List Elem} : allWritable es ↔ ∀ e ∈ es, e.Writable := by
  induction es with
  | nil => simp [allWritable]
  | cons e es ih => rw [allWritable, ih]; simp

theorem good_node {tag : Str} {attrs : List (Str × Str)} {kids : List Elem} (ht : Name tag) (ha : ∀ a ∈ attrs, Name a.1)
    (hk : ∀ k ∈ kids, Good k) (hs : kids = [] → ∀ a ∈ attrs, '/' ∉ a.2) (hl : tag.length ≥ 2 ∨ attrs ≠ []) :
    Good (node tag attrs kids) := by
  constructor
  · rw [node, Elem.Named, allNamed_iff]
    exact ⟨ht, ha, fun k h => (hk k h).1⟩
  · rw [node, Elem.Writable, allWritable_iff]
    refine ⟨?_, fun k h => (hk k h).2⟩
    split
    · exact hs (by rename_i h; exact h.2)
    · exact hl

theorem good_leaf {tag text : Str} (ht : Name tag) (hl : tag.length ≥ 2) : Good (leaf tag text) := by
  constructor
  · rw [leaf, Elem.Named, allNamed_iff]
    exact ⟨ht, by simp, by simp⟩
  · rw [leaf, Elem.Writable, allWritable_iff]
    refine ⟨?_, by simp⟩
    split
    · simp
    · exact Or.inl hl

theorem good_map_leaf {tag : Str} {l : List Str} (ht : Name tag) (hl : tag.length ≥ 2) :
    ∀ k ∈ l.map (leaf tag), Good k := by
  intro k hk
  rw [List.mem_map] at hk
  obtain ⟨_, _, rfl⟩ := hk
  exact good_leaf ht hl

theorem good_var {full : Bool} {v : Var} (h : v.Ok) : Good (varEntry full v) := by
  unfold varEntry
  refine good_node (by decide) ?_ ?_ ?_ (Or.inl (by decide))
  · intro a ha
    rw [List.mem_append] at ha
    rcases ha with ha | ha
    · rw [List.mem_cons] at ha
      rcases ha with rfl | ha
      · show Name "name".toList; decide
      · cases hi : v.intent with
        | none => rw [hi] at ha; cases ha
        | some i =>
          rw [hi, List.mem_singleton] at ha
          subst ha
          show Name "intent".toList; decide
    · rw [List.mem_cons] at ha
      rcases ha with rfl | ha
      · show Name "local_name".toList; decide
      · split at ha
        · exact (h.props a ha).1
        · cases ha
  · intro k hk
    split at hk
    · rw [List.mem_append] at hk
      rcases hk with hk | hk
      · split at hk
        · cases hk
        · rw [List.mem_singleton] at hk
          subst hk
          exact good_leaf (by decide) (by decide)
      · simp only [List.mem_cons, List.not_mem_nil, or_false] at hk
        rcases hk with rfl | rfl <;> exact good_leaf (by decide) (by decide)
    · cases hk
  · intro hk a ha
    cases full with
    | true =>
      rw [if_pos rfl] at hk
      exact absurd (List.append_eq_nil_iff.1 hk).2 (List.cons_ne_nil _ _)
    | false =>
      rw [List.mem_append] at ha
      rcases ha with ha | ha
      · rw [List.mem_cons] at ha
        rcases ha with rfl | ha
        · exact h.name
        · cases hi : v.intent with
          | none => rw [hi] at ha; cases ha
          | some i =>
            rw [hi, List.mem_singleton] at ha
            subst ha
            exact h.intent i hi
      · simp only [Bool.false_eq_true, if_false, List.mem_singleton] at ha
        subst ha
        exact h.localName

theorem good_vars {full : Bool} {D : Dict} (h : D.Ok) : ∀ k ∈ D.vars.map (varEntry full), Good k := by
  intro k hk
  rw [List.mem_map] at hk
  obtain ⟨v, hv, rfl⟩ := hk
  exact good_var (h.vars v hv)

theorem good_dict {name type : Str} {parent : Option Str} {D : Dict} (h : D.Ok) : Good (dictEntry name type parent D) := by
  unfold dictEntry
  refine good_node (by decide) ?_ ?_ ?_ (Or.inl (by decide))
  · intro a ha
    unfold dictAttrs at ha
    rw [List.mem_append] at ha
    rcases ha with ha | ha
    · simp only [List.mem_cons, List.not_mem_nil, or_false] at ha
      rcases ha with rfl | rfl
      · show Name "name".toList; decide
      · show Name "type".toList; decide
    · cases parent with
      | none => cases ha
      | some p =>
        rw [List.mem_singleton] at ha
        subst ha
        show Name "parent".toList; decide
  · intro k hk
    rw [List.mem_append] at hk
    rcases hk with hk | hk
    · split at hk
      · cases hk
      · rw [List.mem_singleton] at hk
        subst hk
        exact good_leaf (by decide) (by decide)
    · rw [List.mem_singleton] at hk
      subst hk
      exact good_node (by decide) (by simp) (good_vars h) (by simp) (Or.inl (by decide))
  · intro hk
    exact absurd (List.append_eq_nil_iff.1 hk).2 (List.cons_ne_nil _ _)

theorem good_ownDicts {name type parent : Str} {D C : Dict} (h : D.Ok) (h' : C.Ok) :
    ∀ k ∈ ownDicts name type parent D C, Good k := by
  intro k hk
  unfold ownDicts at hk
  rw [List.mem_cons] at hk
  rcases hk with rfl | hk
  · exact good_dict h
  · split at hk
    · cases hk
    · rw [List.mem_singleton] at hk
      subst hk
      exact good_dict h'

mutual
theorem good_objDicts {hs : List Header} : ∀ (o : Obj) (parent : Str), o.Ok hs → ∀ k ∈ objDicts parent o, Good k
  | .scheme s, parent, h => by
    cases h with
    | scheme h1 h2 h3 h4 h5 => rw [objDicts]; exact good_ownDicts h3 h4
  | .timeSplit n D ps, parent, h => by
    cases h with
    | timeSplit h1 h2 h3 =>
      rw [objDicts]
      intro k hk
      rcases List.mem_cons.1 hk with rfl | hk
      · exact good_dict h2
      · exact good_objsDicts ps n h3 k hk
  | .subcycle n l D ps, parent, h => by
    cases h with
    | subcycle h1 h2 h3 h4 =>
      rw [objDicts]
      intro k hk
      rcases List.mem_cons.1 hk with rfl | hk
      · exact good_dict h3
      · exact good_objsDicts ps n h4 k hk
  | .verticalLoop n l D ps, parent, h => by
    cases h with
    | verticalLoop h1 h2 h3 h4 =>
      rw [objDicts]
      intro k hk
      rcases List.mem_cons.1 hk with rfl | hk
      · exact good_dict h3
      · exact good_objsDicts ps n h4 k hk
theorem good_objsDicts {hs : List Header} : ∀ (os : List Obj) (parent : Str), (∀ o ∈ os, o.Ok hs) →
    ∀ k ∈ objsDicts parent os, Good k
  | [], _, _ => by rw [objsDicts]; simp
  | o :: os, parent, h => by
    rw [objsDicts]
    intro k hk
    rcases List.mem_append.1 hk with hk | hk
    · exact good_objDicts o parent (h o (by simp)) k hk
    · exact good_objsDicts os parent (fun x hx => h x (by simp [hx])) k hk
end

theorem good_nameAttr {n : Str} {a : Str × Str} (ha : a ∈ [("name".toList, n)]) : Name a.1 := by
  rw [List.mem_singleton] at ha
  subst ha
  show Name "name".toList; decide

mutual
theorem good_objEntry {hs : List Header} : ∀ (o : Obj), o.Ok hs → Good (objEntry o)
  | .scheme s, h => by
    cases h with
    | scheme h1 h2 h3 h4 h5 =>
      rw [objEntry]
      refine good_node (by decide) (fun a ha => good_nameAttr ha) (by simp) ?_ (Or.inl (by decide))
      intro _ a ha
      rw [List.mem_singleton] at ha
      subst ha
      exact h1
  | .timeSplit n D ps, h => by
    cases h with
    | timeSplit h1 h2 h3 =>
      rw [objEntry]
      refine good_node (by decide) (fun a ha => good_nameAttr ha) (good_objEntries ps h3) ?_ (Or.inl (by decide))
      intro _ a ha
      rw [List.mem_singleton] at ha
      subst ha
      exact h1
  | .subcycle n l D ps, h => by
    cases h with
    | subcycle h1 h2 h3 h4 =>
      rw [objEntry]
      refine good_node (by decide) ?_ (good_objEntries ps h4) ?_ (Or.inl (by decide))
      · intro a ha
        simp only [List.mem_cons, List.not_mem_nil, or_false] at ha
        rcases ha with rfl | rfl
        · show Name "name".toList; decide
        · show Name "loop".toList; decide
      · intro _ a ha
        simp only [List.mem_cons, List.not_mem_nil, or_false] at ha
        rcases ha with rfl | rfl
        · exact h1
        · exact h2
  | .verticalLoop n l D ps, h => by
    cases h with
    | verticalLoop h1 h2 h3 h4 =>
      rw [objEntry]
      refine good_node (by decide) ?_ (good_objEntries ps h4) ?_ (Or.inl (by decide))
      · intro a ha
        simp only [List.mem_cons, List.not_mem_nil, or_false] at ha
        rcases ha with rfl | rfl
        · show Name "name".toList; decide
        · show Name "dimension_name".toList; decide
      · intro _ a ha
        simp only [List.mem_cons, List.not_mem_nil, or_false] at ha
        rcases ha with rfl | rfl
        · exact h1
        · exact h2
theorem good_objEntries {hs : List Header} : ∀ (os : List Obj), (∀ o ∈ os, o.Ok hs) → ∀ k ∈ objEntries os, Good k
  | [], _ => by rw [objEntries]; simp
  | o :: os, h => by
    rw [objEntries]
    intro k hk
    rcases List.mem_cons.1 hk with rfl | hk
    · exact good_objEntry o (h o (by simp))
    · exact good_objEntries os (fun x hx => h x (by simp [hx])) k hk
end

theorem good_groupEntry {hs : List Header} {g : Group} (h : g.Ok hs) : Good (groupEntry g) := by
  unfold groupEntry
  refine good_node (by decide) ?_ (good_objEntries g.parts h.parts) ?_ (Or.inl (by decide))
  · intro a ha
    simp only [List.mem_cons, List.not_mem_nil, or_false] at ha
    rcases ha with rfl | rfl
    · show Name "name".toList; decide
    · show Name "phase".toList; decide
  · intro _ a ha
    simp only [List.mem_cons, List.not_mem_nil, or_false] at ha
    rcases ha with rfl | rfl
    · exact h.noSlash
    · exact h.noSlashPhase

theorem good_suiteEntry {hs : List Header} {s : Suite} (h : ∀ g ∈ s.groups, g.Ok hs) (hf : ∃ g ∈ s.groups, g.parts ≠ []) :
    Good (suiteEntry s) := by
  unfold suiteEntry
  refine good_node (by decide) ?_ ?_ ?_ (Or.inl (by decide))
  · intro a ha
    simp only [List.mem_cons, List.not_mem_nil, or_false] at ha
    rcases ha with rfl | rfl
    · show Name "name".toList; decide
    · show Name "filename".toList; decide
  · intro k hk
    rw [List.mem_map] at hk
    obtain ⟨g, hg, rfl⟩ := hk
    exact good_groupEntry (h g (List.mem_filter.1 hg).1)
  · intro hk
    obtain ⟨g, hg, hp⟩ := hf
    rw [List.map_eq_nil_iff, List.filter_eq_nil_iff] at hk
    have := hk g hg
    cases hq : g.parts with
    | nil => exact absurd hq hp
    | cons a b => rw [hq] at this; simp at this

theorem good_suiteDicts {hs : List Header} {s : Suite} (hd : s.dict.Ok) (h : ∀ g ∈ s.groups, g.Ok hs) :
    ∀ k ∈ suiteDicts s, Good k := by
  intro k hk
  unfold suiteDicts at hk
  rcases List.mem_cons.1 hk with rfl | hk
  · exact good_dict hd
  · rw [List.mem_flatMap] at hk
    obtain ⟨g, hg, hk⟩ := hk
    unfold groupDicts at hk
    rcases List.mem_append.1 hk with hk | hk
    · exact good_ownDicts (h g hg).dict (h g hg).callList k hk
    · exact good_objsDicts g.parts g.name (h g hg).parts k hk

theorem good_phaseEntry {tag : Str} {s : Scheme} {h : Header} (ht : Name tag) (hc : s.callList.Ok) :
    Good (phaseEntry tag s h) := by
  unfold phaseEntry
  refine good_node ht ?_ ?_ (by simp) (Or.inr (by simp))
  · intro a ha
    rw [List.mem_append] at ha
    rcases ha with ha | ha
    · simp only [List.mem_cons, List.not_mem_nil, or_false] at ha
      rcases ha with rfl | rfl | rfl
      · show Name "name".toList; decide
      · show Name "subroutine_name".toList; decide
      · show Name "filename".toList; decide
    · cases hm : h.module_ with
      | none => rw [hm] at ha; cases ha
      | some m =>
        rw [hm, List.mem_singleton] at ha
        subst ha
        show Name "module".toList; decide
  · intro k hk
    rw [List.mem_singleton] at hk
    subst hk
    exact good_node (by decide) (by simp) (good_vars hc) (by simp) (Or.inl (by decide))

/-! ## The schemes -/

/-- The entry of one scheme in a group. -/
def schemeElem (headers : List Header) (u : Group × Scheme) : Elem :=
  match u.2.hasRun, headers.find? fun h => h.title == u.2.subroutine with
  | true, some h => node "scheme".toList
      (("name".toList, u.2.name) :: (match h.process with | some p => [("process".toList, p)] | none => []))
      [phaseEntry (phaseTag u.1) u.2 h]
  | _, _ => node "scheme".toList [("name".toList, u.2.name)] []

theorem tag_schemeElem (headers : List Header) (u : Group × Scheme) : tagOf (schemeElem headers u) = "scheme".toList := by
  unfold schemeElem
  split <;> rfl

theorem addScheme_eq {headers : List Header} {g : Group} {s : Scheme} {es : List Elem} (hn : s.name ≠ "scheme".toList)
    (ht : phaseTag g ≠ []) (hh : s.hasRun = true → ∃ h ∈ headers, h.title = s.subroutine)
    (he : ∀ e ∈ es, tagOf e = "scheme".toList) : addScheme headers g s es = some (es ++ [schemeElem headers (g, s)]) := by
  have hf : (es.find? fun e => tagOf e == s.name) = none := by
    rw [List.find?_eq_none]
    intro e h
    rw [he e h]
    simp only [beq_iff_eq]
    exact fun h => hn h.symm
  unfold addScheme
  rw [hf]
  simp only
  unfold node
  rw [addPhase, if_neg ht, if_neg (by simp)]
  unfold schemeElem
  cases hr : s.hasRun with
  | false => simp [node]
  | true =>
    obtain ⟨h, hm, htt⟩ := hh hr
    rw [if_neg (by simp)]
    have hs : (headers.find? fun h => h.title == s.subroutine).isSome = true := by
      rw [List.find?_isSome]
      exact ⟨h, hm, by simp [htt]⟩
    obtain ⟨h', hh'⟩ := Option.isSome_iff_exists.1 hs
    rw [hh']
    simp only [Option.map_some, List.nil_append]
    congr 3
    unfold node
    congr 1
    cases h'.process with
    | none => rfl
    | some p => rfl

theorem addSchemes_eq {headers : List Header} {l : List (Group × Scheme)}
    (hl : ∀ u ∈ l, u.2.name ≠ "scheme".toList ∧ phaseTag u.1 ≠ [] ∧
      (u.2.hasRun = true → ∃ h ∈ headers, h.title = u.2.subroutine)) {es : List Elem}
    (he : ∀ e ∈ es, tagOf e = "scheme".toList) :
    addSchemes headers l es = some (es ++ l.map (schemeElem headers)) := by
  induction l generalizing es with
  | nil => simp [addSchemes]
  | cons u l ih =>
    obtain ⟨g, s⟩ := u
    obtain ⟨h1, h2, h3⟩ := hl (g, s) (by simp)
    rw [addSchemes, addScheme_eq h1 h2 h3 he, Option.bind_some, ih (fun u hu => hl u (by simp [hu]))]
    · simp
    · intro e hm
      rcases List.mem_append.1 hm with hm | hm
      · exact he e hm
      · rw [List.mem_singleton] at hm
        rw [hm]
        exact tag_schemeElem _ _

mutual
theorem mem_schemes : ∀ (o : Obj) (x : Scheme), x ∈ o.schemes ↔ Contains o x
  | .scheme s, x => by
    rw [Obj.schemes, List.mem_singleton]
    constructor
    · rintro rfl; exact .scheme
    · intro h; cases h; rfl
  | .timeSplit n d ps, x => by
    rw [Obj.schemes, mem_schemesOf ps x]
    constructor
    · rintro ⟨o, h1, h2⟩; exact .timeSplit h1 h2
    · intro h
      cases h with
      | timeSplit h1 h2 => exact ⟨_, h1, h2⟩
  | .subcycle n l d ps, x => by
    rw [Obj.schemes, mem_schemesOf ps x]
    constructor
    · rintro ⟨o, h1, h2⟩; exact .subcycle h1 h2
    · intro h
      cases h with
      | subcycle h1 h2 => exact ⟨_, h1, h2⟩
  | .verticalLoop n l d ps, x => by
    rw [Obj.schemes, mem_schemesOf ps x]
    constructor
    · rintro ⟨o, h1, h2⟩; exact .verticalLoop h1 h2
    · intro h
      cases h with
      | verticalLoop h1 h2 => exact ⟨_, h1, h2⟩
theorem mem_schemesOf : ∀ (os : List Obj) (x : Scheme), x ∈ schemesOf os ↔ ∃ o ∈ os, Contains o x
  | [], x => by rw [schemesOf]; simp
  | o :: os, x => by
    rw [schemesOf, List.mem_append, mem_schemes o x, mem_schemesOf os x]
    simp
end

mutual
theorem schemes_ok {hs : List Header} : ∀ (o : Obj), o.Ok hs → ∀ x ∈ o.schemes, x.name ≠ "scheme".toList ∧ NoSlash x.name ∧
    x.callList.Ok ∧ (x.hasRun = true → ∃ h ∈ hs, h.title = x.subroutine)
  | .scheme s, h => by
    intro x hx
    rw [Obj.schemes, List.mem_singleton] at hx
    subst hx
    cases h with
    | scheme h1 h2 h3 h4 h5 => exact ⟨h2, h1, h4, h5⟩
  | .timeSplit n d ps, h => by
    cases h with
    | timeSplit h1 h2 h3 => rw [Obj.schemes]; exact schemesOf_ok ps h3
  | .subcycle n l d ps, h => by
    cases h with
    | subcycle h1 h2 h3 h4 => rw [Obj.schemes]; exact schemesOf_ok ps h4
  | .verticalLoop n l d ps, h => by
    cases h with
    | verticalLoop h1 h2 h3 h4 => rw [Obj.schemes]; exact schemesOf_ok ps h4
theorem schemesOf_ok {hs : List Header} : ∀ (os : List Obj), (∀ o ∈ os, o.Ok hs) → ∀ x ∈ schemesOf os,
    x.name ≠ "scheme".toList ∧ NoSlash x.name ∧ x.callList.Ok ∧ (x.hasRun = true → ∃ h ∈ hs, h.title = x.subroutine)
  | [], _ => by rw [schemesOf]; simp
  | o :: os, h => by
    rw [schemesOf]
    intro x hx
    rcases List.mem_append.1 hx with hx | hx
    · exact schemes_ok o (h o (by simp)) x hx
    · exact schemesOf_ok os (fun y hy => h y (by simp [hy])) x hx
end

theorem mem_uses {d : Data} {u : Group × Scheme} : u ∈ uses d ↔
    ∃ s ∈ d.suites, u.1 ∈ s.groups ∧ u.2 ∈ schemesOf u.1.parts := by
  unfold uses
  simp only [List.mem_flatMap, List.mem_map]
  constructor
  · rintro ⟨s, hs, g, hg, x, hx, rfl⟩
    exact ⟨s, hs, hg, hx⟩
  · rintro ⟨s, hs, hg, hx⟩
    exact ⟨s, hs, u.1, hg, u.2, hx, rfl⟩

theorem name_phaseTag {hs : List Header} {g : Group} (h : g.Ok hs) : Name (phaseTag g) := by
  unfold phaseTag
  split
  · exact h.name
  · exact h.phase

theorem uniqueTitles_of_nodup {hs : List Header} (h : (hs.map (·.title)).Nodup) : uniqueTitles hs = true := by
  induction hs with
  | nil => rfl
  | cons x xs ih =>
    rw [List.map_cons, List.nodup_cons] at h
    rw [uniqueTitles, ih h.2, Bool.and_true, List.all_eq_true]
    intro y hy
    simp only [bne_iff_ne, ne_eq]
    intro he
    exact h.1 (List.mem_map.2 ⟨y, hy, he⟩)

/-- The element tree of fine data. -/
def table (d : Data) : Elem :=
  node "ccpp_datatable".toList [("version".toList, "1.0".toList)]
    [filesEntry d, node "schemes".toList [] ((uses d).map (schemeElem d.headers)),
     node "api".toList [] [node "suites".toList [] (d.suites.map suiteEntry)],
     node "var_dictionaries".toList [] (allDicts d),
     node "dependencies".toList [] ((d.hostDeps ++ d.schemeDeps).map (leaf "dependency".toList))]

theorem generate_eq {d : Data} (h : d.Ok) : generate d = some (table d) := by
  unfold generate
  rw [if_pos (uniqueTitles_of_nodup h.headers), addSchemes_eq (es := [])]
  · rfl
  · intro u hu
    obtain ⟨s, hs, hg, hx⟩ := mem_uses.1 hu
    have := schemesOf_ok u.1.parts (h.groups s hs u.1 hg).parts u.2 hx
    exact ⟨this.1, (name_phaseTag (h.groups s hs u.1 hg)).1, this.2.2.2⟩
  · simp

theorem good_table {d : Data} (h : d.Ok) : Good (table d) := by
  unfold table
  refine good_node (by decide) ?_ ?_ (by simp) (Or.inl (by decide))
  · intro a ha
    rw [List.mem_singleton] at ha
    subst ha
    show Name "version".toList; decide
  · intro k hk
    simp only [List.mem_cons, List.not_mem_nil, or_false] at hk
    rcases hk with rfl | rfl | rfl | rfl | rfl
    · unfold filesEntry
      refine good_node (by decide) (by simp) ?_ (by simp) (Or.inl (by decide))
      intro k hk
      simp only [List.mem_cons, List.not_mem_nil, or_false] at hk
      rcases hk with rfl | rfl | rfl <;>
        exact good_node (by decide) (by simp) (good_map_leaf (by decide) (by decide)) (by simp) (Or.inl (by decide))
    · refine good_node (by decide) (by simp) ?_ (by simp) (Or.inl (by decide))
      intro k hk
      rw [List.mem_map] at hk
      obtain ⟨u, hu, rfl⟩ := hk
      obtain ⟨s, hs, hg, hx⟩ := mem_uses.1 hu
      have hgo := h.groups s hs u.1 hg
      have ho := schemesOf_ok u.1.parts hgo.parts u.2 hx
      unfold schemeElem
      split
      · refine good_node (by decide) ?_ ?_ (by simp) (Or.inl (by decide))
        · intro a ha
          rw [List.mem_cons] at ha
          rcases ha with rfl | ha
          · show Name "name".toList; decide
          · split at ha
            · rw [List.mem_singleton] at ha
              subst ha
              show Name "process".toList; decide
            · cases ha
        · intro k hk
          rw [List.mem_singleton] at hk
          subst hk
          exact good_phaseEntry (name_phaseTag hgo) ho.2.2.1
      · refine good_node (by decide) (fun a ha => good_nameAttr ha) (by simp) ?_ (Or.inl (by decide))
        intro _ a ha
        rw [List.mem_singleton] at ha
        subst ha
        exact ho.2.1
    · refine good_node (by decide) (by simp) ?_ (by simp) (Or.inl (by decide))
      intro k hk
      rw [List.mem_singleton] at hk
      subst hk
      refine good_node (by decide) (by simp) ?_ (by simp) (Or.inl (by decide))
      intro k hk
      rw [List.mem_map] at hk
      obtain ⟨s, hs, rfl⟩ := hk
      exact good_suiteEntry (h.groups s hs) (h.filled s hs)
    · refine good_node (by decide) (by simp) ?_ (by simp) (Or.inl (by decide))
      intro k hk
      unfold allDicts at hk
      rcases List.mem_cons.1 hk with rfl | hk
      · exact good_dict h.host
      rcases List.mem_cons.1 hk with rfl | hk
      · exact good_dict h.api
      rw [List.mem_flatMap] at hk
      obtain ⟨s, hs, hk⟩ := hk
      exact good_suiteDicts (h.dicts s hs) (h.groups s hs) k hk
    · exact good_node (by decide) (by simp) (good_map_leaf (by decide) (by decide)) (by simp) (Or.inl (by decide))

theorem table_tail (d : Data) : (table d).tail = [] := by unfold table node; rfl

/-- The data table of fine data is written, and reading it gives the same reports as the element tree. -/
theorem file_items {d : Data} (h : d.Ok) (hl : LeafFiles (table d)) (ht : TrimmedFiles (table d)) :
    ∃ s e', file d = some s ∧ read s = some e' ∧ ∀ f x a, items f e' x a = items f (table d) x a := by
  have hg := good_table h
  obtain ⟨s, hs⟩ := (C65_written_partial hg.1 (table_tail d)).2 hg.2
  obtain ⟨e', h1, h2⟩ := C65_read_back hg.1 (table_tail d) hs
  refine ⟨s, e', ?_, h1, fun f x a => items_same h2 ht (trimmedFiles_of_same h2 hl) f x a⟩
  unfold file
  rw [generate_eq h, Option.bind_some]
  exact hs

end Ccpp.DT
