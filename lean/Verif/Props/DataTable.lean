import Verif.Props.DataTableWrite
import Verif.Props.ReqVars
/-!
# C66: the reports about a data table are what capgen put into it
-/
namespace Ccpp.DT
open XF

/-! ## Order -/

theorem leStr_refl (a : Str) : RV.leStr a a = true := by
  induction a with
  | nil => rfl
  | cons c a ih => rw [RV.leStr, if_pos rfl]; exact ih

theorem leStr_total (a b : Str) : RV.leStr a b = true ∨ RV.leStr b a = true := by
  induction a generalizing b with
  | nil => exact Or.inl (by rw [RV.leStr])
  | cons c a ih =>
    cases b with
    | nil => exact Or.inr (by rw [RV.leStr])
    | cons d b =>
      rw [RV.leStr, RV.leStr]
      by_cases h : c = d
      · rw [if_pos h, if_pos h.symm]; exact ih b
      · rw [if_neg h, if_neg (Ne.symm h), decide_eq_true_eq, decide_eq_true_eq]
        have : c.toNat ≠ d.toNat := fun hh => h (Char.toNat_inj.1 hh)
        omega

theorem leStr_trans {a b c : Str} (h1 : RV.leStr a b = true) (h2 : RV.leStr b c = true) : RV.leStr a c = true := by
  induction a generalizing b c with
  | nil => rw [RV.leStr]
  | cons x a ih =>
    cases b with
    | nil => rw [RV.leStr] at h1; cases h1
    | cons y b =>
      cases c with
      | nil => rw [RV.leStr] at h2; cases h2
      | cons z c =>
        rw [RV.leStr] at h1 h2 ⊢
        by_cases hxy : x = y
        · rw [if_pos hxy] at h1
          by_cases hyz : y = z
          · rw [if_pos hyz] at h2
            rw [if_pos (hxy.trans hyz)]
            exact ih h1 h2
          · rw [if_neg hyz] at h2
            rw [hxy, if_neg hyz]
            exact h2
        · rw [if_neg hxy, decide_eq_true_eq] at h1
          by_cases hyz : y = z
          · rw [if_neg (by rw [← hyz]; exact hxy), ← hyz, decide_eq_true_eq]
            exact h1
          · rw [if_neg hyz, decide_eq_true_eq] at h2
            rw [if_neg (by intro hh; rw [hh] at h1; omega), decide_eq_true_eq]
            omega

theorem insertS_ordered {x : Str} {l : List Str} (h : Ordered l) : Ordered (RV.insertS x l) := by
  induction l with
  | nil => rw [RV.insertS]; exact List.pairwise_singleton _ _
  | cons y l ih =>
    unfold Ordered at h ⊢
    rw [List.pairwise_cons] at h
    rw [RV.insertS]
    split
    · rename_i hle
      rw [List.pairwise_cons, List.pairwise_cons]
      refine ⟨?_, h⟩
      intro z hz
      rcases List.mem_cons.1 hz with rfl | hz
      · exact hle
      · exact leStr_trans hle (h.1 z hz)
    · rename_i hle
      rw [List.pairwise_cons]
      refine ⟨?_, ih h.2⟩
      intro z hz
      rw [(RV.insertS_perm x l).mem_iff, List.mem_cons] at hz
      rcases hz with rfl | hz
      · rcases leStr_total y z with hh | hh
        · exact hh
        · exact absurd hh hle
      · exact h.1 z hz

theorem sorted_ordered (l : List Str) : Ordered (RV.sorted l) := by
  induction l with
  | nil => rw [RV.sorted]; exact List.Pairwise.nil
  | cons x l ih => rw [RV.sorted]; exact insertS_ordered ih

theorem nodup_eraseDups : ∀ (n : Nat) (l : List Str), l.length ≤ n → l.eraseDups.Nodup
  | _, [], _ => by simp
  | 0, _ :: _, h => by simp at h
  | n + 1, a :: l, h => by
    rw [List.eraseDups_cons, List.nodup_cons]
    refine ⟨?_, nodup_eraseDups n _ ?_⟩
    · rw [List.mem_eraseDups, List.mem_filter]
      simp
    · have := List.length_filter_le (fun b => !b == a) l
      simp only [List.length_cons] at h
      omega

theorem sortedSet_spec {l : List Str} {P : Str → Prop} (h : ∀ n, n ∈ l ↔ P n) : SortedSetOf (sortedSet l) P := by
  refine ⟨sorted_ordered _, ?_, ?_⟩
  · unfold sortedSet
    rw [RV.nodup_sorted]
    exact nodup_eraseDups l.length l (Nat.le_refl _)
  · intro n
    unfold sortedSet
    rw [RV.mem_sorted, List.mem_eraseDups]
    exact h n

/-! ## Sections -/

theorem find_files (d : Data) : find (table d) "ccpp_files".toList = some (filesEntry d) := rfl
theorem find_schemes (d : Data) : find (table d) "schemes".toList =
    some (node "schemes".toList [] ((uses d).map (schemeElem d.headers))) := rfl
theorem find_dicts (d : Data) : find (table d) "var_dictionaries".toList =
    some (node "var_dictionaries".toList [] (allDicts d)) := rfl
theorem find_deps (d : Data) : find (table d) "dependencies".toList =
    some (node "dependencies".toList [] ((d.hostDeps ++ d.schemeDeps).map (leaf "dependency".toList))) := rfl
theorem suitesOf_table (d : Data) : suitesOf (table d) = d.suites.map suiteEntry := rfl

theorem kids_node (t : Str) (a : List (Str × Str)) (k : List Elem) : kidsOf (node t a k) = k := rfl
theorem tag_node (t : Str) (a : List (Str × Str)) (k : List Elem) : tagOf (node t a k) = t := rfl
theorem kids_leaf (t x : Str) : kidsOf (leaf t x) = [] := rfl
theorem tag_leaf (t x : Str) : tagOf (leaf t x) = t := rfl

theorem sections {d : Data} {sec : Elem} (h : sec ∈ kidsOf (table d)) :
    (sec = filesEntry d ∧ tagOf sec ≠ "dependencies".toList) ∨
    (sec = node "dependencies".toList [] ((d.hostDeps ++ d.schemeDeps).map (leaf "dependency".toList)) ∧
      tagOf sec ≠ "ccpp_files".toList) ∨ (tagOf sec ≠ "dependencies".toList ∧ tagOf sec ≠ "ccpp_files".toList) := by
  unfold table at h
  rw [kids_node] at h
  simp only [List.mem_cons, List.not_mem_nil, or_false] at h
  rcases h with rfl | rfl | rfl | rfl | rfl
  · exact Or.inl ⟨rfl, show "ccpp_files".toList ≠ "dependencies".toList by decide⟩
  · exact Or.inr (Or.inr ⟨show "schemes".toList ≠ "dependencies".toList by decide, show "schemes".toList ≠ "ccpp_files".toList by decide⟩)
  · exact Or.inr (Or.inr ⟨show "api".toList ≠ "dependencies".toList by decide, show "api".toList ≠ "ccpp_files".toList by decide⟩)
  · exact Or.inr (Or.inr ⟨show "var_dictionaries".toList ≠ "dependencies".toList by decide,
      show "var_dictionaries".toList ≠ "ccpp_files".toList by decide⟩)
  · exact Or.inr (Or.inl ⟨rfl, show "dependencies".toList ≠ "ccpp_files".toList by decide⟩)

theorem files_kids {d : Data} {k f : Elem} (hk : k ∈ kidsOf (filesEntry d)) (hf : f ∈ kidsOf k) :
    ∃ x, f = leaf "file".toList x ∧ (x ∈ utilities d ∨ x ∈ d.hostFiles ∨ x ∈ d.suiteFiles) := by
  unfold filesEntry at hk
  rw [kids_node] at hk
  simp only [List.mem_cons, List.not_mem_nil, or_false] at hk
  rcases hk with rfl | rfl | rfl <;> rw [kids_node, List.mem_map] at hf <;> obtain ⟨x, hx, rfl⟩ := hf
  · exact ⟨x, rfl, Or.inl hx⟩
  · exact ⟨x, rfl, Or.inr (Or.inl hx)⟩
  · exact ⟨x, rfl, Or.inr (Or.inr hx)⟩

theorem leafFiles_table (d : Data) : LeafFiles (table d) := by
  intro sec hsec
  rcases sections hsec with ⟨rfl, ht⟩ | ⟨rfl, ht⟩ | ⟨ht, ht'⟩
  · refine ⟨fun h => absurd h ht, fun _ k hk f hf => ?_⟩
    obtain ⟨x, rfl, _⟩ := files_kids hk hf
    rfl
  · refine ⟨fun _ k hk => ?_, fun h => absurd h ht⟩
    rw [kids_node, List.mem_map] at hk
    obtain ⟨x, _, rfl⟩ := hk
    rfl
  · exact ⟨fun h => absurd h ht, fun h => absurd h ht'⟩

theorem text_leaf {t x : Str} (h : FileName x) : textOf (leaf t x) = some x := by
  show (if x = [] then none else some x) = some x
  rw [if_neg h.1]

theorem text_norm_leaf {t x : Str} (h : FileName x) : textOf (norm (leaf t x)) = textOf (leaf t x) := by
  rw [text_leaf h]
  unfold leaf
  rw [norm]
  show (if XF.strip x = [] then none else some (XF.strip x)) = some x
  rw [h.2, if_neg h.1]

theorem utilities_ok {d : Data} (h : d.Ok) {x : Str} (hx : x ∈ utilities d) : FileName x := by
  unfold utilities at hx
  simp only [List.mem_cons, List.not_mem_nil, or_false] at hx
  rcases hx with rfl | rfl | rfl | rfl
  · exact h.kinds
  · exact h.sourceDir _ (by simp)
  · exact h.sourceDir _ (by simp)
  · exact h.sourceDir _ (by simp)

theorem deps_ok {d : Data} (h : d.Ok) {x : Str} (hx : x ∈ d.hostDeps ++ d.schemeDeps) : FileName x := by
  rcases List.mem_append.1 hx with hx | hx
  · exact h.hostDeps x hx
  · exact h.schemeDeps x hx

theorem trimmedFiles_table {d : Data} (h : d.Ok) : TrimmedFiles (table d) := by
  intro sec hsec
  rcases sections hsec with ⟨rfl, ht⟩ | ⟨rfl, ht⟩ | ⟨ht, ht'⟩
  · refine ⟨fun k _ => Or.inr ht, fun k hk f hf => Or.inl ?_⟩
    obtain ⟨x, rfl, hx⟩ := files_kids hk hf
    refine text_norm_leaf ?_
    rcases hx with hx | hx | hx
    · exact utilities_ok h hx
    · exact h.hostFiles x hx
    · exact h.suiteFiles x hx
  · refine ⟨fun k hk => Or.inl ?_, fun k _ f _ => Or.inr ht⟩
    rw [kids_node, List.mem_map] at hk
    obtain ⟨x, hx, rfl⟩ := hk
    exact text_norm_leaf (deps_ok h hx)
  · exact ⟨fun k _ => Or.inr ht, fun k _ f _ => Or.inr ht'⟩

/-! ## Files, dependencies and suites -/

theorem allSome_map {α : Type} {f : α → Option Str} {g : α → Str} {l : List α} (h : ∀ x ∈ l, f x = some (g x)) :
    allSome (l.map f) = some (l.map g) := by
  induction l with
  | nil => rfl
  | cons x l ih =>
    rw [List.map_cons, h x (by simp), allSome, ih fun y hy => h y (by simp [hy])]
    rfl

theorem files_leaves {l : List Str} (h : ∀ x ∈ l, FileName x) :
    (if ((l.map (leaf "file".toList)).all fun k => tagOf k == "file".toList) = true then
      some ((l.map (leaf "file".toList)).map textOf) else none).bind allSome = some l := by
  rw [if_pos]
  · rw [Option.bind_some, List.map_map, allSome_map (f := textOf ∘ leaf "file".toList) (g := id) fun x hx => text_leaf (h x hx), List.map_id]
  · rw [List.all_map, List.all_eq_true]
    intro x _
    rfl

theorem files_all {d : Data} (h : d.Ok) : (files (table d) none).bind allSome =
    some (utilities d ++ d.hostFiles ++ d.suiteFiles) := by
  have he : ((kidsOf (filesEntry d)).filter fun _ => true).flatMap kidsOf =
      (utilities d ++ d.hostFiles ++ d.suiteFiles).map (leaf "file".toList) := by
    show (List.map _ (utilities d) ++ (List.map _ d.hostFiles ++ (List.map _ d.suiteFiles ++ []))) = _
    rw [List.map_append, List.map_append, List.append_nil, List.append_assoc]
  unfold files
  rw [find_files, Option.bind_some]
  simp only
  rw [he]
  refine files_leaves ?_
  intro x hx
  rcases List.mem_append.1 hx with hx | hx
  · rcases List.mem_append.1 hx with hx | hx
    · exact utilities_ok h hx
    · exact h.hostFiles x hx
  · exact h.suiteFiles x hx

theorem files_one {d : Data} {t : Str} {l : List Str} (h : ∀ x ∈ l, FileName x)
    (hf : ((kidsOf (filesEntry d)).filter fun k => tagOf k == t) = [node t [] (l.map (leaf "file".toList))]) :
    (files (table d) (some t)).bind allSome = some l := by
  have he : ((kidsOf (filesEntry d)).filter fun k => tagOf k == t).flatMap kidsOf = l.map (leaf "file".toList) := by
    rw [hf, List.flatMap_cons, List.flatMap_nil, List.append_nil]
    rfl
  unfold files
  rw [find_files, Option.bind_some]
  simp only
  rw [he]
  exact files_leaves h

theorem dependencies_table {d : Data} (h : d.Ok) : ∃ l, dependencies (table d) = some l ∧
    SortedSetOf l fun n => n ∈ d.hostDeps ∨ n ∈ d.schemeDeps := by
  unfold dependencies
  rw [find_deps]
  refine ⟨_, rfl, sortedSet_spec ?_⟩
  intro n
  rw [kids_node, List.mem_filterMap, ← List.mem_append]
  constructor
  · rintro ⟨e, he, hn⟩
    rw [List.mem_map] at he
    obtain ⟨x, hx, rfl⟩ := he
    rw [text_leaf (deps_ok h hx)] at hn
    injection hn with hn
    rw [← hn]
    exact hx
  · intro hn
    exact ⟨leaf "dependency".toList n, List.mem_map.2 ⟨n, hn, rfl⟩, text_leaf (deps_ok h hn)⟩

theorem suiteList_table (d : Data) : allSome (suiteList (table d)) = some (d.suites.map (·.name)) := by
  unfold suiteList
  rw [suitesOf_table, List.map_map]
  exact allSome_map fun s _ => rfl

/-! ## Schemes -/

theorem header_find {hs : List Header} (hn : (hs.map (·.title)).Nodup) {t : Str} {h : Header} :
    (hs.find? fun x => x.title == t) = some h ↔ h ∈ hs ∧ h.title = t := by
  constructor
  · intro hf
    have h1 := List.mem_of_find?_eq_some hf
    have h2 : (h.title == t) = true := List.find?_some (p := fun x : Header => x.title == t) hf
    exact ⟨h1, beq_iff_eq.1 h2⟩
  · rintro ⟨hm, rfl⟩
    have hs' : (hs.find? fun x => x.title == h.title).isSome = true := by
      rw [List.find?_isSome]
      exact ⟨h, hm, by simp⟩
    obtain ⟨h', hf⟩ := Option.isSome_iff_exists.1 hs'
    have h1 := List.mem_of_find?_eq_some hf
    have h2 : (h'.title == h.title) = true := List.find?_some (p := fun x : Header => x.title == h.title) hf
    rw [hf, List.inj_on_of_nodup_map hn h1 hm (beq_iff_eq.1 h2)]

theorem get_process (n : Str) (p : Option Str) (ks : List Elem) :
    get (node "scheme".toList (("name".toList, n) :: (match p with | some p => [("process".toList, p)] | none => [])) ks)
      "process".toList = p := by
  cases p <;> rfl

theorem get_name (t n : Str) (as : List (Str × Str)) (ks : List Elem) :
    get (node t (("name".toList, n) :: as) ks) "name".toList = some n := rfl

theorem get_module (t : Str) (s : Scheme) (h : Header) : get (phaseEntry t s h) "module".toList = h.module_ := by
  unfold phaseEntry
  cases h.module_ <;> rfl

theorem used_iff {d : Data} {x : Scheme} : Used d x ↔ ∃ u ∈ uses d, u.2 = x := by
  constructor
  · rintro ⟨s, hs, g, hg, o, ho, hc⟩
    exact ⟨(g, x), mem_uses.2 ⟨s, hs, hg, (mem_schemesOf _ _).2 ⟨o, ho, hc⟩⟩, rfl⟩
  · rintro ⟨u, hu, rfl⟩
    obtain ⟨s, hs, hg, hx⟩ := mem_uses.1 hu
    obtain ⟨o, ho, hc⟩ := (mem_schemesOf _ _).1 hx
    exact ⟨s, hs, u.1, hg, o, ho, hc⟩

theorem schemeElem_run {hs : List Header} {u : Group × Scheme} {h : Header} (hr : u.2.hasRun = true)
    (hf : (hs.find? fun x => x.title == u.2.subroutine) = some h) : schemeElem hs u = node "scheme".toList
      (("name".toList, u.2.name) :: (match h.process with | some p => [("process".toList, p)] | none => []))
      [phaseEntry (phaseTag u.1) u.2 h] := by
  unfold schemeElem
  rw [hr, hf]
  rfl

theorem schemeElem_other {hs : List Header} {u : Group × Scheme}
    (h : ¬ (u.2.hasRun = true ∧ ∃ x, (hs.find? fun x => x.title == u.2.subroutine) = some x)) :
    schemeElem hs u = node "scheme".toList [("name".toList, u.2.name)] [] := by
  unfold schemeElem
  split
  · rename_i x h1 h2
    exact absurd ⟨h1, x, h2⟩ h
  · rfl

theorem processList_table {d : Data} (h : d.Ok) : ∃ l, processList (table d) = some l ∧ Ordered l ∧
    ∀ n, n ∈ l ↔ ∃ x h p, Used d x ∧ x.hasRun = true ∧ HeaderOf d x h ∧ h.process = some p ∧ n = p ++ "=".toList ++ x.name := by
  unfold processList
  rw [find_schemes]
  refine ⟨_, rfl, sorted_ordered _, ?_⟩
  intro n
  rw [RV.mem_sorted, kids_node, List.mem_filterMap]
  constructor
  · rintro ⟨e, he, hn⟩
    rw [List.mem_map] at he
    obtain ⟨u, hu, rfl⟩ := he
    by_cases hc : u.2.hasRun = true ∧ ∃ x, (d.headers.find? fun x => x.title == u.2.subroutine) = some x
    · obtain ⟨hr, x, hx⟩ := hc
      rw [schemeElem_run hr hx, get_process, get_name] at hn
      cases hp : x.process with
      | none => rw [hp] at hn; cases hn
      | some p =>
        rw [hp] at hn
        simp only at hn
        split at hn
        · cases hn
        · injection hn with hn
          refine ⟨u.2, x, p, used_iff.2 ⟨u, hu, rfl⟩, hr, (header_find h.headers).1 hx, hp, ?_⟩
          rw [← hn]
          show p ++ '=' :: u.2.name = p ++ ['='] ++ u.2.name
          simp
    · rw [schemeElem_other hc] at hn
      cases hn
  · rintro ⟨x, hd, p, hu, hr, hh, hp, rfl⟩
    obtain ⟨u, hu', rfl⟩ := used_iff.1 hu
    refine ⟨_, List.mem_map.2 ⟨u, hu', rfl⟩, ?_⟩
    rw [schemeElem_run hr ((header_find h.headers).2 hh), get_process, get_name, hp]
    simp only
    rw [if_neg]
    · show some (p ++ '=' :: u.2.name) = some (p ++ ['='] ++ u.2.name)
      simp
    · intro hpp
      exact h.process hd hh.1 (by rw [hp, hpp])

theorem moduleList_table {d : Data} (h : d.Ok) : ∃ l, moduleList (table d) = some l ∧
    SortedSetOf l fun n => ∃ x h, Used d x ∧ x.hasRun = true ∧ HeaderOf d x h ∧ h.module_ = some n := by
  unfold moduleList
  rw [find_schemes]
  refine ⟨_, rfl, sortedSet_spec ?_⟩
  intro n
  rw [kids_node, List.mem_flatMap]
  constructor
  · rintro ⟨e, he, hn⟩
    rw [List.mem_map] at he
    obtain ⟨u, hu, rfl⟩ := he
    by_cases hc : u.2.hasRun = true ∧ ∃ x, (d.headers.find? fun x => x.title == u.2.subroutine) = some x
    · obtain ⟨hr, x, hx⟩ := hc
      rw [schemeElem_run hr hx, kids_node, List.mem_filterMap] at hn
      obtain ⟨k, hk, hn⟩ := hn
      rw [List.mem_singleton] at hk
      subst hk
      rw [get_module] at hn
      exact ⟨u.2, x, used_iff.2 ⟨u, hu, rfl⟩, hr, (header_find h.headers).1 hx, hn⟩
    · rw [schemeElem_other hc] at hn
      cases hn
  · rintro ⟨x, hd, hu, hr, hh, hm⟩
    obtain ⟨u, hu', rfl⟩ := used_iff.1 hu
    refine ⟨_, List.mem_map.2 ⟨u, hu', rfl⟩, ?_⟩
    rw [schemeElem_run hr ((header_find h.headers).2 hh), kids_node, List.mem_filterMap]
    exact ⟨_, List.mem_singleton.2 rfl, by rw [get_module, hm]⟩

end Ccpp.DT
