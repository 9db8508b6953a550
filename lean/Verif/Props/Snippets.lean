import Verif.Spec.Snippets
/-!
# C102: the snippets for make, cmake and the shell
-/
namespace Ccpp.Snip

/-! ## Characters -/

/-- A plain character. -/
def PlainC (c : Char) : Prop := c.isAlphanum = true ∨ c ∈ ['_', '-', '.', '/', '+', ',', '@', ':', '~']

instance (c : Char) : Decidable (PlainC c) := inferInstanceAs (Decidable (_ ∨ _))

theorem plain_ne {c d : Char} (h : PlainC c) (hd : ¬ PlainC d) : c ≠ d := by rintro rfl; exact hd h

theorem plain_not_blank {c : Char} (h : PlainC c) : ¬ Blank c := by
  rintro (e | e)
  · exact plain_ne h (by decide) e
  · exact plain_ne h (by decide) e

theorem plain_not_cend {c : Char} (h : PlainC c) : ¬ CEnd c := by
  rintro ((e | e | e) | e | e | e)
  all_goals exact plain_ne h (by decide) e

theorem not_mem_plain {f : Str} (h : PlainName f) {d : Char} (hd : ¬ PlainC d) : d ∉ f := fun hm => hd (h.2 d hm)

/-! ## make -/

theorem joined_cons {c : Char} (h : c ≠ '\\') (s : Str) : joined (c :: s) = c :: joined s := by
  rw [joined]
  intro r e
  exact absurd e h

theorem joined_append {a : Str} (h : '\\' ∉ a) (b : Str) : joined (a ++ b) = a ++ joined b := by
  induction a with
  | nil => rfl
  | cons c a ih =>
    rw [List.cons_append, joined_cons (fun e => h (by rw [e]; exact List.mem_cons_self)), ih fun hm => h (List.mem_cons_of_mem _ hm)]
    rfl

/-- An entry after joining. -/
def entry (f : Str) : Str := "  \t   ".toList ++ f

theorem joined_entries {files : List Str} (h : ∀ f ∈ files, PlainName f) (t : Str) :
    joined (files.flatMap makeEntry ++ t) = files.flatMap entry ++ joined t := by
  induction files with
  | nil => rfl
  | cons f fs ih =>
    rw [List.flatMap_cons, List.flatMap_cons, List.append_assoc, List.append_assoc]
    have e : makeEntry f ++ (fs.flatMap makeEntry ++ t) = ' ' :: '\\' :: '\n' :: ("\t   ".toList ++ f ++ (fs.flatMap makeEntry ++ t)) := rfl
    rw [e, joined_cons (by decide), joined, joined_append, ih fun g hg => h g (List.mem_cons_of_mem _ hg)]
    · rfl
    · intro hm
      rcases List.mem_append.1 hm with hm | hm
      · revert hm; decide
      · exact not_mem_plain (h f List.mem_cons_self) (by decide) hm

theorem words_entries {files : List Str} (h : ∀ f ∈ files, PlainName f) : Words (files.flatMap entry) files := by
  induction files with
  | nil => exact .nil
  | cons f fs ih =>
    rw [List.flatMap_cons]
    have e : entry f ++ fs.flatMap entry = ' ' :: ' ' :: '\t' :: ' ' :: ' ' :: ' ' :: (f ++ fs.flatMap entry) := rfl
    rw [e]
    have hf := h f List.mem_cons_self
    refine .blank (Or.inl rfl) (.blank (Or.inl rfl) (.blank (Or.inr rfl) (.blank (Or.inl rfl) (.blank (Or.inl rfl) (.blank (Or.inl rfl)
      (.word hf.1 (fun c hc => plain_not_blank (hf.2 c hc)) ?_ (ih fun g hg => h g (List.mem_cons_of_mem _ hg))))))))
    intro c r e
    cases fs with
    | nil => cases e
    | cons g gs => rw [List.flatMap_cons] at e; exact Or.inl (List.cons.inj e).1.symm

theorem no_newline {files : List Str} (h : ∀ f ∈ files, PlainName f) : '\n' ∉ files.flatMap entry := by
  intro hm
  obtain ⟨f, hf, hm⟩ := List.mem_flatMap.1 hm
  rcases List.mem_append.1 hm with hm | hm
  · revert hm; decide
  · exact not_mem_plain (h f hf) (by decide) hm

/-! ## The banner -/

/-- The second comment line. -/
def line1 (what : Str) : Str := "# All CCPP ".toList ++ what ++ " are defined here.".toList

/-- The lines of the banner. -/
def bannerLines (what : Str) : List Str :=
  [[], line1 what, "#".toList, "# This file is auto-generated using ccpp_prebuild.py".toList,
    "# at compile time, do not edit manually.".toList, "#".toList]

theorem banner_eq (what t : Str) : banner what ++ t = [] ++ '\n' :: (line1 what ++ '\n' :: ("#".toList ++ '\n' ::
    ("# This file is auto-generated using ccpp_prebuild.py".toList ++ '\n' ::
      ("# at compile time, do not edit manually.".toList ++ '\n' :: ("#".toList ++ '\n' :: t))))) := by
  have e1 : "\n# All CCPP ".toList = '\n' :: "# All CCPP ".toList := rfl
  have e2 : " are defined here.\n#\n# This file is auto-generated using ccpp_prebuild.py\n# at compile time, do not edit manually.\n#\n".toList
      = " are defined here.".toList ++ '\n' :: ("#".toList ++ '\n' ::
        ("# This file is auto-generated using ccpp_prebuild.py".toList ++ '\n' ::
        ("# at compile time, do not edit manually.".toList ++ '\n' :: ("#".toList ++ '\n' :: [])))) := by decide +kernel
  unfold banner line1
  rw [e1, e2]
  simp only [List.append_assoc, List.cons_append, List.nil_append]

theorem banner_lines {what t : Str} {ls : List Str} (hw : '\n' ∉ what) (h : Lines t ls) :
    Lines (banner what ++ t) (bannerLines what ++ ls) := by
  rw [banner_eq]
  refine .line (by decide) (.line ?_ (.line (by decide) (.line (by decide) (.line (by decide) (.line (by decide) h)))))
  unfold line1
  simp only [List.mem_append, not_or]
  exact ⟨⟨by decide, hw⟩, by decide⟩

theorem banner_ignored (what : Str) : ∀ l ∈ bannerLines what, Ignored l := by
  intro l hl
  simp only [bannerLines, List.mem_cons, List.not_mem_nil, or_false] at hl
  rcases hl with rfl | rfl | rfl | rfl | rfl | rfl
  · exact Or.inl rfl
  all_goals exact Or.inr ⟨_, rfl⟩

theorem vars_skip {ls ms : List Str} {vs : List (Str × List Str)} (h : ∀ l ∈ ls, Ignored l) (hm : MakeVars ms vs) :
    MakeVars (ls ++ ms) vs := by
  induction ls with
  | nil => exact hm
  | cons l ls ih => exact .skip (h l List.mem_cons_self) (ih fun x hx => h x (List.mem_cons_of_mem _ hx))

theorem not_mem_banner {d : Char} {what : Str} (hw : d ∉ what) (h1 : d ∉ "\n# All CCPP ".toList)
    (h2 : d ∉ " are defined here.\n#\n# This file is auto-generated using ccpp_prebuild.py\n# at compile time, do not edit manually.\n#\n".toList) :
    d ∉ banner what := by
  unfold banner
  simp only [List.mem_append, not_or]
  exact ⟨⟨h1, hw⟩, h2⟩

theorem make_spec {what var : Str} {files : List Str} (h : ∀ f ∈ files, PlainName f) (hw1 : '\n' ∉ what) (hw2 : '\\' ∉ what)
    (hv : var ≠ []) (hvc : ∀ c ∈ var, c.isAlphanum = true ∨ c = '_') : IsMake (listMake what var files) [(var, files)] := by
  have hvn : ∀ d, ¬ (d.isAlphanum = true ∨ d = '_') → d ∉ var := fun d hd hm => hd (hvc d hm)
  have e : joined (listMake what var files) = banner what ++ (var ++ " =".toList ++ files.flatMap entry) := by
    have := joined_entries h []
    rw [List.append_nil, show joined [] = [] from rfl, List.append_nil] at this
    unfold listMake
    rw [joined_append, this]
    · simp only [List.append_assoc]
    · simp only [List.mem_append, not_or]
      exact ⟨⟨not_mem_banner hw2 (by decide) (by decide +kernel), hvn _ (by decide)⟩, by decide⟩
  refine ⟨_, ?_, vars_skip (banner_ignored what) (.var hv hvc (words_entries h) .nil)⟩
  rw [e]
  refine banner_lines hw1 (.last ?_)
  simp only [List.mem_append, not_or]
  exact ⟨⟨hvn _ (by decide), by decide⟩, no_newline h⟩

/-! ## cmake -/

theorem banner_tokens {what t : Str} {ts : List Str} (hw : '\n' ∉ what) (h : CTokens t ts) : CTokens (banner what ++ t) ts := by
  rw [banner_eq]
  refine .space (Or.inr (Or.inr rfl)) ?_
  have com : ∀ (r s : Str), '\n' ∉ r → CTokens s ts → CTokens (('#' :: r) ++ '\n' :: s) ts := fun r s h1 h2 => .comment h1 h2
  refine com (" All CCPP ".toList ++ what ++ " are defined here.".toList) _ ?_ (com [] _ (by decide) (com _ _ (by decide) (com _ _ (by decide) (com [] _ (by decide) h))))
  simp only [List.mem_append, not_or]
  exact ⟨⟨by decide, hw⟩, by decide⟩

theorem cmake_entries {files : List Str} (h : ∀ f ∈ files, PlainName f) {t : Str} {ts : List Str} (ht : CTokens t ts) :
    CTokens (files.flatMap (fun f => "      ".toList ++ f ++ "\n".toList) ++ t) (files ++ ts) := by
  induction files with
  | nil => exact ht
  | cons f fs ih =>
    rw [List.flatMap_cons]
    have e : ("      ".toList ++ f ++ "\n".toList ++ fs.flatMap fun f => "      ".toList ++ f ++ "\n".toList) ++ t =
        ' ' :: ' ' :: ' ' :: ' ' :: ' ' :: ' ' :: (f ++ '\n' :: (fs.flatMap (fun f => "      ".toList ++ f ++ "\n".toList) ++ t)) := by
      rw [show ("\n".toList : Str) = ['\n'] from rfl]
      simp only [List.append_assoc, List.cons_append, List.nil_append]
      rfl
    rw [e]
    have hf := h f List.mem_cons_self
    have sp : ∀ {s : Str} {us : List Str}, CTokens s us → CTokens (' ' :: s) us := fun h => .space (Or.inl rfl) h
    refine sp (sp (sp (sp (sp (sp (.word hf.1 (fun c hc => plain_not_cend (hf.2 c hc)) ?_
      (.space (Or.inr (Or.inr rfl)) (ih fun g hg => h g (List.mem_cons_of_mem _ hg)))))))))
    intro c r e
    exact Or.inl (Or.inr (Or.inr (List.cons.inj e).1.symm))

theorem cmake_spec {what var : Str} {files : List Str} (h : ∀ f ∈ files, PlainName f) (hw : '\n' ∉ what)
    (hv : PlainName var) : IsCSet (listCMake what var files) var files := by
  unfold IsCSet listCMake
  have e : banner what ++ "set(".toList ++ var ++ "\n".toList ++ files.flatMap (fun f => "      ".toList ++ f ++ "\n".toList) ++ ")\n".toList =
      banner what ++ ("set".toList ++ '(' :: (var ++ '\n' :: (files.flatMap (fun f => "      ".toList ++ f ++ "\n".toList) ++ ")\n".toList))) := by
    rw [show ("\n".toList : Str) = ['\n'] from rfl, show ("set(".toList : Str) = "set".toList ++ ['('] from rfl]
    simp only [List.append_assoc, List.cons_append, List.nil_append]
  rw [e]
  refine banner_tokens hw (.word (by decide) ?_ ?_ (.opening (.word hv.1 (fun c hc => plain_not_cend (hv.2 c hc)) ?_
    (.space (Or.inr (Or.inr rfl)) (cmake_entries h (.closing (.space (Or.inr (Or.inr rfl)) .nil)))))))
  · intro c hc
    refine plain_not_cend ?_
    simp at hc
    rcases hc with rfl | rfl | rfl <;> decide
  · intro c r e; exact Or.inr (Or.inl (List.cons.inj e).1.symm)
  · intro c r e; exact Or.inl (Or.inr (Or.inr (List.cons.inj e).1.symm))

/-! ## The shell -/

theorem rstrip_one {x : Str} {c : Char} (h : c ≠ ';') : rstripSemi (x ++ [c]) = x ++ [c] ∧ rstripSemi (x ++ [c] ++ [';']) = x ++ [c] := by
  unfold rstripSemi
  constructor
  · simp [h]
  · simp [h]

theorem inter_cons {f g : Str} {fs : List Str} : [';'].intercalate (f :: g :: fs) = f ++ ';' :: [';'].intercalate (g :: fs) := by
  simp [List.intercalate]

theorem files_semi {files : List Str} (hne : files ≠ []) (h : ∀ f ∈ files, PlainName f) :
    files.flatMap (· ++ ";".toList) = [';'].intercalate files ++ [';'] ∧ ∃ u c, [';'].intercalate files = u ++ [c] ∧ c ≠ ';' := by
  induction files with
  | nil => exact absurd rfl hne
  | cons f fs ih =>
    cases fs with
    | nil =>
      refine ⟨by simp [List.intercalate], ?_⟩
      have hf := h f List.mem_cons_self
      refine ⟨f.dropLast, f.getLast hf.1, ?_, plain_ne (hf.2 _ (List.getLast_mem hf.1)) (by decide)⟩
      rw [List.dropLast_concat_getLast]; simp [List.intercalate]
    | cons g gs =>
      obtain ⟨h1, u, c, h2, h3⟩ := ih (by simp) fun x hx => h x (List.mem_cons_of_mem _ hx)
      rw [List.flatMap_cons, h1, inter_cons]
      refine ⟨by simp, f ++ ';' :: u, c, by rw [h2]; simp, h3⟩

theorem source_eq {what var : Str} {files : List Str} (h : ∀ f ∈ files, PlainName f) : listSource what var files =
    banner what ++ (("export ".toList ++ var ++ "=\"".toList ++ [';'].intercalate files ++ "\"".toList) ++ '\n' :: []) := by
  unfold listSource
  have q : "\"\n".toList = "\"".toList ++ ['\n'] := rfl
  rw [q]
  cases files with
  | nil =>
    have e : banner what ++ "export ".toList ++ var ++ "=\"".toList ++ ([] : List Str).flatMap (· ++ ";".toList) =
        (banner what ++ "export ".toList ++ var ++ ['=']) ++ ['"'] := by
      rw [show "=\"".toList = ['='] ++ ['"'] from rfl]; simp
    rw [e, (rstrip_one (by decide)).1]
    have e2 : "=\"".toList = ['='] ++ ['"'] := rfl
    rw [e2]
    simp [List.intercalate]
  | cons f fs =>
    obtain ⟨h1, u, c, h2, h3⟩ := files_semi (files := f :: fs) (by simp) h
    rw [h1, h2]
    have e : ∀ x : Str, x ++ (u ++ [c] ++ [';']) = (x ++ u) ++ [c] ++ [';'] := by intro x; simp
    rw [e, (rstrip_one h3).2]
    simp only [List.append_assoc, List.cons_append, List.nil_append]

theorem source_spec {what var : Str} {files : List Str} (h : ∀ f ∈ files, PlainName f) (hw : '\n' ∉ what) (hv : '\n' ∉ var) :
    IsExport (listSource what var files) var files := by
  refine ⟨bannerLines what, [[]], ?_, ?_⟩
  · rw [source_eq h]
    refine banner_lines hw (.line ?_ (.last (by simp)))
    simp only [List.mem_append, not_or]
    refine ⟨⟨⟨⟨by decide, hv⟩, by decide⟩, ?_⟩, by decide⟩
    intro hm
    have : ∀ (fs : List Str), (∀ f ∈ fs, PlainName f) → '\n' ∉ [';'].intercalate fs := by
      intro fs
      induction fs with
      | nil => intro _ hm; simp [List.intercalate] at hm
      | cons f fs ih =>
        intro hp hm
        cases fs with
        | nil => simp [List.intercalate] at hm; exact not_mem_plain (hp f List.mem_cons_self) (by decide) hm
        | cons g gs =>
          rw [inter_cons] at hm
          rcases List.mem_append.1 hm with hm | hm
          · exact not_mem_plain (hp f List.mem_cons_self) (by decide) hm
          · rcases List.mem_cons.1 hm with e | hm
            · revert e; decide
            · exact ih (fun x hx => hp x (List.mem_cons_of_mem _ hx)) hm
    exact this files h hm
  · intro l hl
    rcases List.mem_append.1 hl with hl | hl
    · exact banner_ignored what l hl
    · simp at hl; exact Or.inl hl

/-! ## The list of caps and of type definitions -/

/-- **C102, caps**. make, cmake and the shell read exactly the list of caps. -/
theorem C102_caps (files : List Str) (h : ∀ f ∈ files, PlainName f) : IsMake (capsMake files) [("CAPS_F90".toList, files)] ∧
    IsCSet (capsCMake files) "CAPS".toList files ∧ IsExport (capsSource files) "CCPP_CAPS".toList files :=
  ⟨make_spec h (by decide) (by decide) (by decide) (by decide), cmake_spec h (by decide) ⟨by decide, by decide⟩,
    source_spec h (by decide) (by decide)⟩

/-- **C102, types**. make, cmake and the shell read exactly the list of modules with type definitions. -/
theorem C102_typedefs (files : List Str) (h : ∀ f ∈ files, PlainName f) : IsMake (typedefsMake files) [("TYPEDEFS".toList, files)] ∧
    IsCSet (typedefsCMake files) "TYPEDEFS".toList files ∧ IsExport (typedefsSource files) "CCPP_TYPEDEFS".toList files :=
  ⟨make_spec h (by decide) (by decide) (by decide) (by decide), cmake_spec h (by decide) ⟨by decide, by decide⟩,
    source_spec h (by decide) (by decide)⟩

/-! ## Replacing -/

theorem go_skip (p r u b : Str) : replaceGo p r u.length (u ++ b) = replaceGo p r 0 b := by
  induction u with
  | nil => rfl
  | cons c u ih => exact ih

theorem not_prefix {q u v : Str} (hu : '=' ∉ u) (hl : q.length < u.length) : ¬ (q ++ ['=']) <+: (u ++ v) := by
  rintro ⟨t, e⟩
  have h1 := congrArg (fun l => l[q.length]?) e
  simp only [List.append_assoc] at h1
  rw [List.getElem?_append_right (Nat.le_refl _), Nat.sub_self, List.getElem?_append_left hl] at h1
  exact hu (List.mem_of_getElem? h1.symm)

theorem replace_step {p r : Str} {c : Char} {s : Str} (h : ¬ p <+: (c :: s)) : replaceGo p r 0 (c :: s) = c :: replaceGo p r 0 s := by
  rw [show replaceGo p r 0 (c :: s) = if p.isPrefixOf (c :: s) then r ++ replaceGo p r (p.length - 1) s else c :: replaceGo p r 0 s from rfl, if_neg (by rwa [List.isPrefixOf_iff_prefix])]

theorem replace_pos {p r : Str} {c : Char} {s : Str} (h : p <+: (c :: s)) :
    replaceGo p r 0 (c :: s) = r ++ replaceGo p r (p.length - 1) s := by
  rw [show replaceGo p r 0 (c :: s) = if p.isPrefixOf (c :: s) then r ++ replaceGo p r (p.length - 1) s else c :: replaceGo p r 0 s from rfl,
    if_pos (by rwa [List.isPrefixOf_iff_prefix])]

theorem replace_hit {q r a b : Str} (ha : '=' ∉ a) (hq : '=' ∉ q) :
    replace (q ++ ['=']) r (a ++ q ++ '=' :: b) = a ++ r ++ replace (q ++ ['=']) r b := by
  unfold replace
  induction a with
  | nil =>
    cases q with
    | nil => exact replace_pos (p := ['=']) ⟨b, rfl⟩
    | cons x q =>
      show replaceGo ((x :: q) ++ ['=']) r 0 (x :: (q ++ '=' :: b)) = _
      rw [replace_pos ⟨b, by simp⟩]
      have e : ((x :: q) ++ ['=']).length - 1 = (q ++ ['=']).length := by simp
      have e2 : q ++ '=' :: b = (q ++ ['=']) ++ b := by simp
      rw [e, e2, go_skip]; rfl
  | cons y a ih =>
    have hn : ¬ (q ++ ['=']) <+: (y :: (a ++ q ++ '=' :: b)) := by
      have := not_prefix (q := q) (u := y :: (a ++ q)) (v := '=' :: b) (by
        simp only [List.mem_cons, List.mem_append, not_or] at ha ⊢
        exact ⟨ha.1, ha.2, hq⟩) (by simp; omega)
      simpa using this
    rw [List.cons_append, List.cons_append, replace_step hn, ih fun hm => ha (List.mem_cons_of_mem _ hm)]
    rfl

theorem replace_miss {q r a b : Str} (ha : '=' ∉ a) (hq : '=' ∉ q) (hs : ¬ q <:+ a) :
    replace (q ++ ['=']) r (a ++ '=' :: b) = a ++ '=' :: replace (q ++ ['=']) r b := by
  unfold replace
  have key : ∀ u : Str, '=' ∉ u → ¬ q <:+ u → ¬ (q ++ ['=']) <+: (u ++ '=' :: b) := by
    intro u hu hsu
    rcases Nat.lt_trichotomy q.length u.length with hl | hl | hl
    · exact not_prefix hu hl
    · rintro ⟨t, e⟩
      rw [List.append_assoc] at e
      exact hsu (by rw [(List.append_inj e hl).1]; exact List.suffix_refl _)
    · rintro ⟨t, e⟩
      rw [List.append_assoc] at e
      have h1 := congrArg (fun l => l[u.length]?) e
      rw [List.getElem?_append_left hl, List.getElem?_append_right (Nat.le_refl _), Nat.sub_self] at h1
      exact hq (List.mem_of_getElem? h1)
  induction a with
  | nil => exact replace_step (key [] ha hs)
  | cons y a ih =>
    have := key (y :: a) ha hs
    show replaceGo _ _ 0 (y :: (a ++ '=' :: b)) = y :: (a ++ '=' :: _)
    have t2 : ¬ (q ++ ['=']) <+: (y :: (a ++ '=' :: b)) := this
    rw [replace_step t2, ih (fun hm => ha (List.mem_cons_of_mem _ hm)) (fun h => hs (h.trans (List.suffix_cons y a)))]

theorem replace_none {q r a : Str} (ha : '=' ∉ a) : replace (q ++ ['=']) r a = a := by
  unfold replace
  induction a with
  | nil => rfl
  | cons y a ih =>
    have : ¬ (q ++ ['=']) <+: (y :: a) := by
      rintro ⟨t, e⟩
      exact ha (by rw [← e]; simp)
    rw [replace_step this, ih fun hm => ha (List.mem_cons_of_mem _ hm)]

/-! ## The list of schemes -/

theorem ends_iff (f e : Str) : endsWith f e = true ↔ HasEnding e f := by
  unfold endsWith
  rw [List.isSuffixOf_iff_suffix]
  constructor
  · rintro ⟨b, h⟩; exact ⟨b, h.symm⟩
  · rintro ⟨b, h⟩; exact ⟨b, h.symm⟩

theorem last_ne {f e e' : Str} (h : HasEnding e f) (h' : HasEnding e' f) (hl : e.length ≤ e'.length) : e <:+ e' := by
  obtain ⟨b, rfl⟩ := h
  obtain ⟨b', h'⟩ := h'
  have h1 : e <:+ b ++ e := List.suffix_append _ _
  have h2 : e' <:+ b ++ e := ⟨b', h'.symm⟩
  exact List.suffix_of_suffix_length_le h1 h2 hl

theorem entries_eq {before : List Str} {e : Str} {files : List Str}
    (hd : ∀ b ∈ before, ∀ f, HasEnding b f → HasEnding e f → False) : ∃ l, OfEnding e files l ∧ entries before e files = l.flatMap makeEntry := by
  refine ⟨_, ⟨fun f => endsWith f e, fun f => ends_iff f e, rfl⟩, ?_⟩
  unfold entries
  congr 1
  apply List.filter_congr
  intro f _
  cases he : endsWith f e with
  | false => simp
  | true =>
    have : before.any (fun b => endsWith f b) = false := by
      rw [List.any_eq_false]
      intro b hb hf
      exact hd b hb f ((ends_iff f b).1 hf) ((ends_iff f e).1 he)
    rw [this]; rfl

theorem apart {e e' : Str} (h1 : ¬ e <:+ e') (h2 : ¬ e' <:+ e) : ∀ f, HasEnding e f → HasEnding e' f → False := by
  intro f ha hb
  rcases Nat.le_total e.length e'.length with hl | hl
  · exact h1 (last_ne ha hb hl)
  · exact h2 (last_ne hb ha hl)

theorem no_eq_entries {files : List Str} (h : ∀ f ∈ files, PlainName f) : '=' ∉ files.flatMap makeEntry := by
  intro hm
  obtain ⟨f, hf, hm⟩ := List.mem_flatMap.1 hm
  rcases List.mem_append.1 hm with hm | hm
  · revert hm; decide
  · exact not_mem_plain (h f hf) (by decide) hm

theorem no_suffix {q x l : Str} (hl : q.length ≤ l.length) (h : ¬ q <:+ l) : ¬ q <:+ (x ++ l) := by
  intro hs
  exact h (List.suffix_of_suffix_length_le hs (List.suffix_append _ _) hl)

theorem sub_plain {e : Str} {files l : List Str} (h : ∀ f ∈ files, PlainName f) (hl : OfEnding e files l) : ∀ f ∈ l, PlainName f := by
  obtain ⟨p, _, rfl⟩ := hl
  exact fun f hf => h f (List.mem_filter.1 hf).1

/-- The text of the makefile for schemes after the replacements. -/
theorem schemes_text {x1 x2 x3 x4 : Str} (h1 : '=' ∉ x1) (h2 : '=' ∉ x2) (h3 : '=' ∉ x3) (h4 : '=' ∉ x4) :
    replace "SCHEMES_f90 =".toList ("SCHEMES_f90 =".toList ++ x4) (replace "SCHEMES_f =".toList ("SCHEMES_f =".toList ++ x3)
      (replace "SCHEMES_F90 =".toList ("SCHEMES_F90 =".toList ++ x2) (replace "SCHEMES_F =".toList ("SCHEMES_F =".toList ++ x1) schemesHeader))) =
    banner "schemes".toList ++ ("SCHEMES_F =".toList ++ x1 ++ '\n' :: '\n' :: ("SCHEMES_F90 =".toList ++ x2 ++ '\n' :: '\n' ::
      ("SCHEMES_f =".toList ++ x3 ++ '\n' :: '\n' :: ("SCHEMES_f90 =".toList ++ x4)))) := by
  generalize hB : banner "schemes".toList = B
  have hb : '=' ∉ B := by rw [← hB]; exact not_mem_banner (by decide) (by decide) (by decide +kernel)
  have pF : "SCHEMES_F =".toList = "SCHEMES_F ".toList ++ ['='] := rfl
  have pF9 : "SCHEMES_F90 =".toList = "SCHEMES_F90 ".toList ++ ['='] := rfl
  have pf : "SCHEMES_f =".toList = "SCHEMES_f ".toList ++ ['='] := rfl
  have pf9 : "SCHEMES_f90 =".toList = "SCHEMES_f90 ".toList ++ ['='] := rfl
  have nl : ∀ {x : Str}, '=' ∉ x → ∀ {l : Str}, '=' ∉ l → '=' ∉ x ++ l := by
    intro x hx l hl hm
    rcases List.mem_append.1 hm with hm | hm
    · exact hx hm
    · exact hl hm
  have H : schemesHeader = B ++ "SCHEMES_F ".toList ++ '=' :: ("\n\nSCHEMES_F90 ".toList ++ '=' :: ("\n\nSCHEMES_f ".toList ++ '=' ::
      ("\n\nSCHEMES_f90 ".toList ++ '=' :: []))) := by
    rw [← hB]; unfold schemesHeader
    rw [List.append_assoc]; rfl
  have s1 : replace "SCHEMES_F =".toList ("SCHEMES_F =".toList ++ x1) schemesHeader =
      B ++ ("SCHEMES_F =".toList ++ x1) ++ ("\n\nSCHEMES_F90 ".toList ++ '=' :: ("\n\nSCHEMES_f ".toList ++ '=' ::
      ("\n\nSCHEMES_f90 ".toList ++ '=' :: []))) := by
    rw [H, pF, replace_hit hb (by decide), replace_miss (by decide) (by decide) (by decide), replace_miss (by decide) (by decide) (by decide),
      replace_miss (by decide) (by decide) (by decide)]
    rfl
  have t1 : B ++ ("SCHEMES_F =".toList ++ x1) ++ ("\n\nSCHEMES_F90 ".toList ++ '=' :: ("\n\nSCHEMES_f ".toList ++ '=' ::
      ("\n\nSCHEMES_f90 ".toList ++ '=' :: []))) = (B ++ "SCHEMES_F ".toList) ++ '=' :: ((x1 ++ "\n\n".toList) ++ "SCHEMES_F90 ".toList ++ '=' ::
      ("\n\nSCHEMES_f ".toList ++ '=' :: ("\n\nSCHEMES_f90 ".toList ++ '=' :: []))) := by
    rw [pF, show "\n\nSCHEMES_F90 ".toList = "\n\n".toList ++ "SCHEMES_F90 ".toList from rfl]
    simp only [List.append_assoc, List.cons_append, List.nil_append]
  have s2 : replace "SCHEMES_F90 =".toList ("SCHEMES_F90 =".toList ++ x2) ((B ++ "SCHEMES_F ".toList) ++ '=' :: ((x1 ++ "\n\n".toList) ++ "SCHEMES_F90 ".toList ++ '=' ::
      ("\n\nSCHEMES_f ".toList ++ '=' :: ("\n\nSCHEMES_f90 ".toList ++ '=' :: [])))) =
      (B ++ "SCHEMES_F ".toList) ++ '=' :: ((x1 ++ "\n\n".toList) ++ ("SCHEMES_F90 =".toList ++ x2) ++
      ("\n\nSCHEMES_f ".toList ++ '=' :: ("\n\nSCHEMES_f90 ".toList ++ '=' :: []))) := by
    rw [pF9, replace_miss (nl hb (by decide)) (by decide) ?_, replace_hit (nl h1 (by decide)) (by decide),
      replace_miss (by decide) (by decide) (by decide), replace_miss (by decide) (by decide) (by decide)]
    · rfl
    · rw [← hB]
      unfold banner
      rw [List.append_assoc]
      exact no_suffix (by decide +kernel) (by decide +kernel)
  have t2 : (B ++ "SCHEMES_F ".toList) ++ '=' :: ((x1 ++ "\n\n".toList) ++ ("SCHEMES_F90 =".toList ++ x2) ++
      ("\n\nSCHEMES_f ".toList ++ '=' :: ("\n\nSCHEMES_f90 ".toList ++ '=' :: []))) =
      (B ++ "SCHEMES_F ".toList) ++ '=' :: ((x1 ++ "\n\nSCHEMES_F90 ".toList) ++ '=' :: ((x2 ++ "\n\n".toList) ++ "SCHEMES_f ".toList ++ '=' ::
      ("\n\nSCHEMES_f90 ".toList ++ '=' :: []))) := by
    rw [pF9, show "\n\nSCHEMES_F90 ".toList = "\n\n".toList ++ "SCHEMES_F90 ".toList from rfl,
      show "\n\nSCHEMES_f ".toList = "\n\n".toList ++ "SCHEMES_f ".toList from rfl]
    simp only [List.append_assoc, List.cons_append, List.nil_append]
  have s3 : replace "SCHEMES_f =".toList ("SCHEMES_f =".toList ++ x3) ((B ++ "SCHEMES_F ".toList) ++ '=' :: ((x1 ++ "\n\nSCHEMES_F90 ".toList) ++ '=' :: ((x2 ++ "\n\n".toList) ++ "SCHEMES_f ".toList ++ '=' ::
      ("\n\nSCHEMES_f90 ".toList ++ '=' :: [])))) =
      (B ++ "SCHEMES_F ".toList) ++ '=' :: ((x1 ++ "\n\nSCHEMES_F90 ".toList) ++ '=' :: ((x2 ++ "\n\n".toList) ++ ("SCHEMES_f =".toList ++ x3) ++
      ("\n\nSCHEMES_f90 ".toList ++ '=' :: []))) := by
    rw [pf, replace_miss (nl hb (by decide)) (by decide) ?_, replace_miss (nl h1 (by decide)) (by decide) (no_suffix (by decide) (by decide)),
      replace_hit (nl h2 (by decide)) (by decide), replace_miss (by decide) (by decide) (by decide)]
    · rfl
    · exact no_suffix (by decide) (by decide)
  have t3 : (B ++ "SCHEMES_F ".toList) ++ '=' :: ((x1 ++ "\n\nSCHEMES_F90 ".toList) ++ '=' :: ((x2 ++ "\n\n".toList) ++ ("SCHEMES_f =".toList ++ x3) ++
      ("\n\nSCHEMES_f90 ".toList ++ '=' :: []))) =
      (B ++ "SCHEMES_F ".toList) ++ '=' :: ((x1 ++ "\n\nSCHEMES_F90 ".toList) ++ '=' :: ((x2 ++ "\n\nSCHEMES_f ".toList) ++ '=' ::
      ((x3 ++ "\n\n".toList) ++ "SCHEMES_f90 ".toList ++ '=' :: []))) := by
    rw [pf, show "\n\nSCHEMES_f ".toList = "\n\n".toList ++ "SCHEMES_f ".toList from rfl,
      show "\n\nSCHEMES_f90 ".toList = "\n\n".toList ++ "SCHEMES_f90 ".toList from rfl]
    simp only [List.append_assoc, List.cons_append, List.nil_append]
  have s4 : replace "SCHEMES_f90 =".toList ("SCHEMES_f90 =".toList ++ x4) ((B ++ "SCHEMES_F ".toList) ++ '=' :: ((x1 ++ "\n\nSCHEMES_F90 ".toList) ++ '=' :: ((x2 ++ "\n\nSCHEMES_f ".toList) ++ '=' ::
      ((x3 ++ "\n\n".toList) ++ "SCHEMES_f90 ".toList ++ '=' :: [])))) =
      (B ++ "SCHEMES_F ".toList) ++ '=' :: ((x1 ++ "\n\nSCHEMES_F90 ".toList) ++ '=' :: ((x2 ++ "\n\nSCHEMES_f ".toList) ++ '=' ::
      ((x3 ++ "\n\n".toList) ++ ("SCHEMES_f90 =".toList ++ x4) ++ []))) := by
    rw [pf9, replace_miss (nl hb (by decide)) (by decide) ?_, replace_miss (nl h1 (by decide)) (by decide) (no_suffix (by decide) (by decide)),
      replace_miss (nl h2 (by decide)) (by decide) (no_suffix (by decide) (by decide)), replace_hit (nl h3 (by decide)) (by decide)]
    · rfl
    · rw [← hB]
      unfold banner
      rw [List.append_assoc]
      exact no_suffix (by decide +kernel) (by decide +kernel)
  rw [s1, t1, s2, t2, s3, t3, s4, pF, pF9, pf, pf9, show "\n\nSCHEMES_F90 ".toList = '\n' :: '\n' :: "SCHEMES_F90 ".toList from rfl,
    show "\n\nSCHEMES_f ".toList = '\n' :: '\n' :: "SCHEMES_f ".toList from rfl, show "\n\n".toList = ['\n', '\n'] from rfl]
  simp only [List.append_assoc, List.cons_append, List.nil_append, List.append_nil]

/-- One variable of a makefile, joined. -/
theorem joined_var {n : Str} {l : List Str} (hn : '\\' ∉ n) (h : ∀ f ∈ l, PlainName f) (t : Str) :
    joined (n ++ l.flatMap makeEntry ++ t) = n ++ l.flatMap entry ++ joined t := by
  rw [List.append_assoc, joined_append hn, joined_entries h, List.append_assoc]

/-- **C102, schemes**. make reads from the four variables the scheme files with their endings, in order; cmake and the shell
read the list of all files. -/
theorem C102_schemes_partial (files : List Str) (h : ∀ f ∈ files, PlainName f) : ∃ a b c d,
    OfEnding ".F".toList files a ∧ OfEnding ".F90".toList files b ∧ OfEnding ".f".toList files c ∧ OfEnding ".f90".toList files d ∧
    IsMake (schemesMake files) [("SCHEMES_F".toList, a), ("SCHEMES_F90".toList, b), ("SCHEMES_f".toList, c), ("SCHEMES_f90".toList, d)] ∧
    IsCSet (schemesCMake files) "SCHEMES".toList files ∧ IsExport (schemesSource files) "CCPP_SCHEMES".toList files := by
  obtain ⟨a, ha, ea⟩ := entries_eq (before := []) (e := ".F".toList) (files := files) (by intro b hb; cases hb)
  obtain ⟨b, hb, eb⟩ := entries_eq (before := [".F".toList]) (e := ".F90".toList) (files := files) (by
    intro b hb
    rw [List.mem_singleton] at hb
    subst hb
    exact apart (by decide) (by decide))
  obtain ⟨c, hc, ec⟩ := entries_eq (before := [".F".toList, ".F90".toList]) (e := ".f".toList) (files := files) (by
    intro b hb
    simp only [List.mem_cons, List.not_mem_nil, or_false] at hb
    rcases hb with rfl | rfl
    · exact apart (by decide) (by decide)
    · exact apart (by decide) (by decide))
  obtain ⟨d, hd, ed⟩ := entries_eq (before := [".F".toList, ".F90".toList, ".f".toList]) (e := ".f90".toList) (files := files) (by
    intro b hb
    simp only [List.mem_cons, List.not_mem_nil, or_false] at hb
    rcases hb with rfl | rfl | rfl
    · exact apart (by decide) (by decide)
    · exact apart (by decide) (by decide)
    · exact apart (by decide) (by decide))
  have pa := sub_plain h ha
  have pb := sub_plain h hb
  have pc := sub_plain h hc
  have pd := sub_plain h hd
  refine ⟨a, b, c, d, ha, hb, hc, hd, ?_, cmake_spec h (by decide) ⟨by decide, by decide⟩, source_spec h (by decide) (by decide)⟩
  have e : schemesMake files = banner "schemes".toList ++ ("SCHEMES_F =".toList ++ a.flatMap makeEntry ++ '\n' :: '\n' :: ("SCHEMES_F90 =".toList ++ b.flatMap makeEntry ++ '\n' :: '\n' ::
      ("SCHEMES_f =".toList ++ c.flatMap makeEntry ++ '\n' :: '\n' :: ("SCHEMES_f90 =".toList ++ d.flatMap makeEntry)))) := by
    rw [← schemes_text (no_eq_entries pa) (no_eq_entries pb) (no_eq_entries pc) (no_eq_entries pd), ← ea, ← eb, ← ec, ← ed]
    rfl
  have j : joined (schemesMake files) = banner "schemes".toList ++ (("SCHEMES_F =".toList ++ a.flatMap entry) ++ '\n' :: ([] ++ '\n' :: (("SCHEMES_F90 =".toList ++ b.flatMap entry) ++ '\n' :: ([] ++ '\n' ::
      (("SCHEMES_f =".toList ++ c.flatMap entry) ++ '\n' :: ([] ++ '\n' :: ("SCHEMES_f90 =".toList ++ d.flatMap entry))))))) := by
    have j4 := joined_var (n := "SCHEMES_f90 =".toList) (by decide) pd []
    rw [List.append_nil, show joined [] = [] from rfl, List.append_nil] at j4
    rw [e, joined_append (not_mem_banner (by decide) (by decide) (by decide +kernel)), joined_var (by decide) pa, joined_cons (by decide),
      joined_cons (by decide), joined_var (by decide) pb, joined_cons (by decide), joined_cons (by decide), joined_var (by decide) pc,
      joined_cons (by decide), joined_cons (by decide), j4]
    rfl
  have nn : ∀ {n : Str} {l : List Str}, '\n' ∉ n → (∀ f ∈ l, PlainName f) → '\n' ∉ n ++ l.flatMap entry := by
    intro n l hn hl hm
    rcases List.mem_append.1 hm with hm | hm
    · exact hn hm
    · exact no_newline hl hm
  refine ⟨_, by rw [j]; exact banner_lines (by decide) (.line (nn (by decide) pa) (.line (by decide) (.line (nn (by decide) pb) (.line (by decide)
    (.line (nn (by decide) pc) (.line (by decide) (.last (nn (by decide) pd)))))))), vars_skip (banner_ignored _) ?_⟩
  have var : ∀ (n : Str) {l : List Str} {ls vs}, n ≠ [] → (∀ c ∈ n, c.isAlphanum = true ∨ c = '_') → (∀ f ∈ l, PlainName f) → MakeVars ls vs →
      MakeVars ((n ++ " =".toList ++ l.flatMap entry) :: ls) ((n, l) :: vs) := fun n l ls vs h1 h2 h3 h4 => .var h1 h2 (words_entries h3) h4
  exact var "SCHEMES_F".toList (by decide) (by decide) pa (.skip (Or.inl rfl) (var "SCHEMES_F90".toList (by decide) (by decide) pb
    (.skip (Or.inl rfl) (var "SCHEMES_f".toList (by decide) (by decide) pc (.skip (Or.inl rfl)
      (var "SCHEMES_f90".toList (by decide) (by decide) pd .nil))))))

/-! ## Examples and violations -/

/-- The hypotheses are met. -/
example : ∀ f ∈ ["/build/scheme_a.F90".toList, "/build/scheme_b.f".toList, "/build/c+d-1.F".toList], PlainName f := by
  intro f hf
  simp only [List.mem_cons, List.not_mem_nil, or_false] at hf
  rcases hf with rfl | rfl | rfl <;> exact ⟨by decide, by decide⟩

/-- A scheme file with another ending is in the list for cmake, but in no variable for make: the text is the same as without
any file. -/
theorem C102_ending_violated : schemesMake ["/build/scheme_a.f03".toList] = schemesMake [] ∧
    IsCSet (schemesCMake ["/build/scheme_a.f03".toList]) "SCHEMES".toList ["/build/scheme_a.f03".toList] := by
  refine ⟨?_, cmake_spec ?_ (by decide) ⟨by decide, by decide⟩⟩
  · unfold schemesMake
    have : ∀ bs e, e ∈ [".F".toList, ".F90".toList, ".f".toList, ".f90".toList] → entries bs e ["/build/scheme_a.f03".toList] = entries bs e [] := by
      intro bs e he
      have : endsWith "/build/scheme_a.f03".toList e = false := by
        simp only [List.mem_cons, List.not_mem_nil, or_false] at he
        rcases he with rfl | rfl | rfl | rfl <;> decide
      unfold entries
      rw [List.filter_cons_of_neg (by rw [this, Bool.and_false]; exact Bool.false_ne_true)]
    dsimp only
    rw [this _ _ (by decide), this _ _ (by decide), this _ _ (by decide), this _ _ (by decide)]
  · intro f hf
    rw [List.mem_singleton] at hf
    subst hf
    exact ⟨by decide, by decide⟩

end Ccpp.Snip
