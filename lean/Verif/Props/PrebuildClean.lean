import Verif.Props.PrebuildFiles
/-!
# C73: what goes wrong, cleaning, examples
-/
namespace Ccpp.PF

/-! ## Cleaning -/

theorem wordsGo_word : ∀ (w f s : Str), ' ' ∉ f → w ++ f ≠ [] → wordsGo w (f ++ ' ' :: s) = (w ++ f) :: wordsGo [] s
  | w, [], s, _, h => by
    have hw : w ≠ [] := by simpa using h
    simp [wordsGo, hw]
  | w, c :: f, s, hb, _ => by
    have hc : c ≠ ' ' := fun h => hb (by simp [h])
    simp only [List.cons_append, wordsGo, hc, if_false]
    rw [wordsGo_word (w ++ [c]) f s (fun h => hb (List.mem_cons_of_mem _ h)) (by simp)]
    simp

theorem wordsGo_last : ∀ (w f : Str), ' ' ∉ f → w ++ f ≠ [] → wordsGo w f = [w ++ f]
  | w, [], _, h => by
    have hw : w ≠ [] := by simpa using h
    simp [wordsGo, hw]
  | w, c :: f, hb, _ => by
    have hc : c ≠ ' ' := fun h => hb (by simp [h])
    simp only [wordsGo, hc, if_false]
    rw [wordsGo_last (w ++ [c]) f (fun h => hb (List.mem_cons_of_mem _ h)) (by simp)]
    simp

theorem words_join : ∀ (l : List Str), (∀ f ∈ l, f ≠ [] ∧ ' ' ∉ f) → words (join l) = l
  | [], _ => rfl
  | [a], h => by
    have := h a (by simp)
    exact wordsGo_last [] a this.2 (by simpa using this.1)
  | a :: b :: l, h => by
    have ha := h a (by simp)
    have ih := words_join (b :: l) fun f hf => h f (List.mem_cons_of_mem _ hf)
    show wordsGo [] (a ++ ' ' :: join (b :: l)) = _
    rw [wordsGo_word [] a _ ha.2 (by simpa using ha.1)]
    show a :: words (join (b :: l)) = _
    rw [ih]

theorem star_iff {rest : Str → Bool} : ∀ {s : Str}, star rest s = true ↔ ∃ m t, '/' ∉ m ∧ s = m ++ t ∧ rest t = true
  | [] => by
    constructor
    · intro h; exact ⟨[], [], by simp, rfl, h⟩
    · rintro ⟨m, t, _, h, hr⟩
      have h' := h.symm
      rw [List.append_eq_nil_iff] at h'
      rw [h'.2] at hr
      exact hr
  | c :: s => by
    simp only [star, Bool.or_eq_true, Bool.and_eq_true, bne_iff_ne, ne_eq]
    constructor
    · rintro (h | ⟨hc, h⟩)
      · exact ⟨[], c :: s, by simp, rfl, h⟩
      · obtain ⟨m, t, hm, hs, hr⟩ := star_iff.1 h
        refine ⟨c :: m, t, ?_, by rw [hs]; rfl, hr⟩
        simp only [List.mem_cons, not_or]
        exact ⟨fun h => hc h.symm, hm⟩
    · rintro ⟨m, t, hm, hs, hr⟩
      cases m with
      | nil => left; rw [hs]; exact hr
      | cons x m =>
        simp only [List.cons_append, List.cons.injEq] at hs
        obtain ⟨rfl, rfl⟩ := hs
        simp only [List.mem_cons, not_or] at hm
        exact Or.inr ⟨fun h => hm.1 h.symm, star_iff.2 ⟨m, t, hm.2, rfl, hr⟩⟩

theorem glob_append : ∀ {a : Str} (p s : Str), '*' ∉ a → (glob (a ++ p) s = true ↔ ∃ t, s = a ++ t ∧ glob p t = true)
  | [], p, s, _ => by simp
  | c :: a, p, s, h => by
    simp only [List.mem_cons, not_or] at h
    have hc : c ≠ '*' := fun hh => h.1 hh.symm
    cases s with
    | nil => simp [glob, hc]
    | cons x s =>
      simp only [List.cons_append, glob, hc, if_false, Bool.and_eq_true, beq_iff_eq, List.cons.injEq]
      rw [glob_append p s h.2]
      constructor
      · rintro ⟨rfl, t, ht, hg⟩; exact ⟨t, ⟨rfl, ht⟩, hg⟩
      · rintro ⟨t, ⟨hx, ht⟩, hg⟩; exact ⟨hx.symm, t, ht, hg⟩

theorem glob_plain {a s : Str} (h : '*' ∉ a) : glob a s = true ↔ s = a := by
  have := glob_append (a := a) [] s h
  rw [List.append_nil] at this
  rw [this]
  simp [glob, List.isEmpty_iff]

theorem glob_star (p s : Str) : glob ('*' :: p) s = star (glob p) s := by cases s <;> simp [glob]

theorem glob_caps {dir f : Str} (h : '*' ∉ dir) : glob (dir ++ "/ccpp_*_cap.F90".toList) f = true ↔ CapIn dir f := by
  have e : dir ++ "/ccpp_*_cap.F90".toList = (dir ++ "/ccpp_".toList) ++ ('*' :: "_cap.F90".toList) := by
    rw [List.append_assoc]; rfl
  have h1 : '*' ∉ dir ++ "/ccpp_".toList := by
    rw [List.mem_append, not_or]
    exact ⟨h, by decide⟩
  rw [e, glob_append _ f h1]
  unfold CapIn
  constructor
  · rintro ⟨t, rfl, hg⟩
    rw [glob_star] at hg
    obtain ⟨m, t', hm, rfl, hr⟩ := star_iff.1 hg
    have hr' := (glob_plain (a := "_cap.F90".toList) (by decide)).1 hr
    exact ⟨m, hm, by rw [hr']; simp⟩
  · rintro ⟨m, hm, rfl⟩
    refine ⟨m ++ "_cap.F90".toList, by simp, ?_⟩
    rw [glob_star]
    exact star_iff.2 ⟨m, _, hm, rfl, (glob_plain (by decide)).2 rfl⟩

open Classical in
theorem clean_files {dir : Str} {o : Out} (h : PlainConfig dir o) (d : Disk) (f : Str) :
    (clean dir o d).files f = if (∃ t ∈ triples o, f ∈ three t.1) ∨ f ∈ [o.html.1, o.latex.1, o.api.1, o.source.1] ∨ CapIn dir f then none else d.files f := by
  obtain ⟨hd, ht, hn⟩ := h
  have t1 := fun f hf => ht o.typedefs (by simp [triples]) f hf
  have t2 := fun f hf => ht o.schemes (by simp [triples]) f hf
  have t3 := fun f hf => ht o.caps (by simp [triples]) f hf
  have hpl : ∀ g ∈ cleanArgs dir o, g = dir ++ "/ccpp_*_cap.F90".toList ∨ Plain g := by
    intro g hg
    simp only [cleanArgs, List.mem_cons, List.not_mem_nil, or_false] at hg
    rcases hg with rfl | rfl | rfl | rfl | rfl | rfl | rfl | rfl | rfl | rfl | rfl | rfl | rfl | rfl
    · exact Or.inr (t1 _ (by simp [three]))
    · exact Or.inr (t1 _ (by simp [three]))
    · exact Or.inr (t1 _ (by simp [three]))
    · exact Or.inr (t2 _ (by simp [three]))
    · exact Or.inr (t2 _ (by simp [three]))
    · exact Or.inr (t2 _ (by simp [three]))
    · exact Or.inr (t3 _ (by simp [three]))
    · exact Or.inr (t3 _ (by simp [three]))
    · exact Or.inr (t3 _ (by simp [three]))
    · exact Or.inr (hn _ (by simp))
    · exact Or.inr (hn _ (by simp))
    · exact Or.inl rfl
    · exact Or.inr (hn _ (by simp))
    · exact Or.inr (hn _ (by simp))
  have hw : words (join (cleanArgs dir o)) = cleanArgs dir o := by
    refine words_join _ fun g hg => ?_
    rcases hpl g hg with rfl | hp
    · refine ⟨by simp, ?_⟩
      rw [List.mem_append, not_or]
      exact ⟨hd.2.1, by decide⟩
    · exact ⟨hp.1, hp.2.1⟩
  have key : ((words (join (cleanArgs dir o))).any fun p => glob p f) = true ↔
      ((∃ t ∈ triples o, f ∈ three t.1) ∨ f ∈ [o.html.1, o.latex.1, o.api.1, o.source.1] ∨ CapIn dir f) := by
    rw [hw, List.any_eq_true]
    constructor
    · rintro ⟨g, hg, hm⟩
      rcases hpl g hg with rfl | hp
      · exact Or.inr (Or.inr ((glob_caps hd.2.2).1 hm))
      · have hfg := (glob_plain hp.2.2).1 hm
        subst hfg
        simp only [cleanArgs, List.mem_cons, List.not_mem_nil, or_false] at hg
        rcases hg with hg | hg | hg | hg | hg | hg | hg | hg | hg | hg | hg | hg | hg | hg
        · exact Or.inl ⟨o.typedefs, by simp [triples], by simp [three, hg]⟩
        · exact Or.inl ⟨o.typedefs, by simp [triples], by simp [three, hg]⟩
        · exact Or.inl ⟨o.typedefs, by simp [triples], by simp [three, hg]⟩
        · exact Or.inl ⟨o.schemes, by simp [triples], by simp [three, hg]⟩
        · exact Or.inl ⟨o.schemes, by simp [triples], by simp [three, hg]⟩
        · exact Or.inl ⟨o.schemes, by simp [triples], by simp [three, hg]⟩
        · exact Or.inl ⟨o.caps, by simp [triples], by simp [three, hg]⟩
        · exact Or.inl ⟨o.caps, by simp [triples], by simp [three, hg]⟩
        · exact Or.inl ⟨o.caps, by simp [triples], by simp [three, hg]⟩
        · exact Or.inr (Or.inl (by simp [hg]))
        · exact Or.inr (Or.inl (by simp [hg]))
        · exact absurd (by rw [hg]; simp) hp.2.2
        · exact Or.inr (Or.inl (by simp [hg]))
        · exact Or.inr (Or.inl (by simp [hg]))
    · rintro (⟨t, ht', hf⟩ | hf | hf)
      · refine ⟨f, ?_, (glob_plain (ht t ht' f hf).2.2).2 rfl⟩
        simp only [triples, List.mem_cons, List.not_mem_nil, or_false] at ht'
        rcases ht' with rfl | rfl | rfl <;>
        · simp only [three, List.mem_cons, List.not_mem_nil, or_false] at hf
          rcases hf with rfl | rfl | rfl <;> simp [cleanArgs]
      · refine ⟨f, ?_, (glob_plain (hn f hf).2.2).2 rfl⟩
        simp only [List.mem_cons, List.not_mem_nil, or_false] at hf
        rcases hf with rfl | rfl | rfl | rfl <;> simp [cleanArgs]
      · exact ⟨_, by simp [cleanArgs], (glob_caps hd.2.2).2 hf⟩
  show (if _ then _ else _) = _
  by_cases hc : ((words (join (cleanArgs dir o))).any fun p => glob p f) = true
  · rw [if_pos hc, if_pos (key.1 hc)]
  · rw [if_neg hc, if_neg fun h => hc (key.2 h)]

/-- **C73**: with plain names in the configuration, cleaning removes exactly the snippets, the tables, the API, its include file for the
shell and all caps of the directory of the caps; nothing else. -/
theorem C73_clean_partial {dir : Str} {o : Out} (h : PlainConfig dir o) (d : Disk) :
    (∀ f ∈ names o, (f ∈ capNames o → CapIn dir f) → f ≠ o.cmake.1 → (clean dir o d).files f = none) ∧
    (∀ f, f ∉ names o → ¬ CapIn dir f → (clean dir o d).files f = d.files f) := by
  constructor
  · intro f hf hc hne
    rw [clean_files h, if_pos]
    simp only [names, List.mem_append, List.mem_cons, List.not_mem_nil, or_false] at hf
    rcases hf with (rfl | rfl) | hf | hf | hf | (rfl | rfl | rfl) | hf
    · exact Or.inr (Or.inl (by simp))
    · exact Or.inr (Or.inl (by simp))
    · exact Or.inl ⟨_, by simp [triples], hf⟩
    · exact Or.inl ⟨o.schemes, by simp [triples], hf⟩
    · exact Or.inr (Or.inr (hc hf))
    · exact Or.inr (Or.inl (by simp))
    · exact Or.inr (Or.inl (by simp))
    · exact absurd rfl hne
    · exact Or.inl ⟨o.caps, by simp [triples], hf⟩
  · intro f hf hc
    rw [clean_files h, if_neg]
    rintro (⟨t, ht, hm⟩ | hm | hm)
    · apply hf
      simp only [triples, List.mem_cons, List.not_mem_nil, or_false] at ht
      rcases ht with rfl | rfl | rfl <;> simp [names, hm]
    · apply hf
      simp only [List.mem_cons, List.not_mem_nil, or_false] at hm
      rcases hm with rfl | rfl | rfl | rfl <;> simp [names]
    · exact hc hm

/-! ## Never repaired -/

/-- **C73, violated**: when a run stopped between the renames (makefile there, cmakefile not), no number of complete runs for the same
output writes the cmakefile: it stays whatever it is. -/
theorem C73_lost_violated {step : Nat} (hs : 0 < step) {o : Out} (ho : Apart o) {t : Triple × Triple} (ht : t ∈ triples o) {n : Nat} {d e : Disk}
    (hd : NotFuture d) (hm : Holds d t.1.make t.2.make) (hr : Runs step o n d e) :
    e.files t.1.cmake = d.files t.1.cmake ∧ e.files t.1.source = d.files t.1.source := by
  induction hr with
  | zero d => exact ⟨rfl, rfl⟩
  | @succ n d e f he _ ih =>
    obtain ⟨e', he', h⟩ := run_spec hs ho hd
    rw [he] at he'; cases he'
    have hk := h.kept t ht hm
    have := ih h.future (h.make t ht)
    rw [this.1, this.2, hk _ (by simp [three]), hk t.1.source (by simp [three])]
    exact ⟨rfl, rfl⟩

/-- The disk after `n` operations -/
def after (step : Nat) : Nat → Prog → Disk → Option Disk
  | 0, _, d => some d
  | _ + 1, .done, d => some d
  | n + 1, .write f text k, d => after step n k { d.put f (some ⟨text, d.now⟩) with now := d.now + step }
  | n + 1, .remove f k, d => if (d.files f).isSome then after step n k (d.put f none) else none
  | n + 1, .rename a b k, d => match d.files a with
    | some x => after step n k ((d.put a none).put b (some x))
    | none => none
  | n + 1, .ifFile f yes no, d => if (d.files f).isSome then after step n yes d else after step n no d
  | n + 1, .ifSame f g yes no, d => match d.files f, d.files g with
    | some x, some y => if same x y then after step n yes d else after step n no d
    | _, _ => none

theorem after_stops {step : Nat} : ∀ (n : Nat) (p : Prog) {d e : Disk}, after step n p d = some e → stops step p d e
  | 0, p, d, e, h => by cases h; cases p <;> first | rfl | exact Or.inl rfl
  | n + 1, .done, d, e, h => by cases h; rfl
  | n + 1, .write f text k, d, e, h => Or.inr (Or.inr (after_stops n k h))
  | n + 1, .remove f k, d, e, h => by
    unfold after at h
    split at h
    · rename_i hf; exact Or.inr ⟨hf, after_stops n k h⟩
    · cases h
  | n + 1, .rename a b k, d, e, h => by
    unfold after at h
    split at h
    · rename_i x hx; exact Or.inr ⟨x, hx, after_stops n k h⟩
    · cases h
  | n + 1, .ifFile f yes no, d, e, h => by
    unfold after at h
    split at h
    · rename_i hf; exact Or.inr (Or.inl ⟨hf, after_stops n yes h⟩)
    · rename_i hf; exact Or.inr (Or.inr ⟨by simpa using hf, after_stops n no h⟩)
  | n + 1, .ifSame f g yes no, d, e, h => by
    unfold after at h
    split at h
    · rename_i x y hx hy
      split at h
      · rename_i hs; exact Or.inr ⟨x, y, hx, hy, Or.inl ⟨hs, after_stops n yes h⟩⟩
      · rename_i hs; exact Or.inr ⟨x, y, hx, hy, Or.inr ⟨by simpa using hs, after_stops n no h⟩⟩
    · cases h

/-! ## Examples -/

/-- A list of names for a triple -/
def mk3 (s : String) : Triple := ⟨s.toList ++ ".mk".toList, s.toList ++ ".cmake".toList, s.toList ++ ".sh".toList⟩

/-- The output for a suite with two groups -/
def exOut (schemes : List Str) (cap : String) : Out :=
  { html := ("v.html".toList, "h".toList), latex := ("v.tex".toList, "l".toList),
    typedefs := (mk3 "typedefs", ⟨"a".toList, "b".toList, "c".toList⟩), schemes := (mk3 "schemes", schemesText schemes),
    suites := [⟨("d/ccpp_s_cap.F90".toList, cap.toList), [("d/ccpp_s_g1_cap.F90".toList, "g1".toList), ("d/ccpp_s_g2_cap.F90".toList, "g2".toList)]⟩],
    api := ("d/api.F90".toList, "api".toList), source := ("api.sh".toList, "sh".toList), cmake := ("api.cmake".toList, "cm".toList),
    caps := (mk3 "caps", ⟨"x".toList, "y".toList, "z".toList⟩) }

/-- An empty disk -/
def empty : Disk := ⟨fun _ => none, 1⟩

theorem empty_notFuture : NotFuture empty := fun _ _ h => nomatch h

theorem exOut_apart (l : List Str) (c : String) : Apart (exOut l c) := by
  have h : (names (exOut [] "")).Nodup ∧ ∀ f ∈ names (exOut [] ""), ∀ g ∈ names (exOut [] ""), f ≠ test g ∧ f ≠ tmp g := by decide +kernel
  exact h

/-- The hypotheses of the theorems are met; a run from the empty disk leaves all files -/
example : ∃ e, exec 1 (run (exOut ["s.F90".toList] "cap")) empty = some e ∧
    (∀ p ∈ plain (exOut ["s.F90".toList] "cap"), Holds e p.1 p.2) ∧ ∀ t ∈ triples (exOut ["s.F90".toList] "cap"), HoldsAll e t :=
  C73_completed_partial (by decide) (P := fun o => o = exOut ["s.F90".toList] "cap") (fun o ho => by subst ho; exact exOut_apart _ _)
    (fun o o' ho ho' => by subst ho; subst ho'; exact ⟨⟨rfl, fun _ => rfl⟩, ⟨rfl, fun _ => rfl⟩, ⟨rfl, fun _ => rfl⟩⟩)
    (Completed.start empty_notFuture fun _ _ _ _ => rfl) rfl

/-- The names are plain, the caps are where they should be -/
example : PlainConfig "d".toList (exOut [] "") := by
  refine ⟨by unfold Plain; decide, ?_, ?_⟩
  · unfold Plain; decide
  · unfold Plain; decide

example : CapIn "d".toList "d/ccpp_s_g1_cap.F90".toList := ⟨"s_g1".toList, by decide, by decide⟩

/-- A run that stops is a history -/
example : Reached 1 ⟨fun g => if g = "v.html".toList then some ⟨[], 1⟩ else none, 2⟩ := by
  refine Reached.stopped (o := exOut [] "") (Reached.start empty empty_notFuture) (Or.inr (Or.inl ⟨0, ?_⟩))
  rfl

/-- **C73, violated**: a run from the empty disk that stops after the first rename; then no number of complete runs for the same output
makes the cmakefile. -/
theorem C73_stopped_violated : ∃ d, Reached 1 d ∧ ∀ n e, Runs 1 (exOut ["s.F90".toList] "cap") n d e →
    e.files "typedefs.mk".toList ≠ none ∧ e.files "typedefs.cmake".toList = none := by
  have h : ∃ d, after 1 10 (run (exOut ["s.F90".toList] "cap")) empty = some d ∧ d.files "typedefs.mk".toList = some ⟨"a".toList, 3⟩ ∧
      d.files "typedefs.cmake".toList = none := by
    refine ⟨_, rfl, ?_, ?_⟩ <;> decide +kernel
  obtain ⟨d, hd, h1, h2⟩ := h
  have hr : Reached 1 d := Reached.stopped (Reached.start empty empty_notFuture) (after_stops _ _ hd)
  refine ⟨d, hr, fun n e hre => ?_⟩
  have hnf := C73_history (by decide) hr
  have hm : Holds d "typedefs.mk".toList "a".toList := ⟨3, h1⟩
  have := C73_lost_violated (t := (exOut ["s.F90".toList] "cap").typedefs) (by decide) (exOut_apart _ _) (by simp [triples]) hnf hm hre
  refine ⟨?_, by rw [← h2]; exact this.1⟩
  have hmk : ∀ {n : Nat} {d e : Disk}, Runs 1 (exOut ["s.F90".toList] "cap") n d e → NotFuture d → Holds d "typedefs.mk".toList "a".toList →
      Holds e "typedefs.mk".toList "a".toList := by
    intro n d e hr
    induction hr with
    | zero d => exact fun _ h => h
    | @succ n d e f he _ ih =>
      intro hd _
      obtain ⟨e', he', h⟩ := run_spec (step := 1) (by decide) (exOut_apart _ _) hd
      rw [he] at he'; cases he'
      exact ih h.future (h.make (exOut ["s.F90".toList] "cap").typedefs (by simp [triples]))
  obtain ⟨x, hx⟩ := hmk hre hnf hm
  rw [hx]; exact fun h => nomatch h

/-- **C73, violated**: a C file joins the schemes; the makefile is the same, so the complete run does not write the new cmakefile. -/
theorem C73_dependency_violated : ∃ d e, exec 1 (run (exOut ["s.F90".toList] "cap")) empty = some d ∧
    exec 1 (run (exOut ["s.F90".toList, "t.c".toList] "cap")) d = some e ∧
    ¬ Holds e "schemes.cmake".toList (schemesCm ["s.F90".toList, "t.c".toList]) := by
  refine ⟨_, _, rfl, rfl, ?_⟩
  rintro ⟨x, hx⟩
  have h : ((exec 1 (run (exOut ["s.F90".toList] "cap")) empty).bind fun d => (exec 1 (run (exOut ["s.F90".toList, "t.c".toList] "cap")) d).bind fun e =>
    (e.files "schemes.cmake".toList).map File.text) = some (schemesCm ["s.F90".toList]) := by decide +kernel
  have h' := congrArg (Option.map File.text) hx
  have h'' : some (schemesCm ["s.F90".toList]) = some (schemesCm ["s.F90".toList, "t.c".toList]) := h.symm.trans h'
  exact absurd h'' (by decide +kernel)

/-- **C73, violated**: two runs in one tick of the clock; the new text of the cap has the same length, and the cap stays old. -/
theorem C73_clock_violated : ∃ d e, exec 0 (run (exOut [] "use a")) empty = some d ∧ exec 0 (run (exOut [] "use b")) d = some e ∧
    Holds e "d/ccpp_s_cap.F90".toList "use a".toList := by
  refine ⟨_, _, rfl, rfl, 1, ?_⟩
  decide +kernel

/-- **C73, violated**: cleaning leaves the include file of the API for cmake. -/
theorem C73_clean_cmake_violated : (clean "d".toList (exOut [] "") ⟨fun _ => some ⟨[], 0⟩, 1⟩).files "api.cmake".toList = some ⟨[], 0⟩ := by decide +kernel

/-- **C73, violated**: with a blank in the directory of the caps, cleaning removes a file that is no output, and no cap. -/
theorem C73_clean_blank_violated : (clean "my d".toList (exOut [] "") ⟨fun _ => some ⟨[], 0⟩, 1⟩).files "my".toList = none ∧
    (clean "my d".toList (exOut [] "") ⟨fun _ => some ⟨[], 0⟩, 1⟩).files "my d/ccpp_s_cap.F90".toList = some ⟨[], 0⟩ := by decide +kernel

end Ccpp.PF
