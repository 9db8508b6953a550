import Verif.Props.RefCheckThm
/-!
# C85: examples and violations
-/
namespace Ccpp.RC

open Ccpp.Rx

/-! ## Examples -/

/-- C85 example: usual units are accepted, others are not. -/
theorem C85_example_units : units "m s-1".toList true = .ok (some "m s-1".toList) ∧ units " kg m-3 ".toList true = .ok (some " kg m-3 ".toList) ∧
    units "1".toList true = .ok (some "1".toList) ∧ units "mole_fraction".toList true = .ok (some "mole_fraction".toList) ∧
    units "m s+1".toList true = .error ∧ units "m/s".toList false = .ok none ∧ units "m0".toList true = .error ∧ units "2".toList true = .error := by
  decide +kernel

/-- C85 example: references. -/
theorem C85_example_ref : fortranRef "foo".toList true 0 = .ok (some "foo".toList) ∧
    fortranRef "foo( :, baz )".toList true 0 = .ok (some "foo( :, baz )".toList) ∧
    fortranRef "foo (12,i)".toList true 3 = .ok (some "foo (12,i)".toList) ∧ fortranRef "foo()".toList true 0 = .error ∧
    fortranRef "foo(,bar)".toList false 0 = .ok none ∧ fortranRef "1foo(i)".toList true 0 = .error ∧ fortranRef "long_name(i)".toList true 4 = .error := by
  decide +kernel

/-- C85 example: the text is a reference by the specification. -/
theorem C85_example_ref_spec : Ref "foo".toList [":".toList, "baz".toList] "foo( :, baz )".toList := by
  refine ⟨⟨'f', "oo".toList, rfl, by decide, by decide⟩, [], " :, baz ".toList, by simp, ?_, rfl⟩
  refine Dims.more (a := [' ']) (d := ":".toList) (b := []) (ds := ["baz".toList]) (r := " baz ".toList) (by simp [White]) (.inr (.inl rfl)) (by simp) ?_
  exact Dims.one (a := [' ']) (d := "baz".toList) (b := [' ']) (by simp [White]) (.inl ⟨'b', "az".toList, rfl, by decide, by decide⟩) (by simp [White])

/-- C85 example: units by the specification. -/
theorem C85_example_units_spec : UnitList "m s-1".toList ∧ Joined "mole_fraction".toList := by
  constructor
  · refine UnitList.more (u := ['m']) (c := ' ') (r := "s-1".toList) ⟨['m'], [], rfl, ⟨by simp, by decide⟩, .inl rfl⟩ (.inl rfl) (.one ?_)
    exact ⟨['s'], "-1".toList, rfl, ⟨by simp, by decide⟩, .inr ⟨['-'], '1', [], rfl, .inr rfl, by decide, by decide, by simp⟩⟩
  · exact Joined.last (a := "mole".toList) (b := "fraction".toList) ⟨by decide, by decide⟩ ⟨by decide, by decide⟩

/-- C85 example: local names; a constant is a local name of a protected variable only. -/
theorem C85_example_local_name : localName "0.5_kp".toList ⟨true, "real".toList, "kp".toList⟩ true 0 = .ok (some "0.5_kp".toList) ∧
    localName "0.5_kp".toList ⟨false, "real".toList, "kp".toList⟩ true 0 = .error ∧
    localName "temp(:,2)".toList ⟨true, "real".toList, "kp".toList⟩ true 0 = .ok (some "temp(:,2)".toList) := by
  decide +kernel

/-- C85 example: types. -/
theorem C85_example_type : fortranType [] "REAL".toList true = .ok (some "REAL".toList) ∧
    fortranType [] " double  precision".toList true = .ok (some " double  precision".toList) ∧
    fortranType [] "my_type".toList true = .error ∧ fortranType (registerDdt [] "my_type".toList) "my_type".toList true = .ok (some "my_type".toList) ∧
    fortranIntrinsic "my_type".toList false = .ok none := by
  decide +kernel

/-- C85 example: diagnostic names. -/
theorem C85_example_diagnostic : diagId "foo_${process}_2bad".toList none true = .ok (some "foo_${process}_2bad".toList) ∧
    diagId "${scheme_name}".toList (some ⟨some "x".toList, none⟩) true = .ok (some "${scheme_name}".toList) ∧
    diagId "2foo".toList none true = .error ∧ diagId "foo_${other}".toList none true = .error ∧
    diagFixed "foo_2".toList (some ⟨none, some "foo_2".toList⟩) true = .ok (some "foo_2".toList) ∧
    diagFixed "foo_${process}".toList (some ⟨none, some "foo_${process}".toList⟩) true = .error ∧
    diagId "foo".toList (some ⟨some "foo".toList, some "bar".toList⟩) true = .error := by
  decide +kernel

/-- C85 example: the substitution meets the hypotheses of C85_diagnostic_legal_partial. -/
theorem C85_example_diagnostic_spec : Diag "foo_${process}_2bad".toList ∧ Chk.IsName "chem".toList ∧
    Substituted "chem".toList "foo_${process}_2bad".toList "foo_chem_2bad".toList ∧ Chk.IsName "foo_chem_2bad".toList := by
  have h1 : Diag "foo_${process}_2bad".toList :=
    Diag.subst (n := "foo_".toList) (v := "${process}".toList) (r := "_2bad".toList)
      (.inr ⟨'f', "oo_".toList, rfl, by decide, by decide⟩) (.inl rfl) (by unfold WordChars; decide)
  have h2 : Chk.IsName "chem".toList := ⟨'c', "hem".toList, rfl, by decide, by decide⟩
  have h3 : Substituted "chem".toList "foo_${process}_2bad".toList "foo_chem_2bad".toList :=
    Substituted.subst (n := "foo_".toList) (v := "${process}".toList) (r := "_2bad".toList) (by decide) (.inl rfl)
  exact ⟨h1, h2, h3, C85_diagnostic_legal_partial h1 (by decide) h2 h3⟩

/-! ## Violations -/

theorem word_first {a : Str} (h : Word a) : ∃ x t, a = x :: t ∧ (∀ c ∈ t, c.isAlpha = true) := by
  obtain ⟨h1, h2⟩ := h
  cases a with
  | nil => exact absurd rfl h1
  | cons x t => exact ⟨x, t, rfl, fun c hc => h2 c (List.mem_cons_of_mem _ hc)⟩

theorem alpha_ne_us {a : Str} (h : ∀ c ∈ a, c.isAlpha = true) : '_' ∉ a := fun hm => absurd (h _ hm) (by decide)

/-- The words of joined words. -/
theorem joined_split {s : Str} (h : Joined s) : ∀ a r, '_' ∉ a → s = a ++ '_' :: r → ¬ ∃ c b, r = c :: '_' :: b := by
  intro a r ha hs ⟨c, b, hr⟩
  subst hr
  cases h with
  | @last a' b' h1 h2 =>
    have e := congrArg (Chk.splitOn '_') hs
    rw [Chk.splitOn_append '_' _ _ (alpha_ne_us h1.2), Chk.splitOn_append '_' _ _ ha] at e
    have e1 := (List.cons.inj e).1
    subst e1
    have e2 := (List.cons.inj (List.append_cancel_left hs)).2
    exact alpha_ne_us h2.2 (by rw [e2]; simp)
  | @more a' c' s' h1 h2 h3 =>
    have e := congrArg (Chk.splitOn '_') hs
    rw [Chk.splitOn_append '_' _ _ (alpha_ne_us h1.2), Chk.splitOn_append '_' _ _ ha] at e
    have e1 := (List.cons.inj e).1
    subst e1
    have e2 := (List.cons.inj (List.append_cancel_left hs)).2
    obtain ⟨-, rfl⟩ := List.cons.inj e2
    -- joined words do not begin with an underscore
    generalize hg : '_' :: b = z at h3
    cases h3 with
    | last h _ =>
      obtain ⟨x, t, rfl, -⟩ := word_first h
      have := (List.cons.inj hg).1
      exact absurd (h.2 x (by simp)) (by rw [← this]; decide)
    | more h _ _ =>
      obtain ⟨x, t, rfl, -⟩ := word_first h
      have := (List.cons.inj hg).1
      exact absurd (h.2 x (by simp)) (by rw [← this]; decide)

theorem unitlist_no_us {s : Str} (h : UnitList s) : '_' ∉ s := by
  have hu : ∀ {u : Str}, Unit u → '_' ∉ u := by
    rintro u ⟨w, e, rfl, hw, he⟩ hm
    rcases List.mem_append.1 hm with hm | hm
    · exact alpha_ne_us hw.2 hm
    · rcases he with rfl | ⟨g, c, d, rfl, hg, hc, -, hd⟩
      · simp at hm
      · rcases List.mem_append.1 hm with hm | hm
        · rcases hg with rfl | rfl <;> simp at hm
        · rcases List.mem_cons.1 hm with rfl | hm
          · exact absurd hc (by decide)
          · exact absurd (hd _ hm) (by decide)
  induction h with
  | one h => exact hu h
  | @more u c r h1 h2 _ ih =>
    intro hm
    rcases List.mem_append.1 hm with hm | hm
    · exact hu h1 hm
    · rcases List.mem_cons.1 hm with rfl | hm
      · exact absurd h2 (by unfold White; decide)
      · exact ih hm

theorem word_tight {a b : Str} (r : Str) (ha : Word a) (hb : Word b) : strip (a ++ r ++ b) = a ++ r ++ b := by
  have hws : ∀ c : Char, c.isAlpha = true → isWs c = false := by
    intro c hc
    cases h : isWs c with
    | false => rfl
    | true =>
      exfalso
      rcases (white_iff c).2 h with h | h | h | h | h | h <;> rw [h] at hc <;> exact absurd hc (by decide)
  obtain ⟨x, t, rfl, -⟩ := word_first ha
  unfold strip lstrip rstrip
  rw [List.cons_append, List.cons_append]
  obtain ⟨y, u, hy⟩ : ∃ y u, b.reverse = y :: u := by
    cases h : b.reverse with
    | nil => exact absurd (List.reverse_eq_nil_iff.1 h) hb.1
    | cons y u => exact ⟨y, u, rfl⟩
  have hym : y ∈ b := List.mem_reverse.1 (by rw [hy]; simp)
  have e : (x :: (t ++ r ++ b)).reverse = y :: (u ++ (x :: (t ++ r)).reverse) := by
    rw [← List.cons_append, List.reverse_append, hy, List.cons_append]
  rw [e, List.dropWhile_cons_of_neg (by rw [hws y (hb.2 y hym)]; decide), ← e, List.reverse_reverse,
    List.dropWhile_cons_of_neg (by rw [hws x (ha.2 x (by simp))]; decide)]

/-- C85 violated: three words joined by underscores are not units if the word in the middle has one letter, whatever the other two are. -/
theorem C85_one_letter_violated {a b : Str} {c : Char} (ha : Word a) (hb : Word b) :
    units (a ++ ['_', c, '_'] ++ b) true = .error := by
  rcases C85_units_reject (a ++ ['_', c, '_'] ++ b) with h | h
  · exfalso
    have h1 := ((C85_units _ _ _).1 h.2).2
    rw [word_tight _ ha hb] at h1
    rcases h1 with h1 | h1 | h1
    · have : '_' ∈ a ++ ['_', c, '_'] ++ b := by simp
      rw [h1] at this
      simp at this
    · exact unitlist_no_us h1 (by simp)
    · exact joined_split h1 a (c :: '_' :: b) (alpha_ne_us ha.2) (by simp) ⟨c, b, rfl⟩
  · exact h.2

/-- C85 violated: tabs and newlines separate units, two blanks do not. -/
theorem C85_separator_violated : units "m\ts-1".toList true = .ok (some "m\ts-1".toList) ∧
    units "m\ns-1".toList true = .ok (some "m\ns-1".toList) ∧ units "m  s-1".toList true = .error := by decide +kernel

theorem name_ne_newline {n : Str} (h : Chk.IsName n) : '\n' ∉ n := by
  obtain ⟨c, s, rfl, h1, h2⟩ := h
  intro hm
  rcases List.mem_cons.1 hm with rfl | hm
  · exact absurd h1 (by decide)
  · exact absurd (h2 _ hm) (by decide)

/-- C85 violated: a name with a newline at its end is accepted, as a reference and as a diagnostic name. -/
theorem C85_newline_violated {n : Str} (h : Chk.IsName n) :
    fortranRef (n ++ ['\n']) true 0 = .ok (some (n ++ ['\n'])) ∧ diagId (n ++ ['\n']) none true = .ok (some (n ++ ['\n'])) ∧
    diagFixed (n ++ ['\n']) none true = .ok (some (n ++ ['\n'])) ∧ ¬ Chk.IsName (n ++ ['\n']) :=
  ⟨(C85_ref _ _ _ _).2 ⟨rfl, .inl ⟨.inr ⟨n, rfl, h⟩, .inl rfl⟩⟩, (C85_diagnostic _ _ _ _).2 ⟨rfl, .inr ⟨n, rfl, .plain (.inr h)⟩, by simp⟩,
    (C85_diagnostic_fixed _ _ _ _).2 ⟨rfl, .inr ⟨n, rfl, h⟩, by simp⟩, fun h => name_ne_newline h (by simp)⟩

/-- C85 violated: the longest length of names is also the longest length of numbers; eight subscripts are rejected, although Fortran allows
fifteen; subscripts cannot be sections or expressions. -/
theorem C85_subscripts_violated : fortranRef "foo(1234)".toList true 3 = .error ∧ fortranRef "foo(123)".toList true 3 = .ok (some "foo(123)".toList) ∧
    fortranRef "a(:,:,:,:,:,:,:)".toList true 0 = .ok (some "a(:,:,:,:,:,:,:)".toList) ∧ fortranRef "a(:,:,:,:,:,:,:,:)".toList true 0 = .error ∧
    fortranRef "a(1:2)".toList true 0 = .error := by decide +kernel

/-- C85 violated: whatever follows `double precision` is accepted as a type. -/
theorem C85_double_violated (r : Str) (h : lower (strip ("double precision".toList ++ r)) = "double precision".toList ++ r) :
    fortranType [] ("double precision".toList ++ r) true = .ok (some ("double precision".toList ++ r)) :=
  (C85_type _ _ _ _).2 ⟨rfl, .inr (.inr ⟨[' '], r, by simp [White], h⟩)⟩

/-- C85 example: such a type. -/
theorem C85_double_example : fortranType [] "double precisionxyz".toList true = .ok (some "double precisionxyz".toList) :=
  C85_double_violated "xyz".toList (by decide +kernel)

/-- C85 violated: derived types are compared with the case of their letters. -/
theorem C85_case_violated : fortranType (registerDdt [] "my_type".toList) "My_Type".toList true = .error ∧
    fortranType (registerDdt [] "my_type".toList) "My_Type".toList false = .ok none := by decide +kernel

/-- C85 violated: an empty diagnostic name is accepted; a bad fixed diagnostic name without a dictionary is a TypeError. -/
theorem C85_empty_diagnostic_violated : diagId [] none true = .ok (some []) ∧ diagFixed "2foo".toList none true = .typeErr := by decide +kernel

/-- C85 violated: a protected variable of a derived type, whose local name ends in an underscore and its type, is a ParseInternalError; so
is every name without an underscore if no kind is given.  A protected string with an empty name is an IndexError. -/
theorem C85_crash_violated : localName "my_vmr".toList ⟨true, "vmr".toList, "vmr".toList⟩ true 0 = .internal ∧
    localName "co".toList ⟨true, "vmr".toList, []⟩ true 0 = .internal ∧ localName [] ⟨true, "character".toList, []⟩ true 0 = .index := by
  decide +kernel

end Ccpp.RC
