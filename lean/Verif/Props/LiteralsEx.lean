import Verif.Props.LiteralsThm
/-!
# C84: default values, the literals of the standard, and where the checker differs
-/
namespace Ccpp.Lit

open Ccpp.FDecl (Blank Tight strip_tight strip_core strip_split)

/-! ## Default values -/

/-- C84: without a dictionary every default is accepted; without a type none is. -/
theorem C84_default_untyped (v : Str) (p : Props) (h : p.type = none) :
    (∀ e, defaultValue v none e = .ok (some v)) ∧ defaultValue v (some p) false = .ok none ∧
      defaultValue v (some p) true = .error := by
  refine ⟨fun _ => rfl, ?_, ?_⟩ <;> simp [defaultValue, h]

/-- C84: a default is accepted, unchanged, exactly if it is accepted as a literal of the type and kind without
the blanks around them and in lower case. -/
theorem C84_default_iff (v : Str) (p : Props) {t : Str} (h : p.type = some t) (e : Bool) (w : Str) :
    defaultValue v (some p) e = .ok (some w) ↔
      (w = v ∧ literal v (strip (lower t)) (strip (lower (p.kind.getD []))) = .ok true) := by
  simp only [defaultValue, h]
  cases hl : literal v (strip (lower t)) (strip (lower (p.kind.getD []))) with
  | ok b =>
    cases b
    · cases e <;> simp
    · simp [eq_comm]
  | index => simp
  | internal => simp
  | error => simp

/-- C84: the two ways to call the checker differ only in how a rejection is told. -/
theorem C84_default_error (v : Str) (p : Option Props) :
    (defaultValue v p false = .ok none ↔ defaultValue v p true = .error) ∧
      (defaultValue v p false ≠ .ok none → defaultValue v p true = defaultValue v p false) ∧
      defaultValue v p false ≠ .error := by
  have hne : ∀ (x : Str) (y : Str) (z : Str), literal x y z ≠ .error := by
    intro x y z
    have hs : ∀ w u k, simple w u k ≠ .error := by
      intro w u k
      unfold simple; simp only
      split
      · simp
      split
      · simp
      split
      · simp
      split
      · simp
      split
      · rcases charVal_cases (valKind w u).1 with h | h | h <;> rw [h] <;> simp
      · simp
    unfold literal; simp only
    generalize (if dpMatch (strip y) then "real".toList else lower y) = w
    split
    · unfold complex
      split
      · simp only
        split
        · simp
        · split
          · simp
          · split
            · simp
            · split
              · simp
              · split
                · simp
                · split
                  · exact hs _ _ _
                  · exact hs _ _ _
      · simp
    · exact hs _ _ _
  cases p with
  | none => simp [defaultValue]
  | some p =>
    simp only [defaultValue]
    cases ht : p.type with
    | none => simp
    | some t =>
      simp only
      cases hl : literal v (strip (lower t)) (strip (lower (p.kind.getD []))) with
      | ok b => cases b <;> simp
      | index => simp
      | internal => simp
      | error => exact absurd hl (hne _ _ _)

/-! ## The other outcomes -/

/-- C84: a complex value makes the checker fail with IndexError exactly if it has one comma and nothing before
it, or a parenthesis first and nothing after the comma. -/
theorem C84_complex_index {ty : Str} (hty : lower ty = "complex".toList) (v k : Str) :
    literal v ty k = .index ↔
      ∃ y, ',' ∉ y ∧ (strip v = ',' :: y ∨ strip v = '(' :: (y ++ [','])) := by
  rw [literal_complex hty]
  have hs : ∀ (b : Bool) (x : Str), simple (if b then "real".toList else "integer".toList) x k ≠ .index := by
    intro b x h
    obtain ⟨o, ho⟩ := simple_total (w := if b then "real".toList else "integer".toList) (by cases b <;> simp) x k
    rw [ho] at h; cases h
  unfold complex
  constructor
  · intro h
    split at h
    · next a b hab =>
      simp only at h
      obtain ⟨e, ha, hb⟩ := split_two hab
      split at h
      · exact ⟨b, hb, .inl (by rw [e]; rfl)⟩
      · next c a' =>
        split at h
        · cases h
        · next hc =>
          have hc := not_not.1 hc
          subst hc
          split at h
          · next hd =>
            have : b = [] := by simpa using hd
            subst this
            exact ⟨a', by simpa using ha, .inr (by rw [e]; rfl)⟩
          · split at h
            · cases h
            · split at h
              · cases h
              · split at h
                · exact absurd h (hs _ _)
                · exact absurd h (hs _ _)
    · cases h
  · rintro ⟨y, hy, e | e⟩
    · rw [e]
      have : Chk.splitOn ',' (',' :: y) = [[], y] := two_split (a := []) (by simp) hy
      rw [this]
    · rw [e]
      have : Chk.splitOn ',' ('(' :: (y ++ [','])) = ['(' :: y, []] := by
        have := two_split (a := '(' :: y) (b := []) (by simp [hy]) (by simp)
        simpa using this
      rw [this]
      simp

/-- C84: for any other type the checker rejects the value or fails with ParseInternalError: the latter exactly if
the kind agrees. -/
theorem C84_other_type {ty : Str} (hd : dpMatch (strip ty) = false)
    (hty : lower ty ∉ ["integer".toList, "real".toList, "logical".toList, "character".toList, "complex".toList]) (v k : Str) :
    literal v ty k = (if (valKind (lower ty) v).2 = lower k then .internal else .ok false) := by
  simp only [List.mem_cons, List.not_mem_nil, or_false, not_or] at hty
  obtain ⟨h1, h2, h3, h4, h5⟩ := hty
  unfold literal
  rw [hd]
  simp only [Bool.false_eq_true, if_false]
  rw [if_neg h5]
  unfold simple
  simp only
  rw [if_neg h1, if_neg h2, if_neg h3, if_neg h4]
  split
  · next h => first | rfl | rw [if_neg h]
  · next h => first | rfl | rw [if_pos (not_not.1 h)]

/-! ## The literals of the standard are accepted -/

theorem suffixed_of {lit : Str → Prop} {k s : Str} (hk : LowerCase k) (h : OfKind lit k s)
    (hk' : ∀ t k', s = t ++ '_' :: k' → LowerCase k') : Suffixed lit k s := by
  rcases h with ⟨h1, h2⟩ | ⟨h1, t, k', rfl, h2, h3⟩
  · exact .inl ⟨h1, h2⟩
  · refine .inr ⟨t, [], ?_, by intro c hc; simp at hc, h3⟩
    have := hk' t k' rfl
    unfold SameKind LowerCase at *
    rw [hk, ← this, ← h2, hk]; simp

/-- C84: every integer, real and logical constant of the declared kind is accepted, if the value is written with
the kind in lower case. -/
theorem C84_complete_partial {k s : Str} (hk : LowerCase k) (hn : NameChars k)
    (hk' : ∀ t k', s = t ++ '_' :: k' → LowerCase k') {a b : Str} (ha : Blanks a) (hb : Blanks b) :
    (OfKind IntLit k s → literal (a ++ s ++ b) "integer".toList k = .ok true) ∧
    (OfKind RealLit k s → literal (a ++ s ++ b) "real".toList k = .ok true ∧
      literal (a ++ s ++ b) "double precision".toList k = .ok true) ∧
    (OfKind LogLit k s → literal (a ++ s ++ b) "logical".toList k = .ok true) := by
  refine ⟨fun h => ?_, fun h => ⟨?_, ?_⟩, fun h => ?_⟩
  · exact (C84_integer (by decide) hn _).2 ⟨a, s, b, rfl, ha, hb, suffixed_of hk h hk'⟩
  · exact (C84_real (.inl (by decide)) hn _).2 ⟨a, s, b, rfl, ha, hb, suffixed_of hk h hk'⟩
  · exact (C84_real (.inr (by decide)) hn _).2 ⟨a, s, b, rfl, ha, hb, suffixed_of hk h hk'⟩
  · refine (C84_logical (by decide) hn _).2 ⟨a, s, b, rfl, ha, hb, ?_⟩
    rcases suffixed_of hk h hk' with h | ⟨t, w, e, hw, ht⟩
    · exact .inl h
    · rcases h with h | ⟨h1, t', k', e', h2, h3⟩
      · exact .inl h
      · refine .inr ⟨t', ?_, h3⟩
        have := hk' t' k' e'
        unfold SameKind LowerCase at *
        rw [hk, e', ← this, ← h2, hk]

/-- C84: every accepted integer, real or logical is a constant of the declared kind, but for the defects shown
below: a needless underscore, blanks before the underscore. -/
theorem C84_sound_partial {k v : Str} (hn : NameChars k) (hu : ∀ t, v ≠ t ++ ['_']) (hv : ∀ c ∈ v, isWs c = false) :
    (literal v "integer".toList k = .ok true → OfKind IntLit k v) ∧
    (literal v "real".toList k = .ok true → OfKind RealLit k v) ∧
    (literal v "logical".toList k = .ok true → OfKind LogLit k v) := by
  have idem : ∀ (l : Str), (l.map Char.toLower).map Char.toLower = l.map Char.toLower := by
    intro l
    rw [List.map_map]
    refine List.map_congr_left fun c _ => ?_
    show c.toLower.toLower = c.toLower
    rw [← lower_upper, upper_lower, lower_upper]
  have nob : ∀ {b : Str}, Blanks b → (∀ c ∈ b, c ∈ v) → b = [] := by
    intro b hb hs
    cases b with
    | nil => rfl
    | cons c b =>
      exact absurd ((blanks_iff _).1 hb c List.mem_cons_self) (by rw [hv c (hs c List.mem_cons_self)]; decide)
  have key : ∀ lit : Str → Prop, Padded (Suffixed lit k) v → OfKind lit k v := by
    rintro lit ⟨a, s, b, rfl, ha, hb, h⟩
    have ea := nob ha (by intro c hc; simp [hc])
    have eb := nob hb (by intro c hc; simp [hc])
    subst ea eb
    rcases h with h | ⟨t, w, rfl, hw, ht⟩
    · refine .inl ?_
      simpa using h
    · have ew := nob hw (by intro c hc; simp [hc])
      subst ew
      have hk : k ≠ [] := by
        rintro rfl
        exact hu t (by simp)
      exact .inr ⟨hk, t, k.map Char.toLower, by simp, (idem k).symm, ht⟩
  refine ⟨fun h => key _ ((C84_integer (by decide) hn v).1 h), fun h => key _ ((C84_real (.inl (by decide)) hn v).1 h),
    fun h => key _ ?_⟩
  obtain ⟨a, s, b, e, ha, hb, h | ⟨t, h1, h2⟩⟩ := (C84_logical (by decide) hn v).1 h
  · exact ⟨a, s, b, e, ha, hb, .inl h⟩
  · exact ⟨a, s, b, e, ha, hb, .inr ⟨t, [], by simpa using h1, by intro c hc; simp at hc, h2⟩⟩

/-- C84: a character constant between quotes, without underscore in it, is accepted with the declared kind before
it. -/
theorem C84_character_complete_partial {k s : Str} (hk : LowerCase k) {q : Char} (hq : q = '\'' ∨ q = '"') (hu : '_' ∉ s)
    (h : CharLit q s) (hn : NameChars k) :
    literal (if k = [] then s else k ++ '_' :: s) "character".toList k = .ok true := by
  rw [C84_character (by decide)]
  have hqw : isWs q = false ∧ q ≠ '_' := by rcases hq with rfl | rfl <;> exact ⟨by decide, by decide⟩
  obtain ⟨b, rfl, hb⟩ := h
  have hl : ∀ (x : Str), (∀ c ∈ x, isWs c = false) → strip (x ++ q :: (b ++ [q])) = x ++ q :: (b ++ [q]) := by
    intro x hx
    refine strip_tight ⟨?_, ?_⟩
    · intro c hc
      cases x with
      | nil => simp at hc; subst hc; exact hqw.1
      | cons y x => simp at hc; subst hc; exact hx _ List.mem_cons_self
    · intro c hc
      have : x ++ q :: (b ++ [q]) = (x ++ q :: b) ++ [q] := by simp
      rw [this, List.getLast?_concat] at hc
      cases hc; exact hqw.1
  have hlow : k.map Char.toLower = k := hk
  split
  · next e =>
    subst e
    refine ⟨q :: (b ++ [q]), hu, ⟨q, b, rfl, hb⟩, .inl ⟨rfl, ?_⟩⟩
    exact hl [] (by simp)
  · next e =>
    refine ⟨q :: (b ++ [q]), hu, ⟨q, b, rfl, hb⟩, .inr ?_⟩
    have : k ++ '_' :: q :: (b ++ [q]) = (k ++ ['_']) ++ q :: (b ++ [q]) := by simp
    rw [this, hl, hlow]
    · simp
    · intro c hc
      rcases List.mem_append.1 hc with hc | hc
      · have := (name_nows hn c (by rw [show lower k = k from hlow]; exact hc)).1
        exact this
      · rw [List.mem_singleton.1 hc]; decide

/-! ## Examples -/

/-- C84: values that are accepted and rejected as the documentation says. -/
theorem C84_example :
    literal "-123_kind_int".toList "integer".toList "kind_int".toList = .ok true ∧
    literal " 12.5e-3_kind_phys ".toList "REAL".toList "kind_phys".toList = .ok true ∧
    literal "12.5".toList "double   precision".toList [] = .ok true ∧
    literal "12".toList "real".toList [] = .ok false ∧
    literal ".True._lk".toList "logical".toList "lk".toList = .ok true ∧
    literal "kc_'it''s'".toList "character".toList "kc".toList = .ok true ∧
    literal "(1._kp , -2.e3_kp)".toList "complex".toList "kp".toList = .ok true ∧
    literal "(1., 2)".toList "complex".toList [] = .ok false ∧
    defaultValue "3.14_kp".toList (some ⟨some " Real".toList, some "KP ".toList, true⟩) true = .ok (some "3.14_kp".toList) ∧
    defaultValue "314".toList (some ⟨some "real".toList, none, true⟩) true = .error := by
  decide +kernel

theorem C84_example_spec : OfKind RealLit "kind_phys".toList "-12.5e-3_kind_phys".toList ∧ LowerCase "kind_phys".toList ∧
    NameChars "kind_phys".toList ∧ OfKind IntLit [] "42".toList ∧ CharLit '\'' "'it''s'".toList := by
  refine ⟨.inr ⟨by decide, "-12.5e-3".toList, "kind_phys".toList, by decide, rfl, ?_⟩, (by unfold LowerCase; decide), (by unfold NameChars; decide), .inl ⟨rfl, ?_⟩, ?_⟩
  · exact ⟨['-'], "12".toList, ['5'], "e-3".toList, by decide, .inr (.inr rfl), by decide, by decide, .inl (by decide),
      .inr ⟨'e', "-3".toList, .inl rfl, by decide, ['-'], ['3'], by decide, .inr (.inr rfl), by decide, by decide⟩⟩
  · exact ⟨[], "42".toList, rfl, .inl rfl, by decide, by decide⟩
  · exact ⟨"it''s".toList, by decide, .char (by decide) (.char (by decide) (.quote (.char (by decide) .nil)))⟩

/-! ## Where the property fails -/

theorem digit_only_nou {s : Str} (h : IntLit s) : s.getLast? ≠ some '_' := by
  intro e
  rcases h.mem (List.mem_of_getLast? e) with h | h | h <;> exact absurd h (by decide)

/-- C84 is false: a trailing underscore without any kind is accepted for every integer constant; so is a blank
before the underscore. -/
theorem C84_underscore_violated :
    (∀ s, IntLit s → literal (s ++ ['_']) "integer".toList [] = .ok true ∧ ¬ OfKind IntLit [] (s ++ ['_'])) ∧
    (∀ s, IntLit s → literal (s ++ " _i8".toList) "integer".toList "i8".toList = .ok true ∧
      ¬ OfKind IntLit "i8".toList (s ++ " _i8".toList)) := by
  constructor
  · intro s hs
    refine ⟨(C84_integer (by decide) (by intro c hc; simp at hc) _).2
      ⟨[], s ++ ['_'], [], by simp, by intro c hc; simp at hc, by intro c hc; simp at hc,
        .inr ⟨s, [], by simp, by intro c hc; simp at hc, hs⟩⟩, ?_⟩
    rintro (⟨-, h⟩ | ⟨h, -⟩)
    · exact digit_only_nou h (by simp)
    · exact h rfl
  · intro s hs
    refine ⟨(C84_integer (by decide) (by unfold NameChars; decide) _).2
      ⟨[], s ++ " _i8".toList, [], by simp, by intro c hc; simp at hc, by intro c hc; simp at hc,
        .inr ⟨s, [' '], by rw [List.append_assoc]; rfl, by intro c hc; exact .inl (List.mem_singleton.1 hc), hs⟩⟩, ?_⟩
    rintro (⟨h, -⟩ | ⟨-, t, k', e, -, ht⟩)
    · exact absurd h (by decide)
    · have h1 : '_' ∉ s ++ [' '] := by
        intro hm
        rcases List.mem_append.1 hm with hm | hm
        · exact int_nou _ hs hm
        · exact absurd (List.mem_singleton.1 hm) (by decide)
      have h2 := int_nou _ ht
      have e2 : (s ++ [' ']) ++ '_' :: "i8".toList = t ++ '_' :: k' := by rw [← e, List.append_assoc]; rfl
      have : Chk.splitOn '_' ((s ++ [' ']) ++ '_' :: "i8".toList) = Chk.splitOn '_' (t ++ '_' :: k') := by rw [e2]
      rw [Chk.splitOn_append '_' _ _ h1, Chk.splitOn_append '_' _ _ h2] at this
      have := (List.cons.inj this).1
      exact absurd (ht.nows ' ' (by rw [← this]; simp)) (by decide)

/-- C84 is false: a constant whose kind is written with an upper-case letter is rejected, although Fortran does
not distinguish the case of letters — even if the metadata declare the kind in the same spelling. -/
theorem C84_kind_case_violated :
    OfKind RealLit "Kind_Phys".toList "1.0_Kind_Phys".toList ∧
    defaultValue "1.0_Kind_Phys".toList (some ⟨some "real".toList, some "Kind_Phys".toList, true⟩) true = .error ∧
    ∀ v k, NameChars k → literal v "real".toList k = .ok true →
      ∀ t k', '_' ∉ t → strip v = t ++ '_' :: k' → LowerCase k' := by
  refine ⟨.inr ⟨by decide, "1.0".toList, "Kind_Phys".toList, by decide, rfl, ?_⟩, by decide +kernel, ?_⟩
  · exact ⟨[], ['1'], ['0'], [], by decide, .inl rfl, by decide, by decide, .inl (by decide), .inl rfl⟩
  · intro v k hk h t k' ht e
    rw [literal_simple (w := "real".toList) (by decide) (by decide) (by decide), simple_real, valKind_num (by decide) e ht] at h
    have : k' = lower k := h.1
    subst this
    unfold LowerCase lower
    rw [List.map_map]
    refine List.map_congr_left fun c _ => ?_
    show c.toLower.toLower = c.toLower
    rw [← lower_upper, upper_lower, lower_upper]

/-- C84 is false: no character constant that contains an underscore is accepted without a kind. -/
theorem C84_character_underscore_violated :
    (∀ b, Body '\'' b → '_' ∈ b →
      literal ('\'' :: (b ++ ['\''])) "character".toList [] = .ok false) ∧
    CharLit '\'' "'a_b'".toList := by
  refine ⟨?_, "a_b".toList, by decide, .char (by decide) (.char (by decide) (.char (by decide) .nil))⟩
  intro b _ hm
  have hs : strip ('\'' :: (b ++ ['\''])) = '\'' :: (b ++ ['\'']) := by
    refine strip_tight ⟨?_, ?_⟩
    · intro c hc; cases hc; decide
    · intro c hc
      rw [← List.cons_append, List.getLast?_concat] at hc
      cases hc; decide
  rw [literal_simple (w := "character".toList) (by decide) (by decide) (by decide)]
  apply simple_kind
  obtain ⟨r, t, e, ht⟩ := last_sep '_' (strip ('\'' :: (b ++ ['\'']))) (by rw [hs]; simp [hm])
  rw [valKind_char e ht]
  rw [hs] at e
  cases r with
  | nil => exact absurd (List.cons.inj e).1 (by decide)
  | cons c r => simp [lower]

/-- C84 is false: the usual way to declare a string, kind = len=8, rejects every string constant between quotes. -/
theorem C84_character_length_violated :
    (∀ q b, q = '\'' ∨ q = '"' →
      defaultValue (q :: (b ++ [q])) (some ⟨some "character".toList, some "len=8".toList, true⟩) true = .error) ∧
    CharLit '\'' "'abc'".toList := by
  refine ⟨?_, "abc".toList, by decide, .char (by decide) (.char (by decide) (.char (by decide) .nil))⟩
  intro q b hq
  have hqw : isWs q = false := by rcases hq with rfl | rfl <;> decide
  have hs : strip (q :: (b ++ [q])) = q :: (b ++ [q]) := by
    refine strip_tight ⟨?_, ?_⟩
    · intro c hc; cases hc; exact hqw
    · intro c hc
      rw [← List.cons_append, List.getLast?_concat] at hc
      cases hc; exact hqw
  have : literal (q :: (b ++ [q])) "character".toList "len=8".toList = .ok false := by
    rw [literal_simple (w := "character".toList) (by decide) (by decide) (by decide)]
    apply simple_kind
    by_cases hm : '_' ∈ strip (q :: (b ++ [q]))
    · obtain ⟨r, t, e, ht⟩ := last_sep '_' _ hm
      rw [valKind_char e ht]
      rw [hs] at e
      cases r with
      | nil => exact absurd (List.cons.inj e).1 (by rcases hq with rfl | rfl <;> decide)
      | cons c r =>
        have hc := (List.cons.inj e).1
        subst hc
        intro h
        have : q = 'l' := by
          have := congrArg List.head? h
          exact Option.some.inj this
        rcases hq with rfl | rfl <;> exact absurd this (by decide)
    · rw [valKind_plain hm]
      intro h
      exact absurd (congrArg List.length h) (by simp [lower])
  have e : defaultValue (q :: (b ++ [q])) (some ⟨some "character".toList, some "len=8".toList, true⟩) true =
      (match literal (q :: (b ++ [q])) "character".toList "len=8".toList with
        | .ok true => .ok (some (q :: (b ++ [q]))) | .ok false => .error | .index => .index | .internal => .internal
        | .error => .error) := by
    rfl
  rw [e, this]

/-- C84 is false: any character serves as the delimiter of a string. -/
theorem C84_delimiter_violated (c : Char) (h : isWs c = false) (hu : c ≠ '_') :
    literal [c, c] "character".toList [] = .ok true ∧ literal [c, 'x', c] "character".toList [] = .ok (c ≠ 'x') := by
  have hs : ∀ m : Str, strip (c :: (m ++ [c])) = c :: (m ++ [c]) := by
    intro m
    refine strip_tight ⟨?_, ?_⟩
    · intro d hd; cases hd; exact h
    · intro d hd
      rw [← List.cons_append, List.getLast?_concat] at hd
      cases hd; exact h
  constructor
  · rw [C84_character (by decide)]
    have := hs []
    simp only [List.nil_append] at this
    rw [this]
    exact ⟨[c, c], by simp [Ne.symm hu], ⟨c, [], rfl, .nil⟩, .inl ⟨rfl, rfl⟩⟩
  · by_cases hx : c = 'x'
    · subst hx; decide +kernel
    · rw [show (decide (c ≠ 'x')) = true by simp [hx], C84_character (by decide)]
      have := hs ['x']
      simp only [List.cons_append, List.nil_append] at this
      rw [this]
      exact ⟨[c, 'x', c], by simp [Ne.symm hu], ⟨c, ['x'], rfl, .char (Ne.symm hx) .nil⟩, .inl ⟨rfl, rfl⟩⟩

/-- C84 is false: an empty default of a string, and a comma as the default of a complex variable, end in
IndexError; a default for a variable of a derived type ends in ParseInternalError, but only if no kind is missing. -/
theorem C84_crash_violated :
    defaultValue [] (some ⟨some "character".toList, none, true⟩) false = .index ∧
    defaultValue "kc_".toList (some ⟨some "character".toList, some "kc".toList, true⟩) true = .index ∧
    defaultValue ",".toList (some ⟨some "complex".toList, none, true⟩) false = .index ∧
    defaultValue "(1.,".toList (some ⟨some "complex".toList, none, true⟩) true = .index ∧
    defaultValue "0".toList (some ⟨some "my_ddt_type".toList, none, true⟩) false = .internal ∧
    defaultValue "0".toList (some ⟨some "my_ddt_type".toList, some "k".toList, true⟩) false = .ok none := by
  decide +kernel

/-- C84 is false: a type that only begins like double precision is taken for real. -/
theorem C84_double_violated (s v k : Str) :
    literal v ("double precision".toList ++ s ++ ".".toList) k = literal v "real".toList k := by
  rw [literal_simple (ty := "real".toList) (w := "real".toList) (by decide) (by decide) (by decide)]
  apply literal_double
  have hs : strip ("double precision".toList ++ s ++ ".".toList) = "double precision".toList ++ s ++ ".".toList := by
    refine strip_tight ⟨?_, ?_⟩
    · intro c hc; cases hc; decide
    · intro c hc
      rw [show ".".toList = ['.'] from rfl, List.getLast?_concat] at hc
      cases hc; decide
  rw [hs]
  unfold dpMatch lower afterDouble
  rw [List.append_assoc, List.map_append]
  rfl

end Ccpp.Lit
