import Verif.Props.Literals
/-!
# C84: Fortran literals — exactly which values are accepted
-/
namespace Ccpp.Lit

open Ccpp.FDecl (Blank Tight strip_tight strip_core strip_split)

/-! ## The value and the kind -/

theorem joinU_splitOn (s : Str) : joinU (Chk.splitOn '_' s) = s := by
  induction s with
  | nil => rfl
  | cons c s ih =>
    rw [Chk.splitOn]
    have hne := Chk.splitOn_ne_nil '_' s
    split
    · next h =>
      subst h
      cases h : Chk.splitOn '_' s with
      | nil => exact absurd h hne
      | cons t ts => rw [h] at ih; simp [joinU, ih]
    · cases h : Chk.splitOn '_' s with
      | nil => exact absurd h hne
      | cons t ts =>
        rw [h] at ih
        cases ts with
        | nil => simp only [joinU] at ih ⊢; rw [ih]
        | cons u us => simp only [joinU, List.cons_append] at ih ⊢; rw [ih]

theorem splitOn_last {c : Char} {t : Str} (ht : c ∉ t) (r : Str) :
    Chk.splitOn c (r ++ c :: t) = Chk.splitOn c r ++ [t] := by
  induction r with
  | nil => simp [Chk.splitOn, Chk.splitOn_item c t ht]
  | cons x r ih =>
    rw [List.cons_append, Chk.splitOn, ih, Chk.splitOn]
    have hne := Chk.splitOn_ne_nil c r
    split
    · rfl
    · cases h : Chk.splitOn c r with
      | nil => exact absurd h hne
      | cons u us => rfl

theorem last_sep (q : Char) (s : Str) (h : q ∈ s) : ∃ r t, s = r ++ q :: t ∧ q ∉ t := by
  obtain ⟨p, r, e, hp⟩ := first_sep q s.reverse (List.mem_reverse.2 h)
  refine ⟨r.reverse, p.reverse, ?_, by simpa using hp⟩
  have := congrArg List.reverse e
  simpa using this

theorem valKind_plain {vt v : Str} (h : '_' ∉ strip v) : valKind vt v = (strip v, []) := by
  unfold valKind
  simp only [Chk.splitOn_item '_' _ h]
  have hl : ¬ [strip v].length > 1 := by simp
  rw [if_neg hl, if_neg hl]
  split <;> rfl

theorem valKind_num {vt v t r : Str} (hvt : vt ≠ "character".toList) (e : strip v = t ++ '_' :: r) (ht : '_' ∉ t) :
    valKind vt v = (t, r) := by
  unfold valKind
  have hne := Chk.splitOn_ne_nil '_' r
  have hl : (t :: Chk.splitOn '_' r).length > 1 := by
    have := List.length_pos_iff.2 hne
    simp only [List.length_cons]; omega
  simp only [e, Chk.splitOn_append '_' t r ht]
  rw [if_neg hvt, if_pos hl, List.headD_cons, List.tail_cons, joinU_splitOn]

theorem valKind_char {v t r : Str} (e : strip v = r ++ '_' :: t) (ht : '_' ∉ t) :
    valKind "character".toList v = (t, r) := by
  unfold valKind
  have hne := Chk.splitOn_ne_nil '_' r
  have hl : (Chk.splitOn '_' r ++ [t]).length > 1 := by
    have := List.length_pos_iff.2 hne
    simp only [List.length_append, List.length_singleton]; omega
  simp only [e, splitOn_last ht]
  rw [if_pos trivial, if_pos hl, List.dropLast_concat, joinU_splitOn]
  simp [List.getLastD_eq_getLast?]

/-- The two ways to read a number. -/
theorem valKind_num_iff {vt v k : Str} (hvt : vt ≠ "character".toList) (P : Str → Prop) :
    ((valKind vt v).2 = k ∧ P (valKind vt v).1) ↔
      (('_' ∉ strip v ∧ k = [] ∧ P (strip v)) ∨ ∃ t, '_' ∉ t ∧ strip v = t ++ '_' :: k ∧ P t) := by
  by_cases h : '_' ∈ strip v
  · obtain ⟨t, r, e, ht⟩ := first_sep '_' _ h
    rw [valKind_num hvt e ht]
    constructor
    · rintro ⟨rfl, hp⟩
      exact .inr ⟨t, ht, e, hp⟩
    · rintro (⟨h', -⟩ | ⟨t', ht', e', hp⟩)
      · exact absurd h h'
      · have := valKind_num hvt e' ht'
        rw [valKind_num hvt e ht] at this
        rw [(Prod.mk.inj this).1, (Prod.mk.inj this).2]
        exact ⟨rfl, hp⟩
  · rw [valKind_plain h]
    constructor
    · rintro ⟨rfl, hp⟩
      exact .inl ⟨h, rfl, hp⟩
    · rintro (⟨-, rfl, hp⟩ | ⟨t, -, e, -⟩)
      · exact ⟨rfl, hp⟩
      · exact absurd (by rw [e]; simp) h

/-- The two ways to read a character constant. -/
theorem valKind_char_iff {v k : Str} (P : Str → Prop) :
    ((valKind "character".toList v).2 = k ∧ P (valKind "character".toList v).1) ↔
      ∃ t, '_' ∉ t ∧ P t ∧ ((k = [] ∧ strip v = t) ∨ strip v = k ++ '_' :: t) := by
  by_cases h : '_' ∈ strip v
  · obtain ⟨r, t, e, ht⟩ := last_sep '_' _ h
    rw [valKind_char e ht]
    constructor
    · rintro ⟨rfl, hp⟩
      exact ⟨t, ht, hp, .inr e⟩
    · rintro ⟨t', ht', hp, ⟨-, e'⟩ | e'⟩
      · rw [e'] at h; exact absurd h ht'
      · have := valKind_char e' ht'
        rw [valKind_char e ht] at this
        rw [(Prod.mk.inj this).1, (Prod.mk.inj this).2]
        exact ⟨rfl, hp⟩
  · rw [valKind_plain h]
    constructor
    · rintro ⟨rfl, hp⟩
      exact ⟨_, h, hp, .inl ⟨rfl, rfl⟩⟩
    · rintro ⟨t, -, hp, ⟨rfl, rfl⟩ | e⟩
      · exact ⟨rfl, hp⟩
      · exact absurd (by rw [e]; simp) h

/-! ## Types -/

theorem dp_not {ty w : Str} (h : lower ty = w) (hd : 'b' ∉ w) : dpMatch (strip ty) = false := by
  cases e : dpMatch (strip ty) with
  | false => rfl
  | true =>
    exfalso
    unfold dpMatch at e
    rw [Bool.and_eq_true, List.isPrefixOf_iff_prefix] at e
    have hm : 'b' ∈ lower (strip ty) := e.1.subset (by decide)
    obtain ⟨c, hc, hcb⟩ := List.mem_map.1 hm
    exact hd (h ▸ List.mem_map.2 ⟨c, Env.mem_strip hc, hcb⟩)

theorem literal_simple {ty w v k : Str} (h : lower ty = w) (hd : 'b' ∉ w) (hc : w ≠ "complex".toList) :
    literal v ty k = simple w v k := by
  unfold literal
  rw [dp_not h hd]
  simp only [Bool.false_eq_true, if_false]
  rw [h, if_neg hc]

theorem literal_complex {ty v k : Str} (h : lower ty = "complex".toList) : literal v ty k = complex v k := by
  unfold literal
  rw [dp_not h (by decide)]
  simp only [Bool.false_eq_true, if_false]
  rw [h, if_pos rfl]

theorem literal_double {ty v k : Str} (h : dpMatch (strip ty) = true) : literal v ty k = simple "real".toList v k := by
  unfold literal
  rw [h]
  simp only [if_true]
  rw [if_neg (by decide)]

theorem simple_kind {vt v k : Str} (h : (valKind vt v).2 ≠ lower k) : simple vt v k = .ok false := by
  unfold simple; simp only; rw [if_pos h]

theorem simple_int (v k : Str) : simple "integer".toList v k = .ok true ↔
    ((valKind "integer".toList v).2 = lower k ∧ Chk.isPyInt (strip (valKind "integer".toList v).1) = true) := by
  unfold simple; simp only
  split
  · next h =>
    exact ⟨(fun e => absurd (Out.ok.inj e) (by decide)), fun e => absurd e.1 h⟩
  · next h => rw [if_pos trivial, not_not.1 h]; simp

theorem simple_real (v k : Str) : simple "real".toList v k = .ok true ↔
    ((valKind "real".toList v).2 = lower k ∧
      ((valKind "real".toList v).1.contains '.' && pyFloat (valKind "real".toList v).1) = true) := by
  unfold simple; simp only
  split
  · next h =>
    exact ⟨(fun e => absurd (Out.ok.inj e) (by decide)), fun e => absurd e.1 h⟩
  · next h => rw [if_neg (by decide), if_pos trivial, not_not.1 h]; simp

theorem simple_log (v k : Str) : simple "logical".toList v k = .ok true ↔
    ((valKind "logical".toList v).2 = lower k ∧
      ((valKind "logical".toList v).1.map Char.toUpper == ".TRUE.".toList ||
       (valKind "logical".toList v).1.map Char.toUpper == ".FALSE.".toList) = true) := by
  unfold simple; simp only
  split
  · next h =>
    exact ⟨(fun e => absurd (Out.ok.inj e) (by decide)), fun e => absurd e.1 h⟩
  · next h => rw [if_neg (by decide), if_neg (by decide), if_pos trivial, not_not.1 h]; simp

theorem simple_char (v k : Str) (o : Out Bool) (ho : o ≠ .ok false) : simple "character".toList v k = o ↔
    ((valKind "character".toList v).2 = lower k ∧ charVal (valKind "character".toList v).1 = o) := by
  unfold simple; simp only
  split
  · next h => exact ⟨(fun e => absurd e.symm ho), fun e => absurd e.1 h⟩
  · next h =>
    rw [if_neg (by decide), if_neg (by decide), if_neg (by decide), if_pos trivial, not_not.1 h]; simp

/-! ## Blanks around -/

theorem name_nows {k : Str} (hk : NameChars k) : ∀ c ∈ lower k, isWs c = false ∧ c ≠ ',' ∧ c ≠ '.' := by
  intro c hc
  obtain ⟨d, hd, rfl⟩ := List.mem_map.1 hc
  have key : ∀ x ∈ [' ', '\t', '\n', '\r', '\x0b', '\x0c', ',', '.'], d.toLower ≠ x := by
    intro x hx e
    have : d = x := by
      have h2 := congrArg Char.toUpper e
      rw [upper_lower] at h2
      by_cases hr : 'a'.val ≤ d.val ∧ d.val ≤ 'z'.val
      · exfalso
        refine range_char (lo := 97) (hi := 122) (P := fun c => c.toUpper ≠ x.toUpper) ?_ hr.1 hr.2 h2
        intro n h1 h2
        simp only [List.mem_cons, List.not_mem_nil, or_false] at hx
        rcases hx with rfl | rfl | rfl | rfl | rfl | rfl | rfl | rfl <;> interval_cases n <;> decide
      · rw [upper_id hr] at h2
        rw [h2]
        simp only [List.mem_cons, List.not_mem_nil, or_false] at hx
        rcases hx with rfl | rfl | rfl | rfl | rfl | rfl | rfl | rfl <;> rfl
    subst this
    simp only [List.mem_cons, List.not_mem_nil, or_false] at hx
    rcases hx with rfl | rfl | rfl | rfl | rfl | rfl | rfl | rfl <;>
      rcases hk _ hd with h | h <;> exact absurd h (by decide)
  refine ⟨?_, key _ (by simp), key _ (by simp)⟩
  cases hw : isWs d.toLower with
  | false => rfl
  | true =>
    rcases (isWs_iff _).1 hw with h | h | h | h | h | h
    all_goals exact absurd h (key _ (by simp))

theorem lower_nil {k : Str} : lower k = [] ↔ k = [] := by simp [lower]

theorem suffixed_tight {lit : Str → Prop} (hl : ∀ t, lit t → t ≠ [] ∧ ∀ c ∈ t, isWs c = false) {k : Str} (hk : NameChars k)
    (s : Str) (h : Suffixed lit k s) : Tight s := by
  rcases h with ⟨-, h⟩ | ⟨t, b, rfl, hb, ht⟩
  · exact tight_of_nows (hl _ h).2
  · obtain ⟨h1, h2⟩ := hl _ ht
    constructor
    · intro c hc
      cases t with
      | nil => exact absurd rfl h1
      | cons x t => simp at hc; subst hc; exact h2 _ List.mem_cons_self
    · intro c hc
      have : c ∈ '_' :: k.map Char.toLower := by
        rw [List.getLast?_append] at hc
        cases hg : ('_' :: k.map Char.toLower).getLast? with
        | none => simp at hg
        | some d =>
          rw [hg] at hc
          cases hc
          exact List.mem_of_getLast? hg
      rcases List.mem_cons.1 this with rfl | hm
      · decide
      · exact (name_nows hk c hm).1

/-- Accepted numbers, in terms of the specification. -/
theorem suffixed_iff {lit : Str → Prop} (hl : ∀ t, lit t → t ≠ [] ∧ ∀ c ∈ t, isWs c = false) (hu : ∀ t, lit t → '_' ∉ t)
    (k v : Str) :
    (('_' ∉ strip v ∧ lower k = [] ∧ lit (strip (strip v))) ∨
      ∃ t, '_' ∉ t ∧ strip v = t ++ '_' :: lower k ∧ lit (strip t)) ↔ Suffixed lit k (strip v) := by
  rw [Env.strip_strip, lower_nil]
  constructor
  · rintro (⟨-, h1, h2⟩ | ⟨t, -, e, ht⟩)
    · exact .inl ⟨h1, h2⟩
    · obtain ⟨a, b, ha, hb, et⟩ := strip_split t
      have : a = [] := by
        cases a with
        | nil => rfl
        | cons c a =>
          exfalso
          have hh : (strip v).head? = some c := by rw [e, et]; rfl
          have hw := ha c List.mem_cons_self
          have : lstrip (strip v) = strip v := by unfold strip; exact Env.lstrip_lstrip _
          cases hs : strip v with
          | nil => rw [hs] at hh; cases hh
          | cons x r =>
            rw [hs] at hh this
            cases hh
            unfold lstrip at this
            rw [List.dropWhile_cons_of_pos hw] at this
            have h3 := (List.dropWhile_suffix (p := isWs) (l := r)).length_le
            rw [this] at h3
            simp at h3
      subst this
      refine .inr ⟨strip t, b, ?_, (blanks_iff _).2 hb, ht⟩
      simp only [List.nil_append] at et
      rw [← et]; exact e
  · rintro (⟨h1, h2⟩ | ⟨t, b, e, hb, ht⟩)
    · exact .inl ⟨hu _ h2, h1, h2⟩
    · refine .inr ⟨t ++ b, ?_, e, ?_⟩
      · intro hm
        rcases List.mem_append.1 hm with hm | hm
        · exact hu _ ht hm
        · rcases hb _ hm with h | h | h | h | h | h <;> exact absurd h (by decide)
      · have := strip_core (p := []) (by intro c hc; simp at hc) (tight_of_nows (hl _ ht).2) ((blanks_iff _).1 hb)
        simp only [List.nil_append] at this
        rw [this]; exact ht

theorem int_ok : ∀ t, IntLit t → t ≠ [] ∧ ∀ c ∈ t, isWs c = false := fun _ h => ⟨h.ne, h.nows⟩

theorem int_nou : ∀ t, IntLit t → '_' ∉ t := by
  intro t h hm
  rcases h.mem hm with h | h | h <;> exact absurd h (by decide)

theorem real_ok : ∀ t, RealLit t → t ≠ [] ∧ ∀ c ∈ t, isWs c = false :=
  fun _ h => ⟨List.ne_nil_of_mem h.dot, h.nows⟩

theorem real_nou : ∀ t, RealLit t → '_' ∉ t := by
  intro t h hm
  rcases h.mem hm with h | h | h | h | h | h <;> exact absurd h (by decide)

theorem log_ok : ∀ t, LogLit t → t ≠ [] ∧ ∀ c ∈ t, isWs c = false := by
  intro t h
  refine ⟨?_, fun c hc => (h.nows c hc).1⟩
  rintro rfl
  rcases h with h | h <;> exact absurd h (by decide)

theorem simple_int_iff {k : Str} (hk : NameChars k) (v : Str) :
    simple "integer".toList v k = .ok true ↔ Padded (Suffixed IntLit k) v := by
  rw [padded_iff (suffixed_tight int_ok hk), ← suffixed_iff int_ok int_nou, simple_int]
  have key : ∀ t, '_' ∉ t → (Chk.isPyInt (strip t) = true ↔ IntLit (strip t)) := fun t ht => by
    rw [Chk.isPyInt_iff, isInt_iff]
    exact fun hm => ht (Env.mem_strip hm)
  have := valKind_num_iff (vt := "integer".toList) (v := v) (k := lower k) (by decide)
    (fun t => Chk.isPyInt (strip t) = true)
  rw [this]
  constructor
  · rintro (⟨h1, h2, h3⟩ | ⟨t, h1, h2, h3⟩)
    · exact .inl ⟨h1, h2, (key _ h1).1 h3⟩
    · exact .inr ⟨t, h1, h2, (key _ h1).1 h3⟩
  · rintro (⟨h1, h2, h3⟩ | ⟨t, h1, h2, h3⟩)
    · exact .inl ⟨h1, h2, (key _ h1).2 h3⟩
    · exact .inr ⟨t, h1, h2, (key _ h1).2 h3⟩

theorem simple_real_iff {k : Str} (hk : NameChars k) (v : Str) :
    simple "real".toList v k = .ok true ↔ Padded (Suffixed RealLit k) v := by
  rw [padded_iff (suffixed_tight real_ok hk), ← suffixed_iff real_ok real_nou, simple_real]
  have := valKind_num_iff (vt := "real".toList) (v := v) (k := lower k) (by decide)
    (fun t => (t.contains '.' && pyFloat t) = true)
  rw [this]
  simp only [real_iff]

/-! ## The theorems -/

/-- C84: exactly the accepted values of an integer. -/
theorem C84_integer {ty k : Str} (hty : lower ty = "integer".toList) (hk : NameChars k) (v : Str) :
    literal v ty k = .ok true ↔ Padded (Suffixed IntLit k) v := by
  rw [literal_simple hty (by decide) (by decide)]
  exact simple_int_iff hk v

/-- C84: exactly the accepted values of a real. -/
theorem C84_real {ty k : Str} (hty : lower ty = "real".toList ∨ dpMatch (strip ty) = true) (hk : NameChars k) (v : Str) :
    literal v ty k = .ok true ↔ Padded (Suffixed RealLit k) v := by
  have : literal v ty k = simple "real".toList v k := by
    rcases hty with h | h
    · exact literal_simple h (by decide) (by decide)
    · exact literal_double h
  rw [this]
  exact simple_real_iff hk v

/-- C84: exactly the accepted values of a logical. -/
theorem C84_logical {ty k : Str} (hty : lower ty = "logical".toList) (hk : NameChars k) (v : Str) :
    literal v ty k = .ok true ↔ Padded (SuffixedTight LogLit k) v := by
  have ht : ∀ s, SuffixedTight LogLit k s → Tight s := by
    rintro s (⟨h1, h2⟩ | ⟨t, e, h⟩)
    · exact tight_of_nows (log_ok _ h2).2
    · refine suffixed_tight log_ok hk s (.inr ⟨t, [], by simpa using e, by intro c hc; simp at hc, h⟩)
  rw [literal_simple hty (by decide) (by decide), padded_iff ht, simple_log]
  have := valKind_num_iff (vt := "logical".toList) (v := v) (k := lower k) (by decide)
    (fun t => (t.map Char.toUpper == ".TRUE.".toList || t.map Char.toUpper == ".FALSE.".toList) = true)
  rw [this]
  simp only [log_iff, lower_nil]
  constructor
  · rintro (⟨-, h1, h2⟩ | ⟨t, -, e, h⟩)
    · exact .inl ⟨h1, h2⟩
    · exact .inr ⟨t, e, h⟩
  · rintro (⟨h1, h2⟩ | ⟨t, e, h⟩)
    · exact .inl ⟨fun hm => (h2.nows _ hm).2 rfl, h1, h2⟩
    · exact .inr ⟨t, fun hm => (h.nows _ hm).2 rfl, e, h⟩

/-- C84: exactly the accepted values of a character string.  The kind may be any text. -/
theorem C84_character {ty : Str} (hty : lower ty = "character".toList) (k v : Str) :
    literal v ty k = .ok true ↔ Prefixed k (strip v) := by
  rw [literal_simple hty (by decide) (by decide), simple_char _ _ _ (by simp), valKind_char_iff (fun t => charVal t = .ok true)]
  unfold Prefixed
  simp only [charVal_true, lower_nil]
  rfl

/-- C84: a character value makes the checker fail with IndexError exactly if nothing is left beside the kind. -/
theorem C84_character_index {ty : Str} (hty : lower ty = "character".toList) (k v : Str) :
    literal v ty k = .index ↔ ((k = [] ∧ strip v = []) ∨ strip v = lower k ++ ['_']) := by
  rw [literal_simple hty (by decide) (by decide), simple_char _ _ _ (by simp), valKind_char_iff (fun t => charVal t = .index)]
  simp only [charVal_index, lower_nil]
  constructor
  · rintro ⟨t, -, rfl, h | h⟩
    · exact .inl h
    · exact .inr h
  · rintro (h | h)
    · exact ⟨[], by simp, rfl, .inl h⟩
    · exact ⟨[], by simp, rfl, .inr h⟩

theorem simple_total {w : Str} (hw : w = "integer".toList ∨ w = "real".toList ∨ w = "logical".toList) (v k : Str) :
    ∃ b, simple w v k = .ok b := by
  unfold simple; simp only
  split
  · exact ⟨_, rfl⟩
  · rcases hw with rfl | rfl | rfl
    · rw [if_pos rfl]; exact ⟨_, rfl⟩
    · rw [if_neg (by decide), if_pos rfl]; exact ⟨_, rfl⟩
    · rw [if_neg (by decide), if_neg (by decide), if_pos rfl]; exact ⟨_, rfl⟩

/-- C84: an integer, real or logical value is always accepted or rejected. -/
theorem C84_total {ty : Str} (hty : lower ty = "integer".toList ∨ lower ty = "real".toList ∨ lower ty = "logical".toList ∨
    dpMatch (strip ty) = true) (v k : Str) : literal v ty k = .ok true ∨ literal v ty k = .ok false := by
  have : ∃ b, literal v ty k = .ok b := by
    rcases hty with h | h | h | h
    · rw [literal_simple h (by decide) (by decide)]; exact simple_total (.inl rfl) v k
    · rw [literal_simple h (by decide) (by decide)]; exact simple_total (.inr (.inl rfl)) v k
    · rw [literal_simple h (by decide) (by decide)]; exact simple_total (.inr (.inr rfl)) v k
    · rw [literal_double h]; exact simple_total (.inr (.inl rfl)) v k
  obtain ⟨b, hb⟩ := this
  cases b
  · exact .inr hb
  · exact .inl hb

/-! ## Complex constants -/

theorem suffixed_chars {lit : Str → Prop} {A : Char → Prop} (hA : ∀ t, lit t → ∀ c ∈ t, A c) {k : Str}
    {x : Str} (h : Padded (Suffixed lit k) x) :
    ∀ c ∈ x, isWs c = true ∨ A c ∨ c = '_' ∨ c ∈ lower k := by
  intro c hc
  obtain ⟨a, t, b, rfl, ha, hb, ht⟩ := h
  rw [List.mem_append, List.mem_append] at hc
  rcases hc with (hc | hc) | hc
  · exact .inl ((blanks_iff _).1 ha c hc)
  · rcases ht with ⟨-, ht⟩ | ⟨u, w, rfl, hw, hu⟩
    · exact .inr (.inl (hA _ ht c hc))
    · rw [List.mem_append, List.mem_append, List.mem_cons] at hc
      rcases hc with (hc | hc) | hc | hc
      · exact .inr (.inl (hA _ hu c hc))
      · exact .inl ((blanks_iff _).1 hw c hc)
      · exact .inr (.inr (.inl hc))
      · exact .inr (.inr (.inr hc))
  · exact .inl ((blanks_iff _).1 hb c hc)

theorem int_nocomma {k x : Str} (hk : NameChars k) (h : Padded (Suffixed IntLit k) x) : ',' ∉ x ∧ '.' ∉ x := by
  have := suffixed_chars (A := fun c => c = '+' ∨ c = '-' ∨ c.isDigit = true) (fun t ht c hc => ht.mem hc) h
  constructor
  · intro hm
    rcases this _ hm with h | h | h | h
    · exact absurd h (by decide)
    · exact absurd h (by decide)
    · exact absurd h (by decide)
    · exact (name_nows hk _ h).2.1 rfl
  · intro hm
    rcases this _ hm with h | h | h | h
    · exact absurd h (by decide)
    · exact absurd h (by decide)
    · exact absurd h (by decide)
    · exact (name_nows hk _ h).2.2 rfl

theorem real_nocomma {k x : Str} (hk : NameChars k) (h : Padded (Suffixed RealLit k) x) : ',' ∉ x ∧ '.' ∈ x := by
  have := suffixed_chars
    (A := fun c => c = '.' ∨ c = 'e' ∨ c = 'E' ∨ c = '+' ∨ c = '-' ∨ c.isDigit = true) (fun t ht c hc => ht.mem hc) h
  constructor
  · intro hm
    rcases this _ hm with h | h | h | h
    · exact absurd h (by decide)
    · exact absurd h (by decide)
    · exact absurd h (by decide)
    · exact (name_nows hk _ h).2.1 rfl
  · obtain ⟨a, t, b, rfl, -, -, ⟨-, ht⟩ | ⟨u, w, rfl, -, hu⟩⟩ := h
    · have := ht.dot; simp [this]
    · have := hu.dot; simp [this]

theorem split_two {s a b : Str} (h : Chk.splitOn ',' s = [a, b]) : s = a ++ ',' :: b ∧ ',' ∉ a ∧ ',' ∉ b := by
  by_cases hc : ',' ∈ s
  · obtain ⟨p, r, rfl, hp⟩ := first_sep ',' s hc
    rw [Chk.splitOn_append ',' p r hp] at h
    obtain ⟨rfl, h'⟩ := List.cons.inj h
    clear h
    by_cases hr : ',' ∈ r
    · obtain ⟨p', r', rfl, hp'⟩ := first_sep ',' r hr
      rw [Chk.splitOn_append ',' p' r' hp'] at h'
      exact absurd (List.cons.inj h').2 (Chk.splitOn_ne_nil _ _)
    · rw [Chk.splitOn_item ',' r hr] at h'
      obtain ⟨rfl, -⟩ := List.cons.inj h'
      exact ⟨rfl, hp, hr⟩
  · rw [Chk.splitOn_item ',' s hc] at h
    simp at h

theorem two_split {a b : Str} (ha : ',' ∉ a) (hb : ',' ∉ b) : Chk.splitOn ',' (a ++ ',' :: b) = [a, b] := by
  rw [Chk.splitOn_append ',' a b ha, Chk.splitOn_item ',' b hb]

theorem and_then_true (r r' : Out Bool) : (match r with | .ok true => r' | x => x) = .ok true ↔ (r = .ok true ∧ r' = .ok true) := by
  cases r with
  | ok b => cases b <;> simp
  | index => simp
  | internal => simp
  | error => simp

/-- C84: exactly the accepted values of a complex variable. -/
theorem C84_complex {ty k : Str} (hty : lower ty = "complex".toList) (hk : NameChars k) (v : Str) :
    literal v ty k = .ok true ↔ CplxSuffixed k (strip v) := by
  rw [literal_complex hty]
  unfold complex
  constructor
  · intro h
    split at h
    · next a b hab =>
      simp only at h
      obtain ⟨e, ha, hb⟩ := split_two hab
      split at h
      · cases h
      · next c a' =>
        split at h
        · cases h
        · next hc =>
          have hc := not_not.1 hc
          split at h
          · cases h
          · next d hd =>
            split at h
            · cases h
            · next hd2 =>
              have hd2 := not_not.1 hd2
              subst hc hd2
              split at h
              · cases h
              · next hv =>
                obtain ⟨h1, h2⟩ := (and_then_true _ _).1 h
                have eb : b = b.dropLast ++ [')'] := by
                  have hbne : b ≠ [] := by rintro rfl; cases hd
                  have := List.dropLast_concat_getLast hbne
                  rw [List.getLast?_eq_some_getLast hbne] at hd
                  rw [Option.some.inj hd] at this
                  exact this.symm
                refine ⟨a', b.dropLast, ?_, ?_⟩
                · rw [e, ← eb]; rfl
                · by_cases hr : (('(' :: a').contains '.' && b.contains '.') = true
                  · rw [if_pos hr] at h1 h2
                    exact .inr ⟨(simple_real_iff hk _).1 h1, (simple_real_iff hk _).1 h2⟩
                  · rw [if_neg hr] at h1 h2
                    exact .inl ⟨(simple_int_iff hk _).1 h1, (simple_int_iff hk _).1 h2⟩
    · cases h
  · rintro ⟨x, y, e, hxy⟩
    have hcom : ',' ∉ x ∧ ',' ∉ y := by
      rcases hxy with ⟨h1, h2⟩ | ⟨h1, h2⟩
      · exact ⟨(int_nocomma hk h1).1, (int_nocomma hk h2).1⟩
      · exact ⟨(real_nocomma hk h1).1, (real_nocomma hk h2).1⟩
    have es : Chk.splitOn ',' (strip v) = ['(' :: x, y ++ [')']] := by
      rw [e]
      exact two_split (a := '(' :: x) (b := y ++ [')']) (by simp [hcom.1]) (by simp [hcom.2])
    rw [es]
    simp only [List.getLast?_concat, List.dropLast_concat, ne_eq, not_true_eq_false, if_false]
    rcases hxy with ⟨h1, h2⟩ | ⟨h1, h2⟩
    · have d1 := (int_nocomma hk h1).2
      have d2 := (int_nocomma hk h2).2
      have c1 : ('(' :: x).contains '.' = false := by
        cases hh : ('(' :: x).contains '.' with
        | false => rfl
        | true => rw [List.contains_iff_mem] at hh; simp [d1] at hh
      have c2 : (y ++ [')']).contains '.' = false := by
        cases hh : (y ++ [')']).contains '.' with
        | false => rfl
        | true => rw [List.contains_iff_mem] at hh; simp [d2] at hh
      simp only [c1, c2, Bool.and_false, Bool.or_false, Bool.false_and, Bool.not_false, Bool.true_eq_false, if_false,
        Bool.false_eq_true]
      exact (and_then_true _ _).2 ⟨(simple_int_iff hk _).2 h1, (simple_int_iff hk _).2 h2⟩
    · have d1 := (real_nocomma hk h1).2
      have d2 := (real_nocomma hk h2).2
      have c1 : ('(' :: x).contains '.' = true := by rw [List.contains_iff_mem]; simp [d1]
      have c2 : (y ++ [')']).contains '.' = true := by rw [List.contains_iff_mem]; simp [d2]
      simp only [c1, c2, Bool.and_true, Bool.or_true, Bool.not_true, Bool.and_false, Bool.not_false, Bool.true_eq_false, if_false,
        if_true]
      exact (and_then_true _ _).2 ⟨(simple_real_iff hk _).2 h1, (simple_real_iff hk _).2 h2⟩

end Ccpp.Lit
