import Verif.Spec.XmlFile
/-!
# Lemmas for C65: blanks and entities
-/
namespace Ccpp.XF

/-! ## strip -/

theorem dropWhile_append_all {p : Char → Bool} {a b : Str} (h : ∀ c ∈ a, p c = true) :
    (a ++ b).dropWhile p = b.dropWhile p := by
  induction a with
  | nil => rfl
  | cons c a ih =>
    rw [List.cons_append, List.dropWhile_cons_of_pos (h c (by simp))]
    exact ih fun x hx => h x (by simp [hx])

theorem dropWhile_id {p : Char → Bool} {c : Char} {s : Str} (h : p c = false) : (c :: s).dropWhile p = c :: s := by
  rw [List.dropWhile_cons_of_neg (by simp [h])]

/-- Neither the first nor the last character is a blank. -/
def Trim (s : Str) : Prop :=
  (∀ c, s.head? = some c → isBlank c = false) ∧ ∀ c, s.getLast? = some c → isBlank c = false

theorem dropWhile_head {p : Char → Bool} : ∀ {s : Str} {c : Char}, (s.dropWhile p).head? = some c → p c = false
  | [], _, h => by cases h
  | x :: s, c, h => by
    by_cases hx : p x = true
    · rw [List.dropWhile_cons_of_pos hx] at h
      exact dropWhile_head h
    · rw [List.dropWhile_cons_of_neg hx] at h
      simp only [List.head?_cons, Option.some.injEq] at h
      subst h
      simpa using hx

theorem dropWhile_split {p : Char → Bool} (s : Str) : ∃ a, s = a ++ s.dropWhile p ∧ ∀ c ∈ a, p c = true := by
  refine ⟨s.takeWhile p, by simp, ?_⟩
  intro c hc
  have := List.all_takeWhile (p := p) (l := s)
  exact List.all_eq_true.1 this c hc

theorem strip_split (s : Str) : ∃ a b, s = a ++ strip s ++ b ∧ (∀ c ∈ a, isBlank c = true) ∧ (∀ c ∈ b, isBlank c = true) := by
  obtain ⟨a, ha, hab⟩ := dropWhile_split (p := isBlank) s
  obtain ⟨b, hb, hbb⟩ := dropWhile_split (p := isBlank) (s.dropWhile isBlank).reverse
  refine ⟨a, b.reverse, ?_, hab, fun c hc => hbb c (by simpa using hc)⟩
  have : s.dropWhile isBlank = strip s ++ b.reverse := by
    unfold strip
    rw [← List.reverse_append, ← hb, List.reverse_reverse]
  rw [List.append_assoc, ← this]
  exact ha

theorem strip_trim (s : Str) : Trim (strip s) := by
  constructor
  · intro c hc
    obtain ⟨b, hb, _⟩ := dropWhile_split (p := isBlank) (s.dropWhile isBlank).reverse
    have : s.dropWhile isBlank = strip s ++ b.reverse := by
      unfold strip
      rw [← List.reverse_append, ← hb, List.reverse_reverse]
    refine dropWhile_head (s := s) ?_
    rw [this, List.head?_append, hc]
    rfl
  · intro c hc
    unfold strip at hc
    rw [List.getLast?_reverse] at hc
    exact dropWhile_head hc

theorem strip_of_trim {a s b : Str} (ha : ∀ c ∈ a, isBlank c = true) (hb : ∀ c ∈ b, isBlank c = true) (hs : Trim s) :
    strip (a ++ s ++ b) = s := by
  unfold strip
  rw [List.append_assoc, dropWhile_append_all ha]
  cases s with
  | nil =>
    rw [List.nil_append]
    have : b.dropWhile isBlank = [] := by
      have := dropWhile_append_all (b := []) hb
      simpa using this
    rw [this]
    rfl
  | cons c s =>
    rw [List.cons_append, dropWhile_id (hs.1 c rfl), List.reverse_cons]
    rw [show (s ++ b).reverse ++ [c] = b.reverse ++ (c :: s).reverse by simp]
    rw [dropWhile_append_all (by intro x hx; exact hb x (by simpa using hx))]
    cases hr : (c :: s).reverse with
    | nil => simp at hr
    | cons l r =>
      rw [dropWhile_id (hs.2 l ?_), ← hr, List.reverse_reverse]
      rw [List.getLast?_eq_head?_reverse, hr]
      rfl

theorem strip_idem (s : Str) : strip (strip s) = strip s := by
  have := strip_of_trim (a := []) (b := []) (by simp) (by simp) (strip_trim s)
  simpa using this

theorem strip_append_blank {s b : Str} (hb : ∀ c ∈ b, isBlank c = true) : strip (s ++ b) = strip s := by
  obtain ⟨x, y, h, hx, hy⟩ := strip_split s
  conv => lhs; rw [h, List.append_assoc]
  refine strip_of_trim hx ?_ (strip_trim s)
  intro c hc
  rcases List.mem_append.1 hc with hc | hc
  · exact hy c hc
  · exact hb c hc

theorem strip_blank_append {s b : Str} (hb : ∀ c ∈ b, isBlank c = true) : strip (b ++ s) = strip s := by
  obtain ⟨x, y, h, hx, hy⟩ := strip_split s
  conv => lhs; rw [h, ← List.append_assoc, ← List.append_assoc]
  refine strip_of_trim ?_ hy (strip_trim s)
  intro c hc
  rcases List.mem_append.1 hc with hc | hc
  · exact hb c hc
  · exact hx c hc

/-! ## Entities -/

theorem toDigits_isDigit {n : Nat} {c : Char} (h : c ∈ Nat.toDigits 10 n) : c.isDigit = true :=
  Nat.isDigit_of_mem_toDigits (by decide) (by decide) h

theorem unesc_name {n d s : Str} : (∀ c ∈ d, c ≠ ';') → unesc (some n) (d ++ ';' :: s) =
    (entity (n ++ d)).bind fun x => (unesc none s).map (x :: ·) := by
  induction d generalizing n with
  | nil => intro _; rw [List.nil_append, unesc, if_pos rfl, List.append_nil]
  | cons c d ih =>
    intro h
    rw [List.cons_append, unesc, if_neg (h c (by simp)), ih fun x hx => h x (by simp [hx])]
    rw [List.append_assoc]
    rfl

theorem unesc_entity {d s : Str} (h : ∀ c ∈ d, c ≠ ';') :
    unesc none ('&' :: d ++ ';' :: s) = (entity d).bind fun x => (unesc none s).map (x :: ·) := by
  rw [List.cons_append, unesc, if_pos rfl, unesc_name h]
  rfl

theorem entity_number (n : Nat) : entity ('#' :: Nat.toDigits 10 n) = some (Char.ofNat n) := by
  have hd : ∀ c ∈ Nat.toDigits 10 n, c.isDigit = true := fun c hc => toDigits_isDigit hc
  cases ht : Nat.toDigits 10 n with
  | nil => exact absurd ht Nat.toDigits_ne_nil
  | cons d ds =>
    rw [ht] at hd
    have ne : ∀ r : Str, r.head? ≠ some '#' → ¬ '#' :: d :: ds = r := by
      intro r hc h
      exact hc (by rw [← h]; rfl)
    unfold entity
    rw [if_neg (ne _ (by decide)), if_neg (ne _ (by decide)), if_neg (ne _ (by decide)),
      if_neg (ne _ (by decide)), if_neg (ne _ (by decide))]
    simp only
    rw [if_pos (List.all_eq_true.2 hd), ← ht, Nat.ofDigitChars_ten_toDigits]

theorem digit_ne_semi {c : Char} (h : c.isDigit = true) : c ≠ ';' := by
  rintro rfl
  revert h
  decide

theorem unesc_escText (c : Char) (s : Str) : unesc none (escText c ++ s) = (unesc none s).map (c :: ·) := by
  unfold escText
  split
  · rename_i h; subst h
    exact unesc_entity (d := "amp".toList) (by decide)
  · split
    · rename_i h; subst h
      exact unesc_entity (d := "lt".toList) (by decide)
    · split
      · rename_i h; subst h
        exact unesc_entity (d := "gt".toList) (by decide)
      · split
        · have := unesc_entity (d := '#' :: Nat.toDigits 10 c.toNat) (s := s) (by
            intro x hx
            rcases List.mem_cons.1 hx with rfl | hx
            · decide
            · exact digit_ne_semi (toDigits_isDigit hx))
          rw [entity_number] at this
          rw [Char.ofNat_toNat] at this
          simpa using this
        · rw [List.cons_append, List.nil_append, unesc, if_neg (by assumption)]

theorem unesc_escAttr (c : Char) (s : Str) : unesc none (escAttr c ++ s) = (unesc none s).map (c :: ·) := by
  unfold escAttr
  split
  · rename_i h; subst h
    exact unesc_entity (d := "quot".toList) (by decide)
  · split
    · rename_i h; subst h
      exact unesc_entity (d := "#13".toList) (by decide)
    · split
      · rename_i h; subst h
        exact unesc_entity (d := "#10".toList) (by decide)
      · split
        · rename_i h; subst h
          exact unesc_entity (d := "#09".toList) (by decide)
        · exact unesc_escText c s

theorem unesc_text (s r : Str) : unesc none (s.flatMap escText ++ r) = (unesc none r).map (s ++ ·) := by
  induction s with
  | nil => simp
  | cons c s ih =>
    rw [List.flatMap_cons, List.append_assoc, unesc_escText, ih]
    cases unesc none r <;> rfl

theorem unesc_attr (s : Str) : unesc none (s.flatMap escAttr) = some s := by
  induction s with
  | nil => rfl
  | cons c s ih =>
    rw [List.flatMap_cons, unesc_escAttr, ih]
    rfl

theorem unesc_blank {b : Str} (hb : ∀ c ∈ b, isBlank c = true) (r : Str) :
    unesc none (b ++ r) = (unesc none r).map (b ++ ·) := by
  induction b with
  | nil => simp
  | cons c b ih =>
    have hc : c ≠ '&' := by
      rintro rfl
      have := hb '&' (by simp)
      revert this
      decide
    rw [List.cons_append, unesc, if_neg hc, ih fun x hx => hb x (by simp [hx])]
    cases unesc none r <;> rfl

/-! ## Escaped characters -/

theorem digit_not_blank {x : Char} (hd : x.isDigit = true) : isBlank x = false := by
  cases hb : isBlank x with
  | false => rfl
  | true =>
    exfalso
    simp only [Char.isDigit, ge_iff_le, Bool.and_eq_true, decide_eq_true_eq] at hd
    unfold isBlank at hb
    simp only [Bool.or_eq_true, beq_iff_eq, Bool.and_eq_true, decide_eq_true_eq] at hb
    have h1 : 48 ≤ x.toNat := hd.1
    rcases hb with (rfl | hb) | hb
    · revert h1; decide
    · omega
    · omega

/-- Neither a bracket nor a blank. -/
def Solid (x : Char) : Prop := x ≠ '<' ∧ x ≠ '>' ∧ isBlank x = false

instance (x : Char) : Decidable (Solid x) := by unfold Solid; exact inferInstance

theorem solid_digit {x : Char} (hd : x.isDigit = true) : Solid x := by
  refine ⟨?_, ?_, digit_not_blank hd⟩
  · rintro rfl; revert hd; decide
  · rintro rfl; revert hd; decide

/-- Every character of an escaped text. -/
theorem escText_cases (c : Char) : (∀ x ∈ escText c, Solid x) ∨ (escText c = [c] ∧ c ≠ '<' ∧ c ≠ '>') := by
  unfold escText
  split
  · exact .inl (by decide)
  · split
    · exact .inl (by decide)
    · split
      · exact .inl (by decide)
      · split
        · refine .inl ?_
          intro x h
          rcases List.mem_append.1 h with h | h
          · rcases List.mem_cons.1 h with h | h
            · subst h; decide
            · rcases List.mem_cons.1 h with h | h
              · subst h; decide
              · exact solid_digit (toDigits_isDigit h)
          · simp only [List.mem_singleton] at h
            subst h; decide
        · exact .inr ⟨rfl, by assumption, by assumption⟩

theorem escText_chars {c x : Char} (h : x ∈ escText c) : x ≠ '<' ∧ x ≠ '>' ∧ (isBlank x = true → isBlank c = true) := by
  rcases escText_cases c with hc | ⟨hc, h1, h2⟩
  · have := hc x h
    exact ⟨this.1, this.2.1, fun hb => by rw [this.2.2] at hb; cases hb⟩
  · rw [hc, List.mem_singleton] at h
    subst h
    exact ⟨h1, h2, id⟩

theorem escText_ne_nil (c : Char) : escText c ≠ [] := by
  unfold escText
  split
  · decide
  · split
    · decide
    · split
      · decide
      · split <;> simp

theorem flatMap_escText_nil {s : Str} : s.flatMap escText = [] ↔ s = [] := by
  cases s with
  | nil => simp
  | cons c s => simp [escText_ne_nil]

theorem escText_text {s : Str} {x : Char} (h : x ∈ s.flatMap escText) : x ≠ '<' ∧ x ≠ '>' := by
  obtain ⟨c, _, hx⟩ := List.mem_flatMap.1 h
  exact ⟨(escText_chars hx).1, (escText_chars hx).2.1⟩

theorem blank_toNat {c : Char} (h : isBlank c = true) : c.toNat < 128 := by
  unfold isBlank at h
  simp only [Bool.or_eq_true, beq_iff_eq, Bool.and_eq_true, decide_eq_true_eq] at h
  rcases h with (rfl | h) | h
  · decide
  · omega
  · omega

theorem escText_blank {c : Char} (h : isBlank c = true) : escText c = [c] := by
  unfold escText
  have h1 := blank_toNat h
  rw [if_neg, if_neg, if_neg, if_neg (by omega)]
  · rintro rfl; revert h; decide
  · rintro rfl; revert h; decide
  · rintro rfl; revert h; decide

theorem flatMap_blank {b : Str} (hb : ∀ c ∈ b, isBlank c = true) : b.flatMap escText = b := by
  induction b with
  | nil => rfl
  | cons c b ih =>
    rw [List.flatMap_cons, escText_blank (hb c (by simp)), ih fun x hx => hb x (by simp [hx])]
    rfl

theorem escText_blank_iff {c x : Char} (hx : x ∈ escText c) (hb : isBlank x = true) : isBlank c = true :=
  (escText_chars hx).2.2 hb

theorem getLast?_append_right (a : Str) {b : Str} (h : b ≠ []) : (a ++ b).getLast? = b.getLast? := by
  rw [List.getLast?_append, List.getLast?_eq_some_getLast h]
  rfl

theorem flatMap_trim {s : Str} (h : Trim s) : Trim (s.flatMap escText) := by
  constructor
  · intro x hx
    cases s with
    | nil => cases hx
    | cons c s =>
      cases he : escText c with
      | nil => exact absurd he (escText_ne_nil c)
      | cons y ys =>
        rw [List.flatMap_cons, he, List.cons_append, List.head?_cons, Option.some.injEq] at hx
        subst hx
        cases hb : isBlank y with
        | false => rfl
        | true =>
          have := escText_blank_iff (c := c) (x := y) (by rw [he]; simp) hb
          rw [h.1 c rfl] at this
          cases this
  · intro x hx
    rcases List.eq_nil_or_concat s with rfl | ⟨s', c, rfl⟩
    · cases hx
    · rw [List.concat_eq_append] at h
      rw [List.concat_eq_append, List.flatMap_append, List.flatMap_cons, List.flatMap_nil, List.append_nil,
        getLast?_append_right _ (escText_ne_nil c)] at hx
      cases hb : isBlank x with
      | false => rfl
      | true =>
        have := escText_blank_iff (c := c) (List.mem_of_getLast? hx) hb
        rw [h.2 c (by simp)] at this
        cases this

theorem strip_escText (s : Str) : strip (s.flatMap escText) = (strip s).flatMap escText := by
  obtain ⟨a, b, h, ha, hb⟩ := strip_split s
  conv => lhs; rw [h, List.flatMap_append, List.flatMap_append, flatMap_blank ha, flatMap_blank hb]
  exact strip_of_trim ha hb (flatMap_trim (strip_trim s))

/-- A text that equals an escaped one up to blanks is decoded accordingly. -/
theorem unesc_same {t s : Str} (h : strip t = strip (s.flatMap escText)) :
    ∃ u, unesc none t = some u ∧ strip u = strip s ∧ (t = strip (s.flatMap escText) → u = strip s) := by
  obtain ⟨a, b, he, ha, hb⟩ := strip_split t
  rw [h, strip_escText] at he
  refine ⟨a ++ strip s ++ b, ?_, strip_of_trim ha hb (strip_trim s), ?_⟩
  · conv => lhs; rw [he, List.append_assoc]
    rw [unesc_blank ha, unesc_text]
    have := unesc_blank hb []
    rw [List.append_nil] at this
    rw [this]
    simp [unesc]
  · intro ht
    rw [strip_escText] at ht
    have hl : a.length + b.length = 0 := by
      have : t.length = (a ++ (strip s).flatMap escText ++ b).length := by rw [← he]
      rw [ht] at this
      simp only [List.length_append] at this
      omega
    have h1 : a = [] := List.eq_nil_of_length_eq_zero (by omega)
    have h2 : b = [] := List.eq_nil_of_length_eq_zero (by omega)
    rw [h1, h2]
    simp

end Ccpp.XF
