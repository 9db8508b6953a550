import Verif.Model.Literals
import Verif.Spec.Literals
import Verif.Props.Checkers
import Verif.Props.FortranType
import Mathlib.Tactic.IntervalCases
import Mathlib.Tactic.Tauto
/-!
# C84: Fortran literals — the parts of a literal
-/
namespace Ccpp.Lit

open Ccpp.FDecl (Blank Tight strip_tight strip_core strip_split)

/-! ## Characters -/

theorem char_ext {a b : Char} (h : a.toNat = b.toNat) : a = b := by
  apply Char.ext
  exact UInt32.toNat_inj.1 h

theorem upper_id {c : Char} (h : ¬ ('a'.val ≤ c.val ∧ c.val ≤ 'z'.val)) : c.toUpper = c := by
  unfold Char.toUpper; rw [dif_neg h]

theorem lower_id {c : Char} (h : ¬ ('A'.val ≤ c.val ∧ c.val ≤ 'Z'.val)) : c.toLower = c := by
  unfold Char.toLower; rw [dif_neg h]

theorem range_char {lo hi : Nat} {P : Char → Prop} (h : ∀ n, lo ≤ n → n ≤ hi → P (Char.ofNat n)) {c : Char}
    (h1 : lo ≤ c.toNat) (h2 : c.toNat ≤ hi) : P c := by
  have := h c.toNat h1 h2
  rwa [Char.ofNat_toNat] at this

theorem lower_upper (c : Char) : c.toUpper.toLower = c.toLower := by
  by_cases h : 'a'.val ≤ c.val ∧ c.val ≤ 'z'.val
  · refine range_char (lo := 97) (hi := 122) (P := fun c => c.toUpper.toLower = c.toLower) ?_ h.1 h.2
    intro n h1 h2
    interval_cases n <;> rfl
  · rw [upper_id h]

theorem upper_lower (c : Char) : c.toLower.toUpper = c.toUpper := by
  by_cases h : 'A'.val ≤ c.val ∧ c.val ≤ 'Z'.val
  · refine range_char (lo := 65) (hi := 90) (P := fun c => c.toLower.toUpper = c.toUpper) ?_ h.1 h.2
    intro n h1 h2
    interval_cases n <;> rfl
  · rw [lower_id h]

theorem upper_iff {s l u : Str} (h1 : l.map Char.toUpper = u) (h2 : u.map Char.toLower = l) :
    s.map Char.toUpper = u ↔ s.map Char.toLower = l := by
  constructor
  · intro h
    have := congrArg (List.map Char.toLower) h
    rw [List.map_map, h2] at this
    rw [← this]
    exact List.map_congr_left fun c _ => (lower_upper c).symm
  · intro h
    have := congrArg (List.map Char.toUpper) h
    rw [List.map_map, h1] at this
    rw [← this]
    exact List.map_congr_left fun c _ => (upper_lower c).symm

theorem isWs_iff (c : Char) :
    isWs c = true ↔ (c = ' ' ∨ c = '\t' ∨ c = '\n' ∨ c = '\r' ∨ c = '\x0b' ∨ c = '\x0c') := by
  unfold isWs
  simp only [Bool.or_eq_true, beq_iff_eq, or_assoc]

theorem blanks_iff (s : Str) : Blanks s ↔ Blank s :=
  forall₂_congr fun c _ => (isWs_iff c).symm

theorem digit_nows {c : Char} (h : c.isDigit = true) : isWs c = false := by
  cases hw : isWs c with
  | false => rfl
  | true =>
    rcases (isWs_iff c).1 hw with rfl | rfl | rfl | rfl | rfl | rfl <;> exact absurd h (by decide)

theorem tight_of_nows {s : Str} (h : ∀ c ∈ s, isWs c = false) : Tight s :=
  ⟨fun c hc => h c (List.mem_of_head? hc), fun c hc => h c (List.mem_of_getLast? hc)⟩

/-- Padding and strip. -/
theorem padded_iff {P : Str → Prop} (hP : ∀ t, P t → Tight t) (s : Str) : Padded P s ↔ P (strip s) := by
  constructor
  · rintro ⟨a, t, b, rfl, ha, hb, ht⟩
    rw [strip_core ((blanks_iff _).1 ha) (hP t ht) ((blanks_iff _).1 hb)]
    exact ht
  · intro h
    obtain ⟨a, b, ha, hb, e⟩ := strip_split s
    exact ⟨a, _, b, e, (blanks_iff _).2 ha, (blanks_iff _).2 hb, h⟩

/-! ## Integers -/

theorem digits1_iff (s : Str) : digits1 s = true ↔ Digits s := by
  unfold digits1 Digits
  cases s with
  | nil => simp
  | cons c s => simp [List.all_eq_true]

theorem digitSeq_iff {s : Str} (h : '_' ∉ s) : Chk.DigitSeq s ↔ Digits s := by
  constructor
  · intro hd
    induction hd with
    | one hc => exact ⟨by simp, by simpa using hc⟩
    | more hc _ ih =>
      obtain ⟨-, i2⟩ := ih fun hm => h (List.mem_cons_of_mem _ hm)
      exact ⟨by simp, List.forall_mem_cons.2 ⟨hc, i2⟩⟩
    | underscore hc _ ih => exact absurd (by simp) h
  · rintro ⟨h1, h2⟩
    clear h
    induction s with
    | nil => exact absurd rfl h1
    | cons c s ih =>
      rw [List.forall_mem_cons] at h2
      cases s with
      | nil => exact .one h2.1
      | cons d s => exact .more h2.1 (ih (by simp) h2.2)

theorem isInt_iff {s : Str} (h : '_' ∉ s) : Chk.IsInt s ↔ IntLit s := by
  unfold Chk.IsInt IntLit
  constructor
  · rintro (h1 | ⟨t, rfl | rfl, h1⟩)
    · exact ⟨[], s, rfl, .inl rfl, (digitSeq_iff h).1 h1⟩
    · exact ⟨['+'], t, rfl, .inr (.inl rfl), (digitSeq_iff fun hm => h (by simp [hm])).1 h1⟩
    · exact ⟨['-'], t, rfl, .inr (.inr rfl), (digitSeq_iff fun hm => h (by simp [hm])).1 h1⟩
  · rintro ⟨g, d, rfl, rfl | rfl | rfl, hd⟩
    · exact .inl ((digitSeq_iff (by simpa using h)).2 hd)
    · exact .inr ⟨d, .inl rfl, (digitSeq_iff (fun hm => h (by simp [hm]))).2 hd⟩
    · exact .inr ⟨d, .inr rfl, (digitSeq_iff (fun hm => h (by simp [hm]))).2 hd⟩

theorem sign_mem {g : Str} (h : Sign g) {c : Char} (hc : c ∈ g) : c = '+' ∨ c = '-' := by
  rcases h with rfl | rfl | rfl
  · simp at hc
  · exact .inl (by simpa using hc)
  · exact .inr (by simpa using hc)

theorem IntLit.mem {s : Str} (h : IntLit s) {c : Char} (hc : c ∈ s) : c = '+' ∨ c = '-' ∨ c.isDigit = true := by
  obtain ⟨g, d, rfl, hg, hd⟩ := h
  rcases List.mem_append.1 hc with hc | hc
  · rcases sign_mem hg hc with h | h
    · exact .inl h
    · exact .inr (.inl h)
  · exact .inr (.inr (hd.2 c hc))

theorem IntLit.nows {s : Str} (h : IntLit s) : ∀ c ∈ s, isWs c = false := by
  intro c hc
  rcases h.mem hc with rfl | rfl | hd
  · decide
  · decide
  · exact digit_nows hd

theorem IntLit.ne {s : Str} (h : IntLit s) : s ≠ [] := by
  obtain ⟨g, d, rfl, -, hd⟩ := h
  simp [hd.1]

/-! ## Reals -/

theorem takeWhile_digits {i : Str} {r : Str} (hi : ∀ c ∈ i, c.isDigit = true)
    (hr : ∀ c, r.head? = some c → c.isDigit = false) :
    (i ++ r).takeWhile Char.isDigit = i ∧ (i ++ r).dropWhile Char.isDigit = r := by
  induction i with
  | nil =>
    cases r with
    | nil => exact ⟨rfl, rfl⟩
    | cons c r =>
      have := hr c rfl
      simp [this]
  | cons c i ih =>
    rw [List.forall_mem_cons] at hi
    obtain ⟨h1, h2⟩ := ih hi.2
    rw [List.cons_append, List.takeWhile_cons_of_pos hi.1, List.dropWhile_cons_of_pos hi.1, h1, h2]
    exact ⟨rfl, rfl⟩

theorem split_digits (s : Str) : s = s.takeWhile Char.isDigit ++ s.dropWhile Char.isDigit ∧
    ∀ c ∈ s.takeWhile Char.isDigit, c.isDigit = true :=
  ⟨(List.takeWhile_append_dropWhile).symm, fun _ hc => List.all_eq_true.1 List.all_takeWhile _ hc⟩

theorem digit_head {d : Str} (hd : ∀ c ∈ d, c.isDigit = true) {r : Str} (c : Char) (hc : c.isDigit = false) :
    ∀ t, d ++ r = c :: t → d = [] := by
  intro t e
  cases d with
  | nil => rfl
  | cons x d =>
    have : x = c := (List.cons.inj e).1
    have := hd x List.mem_cons_self
    simp_all

/-- Removing the sign. -/
theorem unsign_eq (s : Str) : ∃ g, Sign g ∧ s = g ++ unsign s := by
  unfold unsign
  split
  · exact ⟨['+'], .inr (.inl rfl), rfl⟩
  · exact ⟨['-'], .inr (.inr rfl), rfl⟩
  · exact ⟨[], .inl rfl, rfl⟩

theorem unsign_of {g r : Str} (hg : Sign g) (hr : ∀ c, r.head? = some c → c ≠ '+' ∧ c ≠ '-') :
    unsign (g ++ r) = r := by
  rcases hg with rfl | rfl | rfl
  · cases r with
    | nil => rfl
    | cons c r =>
      obtain ⟨h1, h2⟩ := hr c rfl
      show unsign (c :: r) = c :: r
      unfold unsign
      split
      · next e => exact absurd (List.cons.inj e).1 h1
      · next e => exact absurd (List.cons.inj e).1 h2
      · rfl
  · rfl
  · rfl

theorem digits_head_ok {d : Str} (hd : Digits d) : ∀ c, d.head? = some c → c ≠ '+' ∧ c ≠ '-' := by
  intro c hc
  have := hd.2 c (List.mem_of_head? hc)
  constructor <;> rintro rfl <;> exact absurd this (by decide)

theorem intLit_iff (s : Str) : digits1 (unsign s) = true ↔ IntLit s := by
  rw [digits1_iff]
  constructor
  · intro h
    obtain ⟨g, hg, e⟩ := unsign_eq s
    exact ⟨g, _, e, hg, h⟩
  · rintro ⟨g, d, rfl, hg, hd⟩
    rwa [unsign_of hg (digits_head_ok hd)]

theorem exponent_iff (s : Str) : exponent s = true ↔ (s = [] ∨ Expo s) := by
  cases s with
  | nil => simp [exponent]
  | cons c s =>
    rw [exponent, Bool.and_eq_true, intLit_iff, Bool.or_eq_true, beq_iff_eq, beq_iff_eq]
    constructor
    · rintro ⟨h1, h2⟩
      exact .inr ⟨c, s, h1, rfl, h2⟩
    · rintro (h | ⟨e, i, he, h, hi⟩)
      · cases h
      · obtain ⟨rfl, rfl⟩ := List.cons.inj h
        exact ⟨he, hi⟩

theorem Expo.mem {s : Str} (h : Expo s) {c : Char} (hc : c ∈ s) :
    c = 'e' ∨ c = 'E' ∨ c = '+' ∨ c = '-' ∨ c.isDigit = true := by
  obtain ⟨e, i, he, rfl, hi⟩ := h
  rcases List.mem_cons.1 hc with rfl | hc
  · rcases he with rfl | rfl
    · exact .inl rfl
    · exact .inr (.inl rfl)
  · exact .inr (.inr (hi.mem hc))

theorem RealLit.mem {s : Str} (h : RealLit s) {c : Char} (hc : c ∈ s) :
    c = '.' ∨ c = 'e' ∨ c = 'E' ∨ c = '+' ∨ c = '-' ∨ c.isDigit = true := by
  obtain ⟨g, i, f, e, rfl, hg, hi, hf, -, he⟩ := h
  simp only [List.append_assoc, List.mem_append, List.cons_append, List.mem_cons] at hc
  rcases hc with hc | hc | hc | hc | hc
  · rcases sign_mem hg hc with h | h
    · simp [h]
    · simp [h]
  · simp [hi c hc]
  · simp [hc]
  · simp [hf c hc]
  · rcases he with rfl | he
    · simp at hc
    · exact .inr (he.mem hc)

theorem RealLit.nows {s : Str} (h : RealLit s) : ∀ c ∈ s, isWs c = false := by
  intro c hc
  rcases h.mem hc with rfl | rfl | rfl | rfl | rfl | hd
  · decide
  · decide
  · decide
  · decide
  · decide
  · exact digit_nows hd

theorem RealLit.dot {s : Str} (h : RealLit s) : '.' ∈ s := by
  obtain ⟨g, i, f, e, rfl, -⟩ := h
  simp

theorem IntLit.nodot {s : Str} (h : IntLit s) : '.' ∉ s := by
  intro hc
  rcases h.mem hc with h | h | h <;> exact absurd h (by decide)

theorem real_iff (s : Str) : (s.contains '.' && pyFloat s) = true ↔ RealLit (strip s) := by
  rw [Bool.and_eq_true, List.contains_iff_mem]
  constructor
  · rintro ⟨hdot, h⟩
    rw [← Env.mem_strip_iff (c := '.') (by decide)] at hdot
    unfold pyFloat at h
    obtain ⟨g, hg, e⟩ := unsign_eq (strip s)
    generalize hu : unsign (strip s) = t at *
    have hdt : '.' ∈ t := by
      rw [e] at hdot
      rcases List.mem_append.1 hdot with h | h
      · rcases sign_mem hg h with h | h <;> exact absurd h (by decide)
      · exact h
    obtain ⟨e1, d1⟩ := split_digits t
    simp only at h
    split at h
    · next r hr =>
      rw [Bool.and_eq_true, exponent_iff] at h
      obtain ⟨e2, d2⟩ := split_digits r
      refine ⟨g, t.takeWhile Char.isDigit, r.takeWhile Char.isDigit, r.dropWhile Char.isDigit, ?_, hg, d1, d2, ?_, h.2⟩
      · rw [e, List.append_assoc, List.append_assoc, List.cons_append, ← e2, ← hr, ← e1]
      · have := h.1
        simp only [Bool.or_eq_true, Bool.not_eq_true', List.isEmpty_eq_false_iff] at this
        exact this
    · next r hr =>
      exfalso
      rw [Bool.or_eq_true, Bool.and_eq_true, exponent_iff] at h
      rcases h with ⟨-, h⟩ | h
      · rw [e1] at hdt
        rcases List.mem_append.1 hdt with hm | hm
        · exact absurd (d1 _ hm) (by decide)
        · rcases h with h | h
          · rw [h] at hm; simp at hm
          · rcases h.mem hm with h | h | h | h | h <;> exact absurd h (by decide)
      · have : '.' ∈ lower t := List.mem_map.2 ⟨'.', hdt, rfl⟩
        rw [List.contains_iff_mem] at h
        simp only [List.mem_cons, List.not_mem_nil, or_false] at h
        rcases h with h | h | h <;> rw [h] at this <;> exact absurd this (by decide)
  · intro h
    have hdot := h.dot
    refine ⟨(Env.mem_strip_iff (c := '.') (by decide)).1 hdot, ?_⟩
    obtain ⟨g, i, f, e, hs, hg, hi, hf, hne, he⟩ := h
    unfold pyFloat
    have hu : unsign (strip s) = i ++ '.' :: (f ++ e) := by
      rw [hs, List.append_assoc, List.append_assoc, List.cons_append]
      refine unsign_of hg ?_
      intro c hc
      cases i with
      | nil => simp at hc; subst hc; exact ⟨by decide, by decide⟩
      | cons x i =>
        simp at hc; subst hc
        have := hi x List.mem_cons_self
        constructor <;> rintro rfl <;> exact absurd this (by decide)
    rw [hu]
    obtain ⟨h1, h2⟩ := takeWhile_digits (r := '.' :: (f ++ e)) hi (by intro c hc; simp at hc; subst hc; decide)
    obtain ⟨h3, h4⟩ := takeWhile_digits (r := e) hf (by
      intro c hc
      rcases he with rfl | ⟨x, y, hx, rfl, -⟩
      · simp at hc
      · simp at hc; subst hc; rcases hx with rfl | rfl <;> decide)
    simp only [h1, h2, h3, h4]
    rw [Bool.and_eq_true, exponent_iff]
    refine ⟨?_, he⟩
    simp only [Bool.or_eq_true, Bool.not_eq_true', List.isEmpty_eq_false_iff]
    exact hne

/-! ## Logicals -/

theorem log_iff (s : Str) :
    (s.map Char.toUpper == ".TRUE.".toList || s.map Char.toUpper == ".FALSE.".toList) = true ↔ LogLit s := by
  rw [Bool.or_eq_true, beq_iff_eq, beq_iff_eq, upper_iff (l := ".true.".toList) (by decide) (by decide),
    upper_iff (l := ".false.".toList) (by decide) (by decide)]
  rfl

theorem LogLit.nows {s : Str} (h : LogLit s) : ∀ c ∈ s, isWs c = false ∧ c ≠ '_' := by
  intro c hc
  have hm : c.toLower ∈ s.map Char.toLower := List.mem_map_of_mem hc
  have : c.toLower ∈ ".true.false".toList := by
    rcases h with h | h
    · rw [h] at hm
      exact List.mem_of_mem_take (i := 6) hm
    · rw [h] at hm
      revert hm
      generalize c.toLower = d
      intro hm
      simp at hm ⊢
      tauto
  constructor
  · cases hw : isWs c with
    | false => rfl
    | true =>
      rcases (isWs_iff c).1 hw with rfl | rfl | rfl | rfl | rfl | rfl <;> exact absurd this (by decide)
  · rintro rfl
    exact absurd this (by decide)

/-! ## Character constants -/

theorem body_plain {q : Char} {p : Str} (h : q ∉ p) {b : Str} (hb : Body q b) : Body q (p ++ b) := by
  induction p with
  | nil => exact hb
  | cons c p ih =>
    exact .char (fun e => h (by simp [e])) (ih fun hm => h (List.mem_cons_of_mem _ hm))

theorem body_split {q : Char} {b : Str} (hb : Body q b) : ∀ {p r : Str}, q ∉ p → b ++ [q] = p ++ q :: r →
    r = [] ∨ CharLit q r := by
  induction hb with
  | nil =>
    intro p r hp e
    cases p with
    | nil => exact .inl (List.cons.inj e).2.symm
    | cons c p =>
      have := congrArg List.length e
      simp at this
  | @char c s hc _ ih =>
    intro p r hp e
    cases p with
    | nil => exact absurd (List.cons.inj e).1 hc
    | cons d p =>
      exact ih (fun hm => hp (List.mem_cons_of_mem _ hm)) (List.cons.inj e).2
  | @quote s hs _ =>
    intro p r hp e
    cases p with
    | nil => exact .inr ⟨s, (List.cons.inj e).2.symm, hs⟩
    | cons d p => exact absurd (by simp [(List.cons.inj e).1]) hp

theorem first_sep (q : Char) (s : Str) : q ∈ s → ∃ p r, s = p ++ q :: r ∧ q ∉ p := by
  induction s with
  | nil => intro h; simp at h
  | cons c s ih =>
    intro h
    by_cases hc : c = q
    · exact ⟨[], s, by simp [hc], by simp⟩
    · rcases List.mem_cons.1 h with h | h
      · exact absurd h.symm hc
      · obtain ⟨p, r, e, hp⟩ := ih h
        refine ⟨c :: p, r, by rw [e]; rfl, ?_⟩
        simp [hp, Ne.symm hc]

theorem parts_iff (q : Char) : ∀ (n : Nat) (s : Str), s.length ≤ n →
    (((Chk.splitOn q s).length % 2 = 1 ∧ evenEmpty (Chk.splitOn q s) = true) ↔ (s = [] ∨ CharLit q s)) := by
  intro n
  induction n with
  | zero =>
    intro s hs
    have : s = [] := List.length_eq_zero_iff.1 (by omega)
    subst this
    simp [Chk.splitOn, evenEmpty]
  | succ n ih =>
    intro s hs
    cases s with
    | nil => simp [Chk.splitOn, evenEmpty]
    | cons c s =>
      by_cases hc : c = q
      · subst hc
        by_cases hq : c ∈ s
        · obtain ⟨p, r, rfl, hp⟩ := first_sep c s hq
          have e : Chk.splitOn c (c :: (p ++ c :: r)) = [] :: p :: Chk.splitOn c r := by
            rw [Chk.splitOn, if_pos rfl, Chk.splitOn_append c p r hp]
          rw [e]
          have hl : ([] :: p :: Chk.splitOn c r).length % 2 = (Chk.splitOn c r).length % 2 := by
            simp only [List.length_cons]; omega
          have hv : evenEmpty ([] :: p :: Chk.splitOn c r) = evenEmpty (Chk.splitOn c r) := by
            simp [evenEmpty]
          rw [hl, hv, ih r (by simp at hs; omega)]
          constructor
          · rintro (rfl | ⟨b, rfl, hb⟩)
            · exact .inr ⟨p, rfl, by simpa using body_plain hp (.nil)⟩
            · exact .inr ⟨p ++ c :: c :: b, by simp, body_plain hp (.quote hb)⟩
          · rintro (h | ⟨b, h, hb⟩)
            · cases h
            · exact body_split hb hp (List.cons.inj h).2.symm
        · have e : Chk.splitOn c (c :: s) = [[], s] := by
            rw [Chk.splitOn, if_pos rfl, Chk.splitOn_item c s hq]
          rw [e]
          constructor
          · rintro ⟨h, -⟩; simp at h
          · rintro (h | ⟨b, h, -⟩)
            · cases h
            · exact absurd (by rw [(List.cons.inj h).2]; simp) hq
      · constructor
        · rintro ⟨-, h⟩
          exfalso
          rw [Chk.splitOn, if_neg hc] at h
          split at h
          · simp [evenEmpty] at h
          · next t ts _ =>
            cases ts with
            | nil => simp [evenEmpty] at h
            | cons u us => simp [evenEmpty] at h
        · rintro (h | ⟨b, h, -⟩)
          · cases h
          · exact absurd (List.cons.inj h).1 hc

/-- The character test accepts the texts between any two equal characters. -/
theorem charVal_true (s : Str) : charVal s = .ok true ↔ ∃ q, CharLit q s := by
  cases s with
  | nil =>
    simp only [charVal, reduceCtorEq, false_iff]
    rintro ⟨q, b, h, -⟩
    cases h
  | cons q s =>
    have := parts_iff q _ (q :: s) (Nat.le_refl _)
    simp only [charVal]
    have hq : (∃ q', CharLit q' (q :: s)) ↔ CharLit q (q :: s) := by
      constructor
      · rintro ⟨q', b, h, hb⟩
        obtain ⟨rfl, rfl⟩ := List.cons.inj h
        exact ⟨b, rfl, hb⟩
      · exact fun h => ⟨q, h⟩
    rw [hq]
    simp only [reduceCtorEq, false_or] at this
    rw [← this]
    split
    · next h => simp only [Out.ok.injEq, Bool.false_eq_true, false_iff]; rintro ⟨h', -⟩; omega
    · next h =>
      constructor
      · intro e
        exact ⟨by omega, Out.ok.inj e⟩
      · rintro ⟨-, e⟩; rw [e]

theorem charVal_index (s : Str) : charVal s = .index ↔ s = [] := by
  cases s with
  | nil => simp [charVal]
  | cons q s =>
    simp only [charVal]
    split <;> simp

theorem charVal_cases (s : Str) : charVal s = .index ∨ charVal s = .ok true ∨ charVal s = .ok false := by
  cases s with
  | nil => exact .inl rfl
  | cons q s =>
    simp only [charVal]
    split
    · simp
    · cases evenEmpty (Chk.splitOn q (q :: s)) <;> simp

end Ccpp.Lit
