import Verif.Props.Conditions
/-! # Lemmas for C77: every text that is accepted -/
namespace Ccpp.CD
open PB (Str IsName IsDigits joined)

theorem toLower_cases (c : Char) : (c.toLower = c ∧ c.isUpper = false) ∨ (c.isUpper = true ∧ c.toLower.isLower = true) := by
  unfold Char.toLower
  split
  · next hc =>
    right
    simp only [Char.isLower, Char.isUpper, Bool.and_eq_true, decide_eq_true_eq]
    simp only [ge_iff_le, UInt32.le_iff_toNat_le, UInt32.toNat_add] at hc ⊢
    simp at hc ⊢
    omega
  · next hc =>
    left
    refine ⟨rfl, ?_⟩
    rw [Bool.eq_false_iff]
    intro h
    apply hc
    simpa [Char.isUpper] using h

theorem upper_alpha {c : Char} (h : c.isUpper = true) : c.isAlpha = true := by simp [Char.isAlpha, h]
theorem lower_alpha {c : Char} (h : c.isLower = true) : c.isAlpha = true := by simp [Char.isAlpha, h]
theorem alpha_word {c : Char} (h : c.isAlpha = true) : isWordQ c = true := by rw [wordC_cases]; left; simp [Char.isAlphanum, h]

theorem not_word_lower {c : Char} (h : isWordQ c = false) : c.toLower = c := by
  rcases toLower_cases c with h' | h'
  · exact h'.1
  · rw [alpha_word (upper_alpha h'.1)] at h; exact absurd h (by decide)

theorem word_lower {c : Char} (h : isWordQ c = true) : isWordQ c.toLower = true := by
  rcases toLower_cases c with h' | h'
  · rw [h'.1]; exact h
  · exact alpha_word (lower_alpha h'.2)

theorem alpha_of_lower {c : Char} (h : c.toLower.isAlpha = true) : c.isAlpha = true := by
  rcases toLower_cases c with h' | h'
  · rwa [h'.1] at h
  · exact upper_alpha h'.1

theorem low_not_digit {c : Char} (h : c.isLower = true) : c.isDigit = false := by
  rw [Bool.eq_false_iff]; intro hd
  exact absurd (lower_alpha h) (by intro ha; exact absurd hd (by rw [PB.alpha_not_digit ha]; decide))

theorem low_not_us {c : Char} (h : c.isLower = true) : c ≠ '_' := by rintro rfl; exact absurd h (by decide)

theorem name_of_lower {n : Str} (h : IsName (lower n)) : IsName n := by
  obtain ⟨⟨c, r, he, hc⟩, ha⟩ := h
  cases n with
  | nil => exact absurd he (by simp [lower])
  | cons x n =>
    simp only [lower, List.map_cons, List.cons.injEq] at he
    refine ⟨⟨x, n, rfl, alpha_of_lower (he.1 ▸ hc)⟩, ?_⟩
    intro y hy
    rcases toLower_cases y with h' | h'
    · have := ha y.toLower (List.mem_map.2 ⟨y, hy, rfl⟩); rwa [h'.1] at this
    · left; simp [Char.isAlphanum, upper_alpha h'.1]

theorem num_of_lower {d : Str} (h : IsNumber (lower d)) : IsNumber d := by
  have : lower d = d := by
    have hm : ∀ c ∈ lower d, c.isDigit = true ∨ c = '_' := by
      obtain ⟨l, _, hl, he⟩ := h; rw [he]; exact joined_mem hl
    unfold lower
    conv => rhs; rw [← List.map_id d]
    refine List.map_congr_left fun c hc => ?_
    rcases toLower_cases c with h' | h'
    · exact h'.1
    · rcases hm c.toLower (List.mem_map.2 ⟨c, hc, rfl⟩) with h | h
      · rw [low_not_digit h'.2] at h; exact absurd h (by decide)
      · exact absurd h (low_not_us h'.2)
  rwa [this] at h

/-! ### the words of the regular expression -/

theorem word_tok : ∀ w ∈ words, w = [' '] ∨ ∃ o ∈ operators, o.toList = w := by decide +kernel

theorem words_shape : ∀ w ∈ words, '.' ∉ w ∨
    (w = '.' :: (w.drop 1).dropLast ++ ['.'] ∧ '.' ∉ (w.drop 1).dropLast ∧ lower (w.drop 1).dropLast = (w.drop 1).dropLast ∧
      (w.drop 1).dropLast ≠ [] ∧ ∀ c ∈ (w.drop 1).dropLast.head?, c.isAlpha = true) := by decide +kernel

theorem words_last : ∀ w ∈ words, ∀ c ∈ w.getLast?, isWordQ c = false := by decide +kernel

theorem fits_plain {w s : Str} (h : fits w s = true) (hw : '.' ∉ w) : w <+: s := by
  induction w generalizing s with
  | nil => exact List.nil_prefix
  | cons k w ih =>
    cases s with
    | nil => exact absurd h (by simp [fits])
    | cons c s =>
      have hk : k ≠ '.' := fun h => hw (by simp [h])
      simp only [fits, if_neg hk, Bool.and_eq_true, beq_iff_eq] at h
      rw [h.1]
      exact List.cons_prefix_cons.2 ⟨rfl, ih h.2 fun hm => hw (by simp [hm])⟩

theorem fits_dotted {m s : Str} (h : fits (m ++ ['.']) s = true) (hm : '.' ∉ m) : ∃ b r, s = m ++ b :: r := by
  induction m generalizing s with
  | nil =>
    cases s with
    | nil => exact absurd h (by simp [fits])
    | cons c s => exact ⟨c, s, rfl⟩
  | cons k m ih =>
    cases s with
    | nil => exact absurd h (by simp [fits])
    | cons c s =>
      have hk : k ≠ '.' := fun h => hm (by simp [h])
      simp only [List.cons_append, fits, if_neg hk, Bool.and_eq_true, beq_iff_eq] at h
      obtain ⟨b, r, rfl⟩ := ih h.2 fun hm' => hm (by simp [hm'])
      exact ⟨b, r, by rw [h.1]; rfl⟩

theorem isInt_alpha {a c : Char} {r : Str} (hc : c.isAlpha = true) : PB.isInt (a :: c :: r) = false := by
  have hd := PB.alpha_not_digit hc
  have hu : c ≠ '_' := by rintro rfl; exact absurd hc (by decide)
  have hr : PB.restDigits (c :: r) = false := by
    rw [PB.restDigits.eq_3 _ _ (fun _ _ h => absurd h hu), hd]; rfl
  by_cases h1 : a = '+'
  · subst h1; simp [PB.isInt, PB.isNat, hd]
  by_cases h2 : a = '-'
  · subst h2; simp [PB.isInt, PB.isNat, hd]
  rw [PB.isInt.eq_3 _ (fun _ h => h1 (by injection h)) (fun _ h => h2 (by injection h))]
  simp [PB.isNat, hr]

/-- The result of a match that is accepted is an element. -/
theorem item_tok {look : Str → Option Str} (hl : ∀ n, look n ≠ none → IsName n) {s : Str} {k : Nat} (hm : matchLen s = some k)
    {p : Str × List Str} (hp : piece look (s.take k) = some p) :
    ∃ a : Tok, a.Ok ∧ a.text = s.take k ∧ (a.Word → ∀ c ∈ (s.drop k).head?, isWordQ c = false) := by
  unfold matchLen at hm
  split at hm
  · next he =>
    have he : s.takeWhile isWordQ = [] := by simpa using he
    obtain ⟨w, hw, rfl⟩ := Option.map_eq_some_iff.1 hm
    have hwm := List.mem_of_find?_eq_some hw
    have hf := List.find?_some hw
    have key : s.take w.length ∈ words := by
      rcases words_shape w hwm with hd | ⟨hd, hnd, hlow, hne, hal⟩
      · obtain ⟨r, rfl⟩ := fits_plain hf hd
        simpa using hwm
      · generalize (w.drop 1).dropLast = m at hd hnd hlow hne hal
        subst hd
        cases s with
        | nil => exact absurd hf (by simp [fits])
        | cons a s =>
          simp only [List.cons_append, fits, if_true, Bool.and_eq_true] at hf
          obtain ⟨b, r, rfl⟩ := fits_dotted hf.2 hnd
          have ha : isWordQ a = false := by
            rw [Bool.eq_false_iff]; intro h; simp [h] at he
          have htake : (a :: (m ++ b :: r)).take ('.' :: m ++ ['.']).length = a :: (m ++ [b]) := by
            simp [List.take_append, List.take_of_length_le]
          rw [htake] at hp ⊢
          have hlo : lower (a :: (m ++ [b])) = a :: (m ++ [b.toLower]) := by
            simp only [lower, List.map_cons, not_word_lower ha, List.map_append, List.map_nil]
            simp only [lower] at hlow
            rw [hlow]
          cases m with
          | nil => exact absurd rfl hne
          | cons c m =>
            have hc := hal c (by simp)
            have hint : PB.isInt (a :: (c :: m ++ [b.toLower])) = false := isInt_alpha hc
            simp only [piece, hlo] at hp
            split at hp
            · next hin =>
              have hb : isWordQ b.toLower = false := words_last _ hin _ (by
                rw [show a :: (c :: m ++ [b.toLower]) = (a :: c :: m) ++ [b.toLower] from rfl, List.getLast?_concat]; simp)
              have hb' : isWordQ b = false := by
                rw [Bool.eq_false_iff]; intro h; rw [word_lower h] at hb; exact absurd hb (by decide)
              rwa [not_word_lower hb'] at hin
            · rw [hint] at hp
              simp only [Bool.false_eq_true, if_false, Option.map_eq_some_iff] at hp
              obtain ⟨v, hv, _⟩ := hp
              have := (hl _ (by rw [hv]; simp)).1
              obtain ⟨x, r', hx, hxa⟩ := this
              simp only [List.cons_append, List.cons.injEq] at hx
              rw [← hx.1] at hxa
              rw [alpha_word hxa] at ha; exact absurd ha (by decide)
    rcases word_tok _ key with h | ⟨o, ho, h⟩
    · exact ⟨.blank, trivial, h.symm, fun h => absurd h id⟩
    · exact ⟨.op o, ho, h, fun h => absurd h id⟩
  · next he =>
    have hk : (s.takeWhile isWordQ).length = k := by simpa using hm
    have htk : s.take k = s.takeWhile isWordQ := by
      have := List.take_left' (l₁ := s.takeWhile isWordQ) (l₂ := s.dropWhile isWordQ) hk
      rwa [List.takeWhile_append_dropWhile] at this
    have hdk : s.drop k = s.dropWhile isWordQ := by
      have := List.drop_left' (l₁ := s.takeWhile isWordQ) (l₂ := s.dropWhile isWordQ) hk
      rwa [List.takeWhile_append_dropWhile] at this
    have hne : s.takeWhile isWordQ ≠ [] := by simpa using he
    have hword : ∀ c ∈ s.takeWhile isWordQ, isWordQ c = true := fun c hc => (List.all_eq_true.1 List.all_takeWhile) c hc
    have hrest : ∀ c ∈ (s.drop k).head?, isWordQ c = false := by
      intro c hc
      rw [hdk] at hc
      have := List.head?_dropWhile_not isWordQ s
      rw [Option.mem_def.1 hc] at this
      simpa using this
    rw [htk] at hp ⊢
    have hlw : ∀ c ∈ lower (s.takeWhile isWordQ), isWordQ c = true := by
      intro c hc
      obtain ⟨y, hy, rfl⟩ := List.mem_map.1 hc
      exact word_lower (hword y hy)
    have hnw := word_not_words (s := lower (s.takeWhile isWordQ)) (by simpa [lower] using hne) hlw
    simp only [piece] at hp
    rw [if_neg hnw] at hp
    split at hp
    · next hi =>
      exact ⟨.num (s.takeWhile isWordQ), num_of_lower (num_of_isInt hlw hi), rfl, fun _ => hrest⟩
    · obtain ⟨v, hv, _⟩ := Option.map_eq_some_iff.1 hp
      exact ⟨.name (s.takeWhile isWordQ), name_of_lower (hl _ (by rw [hv]; simp)), rfl, fun _ => hrest⟩

theorem findall_drop (n : Nat) (s : Str) : findall n s = findall 0 (s.drop n) := by
  induction s generalizing n with
  | nil => cases n <;> rfl
  | cons c s ih =>
    cases n with
    | zero => rfl
    | succ n => simpa [findall] using ih n

theorem matchLen_pos {s : Str} {k : Nat} (h : matchLen s = some k) : 0 < k := by
  unfold matchLen at h
  split at h
  · obtain ⟨w, hw, rfl⟩ := Option.map_eq_some_iff.1 h
    exact List.length_pos_iff.2 (words_head w (List.mem_of_find?_eq_some hw)).1
  · next he =>
    injection h with h
    rw [← h]
    exact List.length_pos_iff.2 (by simpa using he)

theorem lost_soft {c : Char} {s : Str} (h : matchLen (c :: s) = none) : solid c = false := by
  rw [Bool.eq_false_iff]
  intro hs
  unfold matchLen at h
  split at h
  · next he =>
    simp only [Option.map_eq_none_iff, List.find?_eq_none] at h
    have hw : isWordQ c = false := by
      rw [Bool.eq_false_iff]; intro hw; simp [hw] at he
    have hw : ¬ (c.isAlphanum = true ∨ c = '_' ∨ c = '\'') := by rw [← wordC_cases, hw]; decide
    simp only [solid, Bool.or_eq_true, beq_iff_eq] at hs
    have hc : c = ' ' ∨ c = '(' ∨ c = ')' ∨ c = '<' ∨ c = '>' := by tauto
    rcases hc with rfl | rfl | rfl | rfl | rfl
    · exact h [' '] (by decide) (by simp [fits])
    · exact h ['('] (by decide) (by simp [fits])
    · exact h [')'] (by decide) (by simp [fits])
    · exact h ['<'] (by decide) (by simp [fits])
    · exact h ['>'] (by decide) (by simp [fits])
  · exact absurd h (by simp)

theorem less_apart {s : Str} {x : Char} (hx : x = '<' ∨ x = '>') {k : Nat} (hm : matchLen s = some k) (ht : s.take k = [x]) :
    ∀ c ∈ (s.drop k).head?, c ≠ '=' := by
  rintro c hc rfl
  have hk := matchLen_pos hm
  cases s with
  | nil => simp at ht
  | cons y s =>
    cases k with
    | zero => simp at hk
    | succ k =>
      simp only [List.take_succ_cons, List.cons.injEq, List.drop_succ_cons] at ht hc
      obtain ⟨rfl, ht⟩ := ht
      cases s with
      | nil => simp at hc
      | cons z s =>
        cases k with
        | zero =>
          simp at hc
          subst hc
          rcases hx with rfl | rfl
          · exact absurd hm (by rw [show matchLen ('<' :: '=' :: s) = some 2 from rfl]; simp)
          · exact absurd hm (by rw [show matchLen ('>' :: '=' :: s) = some 2 from rfl]; simp)
        | succ k => simp at ht

theorem text_head {l : List Tok} (h : ∀ a ∈ l, a.Ok) {b : Tok} {m : List Tok} (e : l = b :: m) : (text l).head? = b.text.head? := by
  subst e
  rw [text_cons, List.head?_append_of_ne_nil _ (tok_ne (h b (by simp)))]

theorem accepted_all {look : Str → Option Str} (hl : ∀ n, look n ≠ none → IsName n) : ∀ (n : Nat) (s : Str), s.length ≤ n → ∀ r,
    loop look (findall 0 s) = some r →
      ∃ l : List Tok, (∀ a ∈ l, a.Ok) ∧ l.map Tok.text = findall 0 s ∧ List.Sublist (text l) s ∧ (text l).filter solid = s.filter solid ∧
        (text l = s → Condition l)
  | 0, s, hs, r, _ => by
    have : s = [] := by simpa using hs
    subst this
    exact ⟨[], by simp, rfl, .slnil, rfl, fun _ => trivial⟩
  | n + 1, [], _, r, _ => ⟨[], by simp, rfl, .slnil, rfl, fun _ => trivial⟩
  | n + 1, c :: s, hs, r, hr => by
    have hs : s.length ≤ n := by simpa using hs
    cases hm : matchLen (c :: s) with
    | none =>
      have hfa : findall 0 (c :: s) = findall 0 s := by rw [findall, hm]
      rw [hfa] at hr ⊢
      obtain ⟨l, h1, h2, h3, h4, h5⟩ := accepted_all hl n s hs r hr
      refine ⟨l, h1, h2, h3.cons c, ?_, ?_⟩
      · rw [h4, List.filter_cons, lost_soft hm]; rfl
      · intro he
        have := h3.length_le
        rw [he] at this
        simp at this
        omega
    | some k =>
      have hk := matchLen_pos hm
      have hfa : findall 0 (c :: s) = (c :: s).take k :: findall 0 ((c :: s).drop k) := by
        rw [findall, hm]
        simp only [List.cons.injEq, true_and]
        rw [findall_drop]
        obtain ⟨k, rfl⟩ : ∃ j, k = j + 1 := ⟨k - 1, by omega⟩
        rfl
      rw [hfa] at hr ⊢
      simp only [loop] at hr
      obtain ⟨p, hp, hr⟩ := Option.bind_eq_some_iff.1 hr
      obtain ⟨r', hr', _⟩ := Option.map_eq_some_iff.1 hr
      have hlen : ((c :: s).drop k).length ≤ n := by simp; omega
      obtain ⟨l, h1, h2, h3, h4, h5⟩ := accepted_all hl n _ hlen r' hr'
      obtain ⟨a, ha, hat, haw⟩ := item_tok hl hm hp
      have hsp : (c :: s) = a.text ++ (c :: s).drop k := by rw [hat]; exact (List.take_append_drop k _).symm
      refine ⟨a :: l, ?_, by rw [List.map_cons, h2, hat], ?_, ?_, ?_⟩
      · intro b hb
        rcases List.mem_cons.1 hb with rfl | hb
        exacts [ha, h1 b hb]
      · rw [text_cons, hsp]; exact (List.Sublist.refl _).append h3
      · rw [text_cons, hsp, List.filter_append, List.filter_append, h4]
      · intro he
        have hl' : text l = (c :: s).drop k := by
          rw [text_cons] at he
          exact List.append_cancel_left (he.trans hsp)
        have hc := h5 hl'
        cases hll : l with
        | nil => exact ha
        | cons b m =>
          rw [hll] at hc
          refine ⟨ha, ⟨?_, ?_⟩, hc⟩
          · rintro ⟨hw, hbw⟩
            have hb := tok_word (h1 b (by simp [hll])) hbw
            have hh := text_head h1 hll
            cases hbt : b.text with
            | nil => exact hb.1 hbt
            | cons x y =>
              have h6 := haw hw x (by rw [← hl', hh, hbt]; simp)
              rw [hb.2 x (by simp [hbt])] at h6
              exact absurd h6 (by decide)
          · rintro ⟨hw, rfl⟩
            have hh := text_head h1 hll
            have hx : ∃ x, (x = '<' ∨ x = '>') ∧ a.text = [x] := by
              rcases hw with rfl | rfl
              exacts [⟨'<', .inl rfl, rfl⟩, ⟨'>', .inr rfl, rfl⟩]
            obtain ⟨x, hx, hax⟩ := hx
            exact less_apart hx hm (by rw [← hat, hax]) '=' (by rw [← hl', hh]; rfl) rfl

end Ccpp.CD
