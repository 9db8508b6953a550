import Verif.Spec.VarText
import Verif.Props.FortranParse
import Verif.Props.RefCheckThm
/-!
# C90: pieces of the declaration
-/
namespace Ccpp.VText

open Ccpp.FDecl
open Ccpp.RC (Ref)

abbrev Str := List Char

/-! ## Characters -/

theorem blank_blanks (n : Int) : Blank (blanks n) := by
  intro c hc; unfold blanks at hc; rw [List.eq_of_mem_replicate hc]; decide

theorem blank_append {a b : Str} (ha : Blank a) (hb : Blank b) : Blank (a ++ b) := fun c hc =>
  (List.mem_append.1 hc).elim (ha c) (hb c)

/-- Neither exclamation mark nor colon. -/
def Plain (s : Str) : Prop := ∀ c ∈ s, c ≠ '!' ∧ c ≠ ':'

theorem plain_append {a b : Str} (ha : Plain a) (hb : Plain b) : Plain (a ++ b) := fun c hc =>
  (List.mem_append.1 hc).elim (ha c) (hb c)

theorem plain_blank {a : Str} (h : Blank a) : Plain a := by
  intro c hc
  have := h c hc
  constructor <;> (rintro rfl; revert this; decide)

theorem plain_of {s : Str} (h : s.all (fun c => c != '!' && c != ':') = true) : Plain s := by
  intro c hc
  have := List.all_eq_true.1 h c hc
  simpa using this

theorem plain_alpha {s : Str} (h : ∀ c ∈ s, c.isAlpha = true) : Plain s := by
  intro c hc
  have := h c hc
  constructor <;> (rintro rfl; revert this; decide)

theorem plain_word {s : Str} (h : ∀ c ∈ s, isWordC c = true) : Plain s := by
  intro c hc
  have := h c hc
  constructor <;> (rintro rfl; revert this; decide)

theorem plain_lower {s : Str} (h : Plain (lower s)) : Plain s := by
  intro c hc
  have h1 : c.toLower ∈ lower s := List.mem_map_of_mem hc
  have := h _ h1
  constructor <;> (rintro rfl; revert this; decide)

theorem plain_bang {s : Str} (h : Plain s) : '!' ∉ s := fun hm => (h _ hm).1 rfl

theorem plain_colon {s : Str} (h : Plain s) : ':' ∉ s := fun hm => (h _ hm).2 rfl

theorem dd_pre {p s : Str} (hp : ':' ∉ p) (hs : ¬ [':', ':'] <:+: s) : ¬ [':', ':'] <:+: p ++ s := by
  induction p with
  | nil => exact hs
  | cons c p ih =>
    rw [List.cons_append, List.infix_cons_iff]
    rintro (h | h)
    · rw [List.cons_prefix_cons] at h
      exact hp (List.mem_cons.2 (.inl h.1))
    · exact ih (fun hm => hp (List.mem_cons_of_mem _ hm)) h

theorem dd_one (c : Char) : ¬ [':', ':'] <:+: [c] := by
  intro h
  have := h.length_le
  simp at this

theorem dd_snoc {t : Str} {c : Char} (ht : ¬ [':', ':'] <:+: t) (hc : c ≠ ':') : ¬ [':', ':'] <:+: t ++ [c] := by
  rintro ⟨a, b, e⟩
  rcases List.eq_nil_or_concat b with rfl | ⟨b', x, rfl⟩
  · have := congrArg List.getLast? e
    simp at this
    exact hc this.symm
  · have e' : (a ++ [':', ':'] ++ b') ++ [x] = t ++ [c] := by simpa using e
    have := (List.append_inj' e' rfl).1
    exact ht ⟨a, b', this⟩

theorem dd_plain {s : Str} (h : Plain s) : ¬ [':', ':'] <:+: s := by
  have := dd_pre (p := s) (s := []) (plain_colon h) (by simp)
  simpa using this

/-! ## Types -/

theorem intrinsic_plain {w : Str} (h : IntrinsicWord w) : Plain w := by
  cases h with
  | one h =>
    apply plain_lower
    simp only [List.mem_cons, List.not_mem_nil, or_false] at h
    rcases h with h | h | h | h <;> (rw [h]; exact plain_of (by decide))
  | two hd hb hp =>
    exact plain_append (plain_append (plain_lower (by rw [hd]; exact plain_of (by decide))) (plain_blank hb))
      (plain_lower (by rw [hp]; exact plain_of (by decide)))

theorem length_bang {l : Str} (h : LengthText l) : '!' ∉ l := by
  rcases h with rfl | rfl | ⟨_, h⟩ | ⟨c, r, rfl, hc, hr⟩
  · decide
  · decide
  · intro hm; have := h _ hm; revert this; decide
  · intro hm
    rcases List.mem_cons.1 hm with rfl | hm
    · revert hc; decide
    · have := hr _ hm; revert this; decide

theorem name_plain {n : Str} (h : Chk.IsName n) : Plain n := plain_word (RC.name_chars h)

/-- The type as written. -/
def typeText (v : Info) : Str :=
  if v.ddt then (if v.polymorphic then "class(".toList else "type(".toList) ++ v.kind ++ ")".toList
  else if !v.kind.isEmpty then v.type ++ "(".toList ++ v.kind ++ ")".toList else v.type

theorem typeText_ok {v : Info} (h : if v.ddt then Chk.IsName v.kind else KindOk v.type v.kind) :
    TypeText (typeText v) (typeOf v) ∧ '!' ∉ typeText v := by
  unfold typeText typeOf
  cases hd : v.ddt with
  | true =>
    simp only [hd, if_true] at h ⊢
    cases v.polymorphic
    · refine ⟨?_, ?_⟩
      · have := TypeText.derived (w := "type".toList) (g := []) (a := []) (n := v.kind) (b := []) (.inl (by decide)) blank_nil blank_nil h blank_nil
        simpa using this
      · have := plain_bang (name_plain h); simp [this]
    · refine ⟨?_, ?_⟩
      · have := TypeText.derived (w := "class".toList) (g := []) (a := []) (n := v.kind) (b := []) (.inr (by decide)) blank_nil blank_nil h blank_nil
        simpa using this
      · have := plain_bang (name_plain h); simp [this]
  | false =>
    simp only [hd, Bool.false_eq_true, if_false] at h ⊢
    rcases h with ⟨hk, ht⟩ | ⟨hk, ht⟩ | ⟨ht, l, hl, hk⟩
    · rw [hk]
      exact ⟨by simpa using TypeText.plain ht, by simpa using plain_bang (intrinsic_plain ht)⟩
    · have hne : v.kind ≠ [] := hk.1
      have hne' : v.kind.isEmpty = false := by cases hh : v.kind <;> simp_all
      refine ⟨?_, ?_⟩
      · have := TypeText.kind (w := v.type) (g := []) (s := v.kind) (k := v.kind) ht blank_nil
          (by simpa using KindText.plain (a := []) (k := v.kind) (b := []) blank_nil blank_nil) hk
        simpa [hne, hne'] using this
      · have h1 := plain_bang (intrinsic_plain ht)
        have h2 := plain_bang (plain_word hk.2.1)
        simp [hne', h1, h2]
    · have hne : v.kind ≠ [] := by rw [hk]; simp
      have hne' : v.kind.isEmpty = false := by cases hh : v.kind <;> simp_all
      refine ⟨?_, ?_⟩
      · have := TypeText.character (w := v.type) (g := []) (a := []) (n := "len".toList) (b := []) (c := []) (l := l) (d := [])
          ht blank_nil blank_nil (by decide) blank_nil blank_nil hl blank_nil
        simp only [hne', hne, Bool.not_false, if_true, if_false, hk]
        simpa using this
      · have h1 : '!' ∉ v.type := plain_bang (plain_lower (by rw [ht]; exact plain_of (by decide)))
        have h2 := length_bang hl
        simp only [hne', Bool.not_false, if_true, hk]
        simp [h1, h2]

/-! ## Names -/

theorem takeWhile_all {p : Char → Bool} {a b : Str} (ha : ∀ c ∈ a, p c = true) :
    (a ++ b).takeWhile p = a ++ b.takeWhile p := by
  induction a with
  | nil => rfl
  | cons c a ih => simp [ha c (by simp), ih fun x hx => ha x (List.mem_cons_of_mem _ hx)]

theorem ref_first {n : Str} {ds : List Str} {s : Str} (h : Ref n ds s) : s.takeWhile isWordC = n := by
  obtain ⟨hn, b, r, hb, _, rfl⟩ := h
  rw [List.append_assoc, List.append_assoc, takeWhile_all (RC.name_chars hn)]
  have : (b ++ ('(' :: r ++ [')'])).takeWhile isWordC = [] := by
    cases b with
    | nil => simp [show isWordC '(' = false by decide]
    | cons c b =>
      have hc := hb c (by simp)
      have : isWordC c = false := by
        rcases hc with rfl | rfl | rfl | rfl | rfl | rfl <;> decide
      simp [this]
  rw [this, List.append_nil]

theorem dollar_ref (s : Str) : RC.scalarRef.dollar s = true ↔
    RC.UpToNewline (fun t => ∃ n ds, ds.length ≤ 7 ∧ Ref n ds t) s := by
  rw [Rx.dollar_iff]
  unfold RC.UpToNewline
  simp only [RC.scalarRef_iff]

theorem baseName_ok {v : Info} {n : Str} (h : LocalName v.name n) : baseName v = n ∧ Chk.IsName n := by
  unfold baseName arrayRef
  rcases h with ⟨hs, hn⟩ | ⟨ds, hl, hr⟩
  · have : RC.scalarRef.dollar v.name = false := by
      cases hd : RC.scalarRef.dollar v.name with
      | false => rfl
      | true =>
        exfalso
        have hp : '(' ∈ v.name := by
          rcases (dollar_ref _).1 hd with ⟨_, _, _, _, b, r, _, _, e⟩ | ⟨t, e, _, _, _, _, b, r, _, _, e'⟩
          · rw [e]; simp
          · rw [e, e']; simp
        have := RC.name_chars hn '(' (hs ▸ hp)
        revert this; decide
    rw [this]
    exact ⟨by simpa using hs, hn⟩
  · have : RC.scalarRef.dollar v.name = true := (dollar_ref _).2 (.inl ⟨n, ds, hl, hr⟩)
    rw [this]
    exact ⟨by simpa using ref_first hr, hr.1⟩

/-! ## Dimensions -/

theorem colons_eq (n : Nat) (h : n ≠ 0) : colons n = '(' :: (commaJoin (List.replicate n [':']) ++ [')']) := by
  have key : ∀ m : Nat, commaJoin (List.replicate (m + 1) [':']) = ':' :: (List.replicate m ",:".toList).flatten := by
    intro m
    induction m with
    | zero => rfl
    | succ m ih =>
      have : List.replicate (m + 1 + 1) [':'] = [':'] :: [':'] :: List.replicate m [':'] := rfl
      rw [this]
      have e2 : commaJoin ([':'] :: List.replicate m [':']) = commaJoin (List.replicate (m + 1) [':']) := rfl
      show [':'] ++ ',' :: commaJoin ([':'] :: List.replicate m [':']) = _
      rw [e2, ih, List.replicate_succ]
      simp
  obtain ⟨m, rfl⟩ : ∃ m, n = m + 1 := ⟨n - 1, by omega⟩
  rw [key]
  unfold colons
  simp

theorem commaJoin_colons (n : Nat) : (∀ c ∈ commaJoin (List.replicate n [':']), c = ':' ∨ c = ',') ∧
    ¬ [':', ':'] <:+: commaJoin (List.replicate n [':']) := by
  induction n with
  | zero => exact ⟨(by intro c hc; cases hc), (by simp [commaJoin])⟩
  | succ n ih =>
    cases n with
    | zero => exact ⟨(by intro c hc; exact .inl (by simpa [commaJoin] using hc)), (by simpa [commaJoin] using dd_one ':')⟩
    | succ n =>
      have e : commaJoin (List.replicate (n + 1 + 1) [':']) = ':' :: ',' :: commaJoin (List.replicate (n + 1) [':']) := rfl
      rw [e]
      refine ⟨?_, ?_⟩
      · intro c hc
        rcases List.mem_cons.1 hc with rfl | hc
        · exact .inl rfl
        rcases List.mem_cons.1 hc with rfl | hc
        · exact .inr rfl
        · exact ih.1 c hc
      · rw [List.infix_cons_iff, List.infix_cons_iff]
        rintro (h | h | h)
        · simp [List.cons_prefix_cons] at h
        · simp [List.cons_prefix_cons] at h
        · exact ih.2 h

theorem colons_text (n : Nat) : DimText (commaJoin (List.replicate n [':'])) ∧
    '!' ∉ commaJoin (List.replicate n [':']) ∧ ¬ [':', ':'] <:+: commaJoin (List.replicate n [':']) := by
  have hc := (commaJoin_colons n).1
  have hp : ∀ c ∈ commaJoin (List.replicate n [':']), c ≠ '(' ∧ c ≠ ')' := by
    intro c h; rcases hc c h with rfl | rfl <;> decide
  refine ⟨⟨balance_plain hp, ?_, ?_⟩, ?_, (commaJoin_colons n).2⟩
  · intro a b e
    rw [balance_plain fun c h => hp c (e ▸ List.mem_append_left _ h)]
  · intro c h; rcases hc c h with rfl | rfl <;> decide
  · intro h; rcases hc _ h with h | h <;> exact absurd h (by decide)

/-- The name and the dimensions as written. -/
theorem entity_ok {n : Str} (hn : Chk.IsName n) {dims : Str} {d : Option Str}
    (h : (dims = [] ∧ d = none) ∨ ∃ t, dims = '(' :: (t ++ [')']) ∧ d = some dims ∧ DimText t ∧ '!' ∉ t ∧ ¬ [':', ':'] <:+: t) :
    EntText (' ' :: (n ++ dims)) n d ∧ '!' ∉ ' ' :: (n ++ dims) ∧ ¬ [':', ':'] <:+: ' ' :: (n ++ dims) := by
  have b1 : Blank [' '] := by unfold Blank; decide
  have hp := name_plain hn
  rcases h with ⟨rfl, rfl⟩ | ⟨t, rfl, rfl, ht, hb, hdd⟩
  · refine ⟨by simpa using EntText.scalar (p := [' ']) (n := n) (q := []) b1 hn blank_nil, ?_, ?_⟩
    · have := plain_bang hp; simpa using this
    · have := dd_plain (plain_append (plain_blank b1) hp); simpa using this
  · refine ⟨by simpa using EntText.array (p := [' ']) (n := n) (g := []) (t := t) (q := []) b1 hn blank_nil ht blank_nil, ?_, ?_⟩
    · have := plain_bang hp; simp [this, hb]
    · have := dd_pre (p := ' ' :: n ++ ['(']) (s := t ++ [')'])
        (plain_colon (plain_append (plain_append (plain_blank b1) hp) (plain_of (s := ['(']) (by decide))))
        (dd_snoc hdd (by decide))
      simpa using this

end Ccpp.VText
