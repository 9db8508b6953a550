import Verif.Model.CodeBlock
import Verif.Spec.CodeBlock
/-!
# C23: code templates are fully substituted
-/
namespace Ccpp.CB

/-! ## Formatting -/

theorem ident_noBrace {n : Str} (h : (Piece.var n).Wf) :
    (∀ c ∈ n, c ≠ '{' ∧ c ≠ '}' ∧ c ≠ '[' ∧ c ≠ '.' ∧ c ≠ '!' ∧ c ≠ ':' ∧ c ≠ ' ') ∧
    n.all Char.isDigit = false := by
  obtain ⟨c, cs, rfl, hc, hcs⟩ := h
  have key : ∀ x : Char, x.isAlphanum = true ∨ x = '_' →
      x ≠ '{' ∧ x ≠ '}' ∧ x ≠ '[' ∧ x ≠ '.' ∧ x ≠ '!' ∧ x ≠ ':' ∧ x ≠ ' ' := by
    intro x hx
    refine ⟨?_, ?_, ?_, ?_, ?_, ?_, ?_⟩ <;> rintro rfl <;> revert hx <;> decide
  refine ⟨?_, ?_⟩
  · intro x hx
    rcases List.mem_cons.1 hx with rfl | hx
    · exact key _ (Or.inl (by simp [Char.isAlphanum, hc]))
    · exact key _ (hcs x hx)
  · have : c.isDigit = false := by
      simp only [Char.isAlpha, Char.isUpper, Char.isLower, Bool.or_eq_true, Bool.and_eq_true,
        decide_eq_true_eq, UInt32.le_iff_toNat_le] at hc
      simp only [Char.isDigit, Bool.and_eq_false_iff, decide_eq_false_iff_not,
        UInt32.le_iff_toNat_le]
      right
      have e1 : 'A'.val.toNat = 65 := rfl
      have e2 : 'a'.val.toNat = 97 := rfl
      have e3 : '9'.val.toNat = 57 := rfl
      rw [e1, e2] at hc
      rw [e3]
      omega
    simp [this]

theorem fmt_lit (d : Dict) (s r : Str) (h : ∀ c ∈ s, c ≠ '{' ∧ c ≠ '}') :
    fmt d (s ++ r) = (fmt d r).map (s ++ ·) := by
  induction s with
  | nil => simp
  | cons c s ih =>
    have hc := h c (by simp)
    rw [List.cons_append, fmt, ih (fun x hx => h x (by simp [hx]))]
    · cases fmt d r <;> simp
    · rintro s' rfl; exact absurd rfl hc.1
    · rintro s' rfl; exact absurd rfl hc.2
    · intro e; exact absurd e hc.1
    · intro e; exact absurd e hc.2

theorem field_spec (d : Dict) (n acc r : Str)
    (h : ∀ c ∈ n, c ≠ '{' ∧ c ≠ '}' ∧ c ≠ '[' ∧ c ≠ '.' ∧ c ≠ '!' ∧ c ≠ ':' ∧ c ≠ ' ')
    (hd : (acc.reverse ++ n).all Char.isDigit = false) :
    fmt.field d acc (n ++ '}' :: r) =
      match d (acc.reverse ++ n), fmt d r with
      | some v, some t => some (v ++ t)
      | _, _ => none := by
  induction n generalizing acc with
  | nil =>
    simp only [List.append_nil] at hd
    simp [fmt.field, hd]
    rfl
  | cons c n ih =>
    have hc := h c (by simp)
    rw [List.cons_append, fmt.field]
    · rw [if_neg (by simp [hc]), ih (c :: acc) (fun x hx => h x (by simp [hx])) (by simpa using hd)]
      simp
    · intro e; exact absurd e hc.2.1

/-- str.format of a well-formed template line: every occurrence substituted, an error if a name is
missing. -/
theorem fmt_text (d : Dict) (ps : List Piece) (h : ∀ p ∈ ps, p.Wf) :
    fmt d (text ps) = if ∀ n ∈ names ps, (d n).isSome then some (value d ps) else none := by
  induction ps with
  | nil => simp [text, fmt, names, value]
  | cons p ps ih =>
    have ih := ih (fun q hq => h q (by simp [hq]))
    have hp := h p (by simp)
    have ht : text (p :: ps) = p.text ++ text ps := rfl
    have hv : value d (p :: ps) = p.value d ++ value d ps := rfl
    rw [ht, hv]
    cases p with
    | lit s =>
      rw [Piece.text, fmt_lit d s _ hp, ih]
      simp only [Piece.value]
      by_cases hh : ∀ n ∈ names ps, (d n).isSome = true
      · rw [if_pos hh, if_pos (show ∀ n ∈ names (.lit s :: ps), (d n).isSome = true from hh)]; simp
      · rw [if_neg hh, if_neg (show ¬ ∀ n ∈ names (.lit s :: ps), (d n).isSome = true from hh)]; simp
    | lbrace =>
      simp only [Piece.text, List.cons_append, List.nil_append, Piece.value]
      rw [fmt, ih]
      by_cases hh : ∀ n ∈ names ps, (d n).isSome = true
      · rw [if_pos hh, if_pos (show ∀ n ∈ names (.lbrace :: ps), (d n).isSome = true from hh)]; simp
      · rw [if_neg hh, if_neg (show ¬ ∀ n ∈ names (.lbrace :: ps), (d n).isSome = true from hh)]; simp
    | rbrace =>
      simp only [Piece.text, List.cons_append, List.nil_append, Piece.value]
      rw [fmt, ih]
      by_cases hh : ∀ n ∈ names ps, (d n).isSome = true
      · rw [if_pos hh, if_pos (show ∀ n ∈ names (.rbrace :: ps), (d n).isSome = true from hh)]; simp
      · rw [if_neg hh, if_neg (show ¬ ∀ n ∈ names (.rbrace :: ps), (d n).isSome = true from hh)]; simp
    | var n =>
      obtain ⟨h1, h2⟩ := ident_noBrace hp
      simp only [Piece.text, List.cons_append, List.nil_append, List.append_assoc, names, Piece.value]
      rw [fmt]
      · rw [field_spec d n [] (text ps) h1 (by simpa using h2), ih]
        simp only [List.reverse_nil, List.nil_append, List.mem_cons, forall_eq_or_imp]
        cases hd : d n with
        | none => simp
        | some v =>
          simp only [Option.isSome_some, true_and, Option.getD_some]
          split <;> simp_all
      · intro s' e
        cases n with
        | nil => simp at e
        | cons c n => simp only [List.cons_append, List.cons.injEq] at e; exact absurd e.1 (h1 c (by simp)).1

/-! ## The names collected are names used -/

theorem findSub_some {pat s : Str} {o : Nat} (h : findSub pat s = some o) :
    ∃ y, s.drop o = pat ++ y ∧ o ≤ s.length := by
  induction s generalizing o with
  | nil =>
    simp only [findSub] at h
    split at h
    · next e => cases h; exact ⟨[], by simp [e], by simp⟩
    · cases h
  | cons c s ih =>
    rw [findSub] at h
    split at h
    · next e =>
      cases h
      obtain ⟨y, hy⟩ := List.isPrefixOf_iff_prefix.1 e
      exact ⟨y, hy.symm, by simp⟩
    · cases hf : findSub pat s with
      | none => simp [hf] at h
      | some k =>
        simp only [hf, Option.map_some, Option.some.injEq] at h
        subst h
        obtain ⟨y, h1, h2⟩ := ih hf
        exact ⟨y, by simpa using h1, by simp; omega⟩

theorem findSub_le {pat x y : Str} (hp : pat ≠ []) :
    ∃ o, findSub pat (x ++ pat ++ y) = some o ∧ o ≤ x.length := by
  induction x with
  | nil =>
    cases pat with
    | nil => exact absurd rfl hp
    | cons a p =>
      refine ⟨0, ?_, by simp⟩
      simp only [List.nil_append, List.cons_append]
      rw [findSub, if_pos]
      rw [List.isPrefixOf_iff_prefix]
      exact ⟨y, by simp⟩
  | cons c x ih =>
    obtain ⟨o, h1, h2⟩ := ih
    simp only [List.cons_append]
    rw [findSub]
    split
    · exact ⟨0, rfl, by simp⟩
    · simp only [List.append_assoc] at h1
      rw [List.append_assoc, h1]; exact ⟨o + 1, rfl, by simpa using h2⟩

/-- A piece sequence, possibly after half of an escaped closing brace. -/
def Tail (qs : List Piece) (r : Str) : Prop := r = text qs ∨ r = '}' :: text qs

theorem cut (qs : List Piece) (h : ∀ p ∈ qs, p.Wf) (a b : Str) (e : text qs = a ++ '}' :: b) :
    ∃ qs', qs' <:+ qs ∧ Tail qs' b := by
  induction qs generalizing a with
  | nil => simp [text] at e
  | cons p ps ih =>
    have ih := fun a e => ih (fun q hq => h q (by simp [hq])) a e
    have hp := h p (by simp)
    have ht : text (p :: ps) = p.text ++ text ps := rfl
    rw [ht] at e
    have noC : ∀ (t : Str), (∀ c ∈ t, c ≠ '}') → t ++ text ps = a ++ '}' :: b →
        ∃ a', text ps = a' ++ '}' :: b := by
      intro t htt e
      rw [List.append_eq_append_iff] at e
      rcases e with ⟨a', -, h2⟩ | ⟨b', h1, h2⟩
      · exact ⟨a', h2⟩
      · cases b' with
        | nil => exact ⟨[], by simpa using h2.symm⟩
        | cons x b' =>
          simp only [List.cons_append, List.cons.injEq] at h2
          exact absurd h2.1.symm (htt x (by rw [h1]; simp))
    have suff : ∀ qs', qs' <:+ ps → qs' <:+ p :: ps := fun _ h => h.trans (List.suffix_cons p ps)
    cases p with
    | lit s =>
      obtain ⟨a', h'⟩ := noC s (fun c hc => (hp c hc).2) e
      obtain ⟨qs', h1, h2⟩ := ih a' h'
      exact ⟨qs', suff _ h1, h2⟩
    | lbrace =>
      obtain ⟨a', h'⟩ := noC ['{', '{'] (by decide) e
      obtain ⟨qs', h1, h2⟩ := ih a' h'
      exact ⟨qs', suff _ h1, h2⟩
    | rbrace =>
      cases a with
      | nil =>
        simp only [Piece.text, List.cons_append, List.nil_append, List.cons.injEq, true_and] at e
        exact ⟨ps, suff _ List.suffix_rfl, Or.inr e.symm⟩
      | cons x a =>
        cases a with
        | nil =>
          simp only [Piece.text, List.cons_append, List.nil_append, List.cons.injEq, true_and] at e
          exact ⟨ps, suff _ List.suffix_rfl, Or.inl e.2.symm⟩
        | cons y a =>
          simp only [Piece.text, List.cons_append, List.nil_append, List.cons.injEq] at e
          obtain ⟨qs', h1, h2⟩ := ih a e.2.2
          exact ⟨qs', suff _ h1, h2⟩
    | var n =>
      obtain ⟨hn, -⟩ := ident_noBrace hp
      -- the first closing brace is the one of the field
      have e' : ('{' :: n) ++ '}' :: text ps = a ++ '}' :: b := by
        simpa [Piece.text] using e
      rw [List.append_eq_append_iff] at e'
      have hno : ∀ c ∈ '{' :: n, c ≠ '}' := by
        intro c hc
        rcases List.mem_cons.1 hc with rfl | hc
        · decide
        · exact (hn c hc).2.1
      rcases e' with ⟨a', h1, h2⟩ | ⟨b', h1, h2⟩
      · cases a' with
        | nil =>
          simp only [List.nil_append, List.cons.injEq, true_and] at h2
          exact ⟨ps, suff _ List.suffix_rfl, Or.inl h2.symm⟩
        | cons x a' =>
          simp only [List.cons_append, List.cons.injEq] at h2
          obtain ⟨qs', h3, h4⟩ := ih a' h2.2
          exact ⟨qs', suff _ h3, h4⟩
      · cases b' with
        | nil =>
          simp only [List.nil_append, List.cons.injEq, true_and] at h2
          exact ⟨ps, suff _ List.suffix_rfl, Or.inl h2⟩
        | cons x b' =>
          simp only [List.cons_append, List.cons.injEq] at h2
          exact absurd h2.1.symm (hno x (by rw [h1]; simp))

theorem Tail.cut {qs : List Piece} (h : ∀ p ∈ qs, p.Wf) {r a b : Str} (ht : Tail qs r)
    (e : r = a ++ '}' :: b) : ∃ qs', qs' <:+ qs ∧ Tail qs' b := by
  rcases ht with rfl | rfl
  · exact CB.cut qs h a b e
  · cases a with
    | nil =>
      simp only [List.nil_append, List.cons.injEq, true_and] at e
      exact ⟨qs, List.suffix_rfl, Or.inl e.symm⟩
    | cons x a =>
      simp only [List.cons_append, List.cons.injEq] at e
      exact CB.cut qs h a b e.2

theorem names_suffix {qs' qs : List Piece} (h : qs' <:+ qs) : ∀ n ∈ names qs', n ∈ names qs := by
  obtain ⟨t, rfl⟩ := h
  intro n hn
  induction t with
  | nil => exact hn
  | cons p t ih =>
    cases p <;> simp only [List.cons_append, names, List.mem_cons]
    · exact ih
    · exact ih
    · exact ih
    · exact Or.inr ih

/-- The text contains an opening double brace and later a closing one. -/
def Skips (r : Str) : Prop := ∃ x y z, r = x ++ ['{', '{'] ++ y ++ ['}', '}'] ++ z

theorem Skips.append (a : Str) {r : Str} (h : Skips r) : Skips (a ++ r) := by
  obtain ⟨x, y, z, rfl⟩ := h
  exact ⟨a ++ x, y, z, by simp⟩

theorem mem_takeWhile_imp' {p : Char → Bool} {s : Str} {c : Char} (h : c ∈ s.takeWhile p) :
    p c = true := by
  induction s with
  | nil => simp at h
  | cons a s ih =>
    rw [List.takeWhile_cons] at h
    split at h
    · next ha =>
      rcases List.mem_cons.1 h with rfl | h
      · exact ha
      · exact ih h
    · cases h

/-- What a match of the expression looks like. -/
theorem varMatch_some {s n : Str} (h : varMatch s = some n) :
    ∃ body rest, s = '{' :: body ++ '}' :: rest ∧ (∀ c ∈ body, c ≠ '{' ∧ c ≠ '}') := by
  have spaces : ∀ (s : Str), ∀ c ∈ s.takeWhile (· == ' '), c ≠ '{' ∧ c ≠ '}' := by
    intro s c hc
    have := mem_takeWhile_imp' hc
    have : c = ' ' := by simpa using this
    subst this; decide
  have words : ∀ (s : Str), ∀ c ∈ s.takeWhile isWordC, c ≠ '{' ∧ c ≠ '}' := by
    intro s c hc
    have := mem_takeWhile_imp' hc
    constructor <;> rintro rfl <;> revert this <;> decide
  cases s with
  | nil => simp [varMatch] at h
  | cons c s =>
    by_cases hc : c = '{'
    · subst hc
      simp only [varMatch] at h
      generalize hs1 : s.dropWhile (· == ' ') = s1 at h
      cases s1 with
      | nil => simp at h
      | cons x xs =>
        simp only at h
        split at h
        · split at h
          · next rest hr =>
            refine ⟨s.takeWhile (· == ' ') ++ (x :: xs).takeWhile isWordC ++
              ((x :: xs).dropWhile isWordC).takeWhile (· == ' '), rest, ?_, ?_⟩
            · have e1 := List.takeWhile_append_dropWhile (p := (· == ' ')) (l := s)
              have e2 := List.takeWhile_append_dropWhile (p := isWordC) (l := x :: xs)
              have e3 := List.takeWhile_append_dropWhile (p := (· == ' '))
                (l := (x :: xs).dropWhile isWordC)
              rw [hr] at e3
              rw [hs1] at e1
              simp only [List.cons_append, List.append_assoc, List.cons.injEq, true_and]
              rw [e3, e2, e1]
            · intro c hc
              simp only [List.mem_append] at hc
              rcases hc with (hc | hc) | hc
              · exact spaces _ _ hc
              · exact words _ _ hc
              · exact spaces _ _ hc
          · cases h
        · cases h
    · simp [varMatch, hc] at h

theorem varMatch_var {n : Str} (h : (Piece.var n).Wf) (r : Str) :
    varMatch ('{' :: n ++ '}' :: r) = some n := by
  obtain ⟨hn, -⟩ := ident_noBrace h
  obtain ⟨c, cs, rfl, hc, hcs⟩ := h
  have hsp : c ≠ ' ' := (hn c (by simp)).2.2.2.2.2.2
  have e1 : (c :: cs ++ '}' :: r).dropWhile (· == ' ') = c :: cs ++ '}' :: r := by
    simp [List.dropWhile, hsp]
  have hw : ∀ x ∈ c :: cs, isWordC x = true := by
    intro x hx
    rcases List.mem_cons.1 hx with rfl | hx
    · simp [isWordC, Char.isAlphanum, hc]
    · rcases hcs x hx with h | h <;> simp [isWordC, h]
  have e2 : (c :: cs ++ '}' :: r).dropWhile isWordC = '}' :: r := by
    rw [List.dropWhile_append_of_pos hw]; rfl
  have e3 : (c :: cs ++ '}' :: r).takeWhile isWordC = c :: cs := by
    rw [List.takeWhile_append_of_pos hw]; simp [List.takeWhile, isWordC]
  show varMatch ('{' :: (c :: cs ++ '}' :: r)) = _
  simp only [varMatch, e1]
  simp only [List.cons_append] at e2 e3 ⊢
  simp only [e2, e3, isLetter, hc, if_true]
  simp [List.dropWhile]

theorem varSearch_skip {c : Char} (hc : c ≠ '{') (s : Str) : varSearch (c :: s) = varSearch s := by
  simp [varSearch, varMatch, hc]

theorem varSearch_skips {t : Str} (ht : ∀ c ∈ t, c ≠ '{') (s : Str) :
    varSearch (t ++ s) = varSearch s := by
  induction t with
  | nil => rfl
  | cons c t ih =>
    rw [List.cons_append, varSearch_skip (ht c (by simp)), ih (fun x hx => ht x (by simp [hx]))]

/-- Without braces before it, a closing brace in a template is half of an escaped one. -/
theorem first_close (qs : List Piece) (h : ∀ p ∈ qs, p.Wf) (body rest : Str)
    (hb : ∀ c ∈ body, c ≠ '{' ∧ c ≠ '}') (e : text qs = body ++ '}' :: rest) :
    ∃ z, text qs = body ++ ['}', '}'] ++ z := by
  induction qs generalizing body with
  | nil => simp [text] at e
  | cons p ps ih =>
    have hp := h p (by simp)
    have ht : text (p :: ps) = p.text ++ text ps := rfl
    rw [ht] at e ⊢
    cases p with
    | lit s =>
      simp only [Piece.text] at e ⊢
      rw [List.append_eq_append_iff] at e
      rcases e with ⟨a', h1, h2⟩ | ⟨b', h1, h2⟩
      · obtain ⟨z, hz⟩ := ih (fun q hq => h q (by simp [hq])) a'
          (fun c hc => hb c (by rw [h1]; simp [hc])) h2
        exact ⟨z, by rw [hz, h1]; simp⟩
      · cases b' with
        | nil =>
          obtain ⟨z, hz⟩ := ih (fun q hq => h q (by simp [hq])) [] (by simp) (by simpa using h2.symm)
          exact ⟨z, by rw [hz, h1]; simp⟩
        | cons x b' =>
          simp only [List.cons_append, List.cons.injEq] at h2
          exact absurd h2.1.symm (hp x (by rw [h1]; simp)).2
    | lbrace =>
      cases body with
      | nil => simp [Piece.text] at e
      | cons x body =>
        simp only [Piece.text, List.cons_append, List.cons.injEq] at e
        exact absurd e.1.symm (hb x (by simp)).1
    | rbrace =>
      cases body with
      | nil => exact ⟨text ps, by simp [Piece.text]⟩
      | cons x body =>
        simp only [Piece.text, List.cons_append, List.cons.injEq] at e
        exact absurd e.1.symm (hb x (by simp)).2
    | var n =>
      cases body with
      | nil => simp [Piece.text] at e
      | cons x body =>
        simp only [Piece.text, List.cons_append, List.nil_append, List.cons.injEq] at e
        exact absurd e.1.symm (hb x (by simp)).1

theorem search_text (qs : List Piece) (h : ∀ p ∈ qs, p.Wf) (hs : ¬ Skips (text qs)) (n : Str)
    (hn : varSearch (text qs) = some n) : n ∈ names qs := by
  induction qs with
  | nil => simp [text, varSearch] at hn
  | cons p ps ih =>
    have hp := h p (by simp)
    have hps : ∀ q ∈ ps, q.Wf := fun q hq => h q (by simp [hq])
    have ht : text (p :: ps) = p.text ++ text ps := rfl
    rw [ht] at hn hs
    have ih := ih hps (fun hk => hs (hk.append _))
    cases p with
    | lit s =>
      rw [Piece.text, varSearch_skips (fun c hc => (hp c hc).1)] at hn
      exact ih hn
    | rbrace =>
      rw [Piece.text, varSearch_skips (by decide)] at hn
      exact ih hn
    | lbrace =>
      simp only [Piece.text, List.cons_append, List.nil_append] at hn hs
      have h0 : varMatch ('{' :: '{' :: text ps) = none := by
        simp [varMatch, List.dropWhile, isLetter]
      have h1 : varMatch ('{' :: text ps) = none := by
        cases hm : varMatch ('{' :: text ps) with
        | none => rfl
        | some m =>
          obtain ⟨body, rest, e, hb⟩ := varMatch_some hm
          simp only [List.cons_append, List.cons.injEq, true_and] at e
          obtain ⟨z, hz⟩ := first_close ps hps body rest hb e
          exact absurd ⟨[], body, z, by simp [hz]⟩ hs
      rw [varSearch, h0] at hn
      simp only at hn
      rw [varSearch, h1] at hn
      exact ih hn
    | var m =>
      have e : (Piece.var m).text ++ text ps = '{' :: m ++ '}' :: text ps := by simp [Piece.text]
      have hm := varMatch_var hp (text ps)
      rw [e, List.cons_append, varSearch, ← List.cons_append, hm] at hn
      simp only [Option.some.injEq] at hn
      simp [names, hn]

theorem search_tail {qs : List Piece} (h : ∀ p ∈ qs, p.Wf) {r : Str} (ht : Tail qs r)
    (hs : ¬ Skips r) (n : Str) (hn : varSearch r = some n) : n ∈ names qs := by
  rcases ht with rfl | rfl
  · exact search_text qs h hs n hn
  · rw [varSearch_skip (by decide)] at hn
    exact search_text qs h (fun hk => hs (hk.append ['}'])) n hn

theorem varSearch_close {r n : Str} (h : varSearch r = some n) : '}' ∈ r := by
  induction r with
  | nil => simp [varSearch] at h
  | cons c r ih =>
    rw [varSearch] at h
    cases hm : varMatch (c :: r) with
    | some m =>
      obtain ⟨body, rest, e, -⟩ := varMatch_some hm
      rw [e]; simp
    | none =>
      rw [hm] at h
      exact List.mem_cons_of_mem _ (ih h)

theorem afterClose_spec {r : Str} (h : '}' ∈ r) : ∃ a, r = a ++ '}' :: afterClose r := by
  induction r with
  | nil => cases h
  | cons c r ih =>
    by_cases hc : c = '}'
    · subst hc; exact ⟨[], by simp [afterClose, List.dropWhile]⟩
    · rcases List.mem_cons.1 h with e | h
      · exact absurd e.symm hc
      · obtain ⟨a, ha⟩ := ih h
        refine ⟨c :: a, ?_⟩
        have : afterClose (c :: r) = afterClose r := by
          rw [afterClose, List.dropWhile_cons_of_pos (by simpa using hc)]; rfl
        rw [this, List.cons_append, ← ha]

/-- Every name collected is used in the line. -/
theorem collect_sound : ∀ (k : Nat) (qs : List Piece) (r : Str), r.length ≤ k →
    (∀ p ∈ qs, p.Wf) → Tail qs r → ∀ n ∈ collect r, n ∈ names qs := by
  intro k
  induction k with
  | zero =>
    intro qs r hr _ _ n hn
    have : r = [] := List.eq_nil_of_length_eq_zero (by omega)
    subst this
    rw [collect] at hn
    simp at hn
  | succ k ih =>
    intro qs r hr hq ht n hn
    rw [collect] at hn
    split at hn
    · cases hn
    · next hne =>
      have hlen : 0 < r.length := List.length_pos_iff.2 hne
      have go : ¬ Skips r → ∀ n ∈ (match varSearch r with
          | some n => n :: collect (afterClose r)
          | none => []), n ∈ names qs := by
        intro hs n hn
        cases hv : varSearch r with
        | none => rw [hv] at hn; cases hn
        | some m =>
          rw [hv] at hn
          rcases List.mem_cons.1 hn with rfl | hn
          · exact search_tail hq ht hs _ hv
          · obtain ⟨a, ha⟩ := afterClose_spec (varSearch_close hv)
            obtain ⟨qs', h1, h2⟩ := ht.cut hq ha
            have := afterClose_length r hne
            exact names_suffix h1 _ (ih qs' _ (by omega) (fun p hp => hq p (h1.subset hp)) h2 _ hn)
      split at hn
      · next o ho =>
        obtain ⟨y, hy, hy2⟩ := findSub_some ho
        split at hn
        · next c hc =>
          obtain ⟨z, hz, hz2⟩ := findSub_some hc
          have e1 : r.drop (o + c) = ['}', '}'] ++ z := by rw [← List.drop_drop]; exact hz
          have e2 : r.drop (o + c + 2) = z := by rw [← List.drop_drop, e1]; rfl
          have e3 : r = (r.take (o + c) ++ ['}']) ++ '}' :: r.drop (o + c + 2) := by
            rw [e2]
            conv => lhs; rw [← List.take_append_drop (o + c) r, e1]
            simp
          obtain ⟨qs', h1, h2⟩ := ht.cut hq e3
          refine names_suffix h1 _ (ih qs' _ ?_ (fun p hp => hq p (h1.subset hp)) h2 _ hn)
          simp only [List.length_drop]; omega
        · next hc =>
          refine go ?_ n hn
          rintro ⟨x, y', z, e⟩
          obtain ⟨o', h1, h2⟩ := findSub_le (pat := ['{', '{']) (x := x) (y := y' ++ ['}', '}'] ++ z) (by simp)
          have e' : r = x ++ ['{', '{'] ++ (y' ++ ['}', '}'] ++ z) := by rw [e]; simp
          rw [← e', ho] at h1
          cases h1
          have e4 : r.drop o = (x ++ ['{', '{'] ++ y').drop o ++ ['}', '}'] ++ z := by
            rw [e]
            simp only [List.append_assoc]
            rw [← List.append_assoc ['{', '{'], ← List.append_assoc x, List.drop_append_of_le_length]
            simp; omega
          obtain ⟨c, h3, -⟩ := findSub_le (pat := ['}', '}']) (x := (x ++ ['{', '{'] ++ y').drop o) (y := z)
            (by simp)
          rw [e4, h3] at hc
          cases hc
      · next ho =>
        refine go ?_ n hn
        rintro ⟨x, y', z, e⟩
        obtain ⟨o', h1, h2⟩ := findSub_le (pat := ['{', '{']) (x := x) (y := y' ++ ['}', '}'] ++ z) (by simp)
        have e' : r = x ++ ['{', '{'] ++ (y' ++ ['}', '}'] ++ z) := by rw [e]; simp
        rw [← e', ho] at h1
        cases h1

/-! ## Writing a block -/

/-- The block as the program sees it. -/
def blockText (b : List (List Piece × Int)) : List Line := b.map fun l => (text l.1, l.2)

theorem writeLines_ok (ns : List Str) (level : Int) (d : Dict) (hns : ∀ n ∈ ns, (d n).isSome)
    (b : List (List Piece × Int)) (hw : ∀ l ∈ b, ∀ p ∈ l.1, p.Wf)
    (hd : ∀ l ∈ b, ∀ n ∈ names l.1, (d n).isSome) :
    writeLines ns level d (blockText b) =
      ⟨b.map fun l => (value d l.1, indentOf level l.2), true⟩ := by
  induction b with
  | nil => rfl
  | cons l b ih =>
    have ih := ih (fun l' h => hw l' (by simp [h])) (fun l' h => hd l' (by simp [h]))
    show writeLines ns level d ((text l.1, l.2) :: blockText b) = _
    rw [writeLines, if_neg, fmt_text d l.1 (hw l (by simp)), if_pos (hd l (by simp)), ih]
    · rfl
    · simp only [List.any_eq_true, not_exists, not_and]
      intro n hn
      have := hns n hn
      cases h : d n <;> simp_all

/-- **C23 (substitution).**  If every name used in any line is supplied, write succeeds and passes
every line, in order, with every occurrence substituted, to the output.  Missing compared with C23:
the indentation is base + relative for every line, also for the preprocessor lines (negative relative
indent), see `C23_preproc_indent_violated`. -/
theorem C23_write_partial (b : List (List Piece × Int)) (hw : ∀ l ∈ b, ∀ p ∈ l.1, p.Wf)
    (level : Int) (hl : 0 ≤ level) (d : Dict)
    (hd : ∀ l ∈ b, ∀ n ∈ names l.1, (d n).isSome) :
    write (blockText b) level d =
      ⟨b.map fun l => (value d l.1, level + l.2), true⟩ := by
  rw [write, writeLines_ok _ level d ?_ b hw hd]
  · simp only [indentOf, ge_iff_le, hl, if_true]
  · intro n hn
    simp only [blockText, List.mem_flatMap, List.mem_map] at hn
    obtain ⟨_, ⟨l, hl, rfl⟩, hn⟩ := hn
    exact hd l hl n (collect_sound _ l.1 _ (Nat.le_refl _) (hw l hl) (Or.inl rfl) n hn)

/-- **C23 (missing names).**  If a name used in any line is not supplied, write raises. -/
theorem C23_missing (b : List (List Piece × Int)) (hw : ∀ l ∈ b, ∀ p ∈ l.1, p.Wf)
    (level : Int) (d : Dict) (hd : ∃ l ∈ b, ∃ n ∈ names l.1, d n = none) :
    (write (blockText b) level d).ok = false := by
  unfold write
  generalize ((blockText b).flatMap fun l => collect l.1) = ns
  obtain ⟨l0, hl0, n, hn, hdn⟩ := hd
  induction b with
  | nil => cases hl0
  | cons l b ih =>
    show (writeLines ns level d ((text l.1, l.2) :: blockText b)).ok = false
    rw [writeLines]
    split
    · rfl
    · rw [fmt_text d l.1 (hw l (by simp))]
      split
      · rfl
      · next t ht =>
        split at ht
        · next hall =>
          rcases List.mem_cons.1 hl0 with rfl | hl0
          · have := hall n hn; rw [hdn] at this; cases this
          · exact ih (fun l' h => hw l' (by simp [h])) hl0
        · cases ht

/-- No escaped braces. -/
def NoEscape (ps : List Piece) : Prop := ∀ p ∈ ps, (∃ s, p = .lit s) ∨ (∃ n, p = .var n)

theorem no_double (ps : List Piece) (h : ∀ p ∈ ps, p.Wf) (hn : NoEscape ps) (x y : Str) :
    text ps ≠ x ++ ['{', '{'] ++ y := by
  induction ps generalizing x with
  | nil => simp [text]
  | cons p ps ih =>
    have hp := h p (by simp)
    have ih := ih (fun q hq => h q (by simp [hq])) (fun q hq => hn q (by simp [hq]))
    intro e
    have ht : text (p :: ps) = p.text ++ text ps := rfl
    rw [ht] at e
    rcases hn p (by simp) with ⟨s, rfl⟩ | ⟨n, rfl⟩
    · simp only [Piece.text, List.append_assoc] at e
      rw [List.append_eq_append_iff] at e
      rcases e with ⟨a', h1, h2⟩ | ⟨b', h1, h2⟩
      · exact ih a' (by simpa using h2)
      · cases b' with
        | nil => exact ih [] (by simpa using h2.symm)
        | cons c b' =>
          simp only [List.cons_append, List.nil_append, List.cons.injEq] at h2
          exact absurd h2.1.symm (hp c (by rw [h1]; simp)).1
    · obtain ⟨hn', -⟩ := ident_noBrace hp
      have e' : '{' :: (n ++ ['}']) ++ text ps = x ++ ('{' :: '{' :: y) := by
        simpa [Piece.text] using e
      cases x with
      | nil =>
        simp only [List.nil_append, List.cons_append, List.cons.injEq, true_and] at e'
        cases n with
        | nil => simp at e'
        | cons c n =>
          simp only [List.cons_append, List.cons.injEq] at e'
          exact absurd e'.1 (hn' c (by simp)).1
      | cons c x =>
        simp only [List.cons_append, List.cons.injEq] at e'
        have e2 := e'.2
        rw [List.append_eq_append_iff] at e2
        rcases e2 with ⟨a', h1, h2⟩ | ⟨b', h1, h2⟩
        · exact ih a' (by simpa using h2)
        · cases b' with
          | nil => exact ih [] (by simpa using h2.symm)
          | cons c' b' =>
            simp only [List.cons_append, List.cons.injEq] at h2
            have hmem : c' ∈ n ++ ['}'] := by rw [h1]; simp
            rcases List.mem_append.1 hmem with hm | hm
            · exact absurd h2.1.symm (hn' c' hm).1
            · simp only [List.mem_singleton] at hm
              rw [hm] at h2
              exact absurd h2.1 (by decide)

theorem search_lit (s r : Str) (hs : ∀ c ∈ s, c ≠ '{' ∧ c ≠ '}') : varSearch (s ++ r) = varSearch r :=
  varSearch_skips (fun c hc => (hs c hc).1) r

theorem afterClose_skip (s r : Str) (hs : ∀ c ∈ s, c ≠ '}') : afterClose (s ++ r) = afterClose r := by
  unfold afterClose
  rw [List.dropWhile_append_of_pos]
  intro c hc; simp [hs c hc]

theorem collect_noEscape (ps : List Piece) (h : ∀ p ∈ ps, p.Wf) (hn : NoEscape ps) (s : Str)
    (hs : ∀ c ∈ s, c ≠ '{' ∧ c ≠ '}') : collect (s ++ text ps) = names ps := by
  induction ps generalizing s with
  | nil =>
    have hv : varSearch (s ++ text []) = none := by
      rw [search_lit s _ hs]; rfl
    have hf : findSub ['{', '{'] (s ++ text []) = none := by
      cases hf : findSub ['{', '{'] (s ++ text []) with
      | none => rfl
      | some o =>
        obtain ⟨y, hy, -⟩ := findSub_some hf
        have : '{' ∈ s ++ text [] := List.mem_of_mem_drop (i := o) (by rw [hy]; simp)
        simp only [text, List.flatMap_nil, List.append_nil] at this
        exact absurd rfl (hs _ this).1
    rw [collect]
    split
    · rfl
    · rw [hf]; simp only; rw [hv]; rfl
  | cons p ps ih =>
    have hp := h p (by simp)
    have hps : ∀ q ∈ ps, q.Wf := fun q hq => h q (by simp [hq])
    have hnp : NoEscape ps := fun q hq => hn q (by simp [hq])
    have ht : text (p :: ps) = p.text ++ text ps := rfl
    rcases hn p (by simp) with ⟨s', rfl⟩ | ⟨n, rfl⟩
    · rw [ht, ← List.append_assoc]
      exact ih hps hnp (s ++ s') (by
        intro c hc
        rcases List.mem_append.1 hc with hc | hc
        · exact hs c hc
        · exact hp c hc)
    · have hf : findSub ['{', '{'] (s ++ text (.var n :: ps)) = none := by
        cases hf : findSub ['{', '{'] (s ++ text (.var n :: ps)) with
        | none => rfl
        | some o =>
          obtain ⟨y, hy, -⟩ := findSub_some hf
          have hwf : ∀ q ∈ Piece.lit s :: .var n :: ps, q.Wf := by
            intro q hq
            rcases List.mem_cons.1 hq with rfl | hq
            · exact hs
            · exact h q hq
          have hne : NoEscape (Piece.lit s :: .var n :: ps) := by
            intro q hq
            rcases List.mem_cons.1 hq with rfl | hq
            · exact Or.inl ⟨s, rfl⟩
            · exact hn q hq
          have e : text (Piece.lit s :: .var n :: ps) = s ++ text (.var n :: ps) := rfl
          refine absurd ?_ (no_double _ hwf hne ((s ++ text (.var n :: ps)).take o) y)
          rw [e, List.append_assoc, ← hy, List.take_append_drop]
      have et : text (.var n :: ps) = '{' :: n ++ '}' :: text ps := by
        rw [ht]; simp [Piece.text]
      have hv : varSearch (s ++ text (.var n :: ps)) = some n := by
        rw [search_lit s _ hs, et, List.cons_append, varSearch, ← List.cons_append, varMatch_var hp]
      have hac : afterClose (s ++ text (.var n :: ps)) = text ps := by
        obtain ⟨hn', -⟩ := ident_noBrace hp
        rw [afterClose_skip s _ (fun c hc => (hs c hc).2), et,
          afterClose_skip ('{' :: n) ('}' :: text ps) (by
            intro c hc
            rcases List.mem_cons.1 hc with rfl | hc
            · decide
            · exact (hn' c hc).2.1)]
        simp [afterClose, List.dropWhile]
      rw [collect]
      split
      · next he => rw [et] at he; simp at he
      · rw [hf]; simp only; rw [hv, hac]
        simp only [names]
        rw [show text ps = [] ++ text ps from rfl, ih hps hnp [] (by simp)]

/-- For templates without escaped braces, nothing at all is written if a name is missing. -/
theorem C23_missing_nothing_written (b : List (List Piece × Int)) (hw : ∀ l ∈ b, ∀ p ∈ l.1, p.Wf)
    (he : ∀ l ∈ b, NoEscape l.1) (level : Int) (d : Dict)
    (hd : ∃ l ∈ b, ∃ n ∈ names l.1, d n = none) :
    write (blockText b) level d = ⟨[], false⟩ := by
  obtain ⟨l0, hl0, n, hn, hdn⟩ := hd
  have hmem : n ∈ (blockText b).flatMap fun l => collect l.1 := by
    simp only [blockText, List.mem_flatMap, List.mem_map]
    refine ⟨_, ⟨l0, hl0, rfl⟩, ?_⟩
    rw [show text l0.1 = [] ++ text l0.1 from rfl, collect_noEscape _ (hw l0 hl0) (he l0 hl0) [] (by simp)]
    exact hn
  unfold write
  generalize ((blockText b).flatMap fun l => collect l.1) = ns at hmem
  cases b with
  | nil => cases hl0
  | cons l b =>
    show writeLines ns level d ((text l.1, l.2) :: blockText b) = _
    rw [writeLines, if_pos]
    rw [List.any_eq_true]
    exact ⟨n, hmem, by simp [hdn]⟩

/-! ## Disagreements and examples -/

/-- `call x` / `{a} = {{b}}`: a name in a line with an escaped brace after it is not collected, so the
lines before it have been written when the exception is raised. -/
theorem C23_partial_output :
    ∃ (b : List (List Piece × Int)) (d : Dict), (∀ l ∈ b, ∀ p ∈ l.1, p.Wf) ∧
      (∃ l ∈ b, ∃ n ∈ names l.1, d n = none) ∧
      (write (blockText b) 1 d).out ≠ [] := by
  refine ⟨[([.lit "call x".toList], 0),
    ([.var "a".toList, .lit " = ".toList, .lbrace, .lit "b".toList, .rbrace], 0)], fun _ => none,
    ?_, ⟨([.var "a".toList, .lit " = ".toList, .lbrace, .lit "b".toList, .rbrace], 0), by simp,
      "a".toList, by simp [names], rfl⟩, ?_⟩
  · intro l hl p hp
    simp only [List.mem_cons, List.not_mem_nil, or_false] at hl
    rcases hl with rfl | rfl
    · simp only [List.mem_cons, List.not_mem_nil, or_false] at hp
      subst hp
      show ∀ c ∈ "call x".toList, _
      decide
    · simp only [List.mem_cons, List.not_mem_nil, or_false] at hp
      rcases hp with rfl | rfl | rfl | rfl | rfl
      · exact ⟨'a', [], rfl, by decide, by simp⟩
      · show ∀ c ∈ " = ".toList, _
        decide
      · trivial
      · show ∀ c ∈ "b".toList, _
        decide
      · trivial
  · have c1 : collect "call x".toList = [] := by
      rw [collect]; simp [findSub, List.isPrefixOf, varSearch, varMatch]
    have c2 : collect "{a} = {{b}}".toList = [] := by
      rw [collect]; simp [findSub, List.isPrefixOf, varSearch, varMatch]
      rw [collect]; simp
    have e : ∀ l1 l2 : Line, ([l1, l2].flatMap fun l => collect l.1) = collect l1.1 ++ collect l2.1 := by
      intro l1 l2; simp
    show (write [("call x".toList, 0), ("{a} = {{b}}".toList, 0)] 1 fun _ => none).out ≠ []
    rw [write, e]
    simp only [c1, c2]
    decide

/-- A preprocessor line (relative indent -1) in a block written at level 2 is indented by one level
instead of starting in the first column (code_block.py:105 tests the base level instead of the relative
indent). -/
theorem C23_preproc_indent_violated :
    ∃ (b : List Line) (d : Dict), (∃ l ∈ b, l.2 < 0) ∧ (write b 2 d).ok = true ∧
      ∃ l ∈ (write b 2 d).out, l.1 = "#endif".toList ∧ l.2 ≠ 0 := by
  have c : collect "#endif".toList = [] := by
    rw [collect]; simp [findSub, List.isPrefixOf, varSearch, varMatch]
  have e : write [("#endif".toList, -1)] 2 (fun _ => none) = ⟨[("#endif".toList, 1)], true⟩ := by
    rw [write]
    simp only [List.flatMap_cons, c, List.flatMap_nil, List.append_nil]
    decide
  refine ⟨[("#endif".toList, -1)], fun _ => none, ⟨_, List.mem_singleton.2 rfl, by decide⟩, ?_⟩
  rw [e]
  exact ⟨rfl, _, List.mem_singleton.2 rfl, rfl, by decide⟩

/-- Non-vacuity: `  {a} = {{{b}}}` is a well-formed template line with the value `  1 = {2}`. -/
example : (∀ p ∈ [Piece.lit "  ".toList, .var "a".toList, .lit " = ".toList, .lbrace, .var "b".toList,
      .rbrace], p.Wf) ∧
    text [Piece.lit "  ".toList, .var "a".toList, .lit " = ".toList, .lbrace, .var "b".toList,
      .rbrace] = "  {a} = {{{b}}}".toList ∧
    value (fun n => if n = "a".toList then some "1".toList else some "2".toList)
      [Piece.lit "  ".toList, .var "a".toList, .lit " = ".toList, .lbrace, .var "b".toList,
      .rbrace] = "  1 = {2}".toList := by
  refine ⟨?_, by decide, by decide⟩
  intro p hp
  simp only [List.mem_cons, List.not_mem_nil, or_false] at hp
  rcases hp with rfl | rfl | rfl | rfl | rfl | rfl
  · show ∀ c ∈ "  ".toList, _
    decide
  · exact ⟨'a', [], rfl, by decide, by simp⟩
  · show ∀ c ∈ " = ".toList, _
    decide
  · trivial
  · exact ⟨'b', [], rfl, by decide, by simp⟩
  · trivial

end Ccpp.CB
