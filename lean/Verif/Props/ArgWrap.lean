import Verif.Spec.ArgWrap
/-!
# C94: continued argument lists
-/
namespace Ccpp.ArgW

/-! ## The logical text -/

theorem logical_cons {c : Char} (h1 : c ≠ '&') (h2 : c ≠ ' ') (s : Str) : logical (c :: s) = c :: logical s := by
  conv => lhs; unfold logical
  split
  · rename_i e; injection e with e _; exact absurd e h1
  · rename_i e; injection e with e _; exact absurd e h2
  · rename_i e; injection e with e1 e2; subst e1; subst e2; rfl
  · rename_i e; cases e

theorem logical_plain : ∀ (p s : Str), '&' ∉ p → ' ' ∉ p → logical (p ++ s) = p ++ logical s
  | [], _, _, _ => rfl
  | c :: p, s, h1, h2 => by
    rw [List.cons_append, logical_cons (fun e => h1 (by rw [e]; simp)) (fun e => h2 (by rw [e]; simp)),
      logical_plain p s (fun h => h1 (List.mem_cons_of_mem _ h)) (fun h => h2 (List.mem_cons_of_mem _ h))]
    rfl

theorem logical_break (s : Str) : logical (breakText ++ s) = logical s := rfl

/-- The text of the loop without the beginning. -/
def rest (piece : Str → Str) (size : Str → Nat) (last : Str) : List Str → Nat → Str
  | [], _ => []
  | a :: as, length =>
    if length + size a > 70 && !(a == last) then piece a ++ breakText ++ rest piece size last as 0
    else piece a ++ rest piece size last as (length + size a)

theorem loop_rest (piece : Str → Str) (size : Str → Nat) (last : Str) : ∀ (as : List Str) (text : Str) (n : Nat),
    loop piece size last as text n = text ++ rest piece size last as n
  | [], text, _ => by unfold loop rest; simp
  | a :: as, text, n => by
    unfold loop rest
    simp only
    split
    · rw [loop_rest piece size last as]; simp only [List.append_assoc]
    · rw [loop_rest piece size last as]; simp only [List.append_assoc]

theorem logical_rest {piece : Str → Str} (hp : ∀ a, Plain a → '&' ∉ piece a ∧ ' ' ∉ piece a) (size : Str → Nat)
    (last : Str) : ∀ (as : List Str) (n : Nat), (∀ a ∈ as, Plain a) →
    logical (rest piece size last as n) = as.flatMap piece
  | [], _, _ => rfl
  | a :: as, n, h => by
    have ha := hp a (h a (by simp))
    have ih := fun m => logical_rest hp size last as m fun x hx => h x (List.mem_cons_of_mem _ hx)
    unfold rest
    split
    · rw [List.append_assoc, logical_plain _ _ ha.1 ha.2, logical_break, ih, List.flatMap_cons]
    · rw [logical_plain _ _ ha.1 ha.2, ih, List.flatMap_cons]

/-! ## The last comma -/

theorem rstripComma_snoc (s : Str) (h : s.getLast? ≠ some ',') : rstripComma (s ++ ",".toList) = s := by
  unfold rstripComma
  rw [List.reverse_append]
  show (List.dropWhile (· == ',') (',' :: s.reverse)).reverse = s
  rw [List.dropWhile_cons_of_pos (by decide)]
  have : List.dropWhile (· == ',') s.reverse = s.reverse := by
    cases hr : s.reverse with
    | nil => rfl
    | cons c t =>
      rw [List.dropWhile_cons_of_neg]
      have hl : s.getLast? = some c := by
        have : s = (c :: t).reverse := by rw [← hr, List.reverse_reverse]
        rw [this]; simp
      rw [hl] at h
      simpa using h
  rw [this, List.reverse_reverse]

/-- The text ends with the last piece. -/
theorem rest_last {piece : Str → Str} (size : Str → Nat) (last : Str) :
    ∀ (as : List Str) (n : Nat), as.getLast? = some last → ∃ t, rest piece size last as n = t ++ piece last
  | [], _, h => by cases h
  | [a], n, h => by
    have : a = last := by simpa using h
    subst this
    refine ⟨[], ?_⟩
    unfold rest
    simp [rest]
  | a :: b :: as, n, h => by
    have h' : (b :: as).getLast? = some last := by rw [← h]; simp
    unfold rest
    split
    · obtain ⟨t, ht⟩ := rest_last (piece := piece) size last (b :: as) 0 h'
      exact ⟨piece a ++ breakText ++ t, by rw [ht]; simp only [List.append_assoc]⟩
    · obtain ⟨t, ht⟩ := rest_last (piece := piece) size last (b :: as) (n + size a) h'
      exact ⟨piece a ++ t, by rw [ht]; simp only [List.append_assoc]⟩

theorem logical_snoc (q : Char) (h1 : q ≠ '&') (h2 : q ≠ ' ') (h3 : q ≠ '\n') :
    ∀ s : Str, logical (s ++ [q]) = logical s ++ [q]
  | [] => by rw [List.nil_append, logical_cons h1 h2]; rfl
  | c :: s => by
    have ih := logical_snoc q h1 h2 h3 s
    by_cases hc : c = '&'
    · subst hc
      cases s with
      | nil =>
        show logical ('&' :: [q]) = logical ['&'] ++ [q]
        have : logical ['&'] = ['&'] := rfl
        rw [this]
        conv => lhs; unfold logical
        split
        · rename_i e; injection e with _ e; injection e with e _; exact absurd e h3
        · rename_i e; injection e with e _; cases e
        · rename_i e; injection e with e1 e2; subst e1; subst e2
          rw [logical_cons h1 h2]; rfl
        · rename_i e; cases e
      | cons d s =>
        by_cases hd : d = '\n'
        · subst hd
          show logical (s ++ [q]) = logical s ++ [q]
          have ih' : logical ('\n' :: (s ++ [q])) = logical ('\n' :: s) ++ [q] := ih
          rw [logical_cons (by decide) (by decide), logical_cons (by decide) (by decide)] at ih'
          injection ih' with _ ih'
        · have hk : ∀ t, logical ('&' :: d :: t) = '&' :: logical (d :: t) := by
            intro t
            conv => lhs; unfold logical
            split
            · rename_i e; injection e with _ e; injection e with e _; exact absurd e hd
            · rename_i e; injection e with e _; cases e
            · rename_i e; injection e with e1 e2; subst e1; subst e2; rfl
            · rename_i e; cases e
          show logical ('&' :: d :: (s ++ [q])) = _
          rw [hk, hk]
          have ih' : logical (d :: (s ++ [q])) = logical (d :: s) ++ [q] := ih
          rw [ih']; rfl
    · by_cases hs : c = ' '
      · subst hs
        show logical (s ++ [q]) = logical s ++ [q]
        exact ih
      · rw [List.cons_append, logical_cons hc hs, logical_cons hc hs, ih]; rfl

theorem flatMap_plain : ∀ {as : List Str}, as ≠ [] → (f : Str → Str) →
    (as.flatMap fun a => f a ++ ",".toList) = VRef.sepBy ",".toList (as.map f) ++ ",".toList
  | [], h, _ => absurd rfl h
  | [a], _, f => by simp [VRef.sepBy]
  | a :: b :: as, _, f => by
    rw [List.flatMap_cons, flatMap_plain (as := b :: as) (by simp) f]
    show _ = f a ++ ",".toList ++ VRef.sepBy ",".toList ((b :: as).map f) ++ ",".toList
    simp only [List.append_assoc]

theorem strip_logical {piece f : Str → Str} (hpf : ∀ a, piece a = f a ++ ",".toList)
    (hp : ∀ a, Plain a → '&' ∉ piece a ∧ ' ' ∉ piece a)
    (hf : ∀ a, Plain a → (f a).getLast? ≠ some ',' ∧ f a ≠ []) (size : Str → Nat) {args : List Str} (hne : args ≠ [])
    (h : ∀ a ∈ args, Plain a) :
    logical (rstripComma (rest piece size (args.getLast?.getD []) args 0)) = VRef.sepBy ",".toList (args.map f) := by
  obtain ⟨last, hl⟩ : ∃ x, args.getLast? = some x := by
    cases hg : args.getLast? with
    | none => exact absurd (List.getLast?_eq_none_iff.1 hg) hne
    | some x => exact ⟨x, rfl⟩
  have hlast : Plain last := h last (List.mem_of_getLast? hl)
  rw [hl]
  show logical (rstripComma (rest piece size last args 0)) = _
  obtain ⟨t, ht⟩ := rest_last (piece := piece) size last args 0 hl
  have hlg := logical_rest hp size last args 0 h
  rw [ht, hpf] at hlg
  rw [ht, hpf, ← List.append_assoc, rstripComma_snoc]
  · rw [← List.append_assoc] at hlg
    have e : logical (t ++ f last ++ [',']) = logical (t ++ f last) ++ [','] :=
      logical_snoc ',' (by decide) (by decide) (by decide) _
    have e2 : (args.flatMap piece) = VRef.sepBy ",".toList (args.map f) ++ ",".toList := by
      rw [← flatMap_plain hne f]
      congr 1
      funext a
      exact hpf a
    rw [e2] at hlg
    have hlg : logical (t ++ f last ++ [',']) = VRef.sepBy ",".toList (args.map f) ++ [','] := hlg
    rw [e] at hlg
    exact List.append_cancel_right hlg
  · rw [List.getLast?_append]
    obtain ⟨h1, h2⟩ := hf last hlast
    cases hg : (f last).getLast? with
    | none => exact absurd (List.getLast?_eq_none_iff.1 hg) h2
    | some x => rw [hg] at h1; simpa using h1

/-! ## The arguments -/

theorem plain_last {a : Str} (h : Plain a) : a.getLast? ≠ some ',' := fun e => h.2.2.2.2 (List.mem_of_getLast? e)

theorem nonempty_text {piece : Str → Str} (hp : ∀ a, piece a ≠ []) (size : Str → Nat) (last : Str) {args : List Str}
    (hne : args ≠ []) (n : Nat) : (rest piece size last args n).isEmpty = false := by
  cases args with
  | nil => exact absurd rfl hne
  | cons a as =>
    unfold rest
    have := hp a
    split <;> cases hpa : piece a <;> simp_all

/-- C94: what the compiler sees of the list are the arguments, in order, separated by commas. -/
theorem C94_list (args : List Str) (h : ∀ a ∈ args, Plain a) :
    logical (wrapped args) = VRef.sepBy ",".toList args := by
  unfold wrapped
  rw [loop_rest, List.nil_append]
  by_cases hne : args = []
  · subst hne; rfl
  · simp only [nonempty_text (piece := plainPiece) (by intro a; simp [plainPiece]) _ _ hne, Bool.not_false, if_true]
    have := strip_logical (piece := plainPiece) (f := fun a => a) (fun a => rfl)
      (fun a ha => ⟨by simpa [plainPiece] using ha.2.2.1, by simpa [plainPiece] using ha.2.1⟩)
      (fun a ha => ⟨plain_last ha, ha.1⟩) (fun a => a.length + 1) hne h
    rw [List.map_id'] at this
    exact this

/-- C94: with explicit names every argument is passed to the dummy argument of its name, and the list can be
continued if other arguments follow. -/
theorem C94_explicit (args : List Str) (following : Bool) (h : ∀ a ∈ args, Plain a) :
    logical (wrappedExplicit args following) =
      VRef.sepBy ",".toList (args.map fun a => a ++ "=".toList ++ a) ++
        (if following && !args.isEmpty then ",".toList else []) := by
  have hp : ∀ a, Plain a → '&' ∉ explicitPiece a ∧ ' ' ∉ explicitPiece a := fun a ha =>
    ⟨by simpa [explicitPiece] using ha.2.2.1, by simpa [explicitPiece] using ha.2.1⟩
  unfold wrappedExplicit
  rw [loop_rest, List.nil_append]
  by_cases hne : args = []
  · subst hne; cases following <;> rfl
  · have hie : args.isEmpty = false := by simpa using hne
    simp only [nonempty_text (piece := explicitPiece) (by intro a; simp [explicitPiece]) _ _ hne, Bool.not_false,
      Bool.true_and, hie, Bool.and_true]
    cases following with
    | false =>
      simp only [Bool.not_false, if_true, Bool.false_eq_true, if_false, List.append_nil]
      exact strip_logical (piece := explicitPiece) (f := fun a => a ++ "=".toList ++ a) (fun a => rfl) hp
        (fun a ha => ⟨by
          rw [List.getLast?_append]
          cases hg : a.getLast? with
          | none => exact absurd (List.getLast?_eq_none_iff.1 hg) ha.1
          | some x => have := plain_last ha; rw [hg] at this; simpa using this, by simp⟩)
        (fun a => 2 * a.length + 2) hne h
    | true =>
      simp only [Bool.not_true, Bool.false_eq_true, if_false, if_true]
      rw [logical_rest hp _ _ args 0 h, ← flatMap_plain hne]
      rfl

/-! ## The lines -/

/-- Every stretch without line end is short, the last one has at most `cur` characters. -/
def Short (B cur : Nat) (t : Str) : Prop :=
  LinesAtMost B t ∧ ∀ before line, t = before ++ line → '\n' ∉ line → line.length ≤ cur

theorem short_nil (B : Nat) : Short B 0 [] := by
  constructor
  · intro b l a e _
    have : l = [] := by
      have := e.symm
      rw [List.append_eq_nil_iff, List.append_eq_nil_iff] at this
      exact this.1.2
    simp [this]
  · intro b l e _
    have := e.symm
    rw [List.append_eq_nil_iff] at this
    simp [this.2]

theorem short_char {B cur : Nat} {t : Str} (h : Short B cur t) (c : Char) (hB : cur + 1 ≤ B) :
    Short B (if c = '\n' then 0 else cur + 1) (t ++ [c]) := by
  have h2 : ∀ before line, t ++ [c] = before ++ line → '\n' ∉ line →
      line.length ≤ if c = '\n' then 0 else cur + 1 := by
    intro b l e hl
    rcases List.eq_nil_or_concat l with rfl | ⟨l', x, rfl⟩
    · simp
    · rw [List.concat_eq_append, ← List.append_assoc] at e
      rw [List.concat_eq_append] at hl ⊢
      obtain ⟨e1, e2⟩ := List.append_inj' e rfl
      injection e2 with e2 _
      subst e2
      have hc : c ≠ '\n' := fun e => hl (by rw [e]; simp)
      rw [if_neg hc]
      have := h.2 b l' e1 fun hm => hl (List.mem_append_left _ hm)
      rw [List.length_append]
      simpa using this
  refine ⟨?_, h2⟩
  intro b l a e hl
  rcases List.eq_nil_or_concat a with rfl | ⟨a', x, rfl⟩
  · rw [List.append_nil] at e
    have := h2 b l e hl
    split at this <;> omega
  · rw [List.concat_eq_append, ← List.append_assoc] at e
    obtain ⟨e1, -⟩ := List.append_inj' e rfl
    exact h.1 b l a' e1 hl

theorem short_append {B : Nat} : ∀ (p : Str) {cur : Nat} {t : Str}, Short B cur t → '\n' ∉ p → cur + p.length ≤ B →
    Short B (cur + p.length) (t ++ p)
  | [], cur, t, h, _, _ => by simpa using h
  | c :: p, cur, t, h, hn, hB => by
    have hc : c ≠ '\n' := fun e => hn (by rw [e]; simp)
    rw [List.length_cons] at hB
    have h1 := short_char h c (by omega)
    rw [if_neg hc] at h1
    have h2 := short_append p h1 (fun hm => hn (List.mem_cons_of_mem _ hm)) (by omega)
    rw [List.append_assoc] at h2
    rw [List.length_cons]
    have : cur + 1 + p.length = cur + (p.length + 1) := by omega
    rw [this] at h2
    exact h2

theorem short_break {B cur : Nat} {t : Str} (h : Short B cur t) (hB : cur + 3 ≤ B) (hB2 : 18 ≤ B) :
    Short B 18 (t ++ breakText) := by
  have e : breakText = " &".toList ++ "\n".toList ++ "                  ".toList := by decide
  rw [e, ← List.append_assoc, ← List.append_assoc]
  have h1 := short_append " &".toList h (by decide) (by show cur + 2 ≤ B; omega)
  have h2 := short_char h1 '\n' (by show cur + 2 + 1 ≤ B; omega)
  rw [if_pos rfl] at h2
  have h3 := short_append "                  ".toList h2 (by decide) (by show 0 + 18 ≤ B; omega)
  exact h3

theorem rest_short {piece : Str → Str} {size : Str → Nat} (hs : ∀ a, (piece a).length = size a)
    (hp : ∀ a, Plain a → '\n' ∉ piece a) {B M : Nat} (hM : 18 + 70 + M + 3 ≤ B) (last : Str) :
    ∀ (as : List Str) (n : Nat) (t : Str) (cur : Nat), (∀ a ∈ as, Plain a ∧ size a ≤ M) → as.Nodup →
      as.getLast? = some last → n ≤ 70 → cur ≤ 18 + n → Short B cur t →
      LinesAtMost B (t ++ rest piece size last as n)
  | [], _, _, _, _, _, hl, _, _, _ => by cases hl
  | [a], n, t, cur, h, _, hl, hn, hc, hsh => by
    have : a = last := by simpa using hl
    subst this
    have ha := h a (by simp)
    have h1 := short_append (piece a) hsh (hp a ha.1) (by rw [hs]; have := ha.2; omega)
    unfold rest
    simpa [rest] using h1.1
  | a :: b :: as, n, t, cur, h, hnd, hl, hn, hc, hsh => by
    have ha := h a (by simp)
    have hl' : (b :: as).getLast? = some last := by rw [← hl]; simp
    have hne : a ≠ last := by
      intro e
      rw [List.nodup_cons] at hnd
      exact hnd.1 (e ▸ List.mem_of_getLast? hl')
    have h1 := short_append (piece a) hsh (hp a ha.1) (by rw [hs]; have := ha.2; omega)
    rw [hs] at h1
    have hrec := h
    unfold rest
    by_cases hlen : n + size a > 70
    · rw [if_pos (by simp [hlen, hne])]
      have h2 := short_break h1 (by have := ha.2; omega) (by omega)
      have := rest_short hs hp hM last (b :: as) 0 _ 18 (fun x hx => h x (List.mem_cons_of_mem _ hx))
        (List.nodup_cons.1 hnd).2 hl' (by omega) (by omega) h2
      simpa only [List.append_assoc] using this
    · rw [if_neg (by simp [hlen])]
      have := rest_short hs hp hM last (b :: as) (n + size a) _ (cur + size a)
        (fun x hx => h x (List.mem_cons_of_mem _ hx)) (List.nodup_cons.1 hnd).2 hl' (by omega) (by omega) h1
      simpa only [List.append_assoc] using this

theorem lines_prefix {B : Nat} {t u : Str} (h : LinesAtMost B (t ++ u)) : LinesAtMost B t := by
  intro b l a e hl
  exact h b l (a ++ u) (by rw [e]; simp only [List.append_assoc]) hl

theorem rstrip_prefix (s : Str) : ∃ u, s = rstripComma s ++ u := by
  refine ⟨(s.reverse.takeWhile (· == ',')).reverse, ?_⟩
  unfold rstripComma
  rw [← List.reverse_append, List.takeWhile_append_dropWhile, List.reverse_reverse]

/-- C94: no line is longer than 91 characters plus the longest piece (name and comma), if no argument is repeated. -/
theorem C94_lines (args : List Str) (M : Nat) (h : ∀ a ∈ args, Plain a ∧ a.length + 1 ≤ M) (hd : args.Nodup) :
    LinesAtMost (91 + M) (wrapped args) := by
  unfold wrapped
  rw [loop_rest, List.nil_append]
  cases hl : args.getLast? with
  | none =>
    rw [List.getLast?_eq_none_iff.1 hl]
    intro b l a e _
    have e : [] = b ++ l ++ a := e
    have := e.symm
    rw [List.append_eq_nil_iff, List.append_eq_nil_iff] at this
    simp [this.1.2]
  | some last =>
    have key := rest_short (piece := plainPiece) (size := fun a => a.length + 1) (B := 91 + M) (M := M)
      (by intro a; simp [plainPiece]) (fun a ha => by simpa [plainPiece] using ha.2.2.2.1) (by omega) last args 0 [] 0
      h hd hl (by omega) (by omega) (short_nil _)
    rw [List.nil_append] at key
    show LinesAtMost _ (if !(rest plainPiece _ last args 0).isEmpty then _ else _)
    split
    · obtain ⟨u, hu⟩ := rstrip_prefix (rest plainPiece (fun a => a.length + 1) last args 0)
      rw [hu] at key
      exact lines_prefix key
    · exact key

/-- C94: the same with explicit names. -/
theorem C94_lines_explicit (args : List Str) (following : Bool) (M : Nat)
    (h : ∀ a ∈ args, Plain a ∧ 2 * a.length + 2 ≤ M) (hd : args.Nodup) :
    LinesAtMost (91 + M) (wrappedExplicit args following) := by
  unfold wrappedExplicit
  rw [loop_rest, List.nil_append]
  cases hl : args.getLast? with
  | none =>
    rw [List.getLast?_eq_none_iff.1 hl]
    intro b l a e _
    have e : [] = b ++ l ++ a := e
    have := e.symm
    rw [List.append_eq_nil_iff, List.append_eq_nil_iff] at this
    simp [this.1.2]
  | some last =>
    have key := rest_short (piece := explicitPiece) (size := fun a => 2 * a.length + 2) (B := 91 + M) (M := M)
      (by intro a; simp [explicitPiece]; omega) (fun a ha => by simpa [explicitPiece] using ha.2.2.2.1) (by omega) last
      args 0 [] 0 h hd hl (by omega) (by omega) (short_nil _)
    rw [List.nil_append] at key
    show LinesAtMost _ (if !(rest explicitPiece _ last args 0).isEmpty && !following then _ else _)
    split
    · obtain ⟨u, hu⟩ := rstrip_prefix (rest explicitPiece (fun a => 2 * a.length + 2) last args 0)
      rw [hu] at key
      exact lines_prefix key
    · exact key

/-- C94 for Fortran names (at most 63 characters): at most 219 characters in a line, so the limit of 260 that the code
mentions is kept, also behind the 41 characters that may stand before the list. -/
theorem C94_limit (args : List Str) (following : Bool) (h : ∀ a ∈ args, Plain a ∧ a.length ≤ 63) (hd : args.Nodup) :
    LinesAtMost 219 (wrapped args) ∧ LinesAtMost 219 (wrappedExplicit args following) := by
  refine ⟨?_, C94_lines_explicit args following 128 (fun a ha => ⟨(h a ha).1, by have := (h a ha).2; omega⟩) hd⟩
  have := C94_lines args 64 (fun a ha => ⟨(h a ha).1, by have := (h a ha).2; omega⟩) hd
  intro b l a e hl
  have := this b l a e hl
  omega

end Ccpp.ArgW
