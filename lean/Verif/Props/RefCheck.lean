import Verif.Model.RefCheck
import Verif.Spec.RefCheck
import Verif.Props.Regex
import Verif.Props.LiteralsThm
/-!
# C85: units, references, types and diagnostic names
-/
namespace Ccpp.RC

open Ccpp.Rx
open Ccpp.FDecl (Blank Tight strip_tight strip_core strip_split)

theorem white_iff (c : Char) : White c ↔ isWs c = true := (Lit.isWs_iff c).symm

/-! ## Units -/

theorem letters_iff (s : Str) : L letters s ↔ Word s := L_plus_chr

theorem posNum_iff (s : Str) : L posNum s ↔ ∃ c d, s = c :: d ∧ c.isDigit = true ∧ c ≠ '0' ∧ ∀ x ∈ d, x.isDigit = true := by
  unfold posNum
  rw [L_seq]
  simp only [L_chr, L_star_chr]
  constructor
  · rintro ⟨x, y, rfl, ⟨c, rfl, hc⟩, hy⟩
    rw [Bool.and_eq_true, bne_iff_ne] at hc
    exact ⟨c, y, rfl, hc.1, hc.2, hy⟩
  · rintro ⟨c, d, rfl, h1, h2, h3⟩
    exact ⟨[c], d, rfl, ⟨c, rfl, by rw [Bool.and_eq_true, bne_iff_ne]; exact ⟨h1, h2⟩⟩, h3⟩

theorem exponent_iff (s : Str) : L unitExponent s ↔ NonZero s := by
  unfold unitExponent NonZero
  rw [L_alt, L_seq]
  simp only [L_lit, posNum_iff]
  constructor
  · rintro (⟨x, y, rfl, rfl, c, d, rfl, h1, h2, h3⟩ | ⟨c, d, rfl, h1, h2, h3⟩)
    · exact ⟨['-'], c, d, rfl, .inr rfl, h1, h2, h3⟩
    · exact ⟨[], c, d, rfl, .inl rfl, h1, h2, h3⟩
  · rintro ⟨g, c, d, rfl, rfl | rfl, h1, h2, h3⟩
    · exact .inr ⟨c, d, rfl, h1, h2, h3⟩
    · exact .inl ⟨['-'], c :: d, rfl, rfl, c, d, rfl, h1, h2, h3⟩

theorem unitRe_iff (s : Str) : L unitRe s ↔ Unit s := by
  unfold unitRe Unit
  rw [L_seq]
  simp only [letters_iff, L_opt, exponent_iff]

theorem unitList_iff (s : Str) : L (.seq unitRe (.star (.seq (.chr isWs) unitRe))) s ↔ UnitList s := by
  rw [L_seq]
  constructor
  · rintro ⟨x, y, rfl, hx, hy⟩
    obtain ⟨l, rfl, hl⟩ := L_star.1 hy
    clear hy
    rw [unitRe_iff] at hx
    induction l generalizing x with
    | nil => simpa using UnitList.one hx
    | cons z l ih =>
      rw [List.forall_mem_cons] at hl
      obtain ⟨w, u, rfl, hw, hu⟩ := L_seq.1 hl.1
      obtain ⟨c, rfl, hc⟩ := L_chr.1 hw
      have := UnitList.more hx ((white_iff c).2 hc) (ih u ((unitRe_iff u).1 hu) hl.2)
      simpa using this
  · intro h
    induction h with
    | @one u hu => exact ⟨u, [], by simp, (unitRe_iff u).2 hu, .starNil⟩
    | @more u c r hu hc _ ih =>
      obtain ⟨x, y, rfl, hx, hy⟩ := ih
      refine ⟨u, c :: (x ++ y), rfl, (unitRe_iff u).2 hu, ?_⟩
      exact .starCons (s := c :: x) (.seq (s := [c]) (.chr ((white_iff c).1 hc)) hx) hy

theorem pair_iff (s : Str) : L (.seq letters (.seq (.lit '_') letters)) s ↔ ∃ a b, s = a ++ '_' :: b ∧ Word a ∧ Word b := by
  rw [L_seq]
  simp only [L_seq, letters_iff, L_lit]
  constructor
  · rintro ⟨a, y, rfl, ha, u, b, rfl, rfl, hb⟩
    exact ⟨a, b, rfl, ha, hb⟩
  · rintro ⟨a, b, rfl, ha, hb⟩
    exact ⟨a, '_' :: b, rfl, ha, ['_'], b, rfl, rfl, hb⟩

theorem Word.append {a b : Str} (ha : Word a) (hb : Word b) : Word (a ++ b) :=
  ⟨by simp [ha.1], fun c hc => (List.mem_append.1 hc).elim (ha.2 c) (hb.2 c)⟩

theorem joined_prefix {a s : Str} (ha : ∀ c ∈ a, c.isAlpha = true) (h : Joined s) : Joined (a ++ s) := by
  have hw : ∀ {b}, Word b → Word (a ++ b) := fun hb =>
    ⟨by simp [hb.1], fun c hc => (List.mem_append.1 hc).elim (ha c) (hb.2 c)⟩
  cases h with
  | last h1 h2 => rw [← List.append_assoc]; exact .last (hw h1) h2
  | more h1 h2 h3 => rw [← List.append_assoc]; exact .more (hw h1) h2 h3

theorem joined_pairs : ∀ (l : List Str), l ≠ [] → (∀ x ∈ l, ∃ a b, x = a ++ '_' :: b ∧ Word a ∧ Word b) → Joined l.flatten
  | [], h, _ => absurd rfl h
  | [x], _, hl => by
    obtain ⟨a, b, rfl, ha, hb⟩ := hl x (by simp)
    simpa using Joined.last ha hb
  | x :: y :: l, _, hl => by
    obtain ⟨a, b, rfl, ha, hb⟩ := hl x (by simp)
    have ih := joined_pairs (y :: l) (by simp) (fun z hz => hl z (List.mem_cons_of_mem _ hz))
    obtain ⟨hbne, hball⟩ := hb
    cases b with
    | nil => exact absurd rfl hbne
    | cons c b =>
      rw [List.forall_mem_cons] at hball
      have := Joined.more (c := c) ha hball.1 (joined_prefix hball.2 ih)
      simpa using this

theorem pairs_joined {s : Str} (h : Joined s) : ∃ l : List Str, l ≠ [] ∧ s = l.flatten ∧
    ∀ x ∈ l, ∃ a b, x = a ++ '_' :: b ∧ Word a ∧ Word b := by
  induction h with
  | @last a b ha hb => exact ⟨[a ++ '_' :: b], by simp, by simp, by simpa using ⟨a, b, rfl, ha, hb⟩⟩
  | @more a c s ha hc _ ih =>
    obtain ⟨l, hne, rfl, hl⟩ := ih
    refine ⟨(a ++ ['_', c]) :: l, by simp, by simp, List.forall_mem_cons.2 ⟨⟨a, [c], rfl, ha, by simp, by simpa using hc⟩, hl⟩⟩

theorem underscore_iff (s : Str) : L withUnderscore s ↔ Joined s := by
  unfold withUnderscore Re.plus
  rw [L_seq]
  constructor
  · rintro ⟨x, y, rfl, hx, hy⟩
    obtain ⟨l, rfl, hl⟩ := L_star.1 hy
    have := joined_pairs (x :: l) (by simp)
      (List.forall_mem_cons.2 ⟨(pair_iff x).1 hx, fun z hz => (pair_iff z).1 (hl z hz)⟩)
    simpa using this
  · intro h
    obtain ⟨l, hne, rfl, hl⟩ := pairs_joined h
    cases l with
    | nil => exact absurd rfl hne
    | cons x l =>
      rw [List.forall_mem_cons] at hl
      exact ⟨x, l.flatten, rfl, (pair_iff x).2 hl.1, L_star.2 ⟨l, rfl, fun z hz => (pair_iff z).2 (hl.2 z hz)⟩⟩

theorem strip_last (v : Str) : (strip v).getLast? ≠ some '\n' := Chk.strip_noNewline v

theorem units_accept (v : Str) : unitsRe.dollar (strip v) = true ↔
    (strip v = ['1'] ∨ UnitList (strip v) ∨ Joined (strip v)) := by
  rw [dollar_iff]
  unfold unitsRe
  rw [L_alt, L_alt, unitList_iff, underscore_iff, L_lit]
  constructor
  · rintro (h | ⟨t, e, -⟩)
    · rcases h with h | h | h
      · exact .inr (.inr h)
      · exact .inr (.inl h)
      · exact .inl h
    · exact absurd (by rw [e]; simp) (strip_last v)
  · rintro (h | h | h)
    · exact .inl (.inr (.inr h))
    · exact .inl (.inr (.inl h))
    · exact .inl (.inl h)

/-! ## Names and references -/

theorem isWordC_iff (c : Char) : isWordC c = true ↔ (c.isAlphanum = true ∨ c = '_') := by
  unfold isWordC; rw [Bool.or_eq_true, beq_iff_eq]

theorem id_iff (s : Str) : L idRe s ↔ Chk.IsName s := by
  unfold idRe Chk.IsName
  rw [L_seq]
  simp only [L_chr, L_star_chr, isWordC_iff]
  constructor
  · rintro ⟨x, y, rfl, ⟨c, rfl, hc⟩, hy⟩
    exact ⟨c, y, rfl, hc, hy⟩
  · rintro ⟨c, d, rfl, h1, h2⟩
    exact ⟨[c], d, rfl, ⟨c, rfl, h1⟩, h2⟩

theorem ws_iff (s : Str) : L ws s ↔ ∀ c ∈ s, White c := by
  unfold ws
  rw [L_star_chr]
  simp only [white_iff]

theorem dim_iff (s : Str) : L dimRe s ↔ Dim s := by
  unfold dimRe Dim
  rw [L_alt, L_alt, id_iff, L_lit, L_plus_chr]

theorem repeatDim_iff (s : Str) : L repeatDim s ↔
    ∃ a d b, s = ',' :: (a ++ d ++ b) ∧ (∀ c ∈ a, White c) ∧ Dim d ∧ (∀ c ∈ b, White c) := by
  unfold repeatDim
  rw [L_seq]
  simp only [L_seq, L_lit, ws_iff, dim_iff]
  constructor
  · rintro ⟨_, _, rfl, rfl, a, _, rfl, ha, d, b, rfl, hd, hb⟩
    exact ⟨a, d, b, by simp, ha, hd, hb⟩
  · rintro ⟨a, d, b, rfl, ha, hd, hb⟩
    exact ⟨[','], _, rfl, rfl, a, d ++ b, by simp, ha, d, b, rfl, hd, hb⟩

theorem dims_cons {a d b : Str} (ha : ∀ c ∈ a, White c) (hd : Dim d) (hb : ∀ c ∈ b, White c) :
    ∀ (l : List Str), (∀ x ∈ l, L repeatDim x) → ∃ ds, ds.length = l.length ∧ Dims (d :: ds) (a ++ d ++ b ++ l.flatten) := by
  intro l
  induction l generalizing a d b with
  | nil => intro _; exact ⟨[], rfl, by simpa using Dims.one ha hd hb⟩
  | cons x l ih =>
    intro hl
    rw [List.forall_mem_cons] at hl
    obtain ⟨a', d', b', rfl, ha', hd', hb'⟩ := (repeatDim_iff x).1 hl.1
    obtain ⟨ds, h1, h2⟩ := ih ha' hd' hb' hl.2
    refine ⟨d' :: ds, by simp [h1], ?_⟩
    have := Dims.more ha hd hb h2
    simpa using this

theorem dims_uncons {ds : List Str} {r : Str} (h : Dims ds r) :
    ∃ (a d b : Str) (l : List Str), r = a ++ d ++ b ++ l.flatten ∧ (∀ c ∈ a, White c) ∧ Dim d ∧ (∀ c ∈ b, White c) ∧ l.length + 1 = ds.length ∧
      ∀ x ∈ l, L repeatDim x := by
  induction h with
  | @one a d b ha hd hb => exact ⟨a, d, b, [], by simp, ha, hd, hb, rfl, by simp⟩
  | @more a d b ds r ha hd hb _ ih =>
    obtain ⟨a', d', b', l, rfl, ha', hd', hb', hlen, hl⟩ := ih
    refine ⟨a, d, b, (',' :: (a' ++ d' ++ b')) :: l, by simp, ha, hd, hb, by simp [hlen], ?_⟩
    exact List.forall_mem_cons.2 ⟨(repeatDim_iff _).2 ⟨a', d', b', rfl, ha', hd', hb'⟩, hl⟩

theorem scalarRef_iff (s : Str) : L scalarRef s ↔ ∃ n ds, ds.length ≤ 7 ∧ Ref n ds s := by
  unfold scalarRef Ref
  simp only [L_seq, L_lit, ws_iff, dim_iff, id_iff, L_upTo]
  constructor
  · rintro ⟨n, _, rfl, hn, b, _, rfl, hb, _, _, rfl, rfl, a, _, rfl, ha, d, _, rfl, hd, b', _, rfl, hb', _, _, rfl,
      ⟨l, hlen, rfl, hl⟩, rfl⟩
    obtain ⟨ds, h1, h2⟩ := dims_cons ha hd hb' l hl
    exact ⟨n, d :: ds, by simp; omega, hn, b, _, hb, h2, by simp⟩
  · rintro ⟨n, ds, hlen, hn, b, r, hb, hd, rfl⟩
    obtain ⟨a, d, b', l, rfl, ha, hd, hb', h1, hl⟩ := dims_uncons hd
    refine ⟨n, b ++ ('(' :: (a ++ (d ++ (b' ++ (l.flatten ++ [')']))))), ?_, hn, b, '(' :: (a ++ (d ++ (b' ++ (l.flatten ++ [')'])))), rfl, hb,
      ['('], a ++ (d ++ (b' ++ (l.flatten ++ [')']))), rfl, rfl, a, d ++ (b' ++ (l.flatten ++ [')'])), rfl, ha,
      d, b' ++ (l.flatten ++ [')']), rfl, hd, b', l.flatten ++ [')'], rfl, hb', l.flatten, [')'], rfl, ⟨l, by omega, rfl, hl⟩, rfl⟩
    simp only [List.append_assoc, List.cons_append]

/-! ## The tokens of a reference -/

theorem name_chars {n : Str} (h : Chk.IsName n) : ∀ c ∈ n, isWordC c = true := by
  obtain ⟨c, cs, rfl, h1, h2⟩ := h
  intro x hx
  rcases List.mem_cons.1 hx with rfl | hx
  · rw [isWordC_iff]; left; unfold Char.isAlphanum; simp [h1]
  · exact (isWordC_iff x).2 (h2 x hx)

theorem wordC_not {c : Char} (h : isWordC c = true) : isWs c = false ∧ c ≠ '(' ∧ c ≠ ')' ∧ c ≠ ',' ∧ c ≠ '\n' ∧ c ≠ '$' ∧ c ≠ ':' := by
  refine ⟨?_, ?_, ?_, ?_, ?_, ?_, ?_⟩
  · cases hw : isWs c with
    | false => rfl
    | true => rcases (Lit.isWs_iff c).1 hw with rfl | rfl | rfl | rfl | rfl | rfl <;> exact absurd h (by decide)
  all_goals (rintro rfl; exact absurd h (by decide))

theorem dim_chars {d : Str} (h : Dim d) : d ≠ [] ∧ ∀ c ∈ d, isWs c = false ∧ c ≠ '(' ∧ c ≠ ')' ∧ c ≠ ',' := by
  rcases h with h | rfl | ⟨hne, h⟩
  · refine ⟨?_, fun c hc => ?_⟩
    · obtain ⟨c, cs, rfl, -⟩ := h; simp
    · have := wordC_not (name_chars h c hc); exact ⟨this.1, this.2.1, this.2.2.1, this.2.2.2.1⟩
  · exact ⟨by simp, by decide⟩
  · refine ⟨hne, fun c hc => ?_⟩
    have hd := h c hc
    have hw : isWordC c = true := by rw [isWordC_iff]; left; unfold Char.isAlphanum; simp [hd]
    have := wordC_not hw; exact ⟨this.1, this.2.1, this.2.2.1, this.2.2.2.1⟩

theorem white_chars {c : Char} (h : White c) : c ≠ '(' ∧ c ≠ ')' ∧ c ≠ ',' := by
  rcases h with rfl | rfl | rfl | rfl | rfl | rfl <;> decide

theorem item_chars {a d b : Str} (ha : ∀ c ∈ a, White c) (hd : Dim d) (hb : ∀ c ∈ b, White c) :
    ∀ c ∈ a ++ d ++ b, c ≠ '(' ∧ c ≠ ')' ∧ c ≠ ',' := by
  intro c hc
  rw [List.mem_append, List.mem_append] at hc
  rcases hc with (hc | hc) | hc
  · exact white_chars (ha c hc)
  · exact ((dim_chars hd).2 c hc).2
  · exact white_chars (hb c hc)

theorem item_strip {a d b : Str} (ha : ∀ c ∈ a, White c) (hd : Dim d) (hb : ∀ c ∈ b, White c) : strip (a ++ d ++ b) = d :=
  strip_core (fun c hc => (white_iff c).1 (ha c hc)) (Lit.tight_of_nows fun c hc => ((dim_chars hd).2 c hc).1)
    (fun c hc => (white_iff c).1 (hb c hc))

theorem dims_chars {ds : List Str} {r : Str} (h : Dims ds r) : r ≠ [] ∧ ∀ c ∈ r, c ≠ '(' ∧ c ≠ ')' := by
  induction h with
  | @one a d b ha hd hb =>
    exact ⟨by simp [(dim_chars hd).1], fun c hc => ⟨(item_chars ha hd hb c hc).1, (item_chars ha hd hb c hc).2.1⟩⟩
  | @more a d b ds r ha hd hb _ ih =>
    refine ⟨by simp, fun c hc => ?_⟩
    rcases List.mem_append.1 hc with hc | hc
    · exact ⟨(item_chars ha hd hb c hc).1, (item_chars ha hd hb c hc).2.1⟩
    · rcases List.mem_cons.1 hc with rfl | hc
      · decide
      · exact ih.2 c hc

theorem dims_split {ds : List Str} {r : Str} (h : Dims ds r) : (Chk.splitOn ',' r).map strip = ds := by
  induction h with
  | @one a d b ha hd hb =>
    rw [Chk.splitOn_item ',' _ (fun hm => (item_chars ha hd hb _ hm).2.2 rfl), List.map_cons, item_strip ha hd hb]; rfl
  | @more a d b ds r ha hd hb _ ih =>
    rw [Chk.splitOn_append ',' _ _ (fun hm => (item_chars ha hd hb _ hm).2.2 rfl), List.map_cons, item_strip ha hd hb, ih]

theorem ref_tokens {n : Str} {ds : List Str} {s v : Str} (h : Ref n ds s) (hv : v = s ∨ v = s ++ ['\n']) :
    refTokens v = n :: ds := by
  obtain ⟨hn, b, r, hb, hr, rfl⟩ := h
  obtain ⟨hrne, hrc⟩ := dims_chars hr
  have hnc := fun c hc => wordC_not (name_chars hn c hc)
  have htight : Tight (n ++ b ++ '(' :: r ++ [')']) := by
    constructor
    · intro c hc
      obtain ⟨x, xs, rfl, -⟩ := hn
      simp at hc
      subst hc
      exact (hnc _ (by simp)).1
    · intro c hc
      rw [List.getLast?_concat] at hc
      cases hc; decide
  have hs : strip v = n ++ b ++ '(' :: r ++ [')'] := by
    rcases hv with rfl | rfl
    · exact strip_tight htight
    · have := strip_core (p := []) (by intro c hc; simp at hc) htight (q := ['\n']) (by intro c hc; simp at hc; subst hc; decide)
      simpa using this
  have hp : rstripParen (strip v) = n ++ b ++ '(' :: r := by
    rw [hs]
    unfold rstripParen
    rw [List.reverse_append]
    show (List.dropWhile _ (')' :: (n ++ b ++ '(' :: r).reverse)).reverse = _
    rw [List.dropWhile_cons_of_pos (by simp)]
    have hne : (n ++ b ++ '(' :: r).reverse.head? = r.getLast? := by
      rw [List.head?_reverse, List.getLast?_append]
      cases hg : r.getLast? with
      | none => exact absurd (List.getLast?_eq_none_iff.1 hg) hrne
      | some z => rw [List.getLast?_cons, hg]; rfl
    cases hq : (n ++ b ++ '(' :: r).reverse with
    | nil => simp at hq
    | cons z zs =>
      rw [hq] at hne
      have hz : z ≠ ')' := (hrc z (List.mem_of_getLast? hne.symm)).2
      rw [List.dropWhile_cons_of_neg (by simpa using hz), ← hq, List.reverse_reverse]
  unfold refTokens
  have hno : '(' ∉ n ++ b := by
    intro hm
    rcases List.mem_append.1 hm with hm | hm
    · exact (hnc _ hm).2.1 rfl
    · exact (white_chars (hb _ hm)).1 rfl
  rw [hp, Chk.splitOn_append '(' _ _ hno, Chk.splitOn_item '(' r (fun hm => (hrc _ hm).1 rfl)]
  simp only
  rw [dims_split hr]
  have := strip_core (p := []) (by intro c hc; simp at hc) (Lit.tight_of_nows fun c hc => (hnc c hc).1)
    (q := b) (fun c hc => (white_iff c).1 (hb c hc))
  simp only [List.nil_append] at this
  rw [this]

theorem ref_unique {n n' : Str} {ds ds' : List Str} {s s' : Str} (h : Ref n ds s) (h' : Ref n' ds' s')
    (he : s = s' ∨ s = s' ++ ['\n'] ∨ s' = s ++ ['\n']) : n = n' ∧ ds = ds' := by
  have key : refTokens s = refTokens s' := by
    rcases he with rfl | rfl | rfl
    · rfl
    · rw [ref_tokens h' (.inr rfl), ref_tokens h' (.inl rfl)]
    · rw [ref_tokens h (.inl rfl), ref_tokens h (.inr rfl)]
  rw [ref_tokens h (.inl rfl), ref_tokens h' (.inl rfl)] at key
  exact List.cons.inj key

end Ccpp.RC
