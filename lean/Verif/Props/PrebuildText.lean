import Verif.Spec.PrebuildNames
import Verif.Props.PrebuildFilter
/-!
# C71: the texts of array references
-/
namespace Ccpp.PB

/-! ## Blanks -/

theorem joinWith_eq (c : Char) : ∀ l : List Str, joinWith c l = joined c l
  | [] => rfl
  | [_] => rfl
  | x :: y :: l => by
    show x ++ c :: joinWith c (y :: l) = x ++ [c] ++ joined c (y :: l)
    rw [joinWith_eq c (y :: l)]; simp

theorem joined_cons {c : Char} {x : Str} {l : List Str} (h : l ≠ []) : joined c (x :: l) = x ++ c :: joined c l := by
  cases l with
  | nil => exact absurd rfl h
  | cons y l =>
    show x ++ [c] ++ joined c (y :: l) = _
    simp

theorem splitOn_joined {c : Char} : ∀ {ts : List Str}, ts ≠ [] → (∀ t ∈ ts, c ∉ t) → splitOn c (joined c ts) = ts
  | [t], _, h => splitOn_none (h t (by simp))
  | t :: u :: ts, _, h => by
    rw [joined_cons (by simp), splitOn_append (h t (by simp)), splitOn_joined (by simp) (fun x hx => h x (by simp [hx]))]

theorem dropWhile_blank {a s : Str} (h : Blanks a) : (a ++ s).dropWhile isWs = s.dropWhile isWs := by
  induction a with
  | nil => rfl
  | cons c a ih =>
    rw [List.cons_append, List.dropWhile_cons, if_pos (h c (by simp))]
    exact ih fun d hd => h d (by simp [hd])

theorem Blanks.reverse {a : Str} (h : Blanks a) : Blanks a.reverse := fun c hc => h c (List.mem_reverse.1 hc)

theorem dropWhile_core {c : Char} {s : Str} (h : isWs c = false) : (c :: s).dropWhile isWs = c :: s := by
  rw [List.dropWhile_cons, if_neg (by simp [h])]

/-- No blanks in a text. -/
def NoWs (s : Str) : Prop := ∀ c ∈ s, isWs c = false

theorem lstrip_core {a s u : Str} (h : Blanks a) (hs : s ≠ []) (hn : NoWs s) : lstrip (a ++ s ++ u) = s ++ u := by
  unfold lstrip
  rw [List.append_assoc, dropWhile_blank h]
  cases s with
  | nil => exact absurd rfl hs
  | cons c s => exact dropWhile_core (hn c (by simp))

theorem rstrip_core {u s b : Str} (h : Blanks b) (hs : s ≠ []) (hn : NoWs s) : rstrip (u ++ s ++ b) = u ++ s := by
  unfold rstrip
  rw [List.reverse_append, dropWhile_blank h.reverse, List.reverse_append]
  have hr : s.reverse ≠ [] := by simpa using hs
  cases he : s.reverse with
  | nil => exact absurd he hr
  | cons c r =>
    rw [List.cons_append, dropWhile_core (hn c (by rw [← List.mem_reverse, he]; simp)), ← List.cons_append, ← he,
      ← List.reverse_append, List.reverse_reverse]

theorem strip_core {a s b : Str} (ha : Blanks a) (hb : Blanks b) (hs : s ≠ []) (hn : NoWs s) : strip (a ++ s ++ b) = s := by
  unfold strip
  rw [rstrip_core hb hs hn]
  have := lstrip_core (u := []) ha hs hn
  simpa using this

theorem strip_blanks {a : Str} (h : Blanks a) : strip a = [] := by
  have h1 : a.reverse.dropWhile isWs = [] := by
    have := dropWhile_blank (s := []) h.reverse
    simpa using this
  simp [strip, rstrip, h1, lstrip]

/-! ## Elements -/

/-- The text has the core `s`: a literal or a name. -/
def Core (t s : Str) : Prop := (∃ a b, Blanks a ∧ Blanks b ∧ t = a ++ s ++ b) ∧ (IsLiteral s ∨ IsName s)

/-- What a core becomes. -/
def CoreRep (F : Str → Str → Prop) (s o : Str) : Prop := (IsLiteral s ∧ o = s) ∨ (IsName s ∧ F s o)

theorem digit_word {c : Char} (h : c.isDigit = true) : c.isAlphanum = true := by
  unfold Char.isAlphanum; simp [h]

/-- A character of a literal or a name. -/
def Word (c : Char) : Prop := c.isAlphanum = true ∨ c = '_' ∨ c = '-' ∨ c = '+'

theorem word_chars {s : Str} (h : IsLiteral s ∨ IsName s) : s ≠ [] ∧ ∀ c ∈ s, Word c := by
  rcases h with ⟨sign, d, hs, rfl, h1, h2⟩ | ⟨⟨c, r, h1, _⟩, h2⟩
  · refine ⟨by simp [h1], fun c hc => ?_⟩
    rcases List.mem_append.1 hc with hc | hc
    · rcases hs with rfl | rfl | rfl
      · cases hc
      · exact Or.inr (Or.inr (Or.inl (List.mem_singleton.1 hc)))
      · exact Or.inr (Or.inr (Or.inr (List.mem_singleton.1 hc)))
    · exact Or.inl (digit_word (h2 c hc))
  · exact ⟨by rw [h1]; simp, fun c hc => (h2 c hc).imp_right Or.inl⟩

theorem word_not {c : Char} (h : Word c) : isWs c = false ∧ c ≠ ':' ∧ c ≠ ',' ∧ c ≠ '(' ∧ c ≠ ')' := by
  have key : ∀ d : Char, d.isAlphanum = false → (d ≠ '_' ∧ d ≠ '-' ∧ d ≠ '+') → c ≠ d := by
    rintro d h1 h2 rfl
    rcases h with h | h | h | h
    · rw [h1] at h; cases h
    · exact h2.1 h
    · exact h2.2.1 h
    · exact h2.2.2 h
  refine ⟨?_, key _ (by decide) (by decide), key _ (by decide) (by decide), key _ (by decide) (by decide), key _ (by decide) (by decide)⟩
  unfold isWs
  simp [key ' ' (by decide) (by decide), key '\t' (by decide) (by decide), key '\n' (by decide) (by decide),
    key '\r' (by decide) (by decide), key '\x0b' (by decide) (by decide), key '\x0c' (by decide) (by decide)]

theorem blank_not {c : Char} (h : isWs c = true) : c ≠ ':' ∧ c ≠ ',' ∧ c ≠ '(' ∧ c ≠ ')' := by
  refine ⟨?_, ?_, ?_, ?_⟩ <;> (rintro rfl; revert h; decide)

theorem Core.noWs {t s : Str} (h : Core t s) : s ≠ [] ∧ NoWs s :=
  ⟨(word_chars h.2).1, fun c hc => (word_not ((word_chars h.2).2 c hc)).1⟩

theorem Core.strip {t s : Str} (h : Core t s) : strip t = s := by
  obtain ⟨a, b, ha, hb, rfl⟩ := h.1
  exact strip_core ha hb h.noWs.1 h.noWs.2

theorem Core.self {t s : Str} (h : Core t s) : Core s s := ⟨⟨[], [], (by intro c hc; cases hc), (by intro c hc; cases hc), by simp⟩, h.2⟩

theorem Core.chars {t s : Str} (h : Core t s) : ∀ c ∈ t, c ≠ ':' ∧ c ≠ ',' ∧ c ≠ '(' ∧ c ≠ ')' := by
  obtain ⟨⟨a, b, ha, hb, rfl⟩, h2⟩ := h
  intro c hc
  rcases List.mem_append.1 hc with hc | hc
  · rcases List.mem_append.1 hc with hc | hc
    · exact blank_not (ha c hc)
    · exact (word_not ((word_chars h2).2 c hc)).2
  · exact blank_not (hb c hc)

theorem dimRep_iff {F : Str → Str → Prop} {t s o : Str} (h : Core t s) : DimRep F t o ↔ CoreRep F s o := by
  constructor
  · rintro ⟨a, s', b, ha, hb, ht, hr⟩
    have hc : Core t s' := ⟨⟨a, b, ha, hb, ht⟩, hr.imp (fun h => h.1) (fun h => h.1)⟩
    have : s' = s := hc.strip.symm.trans h.strip
    subst this
    exact hr
  · intro hr
    obtain ⟨a, b, ha, hb, ht⟩ := h.1
    exact ⟨a, s, b, ha, hb, ht, hr⟩

theorem core_of_dimRep {F : Str → Str → Prop} {t o : Str} (h : DimRep F t o) : ∃ s, Core t s := by
  obtain ⟨a, s', b, ha, hb, ht, hr⟩ := h
  exact ⟨s', ⟨a, b, ha, hb, ht⟩, hr.imp (fun h => h.1) (fun h => h.1)⟩

theorem Core.lstrip {t s : Str} (h : Core t s) : Core (lstrip t) s := by
  obtain ⟨a, b, ha, hb, rfl⟩ := h.1
  rw [lstrip_core ha h.noWs.1 h.noWs.2]
  exact ⟨⟨[], b, (by intro c hc; cases hc), hb, by simp⟩, h.2⟩

theorem Core.rstrip {t s : Str} (h : Core t s) : Core (rstrip t) s := by
  obtain ⟨a, b, ha, hb, rfl⟩ := h.1
  rw [rstrip_core hb h.noWs.1 h.noWs.2]
  exact ⟨⟨a, [], ha, (by intro c hc; cases hc), by simp⟩, h.2⟩

/-! ## Indices -/

theorem forall2_exists {α β : Type} {P : α → β → Prop} : ∀ {l : List α}, (∀ a ∈ l, ∃ b, P a b) → ∃ m, List.Forall₂ P l m
  | [], _ => ⟨[], .nil⟩
  | a :: l, h => by
    obtain ⟨b, hb⟩ := h a (by simp)
    obtain ⟨m, hm⟩ := forall2_exists (l := l) (fun x hx => h x (by simp [hx]))
    exact ⟨b :: m, .cons hb hm⟩

theorem forall2_left {α β : Type} {P : α → β → Prop} : ∀ {l : List α} {m : List β}, List.Forall₂ P l m → ∀ {a : α}, a ∈ l →
    ∃ b ∈ m, P a b
  | _, _, .nil, _, h => by cases h
  | _, _, .cons h1 t, a, h => by
    rcases List.mem_cons.1 h with rfl | h
    · exact ⟨_, by simp, h1⟩
    · obtain ⟨b, hb, hp⟩ := forall2_left t h
      exact ⟨b, by simp [hb], hp⟩

theorem forall2_ne_nil {α β : Type} {P : α → β → Prop} {l : List α} {m : List β} (h : List.Forall₂ P l m) : l = [] ↔ m = [] := by
  cases h <;> simp

theorem lstrip_joined {c : Char} (hc : isWs c = false) {t : Str} {ts : List Str} : lstrip (joined c (t :: ts)) = joined c (lstrip t :: ts) := by
  cases ts with
  | nil => rfl
  | cons u ts =>
    rw [joined_cons (x := t) (l := u :: ts) (by simp), joined_cons (x := lstrip t) (l := u :: ts) (by simp)]
    unfold lstrip
    induction t with
    | nil => simp [List.dropWhile_cons, hc]
    | cons d t ih =>
      rw [List.cons_append, List.dropWhile_cons, List.dropWhile_cons]
      split
      · exact ih
      · rfl

theorem rstrip_append_sep {c : Char} (hc : isWs c = false) (x u : Str) : rstrip (x ++ c :: u) = x ++ c :: rstrip u := by
  unfold rstrip
  rw [List.reverse_append, List.reverse_cons]
  generalize hr : u.reverse = r
  clear hr
  have : ∀ r : Str, (r ++ [c] ++ x.reverse).dropWhile isWs = r.dropWhile isWs ++ [c] ++ x.reverse := by
    intro r
    induction r with
    | nil => simp [List.dropWhile_cons, hc]
    | cons d r ih =>
      rw [List.cons_append, List.cons_append, List.dropWhile_cons, List.dropWhile_cons]
      split
      · exact ih
      · rfl
  rw [this]
  simp

theorem rstrip_joined {c : Char} (hc : isWs c = false) : ∀ {ts ss : List Str}, List.Forall₂ Core ts ss →
    ∃ ts', rstrip (joined c ts) = joined c ts' ∧ List.Forall₂ Core ts' ss
  | [], [], _ => ⟨[], rfl, .nil⟩
  | [t], [s], .cons h .nil => ⟨[rstrip t], rfl, .cons h.rstrip .nil⟩
  | t :: u :: ts, s :: w :: ss, .cons h h' => by
    obtain ⟨ts', e, hf⟩ := rstrip_joined hc h'
    refine ⟨t :: ts', ?_, .cons h hf⟩
    rw [joined_cons (by simp), rstrip_append_sep hc, e, joined_cons]
    intro h0
    have := (forall2_ne_nil hf).1 h0
    cases this

theorem strip_joined {ts ss : List Str} (h : List.Forall₂ Core ts ss) :
    ∃ ts', strip (joined ':' ts) = joined ':' ts' ∧ List.Forall₂ Core ts' ss := by
  obtain ⟨ts1, e1, h1⟩ := rstrip_joined (c := ':') (by decide) h
  unfold strip
  rw [e1]
  cases h1 with
  | nil => exact ⟨[], rfl, .nil⟩
  | cons hh ht => exact ⟨_, lstrip_joined (by decide), .cons hh.lstrip ht⟩

/-- The structure of an index. -/
inductive RS where
  | colon
  | dims (ss : List Str)

/-- The text of an index. -/
def RText (t : Str) : RS → Prop
  | .colon => ∃ a b, Blanks a ∧ Blanks b ∧ t = a ++ [':'] ++ b
  | .dims ss => ss ≠ [] ∧ ∃ ts, t = joined ':' ts ∧ List.Forall₂ Core ts ss

/-- What an index becomes. -/
def RsRep (F : Str → Str → Prop) (rs : RS) (o : Str) : Prop :=
  match rs with
  | .colon => o = [':']
  | .dims ss => ∃ os, o = joined ':' os ∧ List.Forall₂ (CoreRep F) ss os

theorem cores_split {ts ss : List Str} (h : List.Forall₂ Core ts ss) (hn : ss ≠ []) : splitOn ':' (joined ':' ts) = ts := by
  refine splitOn_joined (fun h0 => hn ((forall2_ne_nil h).1 h0)) ?_
  intro t ht hc
  obtain ⟨s, _, hs⟩ := forall2_left h ht
  exact (hs.chars _ hc).1 rfl

theorem blank_no_core {ts ss : List Str} (h : List.Forall₂ Core ts ss) (hn : ss ≠ []) {a b : Str} (ha : Blanks a) (hb : Blanks b) :
    joined ':' ts ≠ a ++ [':'] ++ b := by
  intro he
  have h1 := cores_split h hn
  have e2 : splitOn ':' (a ++ [':'] ++ b) = [a, b] := by
    rw [List.append_assoc, List.singleton_append, splitOn_append, splitOn_none]
    · intro hc; exact (blank_not (hb _ hc)).1 rfl
    · intro hc; exact (blank_not (ha _ hc)).1 rfl
  rw [he, e2] at h1
  rw [← h1] at h
  cases h with
  | cons hh ht =>
    have h2 := hh.strip
    rw [strip_blanks ha] at h2
    exact hh.noWs.1 h2.symm

theorem rangeRep_iff {F : Str → Str → Prop} {t o : Str} {rs : RS} (h : RText t rs) : RangeRep F t o ↔ RsRep F rs o := by
  cases rs with
  | colon =>
    obtain ⟨a, b, ha, hb, rfl⟩ := h
    constructor
    · rintro (⟨a', b', _, _, _, ho⟩ | ⟨ts, os, hne, ht, ho, hf⟩)
      · exact ho
      · obtain ⟨ss, hss⟩ := forall2_exists (P := Core) (l := ts) (fun t ht => by
          obtain ⟨o, _, hd⟩ := forall2_left hf ht
          exact core_of_dimRep hd)
        exact absurd ht.symm (blank_no_core hss (fun h0 => hne ((forall2_ne_nil hss).2 h0)) ha hb)
    · intro ho
      exact Or.inl ⟨a, b, ha, hb, rfl, ho⟩
  | dims ss =>
    obtain ⟨hn, ts, rfl, hf⟩ := h
    constructor
    · rintro (⟨a, b, ha, hb, ht, _⟩ | ⟨ts', os, hne, ht, ho, hf'⟩)
      · exact absurd ht (blank_no_core hf hn ha hb)
      · obtain ⟨ss', hss⟩ := forall2_exists (P := Core) (l := ts') (fun t ht => by
          obtain ⟨o, _, hd⟩ := forall2_left hf' ht
          exact core_of_dimRep hd)
        have hne' : ss' ≠ [] := fun h0 => hne ((forall2_ne_nil hss).2 h0)
        have e : ts' = ts := by rw [← cores_split hss hne', ← ht, cores_split hf hn]
        subst e
        refine ⟨os, ho, ?_⟩
        clear ht hne hss hne' hn ho
        induction hf generalizing os with
        | nil => cases hf'; exact .nil
        | cons h1 _ ih =>
          cases hf' with
          | cons h2 h3 => exact .cons ((dimRep_iff h1).1 h2) (ih _ h3)
    · rintro ⟨os, ho, hr⟩
      refine Or.inr ⟨ts, os, fun h0 => hn ((forall2_ne_nil hf).1 h0), rfl, ho, ?_⟩
      clear hn ho
      induction hf generalizing os with
      | nil => cases hr; exact .nil
      | cons h1 _ ih =>
        cases hr with
        | cons h2 h3 => exact .cons ((dimRep_iff h1).2 h2) (ih _ h3)

theorem rtext_of_rangeRep {F : Str → Str → Prop} {t o : Str} (h : RangeRep F t o) : ∃ rs, RText t rs := by
  rcases h with ⟨a, b, ha, hb, ht, _⟩ | ⟨ts, os, hne, ht, _, hf⟩
  · exact ⟨.colon, a, b, ha, hb, ht⟩
  · obtain ⟨ss, hss⟩ := forall2_exists (P := Core) (l := ts) (fun t ht => by
      obtain ⟨o, _, hd⟩ := forall2_left hf ht
      exact core_of_dimRep hd)
    exact ⟨.dims ss, fun h0 => hne ((forall2_ne_nil hss).2 h0), ts, ht, hss⟩

theorem mem_joined {c d : Char} : ∀ {ts : List Str}, d ∈ joined c ts → d = c ∨ ∃ t ∈ ts, d ∈ t
  | [], h => by cases h
  | [t], h => Or.inr ⟨t, by simp, h⟩
  | t :: u :: ts, h => by
    rw [joined_cons (by simp)] at h
    rcases List.mem_append.1 h with h | h
    · exact Or.inr ⟨t, by simp, h⟩
    · rcases List.mem_cons.1 h with h | h
      · exact Or.inl h
      · rcases mem_joined h with h | ⟨x, hx, h⟩
        · exact Or.inl h
        · exact Or.inr ⟨x, by simp [hx], h⟩

theorem rtext_chars {t : Str} {rs : RS} (h : RText t rs) : ∀ c ∈ t, c ≠ ',' ∧ c ≠ '(' ∧ c ≠ ')' := by
  cases rs with
  | colon =>
    obtain ⟨a, b, ha, hb, rfl⟩ := h
    intro c hc
    rcases List.mem_append.1 hc with hc | hc
    · rcases List.mem_append.1 hc with hc | hc
      · exact (blank_not (ha c hc)).2
      · have := List.mem_singleton.1 hc; subst this; decide
    · exact (blank_not (hb c hc)).2
  | dims ss =>
    obtain ⟨hn, ts, rfl, hf⟩ := h
    intro c hc
    rcases mem_joined hc with rfl | ⟨t, ht, hc⟩
    · decide
    · obtain ⟨s, _, hs⟩ := forall2_left hf ht
      exact (hs.chars c hc).2

/-! ## References -/

/-- The structure of a local name. -/
inductive LS where
  | plain
  | ref (base : Str) (rss : List RS)

/-- The text of a local name. -/
def LText (loc : Str) : LS → Prop
  | .plain => '(' ∉ loc
  | .ref base rss => '(' ∉ base ∧ rss ≠ [] ∧ ∃ ts, loc = base ++ ['('] ++ joined ',' ts ++ [')'] ∧ List.Forall₂ RText ts rss

/-- What a local name becomes. -/
def LsRep (F : Str → Str → Prop) (loc : Str) (ls : LS) (out : Str) : Prop :=
  match ls with
  | .plain => out = loc
  | .ref base rss => ∃ os, out = base ++ ['('] ++ joined ',' os ++ [')'] ∧ List.Forall₂ (RsRep F) rss os

theorem split_paren {a b u v : Str} (ha : '(' ∉ a) (hb : '(' ∉ b) (h : a ++ '(' :: u = b ++ '(' :: v) : a = b ∧ u = v := by
  induction a generalizing b with
  | nil =>
    cases b with
    | nil => simpa using h
    | cons c b =>
      simp only [List.nil_append, List.cons_append, List.cons.injEq] at h
      exact absurd (h.1 ▸ List.mem_cons_self) hb
  | cons c a ih =>
    cases b with
    | nil =>
      simp only [List.nil_append, List.cons_append, List.cons.injEq] at h
      exact absurd (h.1 ▸ List.mem_cons_self) ha
    | cons d b =>
      simp only [List.cons_append, List.cons.injEq] at h
      obtain ⟨e1, e2⟩ := ih (fun h => ha (List.mem_cons_of_mem _ h)) (fun h => hb (List.mem_cons_of_mem _ h)) h.2
      exact ⟨by rw [h.1, e1], e2⟩

theorem rtexts_split {ts : List Str} {rss : List RS} (h : List.Forall₂ RText ts rss) (hn : ts ≠ []) : splitOn ',' (joined ',' ts) = ts := by
  refine splitOn_joined hn ?_
  intro t ht hc
  obtain ⟨rs, _, hr⟩ := forall2_left h ht
  exact (rtext_chars hr _ hc).1 rfl

theorem ltext_of_replaced {F : Str → Str → Prop} {loc out : Str} (h : Replaced F loc out) : ∃ ls, LText loc ls := by
  rcases h with ⟨h, _⟩ | ⟨base, ts, os, hb, hne, hl, _, hf⟩
  · exact ⟨.plain, h⟩
  · obtain ⟨rss, hr⟩ := forall2_exists (P := RText) (l := ts) (fun t ht => by
      obtain ⟨o, _, hd⟩ := forall2_left hf ht
      exact rtext_of_rangeRep hd)
    exact ⟨.ref base rss, hb, fun h0 => hne ((forall2_ne_nil hr).2 h0), ts, hl, hr⟩

theorem replaced_iff {F : Str → Str → Prop} {loc out : Str} {ls : LS} (h : LText loc ls) : Replaced F loc out ↔ LsRep F loc ls out := by
  cases ls with
  | plain =>
    constructor
    · rintro (⟨_, ho⟩ | ⟨base, ts, os, _, _, hl, _⟩)
      · exact ho
      · exact absurd (by rw [hl]; simp) (show '(' ∉ loc from h)
    · intro ho; exact Or.inl ⟨h, ho⟩
  | ref base rss =>
    obtain ⟨hb, hn, ts, hl, hf⟩ := h
    have hnt : ts ≠ [] := fun h0 => hn ((forall2_ne_nil hf).1 h0)
    constructor
    · rintro (⟨h0, _⟩ | ⟨base', ts', os, hb', hne, hl', ho, hf'⟩)
      · exact absurd (by rw [hl]; simp) h0
      · obtain ⟨ls', hls'⟩ := ltext_of_replaced (F := F) (loc := loc) (out := out) (Or.inr ⟨base', ts', os, hb', hne, hl', ho, hf'⟩)
        have e : base ++ '(' :: (joined ',' ts ++ [')']) = base' ++ '(' :: (joined ',' ts' ++ [')']) := by
          rw [hl'] at hl
          simp only [List.append_assoc, List.singleton_append] at hl ⊢
          exact hl.symm
        obtain ⟨e1, e2⟩ := split_paren hb hb' e
        have e3 : joined ',' ts = joined ',' ts' := List.append_cancel_right e2
        obtain ⟨rss', hr'⟩ := forall2_exists (P := RText) (l := ts') (fun t ht => by
          obtain ⟨o, _, hd⟩ := forall2_left hf' ht
          exact rtext_of_rangeRep hd)
        have e4 : ts' = ts := by rw [← rtexts_split hr' hne, ← e3, rtexts_split hf hnt]
        subst e4 e1
        refine ⟨os, ho, ?_⟩
        clear hls' hl hl' hnt hne hr' e e2 e3 ho hn hb hb'
        induction hf generalizing os with
        | nil => cases hf'; exact .nil
        | cons h1 _ ih =>
          cases hf' with
          | cons h2 h3 => exact .cons ((rangeRep_iff h1).1 h2) (ih _ h3)
    · rintro ⟨os, ho, hr⟩
      refine Or.inr ⟨base, ts, os, hb, hnt, hl, ho, ?_⟩
      clear hl hnt ho hn hb
      induction hf generalizing os with
      | nil => cases hr; exact .nil
      | cons h1 _ ih =>
        cases hr with
        | cons h2 h3 => exact .cons ((rangeRep_iff h1).2 h2) (ih _ h3)

end Ccpp.PB
