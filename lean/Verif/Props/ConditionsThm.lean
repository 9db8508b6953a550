import Verif.Props.ConditionsAll
/-! # C77: conditions keep their meaning in the caps -/
namespace Ccpp.CD
open PB (Str IsName IsDigits joined)

theorem written_congr {f g : Str → Str} {l : List Tok} (h : ∀ n ∈ names l, f n = g n) : written f l = written g l := by
  induction l with
  | nil => rfl
  | cons a l ih =>
    cases a with
    | name n =>
      simp only [names, List.forall_mem_cons] at h
      simp only [written, List.flatMap_cons, Tok.out, h.1]
      have := ih h.2
      simp only [written] at this
      rw [this]
    | num _ | op _ | blank =>
      have := ih h
      simp only [written] at this
      simp only [written, List.flatMap_cons, Tok.out, this]

/-- **C77, the core**: a condition is accepted exactly if all its names are known, and is then written element by element, with local names for
standard names; the names in it are listed. -/
theorem convert_iff {look : Str → Option Str} {loc : Str → Str} (hl : ∀ n v, look n = some v → loc n = v) {l : List Tok} (h : Condition l)
    (t : Str) (vs : List Str) :
    convert look (text l) = some (t, vs) ↔ (∀ n ∈ names l, look n ≠ none) ∧ t = written loc l ∧ vs = names l := by
  unfold convert
  rw [findall_condition h, loop_tokens (condition_ok h)]
  refine and_congr_right fun hn => ?_
  rw [written_congr (g := loc)]
  intro n hm
  cases e : look n with
  | none => exact absurd e (hn n hm)
  | some v => rw [hl n v e]; rfl

/-- **C77 for ccpp_capgen** (`Var.conditional`): the text of a condition is accepted exactly if a dictionary has every name in it; what is written is
the condition with local names. -/
theorem C77_capgen (dicts : List (List (Str × Str))) (loc : Str → Str) (hl : ∀ n v, lookDicts dicts n = some v → loc n = v) {l : List Tok}
    (h : Condition l) (t : Str) (vs : List Str) :
    capgen dicts (text l) = some (t, vs) ↔ (∀ n ∈ names l, ∃ d ∈ dicts, n ∈ d.map (·.1)) ∧ t = written loc l ∧ vs = names l := by
  unfold capgen
  rw [convert_iff hl h]
  have : ∀ n, lookDicts dicts n ≠ none ↔ ∃ d ∈ dicts, n ∈ d.map (·.1) := by
    intro n
    unfold lookDicts
    rw [ne_eq, List.findSome?_eq_none_iff]
    push Not
    refine exists_congr fun d => and_congr_right fun _ => ?_
    rw [ne_eq, List.lookup_eq_none_iff]
    push Not
    rw [List.mem_map]
    constructor
    · rintro ⟨p, hp, he⟩; exact ⟨p, hp, by simpa using (by simpa using he : n = p.1).symm⟩
    · rintro ⟨p, hp, he⟩; exact ⟨p, hp, by simpa using he.symm⟩
  simp only [this]

theorem look_host {h : List PA.HVar} {loc : Str → Str} (hl : ∀ v ∈ h, loc v.std = v.loc) (n v : Str)
    (e : (PA.find h n).map (·.loc) = some v) : loc n = v := by
  obtain ⟨w, hw, rfl⟩ := Option.map_eq_some_iff.1 e
  have h1 := List.mem_of_find?_eq_some hw
  have h2 : w.std = n := by simpa using List.find?_some hw
  rw [← h2, hl w h1]

theorem look_known {h : List PA.HVar} (n : Str) : (PA.find h n).map (·.loc) ≠ none ↔ ∃ v ∈ h, v.std = n := by
  unfold PA.find
  rw [ne_eq, Option.map_eq_none_iff, List.find?_eq_none]
  simp

/-! ### white space -/

theorem ws_not_word {c : Char} (h : isWs c = true) : isWordQ c = false := by
  simp only [isWs, Bool.or_eq_true, beq_iff_eq] at h
  rcases h with ((((rfl | rfl) | rfl) | rfl) | rfl) | rfl <;> decide

theorem tok_ws {a : Tok} (h : a.Ok) (hb : a ≠ .blank) : ∀ c ∈ a.text, isWs c = false := by
  intro c hc
  cases a with
  | blank => exact absurd rfl hb
  | op o => exact (op_facts o h).2.2.1 c hc
  | name n =>
    rw [Bool.eq_false_iff]; intro hw
    have := name_word h c hc
    rw [ws_not_word hw] at this; exact absurd this (by decide)
  | num n =>
    rw [Bool.eq_false_iff]; intro hw
    have := num_word h c hc
    rw [ws_not_word hw] at this; exact absurd this (by decide)

theorem squeeze_solid {x : Str} (hx : ∀ c ∈ x, isWs c = false) (s : Str) : squeeze (x ++ s) = x ++ squeeze s := by
  induction x with
  | nil => rfl
  | cons c x ih => simp [squeeze, hx c (by simp), ih fun c hc => hx c (by simp [hc])]

theorem squeeze_end {g : Str} (hg : ∀ c ∈ g, isWs c = true) : squeeze g = [] := by
  induction g with
  | nil => rfl
  | cons c g ih =>
    have hc := hg c (by simp)
    have ih := ih fun c hc => hg c (by simp [hc])
    cases g with
    | nil => simp [squeeze, hc]
    | cons d g => simpa [squeeze, hc, hg d (by simp)] using ih

theorem squeeze_gap {g : Str} (hg : ∀ c ∈ g, isWs c = true) (hne : g ≠ []) {d : Char} {s : Str} (hd : isWs d = false) :
    squeeze (g ++ d :: s) = ' ' :: squeeze (d :: s) := by
  induction g with
  | nil => exact absurd rfl hne
  | cons c g ih =>
    have hc := hg c (by simp)
    cases g with
    | nil => simp [squeeze, hc, hd]
    | cons e g =>
      have ih := ih (fun c hc => hg c (by simp [hc])) (by simp)
      have he := hg e (by simp)
      simp only [List.cons_append] at ih ⊢
      rw [squeeze, if_pos hc]
      simpa [he] using ih

theorem squeeze_spaced {l : List (Tok × Str)} (hok : ∀ p ∈ l, p.1.Ok ∧ p.1 ≠ .blank ∧ ∀ c ∈ p.2, isWs c = true) :
    squeeze (spaced l) = text (tidy l) := by
  induction l with
  | nil => rfl
  | cons p l ih =>
    have hp := hok p (by simp)
    have ih := ih fun q hq => hok q (by simp [hq])
    cases l with
    | nil =>
      simp only [spaced, List.flatMap_cons, List.flatMap_nil, List.append_nil, tidy, text]
      rw [squeeze_solid (tok_ws hp.1 hp.2.1), squeeze_end hp.2.2, List.append_nil]
    | cons q l =>
      have hq := hok q (by simp)
      have hsp : spaced (p :: q :: l) = p.1.text ++ (p.2 ++ spaced (q :: l)) := by simp [spaced]
      rw [hsp, squeeze_solid (tok_ws hp.1 hp.2.1)]
      have hqt := tok_ne hq.1
      obtain ⟨d, r, hdr⟩ : ∃ d r, spaced (q :: l) = d :: r ∧ isWs d = false := by
        cases e : q.1.text with
        | nil => exact absurd e hqt
        | cons d r => exact ⟨d, r ++ q.2 ++ spaced l, by simp [spaced, e], tok_ws hq.1 hq.2.1 d (by simp [e])⟩
      simp only [tidy]
      split
      · next he => rw [he, List.nil_append, ih, text_cons]
      · next he =>
        rw [text_cons, text_cons]
        rw [hdr.1] at ih ⊢
        rw [squeeze_gap hp.2.2 he hdr.2, ih]
        rfl

theorem drop_spaced {l : List (Tok × Str)} (hne : l ≠ []) (hok : ∀ p ∈ l, p.1.Ok ∧ p.1 ≠ .blank ∧ ∀ c ∈ p.2, isWs c = true) {g : Str}
    (hg : ∀ c ∈ g, isWs c = true) : (g ++ spaced l).dropWhile isWs = spaced l := by
  have h1 : (g ++ spaced l).dropWhile isWs = (spaced l).dropWhile isWs := by
    induction g with
    | nil => rfl
    | cons c g ih => simp [hg c (by simp), ih fun c hc => hg c (by simp [hc])]
  rw [h1]
  cases l with
  | nil => exact absurd rfl hne
  | cons p l =>
    have hp := hok p (by simp)
    cases e : p.1.text with
    | nil => exact absurd e (tok_ne hp.1)
    | cons d r =>
      have : spaced (p :: l) = d :: (r ++ p.2 ++ spaced l) := by simp [spaced, e]
      rw [this, List.dropWhile_cons_of_neg]
      simpa using tok_ws hp.1 hp.2.1 d (by simp [e])

/-! ### constants -/

theorem text_nil {l : List Tok} (h : ∀ a ∈ l, a.Ok) (e : text l = []) : l = [] := by
  cases l with
  | nil => rfl
  | cons a l =>
    rw [text_cons] at e
    exact absurd (List.append_eq_nil_iff.1 e).1 (tok_ne (h a (by simp)))

theorem op_const : ∀ o ∈ operators, (o.toList <+: ".true.".toList → o = ".true.") ∧ (o.toList <+: ".false.".toList → o = ".false.") := by
  decide +kernel

theorem const_tok {l : List Tok} (h : ∀ a ∈ l, a.Ok) {w : String} (hw : w = ".true." ∨ w = ".false.") (e : lower (text l) = w.toList) :
    l = [.op w] := by
  have hdot : ∃ r, w.toList = '.' :: r := by rcases hw with rfl | rfl <;> exact ⟨_, rfl⟩
  cases l with
  | nil => obtain ⟨r, hr⟩ := hdot; rw [hr] at e; exact absurd e (by simp [text, lower])
  | cons a l =>
    have ha := h a (by simp)
    rw [text_cons, PV.lower_append] at e
    by_cases hwd : a.Word
    · obtain ⟨hne, hc⟩ := tok_word ha hwd
      obtain ⟨r, hr⟩ := hdot
      cases hat : a.text with
      | nil => exact absurd hat hne
      | cons x y =>
        rw [hat, hr] at e
        simp only [lower, List.map_cons, List.cons_append, List.cons.injEq] at e
        have := word_lower (hc x (by simp [hat]))
        rw [e.1] at this
        exact absurd this (by decide)
    · cases a with
      | name n => exact absurd trivial hwd
      | num d => exact absurd trivial hwd
      | blank =>
        obtain ⟨r, hr⟩ := hdot
        rw [hr] at e
        simp [Tok.text, lower] at e
      | op o =>
        have ho : o ∈ operators := ha
        simp only [Tok.text] at e
        rw [(op_facts o ho).2.2.2.2.1] at e
        have : o = w := by
          rcases hw with rfl | rfl
          · exact (op_const o ho).1 ⟨_, e⟩
          · exact (op_const o ho).2 ⟨_, e⟩
        subst this
        have : lower (text l) = [] := by simpa using e
        rw [text_nil (l := l) (fun b hb => h b (List.mem_cons_of_mem _ hb)) (by simpa [lower] using this)]

theorem letter_tok {l : List Tok} (h : ∀ a ∈ l, a.Ok) {x : Char} (hx : x.isAlpha = true) (e : text l = [x]) : l = [.name [x]] := by
  cases l with
  | nil => simp [text] at e
  | cons a l =>
    have ha := h a (by simp)
    rw [text_cons] at e
    cases hat : a.text with
    | nil => exact absurd hat (tok_ne ha)
    | cons y r =>
      rw [hat] at e
      simp only [List.cons_append, List.cons.injEq, List.append_eq_nil_iff] at e
      obtain ⟨rfl, rfl, hl⟩ := e
      rw [text_nil (fun b hb => h b (by simp [hb])) hl]
      cases a with
      | name n => simp only [Tok.text] at hat; rw [hat]
      | num d =>
        obtain ⟨c, r, he, hc⟩ := num_head ha
        simp only [Tok.text] at hat
        rw [hat] at he
        simp only [List.cons.injEq] at he
        rw [← he.1, PB.alpha_not_digit hx] at hc
        exact absurd hc (by decide)
      | op o =>
        simp only [Tok.text] at hat
        have := (op_facts o ha).2.1 y (by rw [hat]; simp)
        rw [alpha_word hx] at this
        exact absurd this (by decide)
      | blank =>
        simp only [Tok.text, List.cons.injEq, and_true] at hat
        rw [← hat] at hx; exact absurd hx (by decide)

theorem lower_ws {s : Str} {w : Str} (hw : ∀ c ∈ w, isWs c = false) (e : lower s = w) : ∀ c ∈ s, isWs c = false := by
  intro c hc
  rw [Bool.eq_false_iff]
  intro h
  have h1 : c.toLower = c := not_word_lower (ws_not_word h)
  have h2 : c.toLower ∈ w := e ▸ List.mem_map.2 ⟨c, hc, rfl⟩
  rw [h1] at h2
  rw [hw c h2] at h; exact absurd h (by decide)

theorem tidy_head (p : Tok × Str) (l : List (Tok × Str)) : ∃ m, tidy (p :: l) = p.1 :: m := by
  cases l with
  | nil => exact ⟨[], rfl⟩
  | cons q l => simp only [tidy]; split <;> exact ⟨_, rfl⟩

/-- **C77 for ccpp_prebuild**: the elements of the condition may have any white space around them.  The condition is accepted exactly if the host has
every name in it; what is written is the condition with local names and one blank for white space; the names are listed.  Only the
conditions `T` and `F`, which the code uses for constants, are excluded. -/
theorem C77_prebuild_partial (h : List PA.HVar) (loc : Str → Str) (hl : ∀ v ∈ h, loc v.std = v.loc) (g : Str) (l : List (Tok × Str))
    (hg : ∀ c ∈ g, isWs c = true) (hgs : ∀ p ∈ l, p.1 ≠ .blank ∧ ∀ c ∈ p.2, isWs c = true) (hc : Condition (tidy l)) (hne : l ≠ [])
    (hT : tidy l ≠ [.name ['T']]) (hF : tidy l ≠ [.name ['F']]) (t : Str) (vs : List Str) :
    prebuild h (g ++ spaced l) = some (t, vs) ↔
      (∀ n ∈ names (tidy l), ∃ v ∈ h, v.std = n) ∧ t = written loc (tidy l) ∧ vs = names (tidy l) := by
  have hall := condition_ok hc
  have hok : ∀ p ∈ l, p.1.Ok ∧ p.1 ≠ .blank ∧ ∀ c ∈ p.2, isWs c = true := by
    have hsub : ∀ l : List (Tok × Str), ∀ p ∈ l, p.1 ∈ tidy l := by
      intro l
      induction l with
      | nil => simp
      | cons p l ih =>
        cases l with
        | nil => intro q hq; simp at hq; subst hq; simp [tidy]
        | cons q l =>
          intro r hr
          simp only [tidy]
          rcases List.mem_cons.1 hr with rfl | hr
          · split <;> simp
          · have := ih r hr
            split <;> simp [this]
    exact fun p hp => ⟨hall _ (hsub l p hp), hgs p hp⟩
  have htext : squeeze ((g ++ spaced l).dropWhile isWs) = text (tidy l) := by rw [drop_spaced hne hok hg, squeeze_spaced hok]
  have hnil : (g ++ spaced l).isEmpty = false := by
    cases l with
    | nil => exact absurd rfl hne
    | cons p l =>
      have := tok_ne (hok p (by simp)).1
      rw [Bool.eq_false_iff]; intro h
      simp [spaced] at h; exact this h.2.1
  have hconst : ∀ w : String, (w = ".true." ∨ w = ".false.") → lower (g ++ spaced l) = w.toList → tidy l = [.op w] := by
    intro w hw e
    have hws : ∀ c ∈ g ++ spaced l, isWs c = false := lower_ws (by rcases hw with rfl | rfl <;> decide) e
    have hid : squeeze ((g ++ spaced l).dropWhile isWs) = g ++ spaced l := by
      have h1 : (g ++ spaced l).dropWhile isWs = g ++ spaced l := by
        cases e' : g ++ spaced l with
        | nil => rfl
        | cons c s =>
          rw [List.dropWhile_cons_of_neg]
          simpa using hws c (by rw [e']; simp)
      rw [h1]
      have := squeeze_solid hws []
      rwa [List.append_nil, show squeeze [] = [] from rfl, List.append_nil] at this
    refine const_tok hall hw ?_
    rw [← htext, hid, e]
  unfold prebuild activeOf
  rw [hnil]
  simp only [Bool.false_eq_true, if_false]
  by_cases h1 : lower (g ++ spaced l) = ".true.".toList
  · rw [if_pos h1, hconst _ (.inl rfl) h1]
    simp only [Option.bind_some, if_true, names, written, List.flatMap_cons, List.flatMap_nil, Tok.out, Tok.text, List.append_nil, Option.some.injEq,
      Prod.mk.injEq, List.not_mem_nil, false_implies, implies_true, true_and]
    constructor <;> (rintro ⟨rfl, rfl⟩; exact ⟨rfl, rfl⟩)
  rw [if_neg h1]
  by_cases h2 : lower (g ++ spaced l) = ".false.".toList
  · rw [if_pos h2, hconst _ (.inr rfl) h2]
    simp only [Option.bind_some, names, written, List.flatMap_cons, List.flatMap_nil, Tok.out, Tok.text, List.append_nil,
      List.not_mem_nil, false_implies, implies_true, true_and]
    rw [if_neg (by decide), if_pos trivial]
    simp only [Option.some.injEq, Prod.mk.injEq]
    constructor <;> (rintro ⟨rfl, rfl⟩; exact ⟨rfl, rfl⟩)
  rw [if_neg h2, htext]
  simp only [Option.bind_some]
  rw [if_neg (fun e => hT (letter_tok hall (by decide) e)), if_neg (fun e => hF (letter_tok hall (by decide) e)),
    convert_iff (look_host hl) hc]
  simp only [look_known]

/-- **C77, every text**: if any text is accepted, then what is written is a sequence of legal elements of the text, with local names, and the
names are listed; at most characters other than letters, digits, underscores, quotes, blanks, parentheses, `<` and `>` are lost.  If none
is lost then the text was a condition. -/
theorem C77_accepted {look : Str → Option Str} {loc : Str → Str} (hl : ∀ n v, look n = some v → loc n = v ∧ IsName n) (s t : Str)
    (vs : List Str) (h : convert look s = some (t, vs)) :
    ∃ l : List Tok, (∀ a ∈ l, a.Ok) ∧ t = written loc l ∧ vs = names l ∧ List.Sublist (text l) s ∧ (text l).filter solid = s.filter solid ∧
      (text l = s → Condition l) := by
  obtain ⟨l, h1, h2, h3, h4, h5⟩ := accepted_all (look := look) (fun n hn => by
    cases e : look n with
    | none => exact absurd e hn
    | some v => exact (hl n v e).2) s.length s (le_refl _) _ h
  unfold convert at h
  rw [← h2, loop_tokens h1] at h
  obtain ⟨h6, rfl, rfl⟩ := h
  refine ⟨l, h1, ?_, rfl, h3, h4, h5⟩
  refine written_congr fun n hm => ?_
  cases e : look n with
  | none => exact absurd e (h6 n hm)
  | some v => rw [(hl n v e).1]; rfl

/-- **C77, a text of letters, digits, underscores, blanks, parentheses, `<` and `>`** that is accepted was a condition. -/
theorem C77_solid {look : Str → Option Str} {loc : Str → Str} (hl : ∀ n v, look n = some v → loc n = v ∧ IsName n) (s t : Str) (vs : List Str)
    (hs : ∀ c ∈ s, solid c = true) (h : convert look s = some (t, vs)) :
    ∃ l : List Tok, Condition l ∧ text l = s ∧ t = written loc l ∧ vs = names l := by
  obtain ⟨l, _, h2, h3, h4, h5, h6⟩ := C77_accepted hl s t vs h
  have : text l = s := by
    refine h4.eq_of_length_le ?_
    have e : s.filter solid = s := List.filter_eq_self.2 hs
    rw [e] at h5
    calc s.length = ((text l).filter solid).length := by rw [h5]
      _ ≤ (text l).length := List.length_filter_le ..
  exact ⟨l, h6 this, this, h2, h3⟩

/-- **C77**: the if statement of ccpp_prebuild has the condition in parentheses. -/
theorem C77_prebuild_if (loc : Str → Str) (l : List Tok) : IfStmt (prebuildIf (written loc l)) loc l := rfl

/-- **C77**: the if statement of ccpp_capgen is one for the condition if this has parentheses around it. -/
theorem C77_capgen_if_partial (loc : Str → Str) (l : List Tok) : IfStmt (capgenIf (written loc ([.op "("] ++ l ++ [.op ")"]))) loc l := by
  simp [IfStmt, capgenIf, written, Tok.out, Tok.text]

end Ccpp.CD
