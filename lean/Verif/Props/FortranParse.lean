import Verif.Props.FortranDecl
/-!
# C59: a declaration statement is read as the variables it declares
-/
namespace Ccpp.FDecl

open Ccpp.Chk (balance)
open Ccpp.Env (lstrip_keep rstrip_keep strip_keep strip_lstrip strip_rstrip strip_strip dropWhile_all
  lstrip_rstrip_comm rstrip_rstrip lstrip_lstrip mem_lstrip mem_rstrip mem_strip)

/-! ## Attributes -/

theorem blank_nil : Blank [] := by intro c hc; cases hc

/-- What the program sees of an attribute. -/
def Seen (x : Str) : Attr → Prop
  | .flag n => x = n ∧ n ∈ flags
  | .dims d => '(' ∈ x ∧ x.take 6 ≠ "intent".toList ∧ x.take 9 = "dimension".toList ∧ strip (x.drop 9) = d
  | .intent v => '(' ∈ x ∧ x.take 6 = "intent".toList ∧ strip (((strip (x.drop 6)).drop 1).dropLast) = v

/-- The name test of `attrSpecs`. -/
def Known (x : Str) : Prop :=
  attrNames.contains (if '(' ∈ x then strip (x.takeWhile (· != '(')) else x) = true

theorem lower_cons (c : Char) (s : Str) : lower (c :: s) = c.toLower :: lower s := by unfold lower; simp

/-- Head of an attribute with an argument. -/
theorem known_paren {W g r : Str} (hW : W ∈ attrNames) (tW : Tight W) (pW : '(' ∉ W) (hg : Blank g) :
    Known (W ++ g ++ '(' :: r) := by
  unfold Known
  rw [if_pos (by simp)]
  have hp : ∀ c ∈ W ++ g, (c != '(') = true := by
    intro c hc
    rw [bne_iff_ne]
    rintro rfl
    rcases List.mem_append.1 hc with h | h
    · exact pW h
    · exact absurd (hg _ h) (by decide)
  obtain ⟨e, _⟩ := takeWhile_stop (p := (· != '(')) (c := '(') r hp (by decide)
  rw [e]
  have := strip_core (p := []) blank_nil tW hg
  rw [List.nil_append] at this
  rw [this]
  exact List.contains_iff_mem.2 hW

theorem flags_facts : ∀ f ∈ flags, f ≠ [] ∧ '(' ∉ f ∧ ')' ∉ f ∧ ',' ∉ f ∧ f ∈ attrNames ∧ f.take 6 ≠ "intent".toList ∧
    f.take 9 ≠ "dimension".toList ∧ (f.all fun c => !isWs c) = true := by decide

theorem tight_paren {w g : Str} (s : Str) (hw : Tight w) (hne : w ≠ []) :
    Tight (w ++ g ++ '(' :: (s ++ [')'])) := by
  have := tight_append hw (b := [')']) ⟨by decide, by decide⟩ hne (by simp) (g ++ '(' :: s)
  simpa using this

theorem AttrText.facts {t : Str} {a : Attr} (h : AttrText t a) :
    ItemOk t ∧ Known (lower (strip t)) ∧ Seen (lower (strip t)) a := by
  cases h with
  | flag hp hw hq =>
    rename_i p w q
    obtain ⟨f1, f2, f3, f4, f5, f6, f7, f8⟩ := flags_facts _ hw
    have tw : Tight w := lower_tight (tight_of_all fun c hc => by simpa using List.all_eq_true.1 f8 c hc)
    have nw : w ≠ [] := by rintro rfl; exact f1 rfl
    have p1 : '(' ∉ w := not_mem_lower rfl rfl f2
    have p2 : ')' ∉ w := not_mem_lower rfl rfl f3
    have p3 : ',' ∉ w := not_mem_lower rfl rfl f4
    have hs : strip (p ++ w ++ q) = w := strip_core hp tw hq
    refine ⟨⟨?_, part_blank hp hq (no_comma_whole p3), by rw [hs]; exact nw⟩, ?_, ?_⟩
    · rw [balance_core hp hq]
      exact balance_plain fun c hc => ⟨by rintro rfl; exact p1 hc, by rintro rfl; exact p2 hc⟩
    · rw [hs]; unfold Known; rw [if_neg f2]; exact List.contains_iff_mem.2 f5
    · rw [hs]; exact ⟨rfl, hw⟩
  | dims hp hw hg ht hq =>
    rename_i p w g t q
    have tw : Tight w := lower_tight (hw ▸ ⟨by decide, by decide⟩)
    have nw : w ≠ [] := by rintro rfl; exact absurd hw (by decide)
    have p1 : '(' ∉ w := not_mem_lower hw rfl (by decide)
    have p2 : ')' ∉ w := not_mem_lower hw rfl (by decide)
    have p3 : ',' ∉ w := not_mem_lower hw rfl (by decide)
    obtain ⟨b1, b2, _⟩ := blank_facts hg
    have hs : strip (p ++ (w ++ g ++ '(' :: (t ++ [')'])) ++ q) = w ++ g ++ '(' :: (t ++ [')']) :=
      strip_core hp (tight_paren t tw nw) hq
    have hb : balance (w ++ g) = 0 := by
      rw [balance_append, balance_plain b1, balance_plain fun c hc => ⟨by rintro rfl; exact p1 hc, by rintro rfl; exact p2 hc⟩]
      rfl
    have hl : lower (w ++ g ++ '(' :: (t ++ [')'])) = "dimension".toList ++ lower g ++ '(' :: (lower t ++ [')']) := by
      rw [lower_append, lower_append, hw, lower_cons, lower_append]; rfl
    refine ⟨⟨?_, part_blank hp hq (paren_part (by simp [p3, b2]) hb ht.early), by rw [hs]; simp⟩, ?_, ?_⟩
    · rw [balance_core hp hq]; exact balance_paren hb ht.closed
    · rw [hs, hl]
      exact known_paren (by decide) ⟨by decide, by decide⟩ (by decide) (lower_blank hg)
    · rw [hs, hl]
      refine ⟨by simp, ?_, ?_, ?_⟩
      · rw [List.append_assoc, List.take_append_of_le_length (by decide)]; decide
      · rw [List.append_assoc, List.take_append_of_le_length (by decide)]; decide
      · rw [List.append_assoc, List.drop_append_of_le_length (by decide), show "dimension".toList.drop 9 = [] by decide,
          List.nil_append]
        have := strip_core (p := lower g) (x := '(' :: (lower t ++ [')'])) (q := []) (lower_blank hg)
          (by have := tight_append (a := ['(']) (b := [')']) ⟨by decide, by decide⟩ ⟨by decide, by decide⟩ (by simp) (by simp) (lower t)
              simpa using this) blank_nil
        rw [List.append_nil] at this
        exact this
  | intent hp hw hg ha hv hvn hb hq =>
    rename_i p w g a v b q
    have tw : Tight w := lower_tight (hw ▸ ⟨by decide, by decide⟩)
    have nw : w ≠ [] := by rintro rfl; exact absurd hw (by decide)
    have p1 : '(' ∉ w := not_mem_lower hw rfl (by decide)
    have p2 : ')' ∉ w := not_mem_lower hw rfl (by decide)
    have p3 : ',' ∉ w := not_mem_lower hw rfl (by decide)
    obtain ⟨b1, b2, _⟩ := blank_facts hg
    have word : ∀ c ∈ v, isWordC c = true := by
      intro c hc
      have := hv c hc
      unfold isWordC
      simp [Char.isAlphanum, this]
    have tv : Tight v := tight_of_all fun c hc => (isWordC_facts (word c hc)).1
    have hin : ∀ c ∈ a ++ v ++ b, c ≠ '(' ∧ c ≠ ')' := by
      intro c hc
      rcases List.mem_append.1 hc with hc | hc
      · rcases List.mem_append.1 hc with hc | hc
        · exact (blank_facts ha).1 c hc
        · obtain ⟨_, _, _, h1, h2, _⟩ := isWordC_facts (word c hc); exact ⟨h1, h2⟩
      · exact (blank_facts hb).1 c hc
    have hbal : balance (w ++ g) = 0 := by
      rw [balance_append, balance_plain b1, balance_plain fun c hc => ⟨by rintro rfl; exact p1 hc, by rintro rfl; exact p2 hc⟩]
      rfl
    have hearly : NoEarlyClose (a ++ v ++ b) := by
      intro x y e
      rw [balance_plain fun c hc => hin c (e ▸ List.mem_append_left _ hc)]; exact Int.le_refl _
    have hs : strip (p ++ (w ++ g ++ '(' :: (a ++ v ++ b ++ [')'])) ++ q) = w ++ g ++ '(' :: (a ++ v ++ b ++ [')']) :=
      strip_core hp (tight_paren _ tw nw) hq
    have hl : lower (w ++ g ++ '(' :: (a ++ v ++ b ++ [')'])) =
        "intent".toList ++ lower g ++ '(' :: (lower a ++ lower v ++ lower b ++ [')']) := by
      simp only [lower_append, lower_cons, hw]; rfl
    refine ⟨⟨?_, part_blank hp hq (paren_part (by simp [p3, b2]) hbal hearly), by rw [hs]; simp⟩, ?_, ?_⟩
    · rw [balance_core hp hq]; exact balance_paren hbal (balance_plain hin)
    · rw [hs, hl]
      exact known_paren (by decide) ⟨by decide, by decide⟩ (by decide) (lower_blank hg)
    · rw [hs, hl]
      refine ⟨by simp, ?_, ?_⟩
      · rw [List.append_assoc, List.take_append_of_le_length (by decide)]; decide
      · rw [List.append_assoc, List.drop_append_of_le_length (by decide), show "intent".toList.drop 6 = [] by decide,
          List.nil_append]
        have := strip_core (p := lower g) (x := '(' :: (lower a ++ lower v ++ lower b ++ [')'])) (q := []) (lower_blank hg)
          (by have := tight_append (a := ['(']) (b := [')']) ⟨by decide, by decide⟩ ⟨by decide, by decide⟩ (by simp) (by simp)
                (lower a ++ lower v ++ lower b)
              simpa using this) blank_nil
        rw [List.append_nil] at this
        rw [this, List.drop_succ_cons, List.drop_zero, List.dropLast_concat]
        refine strip_core (lower_blank ha) (tight_of_all ?_) (lower_blank hb)
        intro c hc
        unfold lower at hc
        obtain ⟨d, hd, rfl⟩ := List.mem_map.1 hc
        rw [toLower_ws]; exact (isWordC_facts (word d hd)).1

theorem Seen.flag {x n : Str} {a : Attr} (h : Seen x a) (hn : '(' ∉ n) (hf : n ∈ flags): x = n ↔ a = .flag n := by
  cases a with
  | flag m =>
    obtain ⟨rfl, _⟩ := h
    exact ⟨fun e => by rw [e], fun e => by injection e⟩
  | dims d => exact ⟨fun e => absurd (e ▸ h.1) hn, fun e => nomatch e⟩
  | intent v => exact ⟨fun e => absurd (e ▸ h.1) hn, fun e => nomatch e⟩

theorem contains_flag {n : Str} (hn : '(' ∉ n) (hf : n ∈ flags) (as : List (Str × Attr))
    (h : ∀ p ∈ as, AttrText p.1 p.2) :
    (as.map fun p => lower (strip p.1)).contains n = (as.map (·.2)).contains (.flag n) := by
  rw [Bool.eq_iff_iff, List.contains_iff_mem, List.contains_iff_mem, List.mem_map, List.mem_map]
  constructor
  · rintro ⟨p, hp, e⟩
    exact ⟨p, hp, ((h p hp).facts.2.2.flag hn hf).1 e⟩
  · rintro ⟨p, hp, e⟩
    exact ⟨p, hp, ((h p hp).facts.2.2.flag hn hf).2 e⟩

/-- The intent and the dimensions, if earlier attributes gave `i` and `d`. -/
theorem readAttrs_ok (scheme logger : Bool) (as : List (Str × Attr)) (h : ∀ p ∈ as, AttrText p.1 p.2)
    (hs : scheme = true ∨ ∀ v, Attr.intent v ∉ as.map (·.2)) : ∀ i d,
    readAttrs scheme logger i d (as.map fun p => lower (strip p.1)) =
      some ((attrIntent (as.map (·.2))).or i, (attrDims (as.map (·.2))).or d) := by
  induction as with
  | nil => intro i d; simp [readAttrs, attrIntent, attrDims]
  | cons p as ih =>
    obtain ⟨t, a⟩ := p
    intro i d
    have ih := ih (fun x hx => h x (List.mem_cons_of_mem _ hx))
      (hs.imp id fun hv v hm => hv v (List.mem_cons_of_mem _ hm))
    obtain ⟨_, _, hseen⟩ := (h _ List.mem_cons_self).facts
    have key : ∀ (l : List Str) (x : Str) (i : Option Str), ((x :: l).getLast?).or i = l.getLast?.or (some x) := by
      intro l x i
      rw [List.getLast?_cons]
      cases l.getLast? <;> rfl
    simp only [List.map_cons]
    rw [readAttrs]
    cases a with
    | flag n =>
      obtain ⟨e, hf⟩ := hseen
      obtain ⟨_, _, _, _, _, f6, f7, _⟩ := flags_facts _ hf
      simp only at e
      rw [e, if_neg f6, if_neg f7, ih]
      simp [attrIntent, attrDims]
    | dims s =>
      obtain ⟨_, h1, h2, h3⟩ := hseen
      simp only at h1 h2 h3
      rw [if_neg h1, if_pos h2, h3, ih]
      simp only [attrIntent, attrDims, List.filterMap_cons, key]
    | intent v =>
      obtain ⟨_, h1, h2⟩ := hseen
      simp only at h1 h2
      have hsch : scheme = true := by
        rcases hs with hs | hs
        · exact hs
        · exact absurd (by simp) (hs v)
      rw [if_pos h1, if_pos hsch, h2, ih]
      simp only [attrIntent, attrDims, List.filterMap_cons, key]

theorem flatMap_comma (as : List (Str × Attr)) (hne : as ≠ []) :
    as.flatMap (fun p => ',' :: p.1) = ',' :: commaJoin (as.map (·.1)) := by
  induction as with
  | nil => exact absurd rfl hne
  | cons p as ih =>
    cases as with
    | nil => simp [commaJoin]
    | cons q as =>
      rw [List.flatMap_cons, ih (by simp)]
      show ',' :: p.1 ++ _ = ',' :: commaJoin (p.1 :: (q :: as).map (·.1))
      rw [commaJoin_cons (by simp)]
      rfl

theorem attrSpecs_ok (gap : Str) (hg : Blank gap) (as : List (Str × Attr)) (h : ∀ p ∈ as, AttrText p.1 p.2) :
    attrSpecs (gap ++ as.flatMap (fun p => ',' :: p.1)) = some (as.map fun p => lower (strip p.1)) := by
  have hall : ((as.map (·.1)).map strip |>.map fun x => lower (strip x)) = as.map fun p => lower (strip p.1) := by
    rw [List.map_map, List.map_map]
    exact List.map_congr_left fun p _ => by simp only [Function.comp, strip_strip]
  have hknown : ((as.map fun p => lower (strip p.1)).all fun x =>
      attrNames.contains (if '(' ∈ x then strip (x.takeWhile (· != '(')) else x)) = true := by
    rw [List.all_eq_true]
    intro x hx
    obtain ⟨p, hp, rfl⟩ := List.mem_map.1 hx
    exact (h p hp).facts.2.1
  have hok : ∀ r ∈ as.map (·.1), ItemOk r := by
    intro r hr
    obtain ⟨p, hp, rfl⟩ := List.mem_map.1 hr
    exact (h p hp).facts.1
  have hre := reassemble_ok hok
  unfold attrSpecs
  by_cases hne : as = []
  · subst hne
    have : strip gap = [] := by
      have := strip_core (p := gap) (x := []) (q := []) hg ⟨by decide, by decide⟩ blank_nil
      simpa using this
    simp only [List.flatMap_nil, List.append_nil, this]
    decide
  · have hst : strip (gap ++ as.flatMap (fun p => ',' :: p.1)) = ',' :: rstrip (commaJoin (as.map (·.1))) := by
      rw [flatMap_comma as hne, strip_keep (by decide)]
      have : lstrip gap = [] := by
        have := lstrip_blank (s := []) hg
        rw [List.append_nil] at this; exact this
      rw [this]; rfl
    simp only [hst, List.head?_cons, if_true, List.drop_succ_cons, List.drop_zero]
    have : lstrip (rstrip (commaJoin (as.map (·.1)))) = strip (commaJoin (as.map (·.1))) := rfl
    rw [this, reassemble_strip, hre]
    simp only [hall]
    rw [if_pos hknown]

/-! ## The whole statement -/

theorem TypeText.tight {t : Str} {m : TypeMeaning} (h : TypeText t m) : Tight t ∧ t ≠ [] := by
  cases h with
  | plain hw => exact ⟨hw.facts.1, hw.facts.2.1⟩
  | kind hw hg hs hk => exact ⟨tight_paren _ hw.facts.1 hw.facts.2.1, by simp⟩
  | character hw =>
    exact ⟨tight_paren _ (lower_tight (hw ▸ ⟨by decide, by decide⟩)) (by rintro rfl; exact absurd hw (by decide)), by simp⟩
  | derived hw =>
    rename_i w g a n b _ _ _ _
    have : Tight w ∧ w ≠ [] := by
      rcases hw with hw | hw
      · exact ⟨lower_tight (hw ▸ ⟨by decide, by decide⟩), by rintro rfl; exact absurd hw (by decide)⟩
      · exact ⟨lower_tight (hw ▸ ⟨by decide, by decide⟩), by rintro rfl; exact absurd hw (by decide)⟩
    exact ⟨tight_paren _ this.1 this.2, by simp⟩

theorem strip_blank_left {a s : Str} (h : Blank a) : strip (a ++ s) = strip s := by
  have e : ∀ x, strip x = rstrip (lstrip x) := fun x => by unfold strip; rw [lstrip_rstrip_comm]
  rw [e, e, lstrip_blank h]

/-- The statement without indentation and comment. -/
theorem statement_text {ind t Y tail : Str} (hi : Blank ind) (tt : Tight t) (nt : t ≠ [])
    (hb : '!' ∉ t ++ Y) (htail : Blank tail ∨ ∃ a b, Blank a ∧ tail = a ++ '!' :: b) :
    (let s := strip (ind ++ (t ++ Y) ++ tail)
     if '!' ∈ s then rstrip (s.takeWhile (· != '!')) else s) = t ++ rstrip Y := by
  have nb : ∀ X, (∀ c ∈ X, c ∈ Y ∨ isWs c = true) → '!' ∉ t ++ X := by
    intro X hX
    simp only [List.mem_append, not_or] at hb
    simp only [List.mem_append, not_or]
    refine ⟨hb.1, fun h => ?_⟩
    rcases hX _ h with h | h
    · exact hb.2 h
    · exact absurd h (by decide)
  have e1 : ∀ X, strip (ind ++ (t ++ Y) ++ X) = t ++ rstrip (Y ++ X) := by
    intro X
    rw [List.append_assoc, strip_blank_left hi, ← strip_append tt nt, List.append_assoc]
  have e3 : ∀ a, Blank a → rstrip (Y ++ a) = rstrip Y := fun a ha => rstrip_blank ha
  have e6 : rstrip (t ++ Y) = t ++ rstrip Y := by
    have := e1 []
    rw [List.append_nil, List.append_nil, strip_blank_left hi] at this
    rw [← this]
    unfold strip
    rw [lstrip_rstrip_comm, lstrip_tight]
    intro c hc
    cases t with
    | nil => exact absurd rfl nt
    | cons d t => exact tt.1 c (by simpa using hc)
  rcases htail with ht | ⟨a, b, ha, rfl⟩
  · simp only [e1, e3 _ ht]
    rw [if_neg (nb _ fun c hc => Or.inl (mem_rstrip hc))]
  · have e4 : strip (ind ++ (t ++ Y) ++ (a ++ '!' :: b)) = (t ++ (Y ++ a)) ++ '!' :: rstrip b := by
      rw [e1, show Y ++ (a ++ '!' :: b) = (Y ++ a) ++ '!' :: b by simp, rstrip_keep (by decide)]
      simp
    have hn : '!' ∉ t ++ (Y ++ a) := nb _ fun c hc => by
      rcases List.mem_append.1 hc with h | h
      · exact Or.inl h
      · exact Or.inr (ha c h)
    simp only [e4]
    rw [if_pos (by simp)]
    obtain ⟨e5, _⟩ := takeWhile_stop (p := (· != '!')) (c := '!') (rstrip b) (a := t ++ (Y ++ a))
      (by intro x hx; rw [bne_iff_ne]; rintro rfl; exact hn hx) (by decide)
    rw [e5, ← List.append_assoc, rstrip_blank ha, e6]

theorem EntText.first {e n : Str} {d : Option Str} (h : EntText e n d) :
    ∃ b x r, e = b ++ x :: r ∧ Blank b ∧ isWs x = false ∧ x ≠ '(' ∧ x ≠ ')' := by
  have nm : ∀ {n : Str}, Chk.IsName n → ∃ x r, n = x :: r ∧ isWs x = false ∧ x ≠ '(' ∧ x ≠ ')' := by
    intro n hn
    obtain ⟨h1, h2, h3, _⟩ := name_facts hn
    cases n with
    | nil => exact absurd rfl h1
    | cons x r => exact ⟨x, r, rfl, h2.1 x rfl, h3 x List.mem_cons_self⟩
  induction h with
  | scalar hp hn hq =>
    rename_i p n q
    obtain ⟨x, r, rfl, h1, h2, h3⟩ := nm hn
    exact ⟨p, x, r ++ q, by simp, hp, h1, h2, h3⟩
  | array hp hn hg ht hq =>
    rename_i p n g t q
    obtain ⟨x, r, rfl, h1, h2, h3⟩ := nm hn
    exact ⟨p, x, _, by simp only [List.append_assoc, List.cons_append]; rfl, hp, h1, h2, h3⟩
  | init he h1 h2 hb hw ih =>
    obtain ⟨b, x, r, rfl, h1, h2, h3⟩ := ih
    exact ⟨b, x, _, by simp only [List.append_assoc, List.cons_append]; rfl, h1, h2, h3⟩

theorem splitColons_none (s : Str) (h : ¬ [':', ':'] <:+: s) : splitColons s = none := by
  induction s with
  | nil => rfl
  | cons c s ih =>
    rw [splitColons.eq_def]
    split
    · next t e => exact absurd ⟨[], t, by rw [e]; rfl⟩ h
    · next _ _ e =>
      injection e with e1 e2
      subst e1 e2
      rw [ih (not_infix_cons h)]
      rfl
    · next e => cases e

theorem rstrip_colons (P E : Str) : rstrip (P ++ [':', ':'] ++ E) = P ++ ':' :: ':' :: rstrip E := by
  rw [show P ++ [':', ':'] ++ E = (P ++ [':']) ++ ':' :: E by simp, rstrip_keep (by decide)]
  simp

theorem attrSpecs_strip (s : Str) : attrSpecs (strip s) = attrSpecs s := by
  unfold attrSpecs; rw [strip_strip]

theorem lstrip_suffix (s : Str) : lstrip s <:+ s := by
  obtain ⟨b, _, e⟩ := lstrip_split s
  exact ⟨b, e.symm⟩

/-- **C59** (in part): a declaration statement is read as exactly the variables it declares, each with the
type, kind, intent and attributes of the statement, and with its own dimensions or else those of the
dimension attribute.  Outside schemes this holds for statements without intent. -/
theorem C59_declaration_partial {line : List Char} {m : TypeMeaning} {attrs : List Attr}
    {vars : List (List Char × Option (List Char))} (h : Declares line m attrs vars) (scheme logger : Bool)
    (hs : scheme = true ∨ ∀ v, Attr.intent v ∉ attrs) :
    parseDecl scheme logger line = some (vars.map fun v =>
      { name := v.1, ddt := m.ddt, type := m.name, kind := m.kind,
        optional := attrs.contains (.flag "optional".toList),
        allocatable := attrs.contains (.flag "allocatable".toList),
        intent := attrIntent attrs,
        dims := v.2.getD ((attrDims attrs).getD "()".toList) }) := by
  cases h with
  | mk hi ht hgap has hes hbang hc1 hc2 htail =>
    rename_i ind t gap tail as es
    obtain ⟨tt, nt⟩ := ht.tight
    generalize hP : gap ++ as.flatMap (fun p => ',' :: p.1) = P at *
    generalize hE : commaJoin (es.map (·.1)) = E at *
    have hst := statement_text (Y := P ++ [':', ':'] ++ E) (tail := tail) hi tt nt (by
      simp only [List.mem_append, not_or] at hbang
      simp only [List.mem_append, List.mem_cons, List.not_mem_nil, or_false, not_or]
      exact ⟨hbang.1.1, ⟨hbang.1.2, by decide, by decide⟩, hbang.2⟩) htail
    rw [rstrip_colons, show t ++ (P ++ [':', ':'] ++ E) = t ++ P ++ [':', ':'] ++ E by simp] at hst
    have hR : Follows (P ++ ':' :: ':' :: rstrip E) := by
      by_cases hne : as = []
      · subst hne
        rw [List.flatMap_nil, List.append_nil] at hP
        exact ⟨gap, ':', ':' :: rstrip E, by rw [hP], hgap, by decide, by decide, by decide⟩
      · rw [flatMap_comma as hne] at hP
        exact ⟨gap, ',', commaJoin (as.map (·.1)) ++ ':' :: ':' :: rstrip E, by rw [← hP]; simp, hgap, by decide,
          by decide, by decide⟩
    have hb' : '!' ∉ t ++ (P ++ ':' :: ':' :: rstrip E) := by
      simp only [List.mem_append, not_or] at hbang
      simp only [List.mem_append, List.mem_cons, not_or]
      exact ⟨hbang.1.1, hbang.1.2, by decide, by decide, fun h => hbang.2 (mem_rstrip h)⟩
    obtain ⟨len, hf, hdrop⟩ := factory_ok ht hb' hR
    have hr : strip (P ++ ':' :: ':' :: rstrip E) = lstrip P ++ ':' :: ':' :: rstrip E := by
      rw [strip_keep (by decide)]
      have := rstrip_keep (l := []) (r := rstrip E) (c := ':') (by decide)
      rw [List.nil_append, List.nil_append] at this
      rw [this, rstrip_rstrip]
    have hsplit : splitColons (lstrip P ++ ':' :: ':' :: rstrip E) = some (lstrip P, rstrip E) := by
      rw [splitColons_at, beforeColons_plain]
      · exact fun h => hc2 (h.trans (rstrip_prefix E).isInfix)
      · intro h
        obtain ⟨b, hb⟩ := lstrip_suffix P
        refine hc1 (h.trans ⟨b, [], ?_⟩)
        rw [List.append_nil, ← List.append_assoc, hb]
    have hattr : attrSpecs (strip (lstrip P)) = some (as.map fun p => lower (strip p.1)) := by
      rw [strip_lstrip, attrSpecs_strip, ← hP]
      exact attrSpecs_ok gap hgap as has
    have hitems : reassemble (strip (rstrip E)) = some ((es.map (·.1)).map strip) := by
      rw [strip_rstrip, reassemble_strip, ← hE]
      refine reassemble_ok fun r hr => ?_
      obtain ⟨e, he, rfl⟩ := List.mem_map.1 hr
      exact (hes e he).ok
    unfold parseDecl
    simp only [] at hst
    simp only [hst, hf, hdrop, hr, hsplit, hattr, Option.map_some]
    rw [readAttrs_ok scheme logger as has hs]
    simp only [hitems, Option.or_none]
    rw [readItems_ok logger _ es hes, contains_flag (by decide) (by decide) as has,
      contains_flag (by decide) (by decide) as has, List.map_map]
    rfl
  | short hi ht hgap hgne hne hes hbang hc htail =>
    rename_i ind t gap tail es
    obtain ⟨tt, nt⟩ := ht.tight
    have hst := statement_text (tail := tail) hi tt nt hbang htail
    generalize hE : commaJoin (es.map (·.1)) = E at *
    have hR : Follows (rstrip (gap ++ E)) := by
      cases es with
      | nil => exact absurd rfl hne
      | cons e es =>
        obtain ⟨b, x, r, e1, hb, h1, h2, h3⟩ := (hes e List.mem_cons_self).first
        have : ∃ r', E = b ++ x :: r' := by
          rw [← hE]
          cases es with
          | nil => exact ⟨r, e1⟩
          | cons f es => exact ⟨r ++ ',' :: commaJoin ((f :: es).map (·.1)), by
              rw [List.map_cons, commaJoin_cons (by simp)]; simp only [e1]; simp⟩
        obtain ⟨r', e2⟩ := this
        refine ⟨gap ++ b, x, rstrip r', ?_, hgap.append hb, h1, h2, h3⟩
        rw [e2, ← List.append_assoc, rstrip_keep h1]
    have hb' : '!' ∉ t ++ rstrip (gap ++ E) := by
      intro h
      rcases List.mem_append.1 h with h | h
      · exact hbang (List.mem_append_left _ h)
      · exact hbang (List.mem_append_right _ (mem_rstrip h))
    obtain ⟨len, hf, hdrop⟩ := factory_ok ht hb' hR
    have hr : strip (rstrip (gap ++ E)) = strip E := by rw [strip_rstrip, strip_blank_left hgap]
    have hsplit : splitColons (strip E) = none := by
      refine splitColons_none _ fun h => hc (h.trans ?_)
      obtain ⟨a, b, _, _, e⟩ := strip_split E
      exact ⟨gap ++ a, b, by rw [List.append_assoc gap, List.append_assoc gap, ← e]⟩
    have hitems : reassemble (strip E) = some ((es.map (·.1)).map strip) := by
      rw [reassemble_strip, ← hE]
      refine reassemble_ok fun r hr => ?_
      obtain ⟨e, he, rfl⟩ := List.mem_map.1 hr
      exact (hes e he).ok
    unfold parseDecl
    simp only [] at hst
    simp only [hst, hf, hdrop, hr, hsplit, readAttrs, hitems]
    rw [readItems_ok logger _ es hes, List.map_map]
    rfl

end Ccpp.FDecl
