import Verif.Props.PrebuildText
/-!
# C71: conversion of one local name
-/
namespace Ccpp.PB

/-! ## Loops over the parts of a name -/

/-- `rec` for a core. -/
def convCore (rec : NSt → Str → Option (Str × NSt)) (st : NSt) (d : Str) : Option (Str × NSt) :=
  if isInt d then some (d, st) else (rec st d).map fun r => (r.1, setLoc r.2.1 d r.1, r.2.2)

/-- `convRange` for the structure of an index. -/
def convRs (rec : NSt → Str → Option (Str × NSt)) (st : NSt) : RS → Option (Str × NSt)
  | .colon => some ([':'], st)
  | .dims ss => (collectTexts (convCore rec) st ss).map fun q => (joined ':' q.1, q.2)

theorem collect_congr {α β : Type} {R : α → β → Prop} {f : NSt → α → Option (Str × NSt)} {g : NSt → β → Option (Str × NSt)}
    (h : ∀ st a b, R a b → f st a = g st b) : ∀ {l : List α} {m : List β}, List.Forall₂ R l m → ∀ st, collectTexts f st l = collectTexts g st m
  | _, _, .nil, _ => rfl
  | _, _, .cons h1 t, st => by
    rw [collectTexts, collectTexts, h st _ _ h1]
    have : ∀ st, collectTexts f st _ = collectTexts g st _ := collect_congr h t
    simp only [this]

theorem convDim_eq {rec : NSt → Str → Option (Str × NSt)} {st : NSt} {t s : Str} (h : Core t s) : convDim rec st t = convCore rec st s := by
  unfold convDim convCore
  simp only [h.strip]

theorem strip_colon {a b : Str} (ha : Blanks a) (hb : Blanks b) : strip (a ++ [':'] ++ b) = [':'] :=
  strip_core ha hb (by simp) (by intro c hc; have := List.mem_singleton.1 hc; subst this; decide)

theorem convRange_eq {rec : NSt → Str → Option (Str × NSt)} {st : NSt} {t : Str} {rs : RS} (h : RText t rs) :
    convRange rec st t = convRs rec st rs := by
  unfold convRange
  cases rs with
  | colon =>
    obtain ⟨a, b, ha, hb, rfl⟩ := h
    simp only [strip_colon ha hb, if_pos, convRs]
  | dims ss =>
    obtain ⟨hn, ts, rfl, hf⟩ := h
    obtain ⟨ts', e, hf'⟩ := strip_joined hf
    have hne : joined ':' ts' ≠ [':'] := by
      have := blank_no_core hf' hn (a := []) (b := []) (by intro c hc; cases hc) (by intro c hc; cases hc)
      simpa using this
    simp only [e]
    rw [if_neg hne, cores_split hf' hn, collect_congr (R := Core) (f := convDim rec) (g := convCore rec) (fun st a b h => convDim_eq h) hf' st, convRs]
    simp only [joinWith_eq]

theorem splitRefLoop_spec {base u : Str} (hb : '(' ∉ u) (hc : ')' ∉ u) : ∀ (acc : Str),
    splitRefLoop 1 (u ++ '(' :: base.reverse) acc = some (base, '(' :: (u.reverse ++ acc)) := by
  induction u with
  | nil =>
    intro acc
    rw [List.nil_append, splitRefLoop]
    simp
  | cons c u ih =>
    intro acc
    have h1 : c ≠ ')' := fun h => hc (by simp [h])
    have h2 : c ≠ '(' := fun h => hb (by simp [h])
    rw [List.cons_append, splitRefLoop]
    simp only [h1, h2, if_false]
    rw [if_neg (by decide), ih (fun h => hb (by simp [h])) (fun h => hc (by simp [h]))]
    simp

theorem splitRef_spec {base u : Str} (hb : '(' ∉ u) (hc : ')' ∉ u) :
    splitRef (base ++ ['('] ++ u ++ [')']) = some (base, '(' :: (u ++ [')'])) := by
  unfold splitRef
  have : (base ++ ['('] ++ u ++ [')']).reverse = ')' :: (u.reverse ++ '(' :: base.reverse) := by simp
  rw [this, splitRefLoop]
  simp only [if_true]
  rw [if_neg (by decide)]
  have := splitRefLoop_spec (base := base) (u := u.reverse) (by simpa using hb) (by simpa using hc) [')']
  simpa using this

theorem stripParens_spec {u : Str} (hb : '(' ∉ u) (hc : ')' ∉ u) : stripParens ('(' :: (u ++ [')'])) = u := by
  unfold stripParens
  have h1 : ('(' :: (u ++ [')'])).dropWhile (· == '(') = u ++ [')'] := by
    cases u with
    | nil => decide
    | cons c u =>
      have : c ≠ '(' := fun h => hb (by simp [h])
      simp [this]
  rw [h1]
  have h2 : (u ++ [')']).reverse.dropWhile (· == ')') = u.reverse := by
    rw [List.reverse_append]
    cases he : u.reverse with
    | nil => decide
    | cons c r =>
      have : c ≠ ')' := fun h => hc (by rw [← List.mem_reverse, he, h]; simp)
      simp [this]
  rw [h2, List.reverse_reverse]

theorem convRef_eq {rec : NSt → Str → Option (Str × NSt)} {st : NSt} {base loc : Str} {rss : List RS} (h : LText loc (.ref base rss)) :
    convRef rec st loc = (collectTexts (convRs rec) st rss).map fun q => (base ++ ['('] ++ joined ',' q.1 ++ [')'], q.2) := by
  obtain ⟨hb, hn, ts, rfl, hf⟩ := h
  have hm : ∀ c ∈ joined ',' ts, c ≠ '(' ∧ c ≠ ')' := by
    intro c hc
    rcases mem_joined hc with rfl | ⟨t, ht, hc⟩
    · decide
    · obtain ⟨rs, _, hr⟩ := forall2_left hf ht
      exact (rtext_chars hr c hc).2
  have h1 : '(' ∉ joined ',' ts := fun h => (hm _ h).1 rfl
  have h2 : ')' ∉ joined ',' ts := fun h => (hm _ h).2 rfl
  unfold convRef
  rw [if_pos (by simp), splitRef_spec h1 h2]
  simp only [Option.bind_some, stripParens_spec h1 h2]
  rw [rtexts_split hf (fun h0 => hn ((forall2_ne_nil hf).1 h0)), collect_congr (R := RText) (f := convRange rec) (g := convRs rec) (fun st a b h => convRange_eq h) hf st]
  congr 1
  funext q
  simp [joinWith_eq]

theorem convRef_plain {rec : NSt → Str → Option (Str × NSt)} {st : NSt} {loc : Str} (h : LText loc .plain) :
    convRef rec st loc = some (loc, st) := by
  unfold convRef
  rw [if_neg (show '(' ∉ loc from h)]

/-! ## Literals and names -/

theorem restDigits_of {s : Str} (h : ∀ c ∈ s, c.isDigit = true) : restDigits s = true := by
  induction s with
  | nil => rfl
  | cons c s ih =>
    have hc := h c (by simp)
    have ih' := ih fun d hd => h d (by simp [hd])
    unfold restDigits
    split
    · rfl
    · rename_i heq
      cases heq
      exact absurd hc (by decide)
    · rename_i heq
      cases heq
      simp [hc, ih']

theorem isInt_literal {s : Str} (h : IsLiteral s) : isInt s = true := by
  obtain ⟨sign, d, hs, rfl, hn, hd⟩ := h
  cases d with
  | nil => exact absurd rfl hn
  | cons c s =>
    have hc := hd c (by simp)
    have : isNat (c :: s) = true := by
      rw [isNat, hc, restDigits_of fun d h => hd d (by simp [h])]; rfl
    rcases hs with rfl | rfl | rfl
    · show isInt (c :: s) = true
      unfold isInt
      split
      · rename_i heq; cases heq; exact absurd hc (by decide)
      · rename_i heq; cases heq; exact absurd hc (by decide)
      · exact this
    · exact this
    · exact this

theorem alpha_not_digit {c : Char} (h : c.isAlpha = true) : c.isDigit = false := by
  unfold Char.isAlpha Char.isUpper Char.isLower at h
  unfold Char.isDigit
  simp only [Bool.or_eq_true, Bool.and_eq_true, decide_eq_true_eq] at h
  simp only [Bool.and_eq_false_iff, decide_eq_false_iff_not, UInt32.le_iff_toNat_le, ge_iff_le] at h ⊢
  right
  rcases h with h | h
  · have := h.1
    simp at this ⊢
    omega
  · have := h.1
    simp at this ⊢
    omega

theorem isInt_name {s : Str} (h : IsName s) : isInt s = false := by
  obtain ⟨⟨c, r, rfl, hc⟩, _⟩ := h
  have hd := alpha_not_digit hc
  unfold isInt
  split
  · rename_i heq; cases heq; exact absurd hc (by decide)
  · rename_i heq; cases heq; exact absurd hc (by decide)
  · rw [isNat, hd]; rfl

theorem literal_not_name {s : Str} (h1 : IsLiteral s) (h2 : IsName s) : False := by
  have a := isInt_literal h1
  rw [isInt_name h2] at a; cases a

/-! ## Correctness of the loops -/

/-- The function `f` keeps the invariant and computes `R`, and fails only when nothing is related by `Q`. -/
def Correct {α : Type} (I : NSt → Prop) (R Q : α → Str → Prop) (f : NSt → α → Option (Str × NSt)) (a : α) : Prop :=
  ∀ st, I st → (∀ o st', f st a = some (o, st') → R a o ∧ I st') ∧ (f st a = none → ∀ o, ¬ Q a o)

theorem collect_correct {α : Type} {I : NSt → Prop} {R Q : α → Str → Prop} {f : NSt → α → Option (Str × NSt)} : ∀ {l : List α},
    (∀ a ∈ l, Correct I R Q f a) → ∀ st, I st →
    (∀ os st', collectTexts f st l = some (os, st') → List.Forall₂ R l os ∧ I st') ∧
    (collectTexts f st l = none → ∀ os, ¬ List.Forall₂ Q l os)
  | [], _, st, hi => by
    refine ⟨?_, ?_⟩
    · intro os st' h
      rw [collectTexts] at h; cases h
      exact ⟨.nil, hi⟩
    · intro h; rw [collectTexts] at h; cases h
  | a :: l, h, st, hi => by
    have ha := h a (by simp) st hi
    cases hf : f st a with
    | none =>
      rw [collectTexts, hf]
      refine ⟨fun os st' h => (by cases h), fun _ os hq => ?_⟩
      cases hq with
      | cons h1 _ => exact ha.2 hf _ h1
    | some r =>
      obtain ⟨o, st1⟩ := r
      obtain ⟨hr, hi1⟩ := ha.1 o st1 hf
      have ih := collect_correct (l := l) (fun x hx => h x (by simp [hx])) st1 hi1
      rw [collectTexts, hf]
      cases hc : collectTexts f st1 l with
      | none =>
        refine ⟨fun os st' h => (by simp [hc] at h), fun _ os hq => ?_⟩
        cases hq with
        | cons _ h2 => exact ih.2 hc _ h2
      | some q =>
        obtain ⟨os1, st2⟩ := q
        refine ⟨fun os st' h => ?_, fun h => (by simp [hc] at h)⟩
        simp only [Option.bind_some, hc, Option.map_some, Option.some.injEq, Prod.mk.injEq] at h
        obtain ⟨rfl, rfl⟩ := h
        obtain ⟨a1, a2⟩ := ih.1 _ _ hc
        exact ⟨.cons hr a1, a2⟩

/-- The invariant holds after the update that follows the recursive call. -/
def RecOk (I : NSt → Prop) (F G : Str → Str → Prop) (rec : NSt → Str → Option (Str × NSt)) : Prop :=
  ∀ st k, I st → (∀ n st', rec st k = some (n, st') → F k n ∧ I (setLoc st'.1 k n, st'.2)) ∧ (rec st k = none → ∀ n, ¬ G k n)

theorem core_correct {I : NSt → Prop} {F G : Str → Str → Prop} {rec : NSt → Str → Option (Str × NSt)} (h : RecOk I F G rec) {s : Str}
    (hs : IsLiteral s ∨ IsName s) : Correct I (CoreRep F) (CoreRep G) (convCore rec) s := by
  intro st hi
  rcases hs with hs | hs
  · unfold convCore
    rw [if_pos (isInt_literal hs)]
    refine ⟨fun o st' h => ?_, fun h => (by cases h)⟩
    cases h
    exact ⟨Or.inl ⟨hs, rfl⟩, hi⟩
  · unfold convCore
    rw [if_neg (by simp [isInt_name hs])]
    cases hr : rec st s with
    | none =>
      refine ⟨fun o st' h => (by cases h), fun _ o hq => ?_⟩
      rcases hq with ⟨h1, _⟩ | ⟨_, h2⟩
      · exact literal_not_name h1 hs
      · exact (h st s hi).2 hr o h2
    | some r =>
      obtain ⟨n, st1⟩ := r
      refine ⟨fun o st' h' => ?_, fun h => (by cases h)⟩
      simp only [Option.map_some, Option.some.injEq, Prod.mk.injEq] at h'
      obtain ⟨rfl, rfl⟩ := h'
      obtain ⟨a, b⟩ := (h st s hi).1 _ _ hr
      exact ⟨Or.inr ⟨hs, a⟩, b⟩

/-- The elements of an index are literals and names. -/
def RS.Valid : RS → Prop
  | .colon => True
  | .dims ss => ∀ s ∈ ss, IsLiteral s ∨ IsName s

theorem rtext_valid {t : Str} {rs : RS} (h : RText t rs) : rs.Valid := by
  cases rs with
  | colon => trivial
  | dims ss =>
    obtain ⟨_, ts, _, hf⟩ := h
    intro s hs
    obtain ⟨t, _, hc⟩ := forall2_mem hf hs
    exact hc.2

theorem rs_correct {I : NSt → Prop} {F G : Str → Str → Prop} {rec : NSt → Str → Option (Str × NSt)} (h : RecOk I F G rec) {rs : RS}
    (hv : rs.Valid) : Correct I (RsRep F) (RsRep G) (convRs rec) rs := by
  intro st hi
  cases rs with
  | colon =>
    refine ⟨fun o st' h => ?_, fun h => (by cases h)⟩
    rw [convRs] at h; cases h
    exact ⟨rfl, hi⟩
  | dims ss =>
    have hc := collect_correct (fun s hs => core_correct h (hv s hs)) st hi
    rw [convRs]
    cases he : collectTexts (convCore rec) st ss with
    | none =>
      refine ⟨fun o st' h => (by cases h), fun _ o hq => ?_⟩
      obtain ⟨os, _, hf⟩ := hq
      exact hc.2 he os hf
    | some q =>
      obtain ⟨os, st1⟩ := q
      refine ⟨fun o st' h' => ?_, fun h => (by cases h)⟩
      simp only [Option.map_some, Option.some.injEq, Prod.mk.injEq] at h'
      obtain ⟨rfl, rfl⟩ := h'
      obtain ⟨a, b⟩ := hc.1 _ _ he
      exact ⟨⟨os, rfl, a⟩, b⟩

theorem ref_correct {I : NSt → Prop} {F G : Str → Str → Prop} {rec : NSt → Str → Option (Str × NSt)} (h : RecOk I F G rec) {loc : Str}
    (hl : LocalName loc) : Correct I (Replaced F) (Replaced G) (convRef rec) loc := by
  obtain ⟨_, hl⟩ := hl
  obtain ⟨ls, hls⟩ := ltext_of_replaced hl
  intro st hi
  cases ls with
  | plain =>
    rw [convRef_plain hls]
    refine ⟨fun o st' h => ?_, fun h => (by cases h)⟩
    cases h
    exact ⟨Or.inl ⟨hls, rfl⟩, hi⟩
  | ref base rss =>
    rw [convRef_eq hls]
    have hv : ∀ rs ∈ rss, rs.Valid := by
      intro rs hrs
      obtain ⟨_, _, ts, _, hf⟩ := hls
      obtain ⟨t, _, hr⟩ := forall2_mem hf hrs
      exact rtext_valid hr
    have hc := collect_correct (fun rs hrs => rs_correct h (hv rs hrs)) st hi
    cases he : collectTexts (convRs rec) st rss with
    | none =>
      refine ⟨fun o st' h => (by cases h), fun _ o hq => ?_⟩
      obtain ⟨os, _, hf⟩ := (replaced_iff hls).1 hq
      exact hc.2 he os hf
    | some q =>
      obtain ⟨os, st1⟩ := q
      refine ⟨fun o st' h' => ?_, fun h => (by cases h)⟩
      simp only [Option.map_some, Option.some.injEq, Prod.mk.injEq] at h'
      obtain ⟨rfl, rfl⟩ := h'
      obtain ⟨a, b⟩ := hc.1 _ _ he
      exact ⟨(replaced_iff hls).2 ⟨os, rfl, a⟩, b⟩

/-! ## Replacement is monotone, finitary and functional -/

theorem forall2_mono {α β : Type} {P Q : α → β → Prop} (h : ∀ a b, P a b → Q a b) : ∀ {l : List α} {m : List β},
    List.Forall₂ P l m → List.Forall₂ Q l m := forall2_imp' h

theorem dimRep_mono {F G : Str → Str → Prop} (h : ∀ s o, F s o → G s o) {t o : Str} (hr : DimRep F t o) : DimRep G t o := by
  obtain ⟨a, s, b, ha, hb, ht, hr⟩ := hr
  exact ⟨a, s, b, ha, hb, ht, hr.imp id fun hh => ⟨hh.1, h _ _ hh.2⟩⟩

theorem rangeRep_mono {F G : Str → Str → Prop} (h : ∀ s o, F s o → G s o) {t o : Str} (hr : RangeRep F t o) : RangeRep G t o := by
  rcases hr with hr | ⟨ts, os, h1, h2, h3, hf⟩
  · exact Or.inl hr
  · exact Or.inr ⟨ts, os, h1, h2, h3, forall2_mono (fun _ _ => dimRep_mono h) hf⟩

theorem replaced_mono {F G : Str → Str → Prop} (h : ∀ s o, F s o → G s o) {t o : Str} (hr : Replaced F t o) : Replaced G t o := by
  rcases hr with hr | ⟨b, ts, os, h1, h2, h3, h4, hf⟩
  · exact Or.inl hr
  · exact Or.inr ⟨b, ts, os, h1, h2, h3, h4, forall2_mono (fun _ _ => rangeRep_mono h) hf⟩

/-- A family that grows. -/
def Grows {α β : Type} (P : Nat → α → β → Prop) : Prop := ∀ d e a b, d ≤ e → P d a b → P e a b

theorem forall2_bound {α β : Type} {P : Nat → α → β → Prop} (hg : Grows P) : ∀ {l : List α} {m : List β},
    List.Forall₂ (fun a b => ∃ d, P d a b) l m → ∃ d, List.Forall₂ (P d) l m
  | _, _, .nil => ⟨0, .nil⟩
  | _, _, .cons ⟨d, h⟩ t => by
    obtain ⟨e, ht⟩ := forall2_bound hg t
    exact ⟨max d e, .cons (hg _ _ _ _ (Nat.le_max_left d e) h)
      (forall2_mono (fun a b => hg _ _ a b (Nat.le_max_right d e)) ht)⟩

theorem dimRep_bound {F : Nat → Str → Str → Prop} {t o : Str} (hr : DimRep (fun s o => ∃ d, F d s o) t o) : ∃ d, DimRep (F d) t o := by
  obtain ⟨a, s, b, ha, hb, ht, hr | ⟨hn, d, hf⟩⟩ := hr
  · exact ⟨0, a, s, b, ha, hb, ht, Or.inl hr⟩
  · exact ⟨d, a, s, b, ha, hb, ht, Or.inr ⟨hn, hf⟩⟩

theorem rangeRep_bound {F : Nat → Str → Str → Prop} (hg : Grows F) {t o : Str} (hr : RangeRep (fun s o => ∃ d, F d s o) t o) :
    ∃ d, RangeRep (F d) t o := by
  rcases hr with hr | ⟨ts, os, h1, h2, h3, hf⟩
  · exact ⟨0, Or.inl hr⟩
  · obtain ⟨d, hd⟩ := forall2_bound (P := fun d => DimRep (F d)) (fun d e _ _ hde => dimRep_mono (fun s o => hg d e s o hde))
      (forall2_mono (fun _ _ => dimRep_bound) hf)
    exact ⟨d, Or.inr ⟨ts, os, h1, h2, h3, hd⟩⟩

theorem replaced_bound {F : Nat → Str → Str → Prop} (hg : Grows F) {t o : Str} (hr : Replaced (fun s o => ∃ d, F d s o) t o) :
    ∃ d, Replaced (F d) t o := by
  rcases hr with hr | ⟨b, ts, os, h1, h2, h3, h4, hf⟩
  · exact ⟨0, Or.inl hr⟩
  · obtain ⟨d, hd⟩ := forall2_bound (P := fun d => RangeRep (F d)) (fun d e _ _ hde => rangeRep_mono (fun s o => hg d e s o hde))
      (forall2_mono (fun _ _ => rangeRep_bound hg) hf)
    exact ⟨d, Or.inr ⟨b, ts, os, h1, h2, h3, h4, hd⟩⟩

theorem forall2_fun {α β : Type} {P Q : α → β → Prop} (h : ∀ a b c, P a b → Q a c → b = c) : ∀ {l : List α} {m n : List β},
    List.Forall₂ P l m → List.Forall₂ Q l n → m = n
  | _, _, _, .nil, .nil => rfl
  | _, _, _, .cons h1 t1, .cons h2 t2 => by rw [h _ _ _ h1 h2, forall2_fun h t1 t2]

theorem coreRep_fun {F G : Str → Str → Prop} (h : ∀ a b c, F a b → G a c → b = c) {s o o' : Str} (h1 : CoreRep F s o)
    (h2 : CoreRep G s o') : o = o' := by
  rcases h1 with ⟨a1, rfl⟩ | ⟨a1, b1⟩ <;> rcases h2 with ⟨a2, rfl⟩ | ⟨a2, b2⟩
  · rfl
  · exact (literal_not_name a1 a2).elim
  · exact (literal_not_name a2 a1).elim
  · exact h _ _ _ b1 b2

theorem replaced_fun {F G : Str → Str → Prop} (h : ∀ a b c, F a b → G a c → b = c) {t o o' : Str} (h1 : Replaced F t o)
    (h2 : Replaced G t o') : o = o' := by
  obtain ⟨ls, hls⟩ := ltext_of_replaced h1
  have a1 := (replaced_iff hls).1 h1
  have a2 := (replaced_iff hls).1 h2
  cases ls with
  | plain => exact Eq.trans a1 (Eq.symm a2)
  | ref base rss =>
    obtain ⟨os, rfl, f1⟩ := a1
    obtain ⟨os', rfl, f2⟩ := a2
    have : os = os' := by
      refine forall2_fun ?_ f1 f2
      intro rs b c r1 r2
      cases rs with
      | colon => exact Eq.trans r1 (Eq.symm r2)
      | dims ss =>
        obtain ⟨x, rfl, g1⟩ := r1
        obtain ⟨y, rfl, g2⟩ := r2
        rw [forall2_fun (P := CoreRep F) (Q := CoreRep G) (fun _ _ _ => coreRep_fun h) g1 g2]
    rw [this]

end Ccpp.PB
