import Verif.Spec.CondText
import Verif.Props.PreprocExpr
/-!
# C103: conditions of the preprocessor as texts
-/
namespace Ccpp.CondT
open Preproc

/-! ## Scanning -/

/-- What may follow an expression: no word, also not after white space. -/
def Stop (r : Str) : Prop := ∀ c t, r.dropWhile isWs = c :: t → isWordC c = false

theorem ws_not_word {c : Char} (h : isWs c = true) : isWordC c = false := by
  unfold isWs at h
  simp only [Bool.or_eq_true, beq_iff_eq] at h
  rcases h with ((((rfl | rfl) | rfl) | rfl) | rfl) | rfl <;> decide

theorem word_not_ws {c : Char} (h : isWordC c = true) : isWs c = false := by
  cases hw : isWs c with
  | false => rfl
  | true => rw [ws_not_word hw] at h; cases h

theorem blank_ws {c : Char} (h : c = ' ' ∨ c = '\t') : isWs c = true := by rcases h with rfl | rfl <;> decide

theorem stop_head {r : Str} (h : Stop r) {c : Char} {t : Str} (e : r = c :: t) : isWordC c = false := by
  subst e
  cases hw : isWs c with
  | true => exact ws_not_word hw
  | false => exact h c t (by rw [List.dropWhile_cons_of_neg (by simp [hw])])

theorem stop_blanks {b r : Str} (hb : Blanks b) {c : Char} (h1 : isWs c = false) (h2 : isWordC c = false) : Stop (b ++ c :: r) := by
  intro a t e
  induction b with
  | nil =>
    rw [List.nil_append, List.dropWhile_cons_of_neg (by simp [h1])] at e
    rw [← (List.cons.inj e).1]; exact h2
  | cons x b ih =>
    rw [List.cons_append, List.dropWhile_cons_of_pos (blank_ws (hb x List.mem_cons_self))] at e
    exact ih (fun c hc => hb c (List.mem_cons_of_mem _ hc)) e

theorem scan_skip (q : Option Char) (u r : Str) : scan q u.length (u ++ r) = scan q 0 r := by
  induction u with
  | nil => rfl
  | cons c u ih => rw [← ih]; rfl

/-- A character that is copied outside of literals, unless `defined` begins there. -/
def Copied (c : Char) : Prop := c ≠ '"' ∧ c ≠ '\'' ∧ c ≠ '&' ∧ c ≠ '|' ∧ c ≠ '!'

theorem scan_copy {c : Char} {s : Str} (h : Copied c) (hd : definedMatch (c :: s) = none) :
    translate (c :: s) = c :: translate s := by
  unfold translate
  obtain ⟨h1, h2, h3, h4, h5⟩ := h
  rw [scan, if_neg (by rintro (e | e); exact h1 e; exact h2 e), if_neg (by simp), if_neg (fun e => h3 e.1), if_neg (fun e => h4 e.1),
    if_neg h5, hd]

theorem match_head {c : Char} {s : Str} (h : c ≠ 'd') : definedMatch (c :: s) = none := by
  unfold definedMatch
  rw [if_neg]
  intro hp
  rw [List.isPrefixOf_iff_prefix] at hp
  obtain ⟨t, e⟩ := hp
  exact h (List.cons.inj e).1.symm

theorem tr_blanks {b : Str} (hb : Blanks b) (r : Str) : translate (b ++ r) = b ++ translate r := by
  induction b with
  | nil => rfl
  | cons c b ih =>
    have hc : Copied c ∧ c ≠ 'd' := by
      unfold Copied
      rcases hb c List.mem_cons_self with rfl | rfl <;> decide
    rw [List.cons_append, scan_copy hc.1 (match_head hc.2), ih fun c h => hb c (List.mem_cons_of_mem _ h)]
    rfl

theorem tr_open (r : Str) : translate ('(' :: r) = '(' :: translate r :=
  scan_copy (by unfold Copied; decide) (match_head (by decide))

theorem tr_close (r : Str) : translate (')' :: r) = ')' :: translate r :=
  scan_copy (by unfold Copied; decide) (match_head (by decide))

theorem tr_and (r : Str) : translate ('&' :: '&' :: r) = "and".toList ++ translate r := rfl

theorem tr_or (r : Str) : translate ('|' :: '|' :: r) = "or".toList ++ translate r := rfl

theorem tr_not (r : Str) : translate ('!' :: r) = "not".toList ++ translate r := rfl

theorem word_copied {c : Char} (h : isWordC c = true) : Copied c := by
  refine ⟨?_, ?_, ?_, ?_, ?_⟩ <;> (rintro rfl; revert h; decide)

theorem match_word {w r : Str} (hw : ∀ c ∈ w, isWordC c = true) (hr : Stop r) (hne : w ≠ []) : definedMatch (w ++ r) = none := by
  unfold definedMatch
  split
  · next hp =>
    rw [List.isPrefixOf_iff_prefix] at hp
    rw [if_pos]
    rw [Bool.or_eq_true, List.isEmpty_iff, List.isEmpty_iff]
    rcases Nat.lt_trichotomy w.length 7 with hl | hl | hl
    · -- the word ends inside of the keyword
      exfalso
      obtain ⟨t, e⟩ := hp
      have hk : w = "defined".toList.take w.length := by
        have := congrArg (List.take w.length) e
        rw [List.take_left, List.take_append_of_le_length (by simpa using Nat.le_of_lt hl)] at this
        exact this.symm
      have hx : ("defined".toList ++ t)[w.length]? = (w ++ r)[w.length]? := by rw [e]
      rw [List.getElem?_append_left (by simpa using hl), List.getElem?_append_right (Nat.le_refl _), Nat.sub_self] at hx
      cases r with
      | nil =>
        have hx2 : "defined".toList[w.length]? = none := hx
        rw [List.getElem?_eq_none_iff] at hx2
        have : "defined".toList.length = 7 := rfl
        omega
      | cons c t' =>
        have hc := stop_head hr rfl
        have hm : c ∈ "defined".toList := by
          apply List.mem_of_getElem? (i := w.length)
          rw [hx]; rfl
        have : ∀ c ∈ "defined".toList, isWordC c = true := by decide
        rw [this c hm] at hc; cases hc
    · have e : (w ++ r).drop 7 = r := by rw [← hl, List.drop_left]
      rw [e]
      cases hd : r.dropWhile isWs with
      | nil => right; rfl
      | cons c t => right; rw [List.takeWhile_cons_of_neg (by simp [hr c t hd])]
    · left
      rw [List.drop_append_of_le_length (by omega)]
      cases hd : w.drop 7 with
      | nil => exact absurd (List.drop_eq_nil_iff.1 hd) (by omega)
      | cons c t =>
        have hc : c ∈ w := List.mem_of_mem_drop (by rw [hd]; exact List.mem_cons_self)
        rw [List.cons_append, List.takeWhile_cons_of_neg (by simp [word_not_ws (hw c hc)])]
  · rfl

theorem tr_word {w r : Str} (hw : ∀ c ∈ w, isWordC c = true) (hr : Stop r) : translate (w ++ r) = w ++ translate r := by
  induction w with
  | nil => rfl
  | cons c w ih =>
    have hm := match_word hw hr (by simp)
    rw [List.cons_append] at hm ⊢
    rw [scan_copy (word_copied (hw c List.mem_cons_self)) hm, ih fun c h => hw c (List.mem_cons_of_mem _ h)]
    rfl

theorem symbol_word {k : Str} (h : Symbol k) : ∀ c ∈ k, isWordC c = true := by
  intro c hc
  unfold isWordC
  rcases h.2 c hc with h | rfl
  · rw [h]; rfl
  · decide

theorem symbol_ne {k : Str} (h : Symbol k) : k ≠ [] := by
  obtain ⟨⟨c, t, rfl, _⟩, _⟩ := h; simp

theorem takeWhile_all {p : Char → Bool} {a r : Str} (ha : ∀ c ∈ a, p c = true) (hr : ∀ c t, r = c :: t → p c = false) :
    (a ++ r).takeWhile p = a ∧ (a ++ r).dropWhile p = r := by
  induction a with
  | nil =>
    cases r with
    | nil => exact ⟨rfl, rfl⟩
    | cons c t =>
      have := hr c t rfl
      exact ⟨List.takeWhile_cons_of_neg (by simp [this]), List.dropWhile_cons_of_neg (by simp [this])⟩
  | cons c a ih =>
    have hc := ha c List.mem_cons_self
    have := ih fun c h => ha c (List.mem_cons_of_mem _ h)
    rw [List.cons_append, List.takeWhile_cons_of_pos hc, List.dropWhile_cons_of_pos hc, this.1, this.2]
    exact ⟨rfl, rfl⟩

theorem tr_defd {b k r : Str} (hne : b ≠ []) (hb : Blanks b) (hk : Symbol k) (hr : Stop r) :
    translate ("defined".toList ++ (b ++ (k ++ r))) = "defined (".toList ++ k ++ ")".toList ++ translate r := by
  have hm : definedMatch ("defined".toList ++ (b ++ (k ++ r))) = some (k, 7 + b.length + k.length) := by
    unfold definedMatch
    rw [if_pos (by rw [List.isPrefixOf_iff_prefix]; exact List.prefix_append _ _)]
    have hd : ("defined".toList ++ (b ++ (k ++ r))).drop 7 = b ++ (k ++ r) := List.drop_left (l₁ := "defined".toList)
    have h1 := takeWhile_all (p := isWs) (a := b) (r := k ++ r) (fun c hc => blank_ws (hb c hc)) (by
      intro c t e
      obtain ⟨⟨c', t', rfl, _⟩, _⟩ := id hk
      rw [← (List.cons.inj e).1]
      exact word_not_ws (symbol_word hk _ List.mem_cons_self))
    have h2 := takeWhile_all (p := isWordC) (a := k) (r := r) (symbol_word hk) (fun c t e => stop_head hr e)
    simp only [hd, h1.1, h1.2, h2.1]
    rw [if_neg]
    simp only [Bool.or_eq_true, List.isEmpty_iff, not_or]
    exact ⟨hne, symbol_ne hk⟩
  have e : "defined".toList ++ (b ++ (k ++ r)) = 'd' :: ("efined".toList ++ (b ++ (k ++ r))) := rfl
  rw [e] at hm
  unfold translate
  rw [e, scan, if_neg (by decide), if_neg (by simp), if_neg (fun h => absurd h.1 (by decide)), if_neg (fun h => absurd h.1 (by decide)),
    if_neg (by decide), hm]
  have e2 : 7 + b.length + k.length - 1 = ("efined".toList ++ (b ++ k)).length := by
    simp only [List.length_append]
    have : "efined".toList.length = 6 := rfl
    omega
  have e3 : "efined".toList ++ (b ++ (k ++ r)) = ("efined".toList ++ (b ++ k)) ++ r := by simp only [List.append_assoc]
  simp only
  rw [e2, e3, scan_skip]

theorem tr_call {b1 b2 b3 k : Str} (h1 : Blanks b1) (h2 : Blanks b2) (h3 : Blanks b3) (hk : Symbol k) (r : Str) :
    translate ("defined".toList ++ (b1 ++ '(' :: (b2 ++ (k ++ (b3 ++ ')' :: r))))) =
      "defined".toList ++ (b1 ++ '(' :: (b2 ++ (k ++ (b3 ++ ')' :: translate r)))) := by
  rw [tr_word (by decide) (stop_blanks h1 (by decide) (by decide)), tr_blanks h1, tr_open, tr_blanks h2,
    tr_word (symbol_word hk) (stop_blanks h3 (by decide) (by decide)), tr_blanks h3, tr_close]

/-! ## Translation -/

/-- `s` is translated to `o`, whatever follows. -/
def Tr (s o : Str) : Prop := ∀ r, Stop r → translate (s ++ r) = o ++ translate r

theorem spaced_infix {s u : Str} (h : Spaced s) (hu : ∃ p q, s = p ++ (u ++ q)) : Spaced u := by
  obtain ⟨p, q, rfl⟩ := hu
  obtain ⟨h1, h2, h3⟩ := h
  refine ⟨?_, ?_, ?_⟩
  · rintro a c b rfl; exact h1 (p ++ a) c (b ++ q) (by simp)
  · rintro a c b rfl; exact h2 (p ++ a) c (b ++ q) (by simp)
  · rintro a b rfl; exact h3 (p ++ a) (b ++ q) (by simp)

/-- What is proved of every condition. -/
structure Good (l : Lvl) (s : Str) (f : F) (o : Str) (g : BEx) : Prop where
  tr : Tr s o
  py : PyText l o g.ast
  bin : g.binary = true
  truth : ∀ d, g.truth d = f.truth d
  closes : Closes o
  opens : Opens s → Opens o
  low : l = .and → f.isConj = false → PyText .un o g.ast
  low2 : l = .or → f.isDisj = false → PyText .and o g.ast
  ne : s ≠ []
  nb : ∀ c t, s = c :: t → c ≠ ' ' ∧ c ≠ '\t'

theorem nb_cons {a : Char} {s : Str} (h : a ≠ ' ' ∧ a ≠ '\t') : ∀ c t, a :: s = c :: t → c ≠ ' ' ∧ c ≠ '\t' := by
  intro c t e; rw [← (List.cons.inj e).1]; exact h

theorem nb_append {s r : Str} (hne : s ≠ []) (h : ∀ c t, s = c :: t → c ≠ ' ' ∧ c ≠ '\t') :
    ∀ c t, s ++ r = c :: t → c ≠ ' ' ∧ c ≠ '\t' := by
  intro c t e
  cases s with
  | nil => exact absurd rfl hne
  | cons a s => rw [← (List.cons.inj e).1]; exact h a s rfl

theorem opens_append {s r : Str} (h : s ≠ []) (ho : Opens (s ++ r)) : Opens s := by
  cases s with
  | nil => exact absurd rfl h
  | cons c s => obtain ⟨t, e⟩ := ho; exact ⟨s, by rw [(List.cons.inj e).1]⟩

theorem opens_right {s r : Str} (ho : Opens s) : Opens (s ++ r) := by
  obtain ⟨t, rfl⟩ := ho; exact ⟨t ++ r, rfl⟩

theorem closes_left {s r : Str} (h : Closes r) : Closes (s ++ r) := by
  obtain ⟨t, rfl⟩ := h; exact ⟨s ++ t, by simp⟩

theorem good_of {l : Lvl} {s : Str} {f : F} (h : CText l s f) : Spaced s → f.Two → f.Named → ∃ o g, Good l s f o g := by
  induction h with
  | @defd b k hne hb hk =>
    intro _ _ hn
    refine ⟨"defined (".toList ++ k ++ ")".toList, .defd k, ?_, ?_, rfl, fun _ => rfl, ⟨_, rfl⟩, ?_, ?_, ?_, by simp, nb_cons (by decide)⟩
    · intro r hr
      rw [← tr_defd hne hb hk hr]; simp only [List.append_assoc]
    · exact PyText.call (b1 := [' ']) (b2 := []) (b3 := []) (by intro c hc; left; simpa using hc) (by intro c hc; cases hc)
        (by intro c hc; cases hc) ⟨hk, hn⟩
    · rintro ⟨t, e⟩; exact absurd (List.cons.inj e).1 (by decide)
    · intro e; cases e
    · intro e; cases e
  | @call b1 b2 b3 k h1 h2 h3 hk =>
    intro _ _ hn
    refine ⟨_, .defd k, ?_, .call h1 h2 h3 ⟨hk, hn⟩, rfl, fun _ => rfl, ?_, ?_, ?_, ?_, by simp, nb_cons (by decide)⟩
    · intro r hr
      have := tr_call h1 h2 h3 hk r
      simp only [List.append_assoc, List.cons_append, List.nil_append] at this ⊢
      exact this
    · exact closes_left (closes_left ⟨'(' :: (b2 ++ (k ++ b3)), by simp⟩)
    · rintro ⟨t, e⟩; exact absurd (List.cons.inj e).1 (by decide)
    · intro e; cases e
    · intro e; cases e
  | @paren b1 b2 s f h1 h2 h ih =>
    intro hs ht hn
    obtain ⟨o, g, G⟩ := ih (spaced_infix hs ⟨'(' :: b1, b2 ++ [')'], by simp⟩) ht hn
    refine ⟨_, g, ?_, .paren h1 h2 G.py, G.bin, G.truth, ⟨'(' :: (b1 ++ (o ++ b2)), by simp⟩, fun _ => ⟨_, rfl⟩, ?_, ?_, by simp, nb_cons (by decide)⟩
    · intro r hr
      have e : '(' :: (b1 ++ (s ++ (b2 ++ [')']))) ++ r = '(' :: (b1 ++ (s ++ (b2 ++ ')' :: r))) := by simp
      rw [e, tr_open, tr_blanks h1, G.tr _ (stop_blanks h2 (by decide) (by decide)), tr_blanks h2, tr_close]
      simp
    · intro e; cases e
    · intro e; cases e
  | @not b s f hb h ih =>
    intro hs ht hn
    have hsub : Spaced s := spaced_infix hs ⟨'!' :: b, [], by simp⟩
    obtain ⟨o, g, G⟩ := ih hsub ht hn
    have general : b ≠ [] ∨ Opens s → ∃ o g, Good .un ('!' :: (b ++ s)) (.not f) o g := by
      intro hc
      refine ⟨_, .not g, ?_, PyText.not hb (hc.imp id G.opens) G.py, G.bin, fun d => ?_, closes_left (closes_left G.closes), ?_, ?_, ?_, by simp, nb_cons (by decide)⟩
      · intro r hr
        have e : '!' :: (b ++ s) ++ r = '!' :: (b ++ (s ++ r)) := by simp
        rw [e, tr_not, tr_blanks hb, G.tr _ hr]
        simp only [List.append_assoc]
      · simp only [BEx.truth, F.truth, G.truth]
      · rintro ⟨t, e⟩; exact absurd (List.cons.inj e).1 (by decide)
      · intro e; cases e
      · intro e; cases e
    cases b with
    | cons c b => exact general (Or.inl (by simp))
    | nil =>
      cases h with
      | paren h1 h2 h => exact general (Or.inr ⟨_, rfl⟩)
      | @not b' s' f' hb' h' =>
        exact absurd rfl (hs.2.2 [] (b' ++ s'))
      | @defd b k hne hb' hk =>
        refine ⟨"not".toList ++ ("defined (".toList ++ k ++ ")".toList), .ndefd k, ?_, ?_, rfl, fun _ => rfl, closes_left ⟨_, rfl⟩, ?_, ?_, ?_, by simp, nb_cons (by decide)⟩
        · intro r hr
          have e : '!' :: ([] ++ ("defined".toList ++ (b ++ k))) ++ r = '!' :: ("defined".toList ++ (b ++ (k ++ r))) := by
            simp only [List.append_assoc, List.cons_append, List.nil_append]
          rw [e, tr_not, tr_defd hne hb' hk hr]
          simp only [List.append_assoc]
        · exact PyText.ncall (b1 := [' ']) (b2 := []) (b3 := []) (by intro c hc; left; simpa using hc) (by intro c hc; cases hc)
            (by intro c hc; cases hc) ⟨hk, hn⟩
        · rintro ⟨t, e⟩; exact absurd (List.cons.inj e).1 (by decide)
        · intro e; cases e
        · intro e; cases e
      | @call b1 b2 b3 k h1 h2 h3 hk =>
        refine ⟨_, .ndefd k, ?_, .ncall h1 h2 h3 ⟨hk, hn⟩, rfl, fun _ => rfl, ?_, ?_, ?_, ?_, by simp, nb_cons (by decide)⟩
        · intro r hr
          have := tr_call h1 h2 h3 hk r
          have e : '!' :: ([] ++ ("defined".toList ++ (b1 ++ '(' :: (b2 ++ (k ++ (b3 ++ [')'])))))) ++ r =
              '!' :: ("defined".toList ++ (b1 ++ '(' :: (b2 ++ (k ++ (b3 ++ ')' :: r))))) := by
            simp only [List.append_assoc, List.cons_append, List.nil_append]
          rw [e, tr_not, this]
          rw [show "notdefined".toList = "not".toList ++ "defined".toList from rfl]
          simp only [List.append_assoc, List.cons_append, List.nil_append]
        · exact closes_left (closes_left ⟨'(' :: (b2 ++ (k ++ b3)), by simp⟩)
        · rintro ⟨t, e⟩; exact absurd (List.cons.inj e).1 (by decide)
        · intro e; cases e
        · intro e; cases e
  | and1 h ih =>
    intro hs ht hn
    obtain ⟨o, g, G⟩ := ih hs ht hn
    exact ⟨o, g, G.tr, .and1 G.py, G.bin, G.truth, G.closes, G.opens, fun _ _ => G.py, (by intro e; cases e), G.ne, G.nb⟩
  | @and b1 b2 s t f g' h1 h2 hs' ht' ih1 ih2 =>
    intro hs ht hn
    obtain ⟨o, g, G⟩ := ih1 (spaced_infix hs ⟨[], _, by rw [List.nil_append]⟩) ht.2.1 hn.1
    obtain ⟨o2, g2, G2⟩ := ih2 (spaced_infix hs ⟨s ++ (b1 ++ ['&', '&'] ++ b2), [], by simp⟩) ht.2.2 hn.2
    have hr : b2 ≠ [] ∨ Opens o2 := by
      cases b2 with
      | cons c b => left; simp
      | nil =>
        right
        apply G2.opens
        cases t with
        | nil => exact absurd rfl G2.ne
        | cons c t =>
          rcases hs.1 (s ++ b1) c t (by simp) with e | e | e
          · exact absurd e (G2.nb c t rfl).1
          · exact absurd e (G2.nb c t rfl).2
          · exact ⟨t, by rw [e]⟩
    refine ⟨_, .conj g g2 [], ?_, PyText.and h1 h2 (Or.inr G.closes) hr (G.low rfl ht.1) G2.py, ?_, ?_, ?_, ?_, ?_, ?_, ?_, nb_append G.ne G.nb⟩
    · intro r hr'
      have e : s ++ (b1 ++ '&' :: '&' :: (b2 ++ t)) ++ r = s ++ (b1 ++ '&' :: ('&' :: (b2 ++ (t ++ r)))) := by simp
      rw [e, G.tr _ (stop_blanks h1 (by decide) (by decide)), tr_blanks h1, tr_and, tr_blanks h2, G2.tr _ hr']
      simp only [List.append_assoc]
    · simp [BEx.binary, G.bin, G2.bin]
    · intro d; simp [BEx.truth, BEx.truthAll, F.truth, G.truth, G2.truth]
    · exact closes_left (closes_left (closes_left (closes_left G2.closes)))
    · intro ho; exact opens_right (G.opens (opens_append G.ne ho))
    · intro _ h; cases h
    · intro e; cases e
    · simp [G.ne]
  | or1 h ih =>
    intro hs ht hn
    obtain ⟨o, g, G⟩ := ih hs ht hn
    exact ⟨o, g, G.tr, .or1 G.py, G.bin, G.truth, G.closes, G.opens, (by intro e; cases e), fun _ _ => G.py, G.ne, G.nb⟩
  | @or b1 b2 s t f g' h1 h2 hs' ht' ih1 ih2 =>
    intro hs ht hn
    obtain ⟨o, g, G⟩ := ih1 (spaced_infix hs ⟨[], _, by rw [List.nil_append]⟩) ht.2.1 hn.1
    obtain ⟨o2, g2, G2⟩ := ih2 (spaced_infix hs ⟨s ++ (b1 ++ ['|', '|'] ++ b2), [], by simp⟩) ht.2.2 hn.2
    have hr : b2 ≠ [] ∨ Opens o2 := by
      cases b2 with
      | cons c b => left; simp
      | nil =>
        right
        apply G2.opens
        cases t with
        | nil => exact absurd rfl G2.ne
        | cons c t =>
          rcases hs.2.1 (s ++ b1) c t (by simp) with e | e | e
          · exact absurd e (G2.nb c t rfl).1
          · exact absurd e (G2.nb c t rfl).2
          · exact ⟨t, by rw [e]⟩
    refine ⟨_, .disj g g2 [], ?_, PyText.or h1 h2 (Or.inr G.closes) hr (G.low2 rfl ht.1) G2.py, ?_, ?_, ?_, ?_, ?_, ?_, ?_, nb_append G.ne G.nb⟩
    · intro r hr'
      have e : s ++ (b1 ++ '|' :: '|' :: (b2 ++ t)) ++ r = s ++ (b1 ++ '|' :: ('|' :: (b2 ++ (t ++ r)))) := by simp
      rw [e, G.tr _ (stop_blanks h1 (by decide) (by decide)), tr_blanks h1, tr_or, tr_blanks h2, G2.tr _ hr']
      simp only [List.append_assoc]
    · simp [BEx.binary, G.bin, G2.bin]
    · intro d; simp [BEx.truth, BEx.truthAny, F.truth, G.truth, G2.truth]
    · exact closes_left (closes_left (closes_left (closes_left G2.closes)))
    · intro ho; exact opens_right (G.opens (opens_append G.ne ho))
    · intro e; cases e
    · intro _ h; cases h
    · simp [G.ne]

/-- C103: a condition built from `defined`, `!`, `&&`, `||` and parentheses is translated to a text that Python reads as one
expression, and parse_preproc_line gives the value of the formula. -/
theorem C103_partial (s : Str) (f : F) (h : CText .or s f) (hs : Spaced s) (ht : f.Two) (hn : f.Named) (toInt : Str → Option Int)
    (d : VDefs) : ∃ e, PyText .or (translate s) e ∧ ∀ parse : Str → Option (List Ex), parse (translate s) = some [e] →
      parsePreprocLine parse toInt d s = .ok (f.truth fun k => (d.get? k).isSome, true) := by
  obtain ⟨o, g, G⟩ := good_of h hs ht hn
  have e := G.tr [] (by intro c t e; cases e)
  rw [List.append_nil, show translate [] = [] from rfl, List.append_nil] at e
  refine ⟨g.ast, by rw [e]; exact G.py, ?_⟩
  intro parse hp
  unfold parsePreprocLine
  rw [hp]
  simp only [C42_condition_truth_partial toInt d g G.bin, G.truth]

theorem py_head {l : Lvl} {s : Str} {e : Ex} (h : PyText l s e) : s ≠ [] ∧ ∀ c t, s = c :: t → c ≠ ' ' ∧ c ≠ '\t' := by
  induction h with
  | @name k hk =>
    refine ⟨symbol_ne hk.1, ?_⟩
    rintro c t rfl
    have := symbol_word hk.1 c List.mem_cons_self
    constructor <;> (rintro rfl; revert this; decide)
  | call => exact ⟨by simp, nb_cons (by decide)⟩
  | ncall => exact ⟨by simp, nb_cons (by decide)⟩
  | paren => exact ⟨by simp, nb_cons (by decide)⟩
  | not => exact ⟨by simp, nb_cons (by decide)⟩
  | and1 _ ih => exact ih
  | or1 _ ih => exact ih
  | and _ _ _ _ _ _ ih _ => exact ⟨by simp [ih.1], nb_append ih.1 ih.2⟩
  | or _ _ _ _ _ _ ih _ => exact ⟨by simp [ih.1], nb_append ih.1 ih.2⟩

/-- C103: the translated text does not begin with a blank, which Python would take as an indented line. -/
theorem C103_not_indented (s : Str) (f : F) (h : CText .or s f) (hs : Spaced s) (ht : f.Two) (hn : f.Named) :
    ∃ c t, translate s = c :: t ∧ c ≠ ' ' ∧ c ≠ '\t' := by
  obtain ⟨e, he, _⟩ := C103_partial s f h hs ht hn (fun _ => none) []
  obtain ⟨h1, h2⟩ := py_head he
  cases hx : translate s with
  | nil => exact absurd hx h1
  | cons c t => exact ⟨c, t, rfl, h2 c t hx⟩

/-! ## Cases -/

/-- The hypotheses are met by a condition with all connectives. -/
example : ∃ s f, s = "!defined(A) && (defined B || !(defined (C)))".toList ∧ CText .or s f ∧ Spaced s ∧ f.Two ∧ f.Named := by
  have nb : Blanks [] := by intro c hc; cases hc
  have b1 : Blanks [' '] := by intro c hc; left; simpa using hc
  have sy : ∀ c : Char, c ∈ ['A', 'B', 'C'] → Symbol [c] := by
    intro c hc
    simp only [List.mem_cons, List.not_mem_nil, or_false] at hc
    rcases hc with rfl | rfl | rfl <;> exact ⟨⟨_, _, rfl, by decide⟩, by intro c hc; left; rw [List.mem_singleton.1 hc]; decide⟩
  have hA : CText .un "!defined(A)".toList (.not (.defd ['A'])) := .not (b := []) nb (.call (b1 := []) (b2 := []) (b3 := []) nb nb nb (sy 'A' (by decide)))
  have hB : CText .un "defined B".toList (.defd ['B']) := .defd (b := [' ']) (by simp) b1 (sy 'B' (by decide))
  have hC : CText .un "!(defined (C))".toList (.not (.paren (.defd ['C']))) :=
    .not (b := []) nb (.paren (b1 := []) (b2 := []) (s := "defined (C)".toList) nb nb
      (.or1 (.and1 (.call (b1 := [' ']) (b2 := []) (b3 := []) b1 nb nb (sy 'C' (by decide))))))
  have hBC := CText.or (b1 := [' ']) (b2 := [' ']) b1 b1 (.or1 (.and1 hB)) (.and1 hC)
  have hP := CText.paren (b1 := []) (b2 := []) nb nb hBC
  have hall := CText.or1 (.and (b1 := [' ']) (b2 := [' ']) b1 b1 (.and1 hA) hP)
  refine ⟨_, _, rfl, hall, ?_, ?_, ?_⟩
  · have key : ∀ s : Str, (∀ i < s.length, (s.drop i).take 2 = ['&', '&'] ∨ (s.drop i).take 2 = ['|', '|'] →
        (s.drop (i + 2)).head? ∈ [none, some ' ', some '\t', some '(']) →
        (∀ i < s.length, (s.drop i).take 2 ≠ ['!', '!']) → Spaced s := by
      intro s h1 h2
      refine ⟨?_, ?_, ?_⟩
      · rintro a c b rfl
        have := h1 a.length (by simp) (by left; rw [List.drop_left]; rfl)
        rw [← List.drop_drop, List.drop_left] at this
        simpa using this
      · rintro a c b rfl
        have := h1 a.length (by simp) (by right; rw [List.drop_left]; rfl)
        rw [← List.drop_drop, List.drop_left] at this
        simpa using this
      · rintro a b rfl
        exact h2 a.length (by simp) (by rw [List.drop_left]; rfl)
    exact key _ (by decide +kernel) (by decide +kernel)
  · exact ⟨rfl, trivial, rfl, trivial, trivial⟩
  · exact ⟨by show ['A'] ∉ keywords; decide +kernel, by show ['B'] ∉ keywords; decide +kernel, by show ['C'] ∉ keywords; decide +kernel⟩

/-- C103 is violated without the blank after an exclamation mark: `!A` becomes the name `notA`, so that the condition is true
whatever the value of `A` is. -/
theorem C103_not_violated (toInt : Str → Option Int) (ht : toInt "notA".toList = none) (d : VDefs) (hd : d.get? "notA".toList = none) :
    PyText .or (translate "!A".toList) (.name "notA".toList) ∧ ∀ parse : Str → Option (List Ex),
      parse (translate "!A".toList) = some [.name "notA".toList] → parsePreprocLine parse toInt d "!A".toList = .ok (true, true) := by
  constructor
  · refine .or1 (.and1 (.name ⟨⟨⟨'n', "otA".toList, rfl, by decide⟩, by decide⟩, by decide +kernel⟩))
  · intro parse hp
    unfold parsePreprocLine
    rw [hp]
    simp only [condValue, eval, hd, preprocBool, pyInt, ht]
    rw [show (V.str "notA".toList != V.str ['0']) = true by decide]

/-- C103 is violated without blanks around the connectives: `A&&B` becomes the name `AandB`, so that the condition is true. -/
theorem C103_and_violated (toInt : Str → Option Int) (ht : toInt "AandB".toList = none) (d : VDefs) (hd : d.get? "AandB".toList = none) :
    PyText .or (translate "A&&B".toList) (.name "AandB".toList) ∧ ∀ parse : Str → Option (List Ex),
      parse (translate "A&&B".toList) = some [.name "AandB".toList] → parsePreprocLine parse toInt d "A&&B".toList = .ok (true, true) := by
  constructor
  · refine .or1 (.and1 (.name ⟨⟨⟨'A', "andB".toList, rfl, by decide⟩, by decide⟩, by decide +kernel⟩))
  · intro parse hp
    unfold parsePreprocLine
    rw [hp]
    simp only [condValue, eval, hd, preprocBool, pyInt, ht]
    rw [show (V.str "AandB".toList != V.str ['0']) = true by decide]

/-- Texts that Python does not read: no blank after `&&`, and an inequality. -/
example : translate "defined(A)&&defined(B)".toList = "defined(A)anddefined(B)".toList ∧
    translate "A != 1".toList = "A not= 1".toList ∧ translate "!!defined(A)".toList = "notnotdefined(A)".toList := by decide +kernel

/-- Literals are copied. -/
example : translate "A == \"x && !y\" && defined  B".toList = "A == \"x && !y\" and defined (B)".toList := by decide +kernel

end Ccpp.CondT
