import Verif.Props.FortranList
import Verif.Props.FrameworkEnv
/-!
# C59: the type at the beginning of a declaration
-/
namespace Ccpp.FDecl

open Ccpp.Chk (balance)
open Ccpp.Env (lstrip_keep rstrip_keep strip_keep strip_lstrip strip_rstrip strip_strip dropWhile_all
  lstrip_rstrip_comm rstrip_rstrip lstrip_lstrip mem_lstrip mem_rstrip mem_strip)

/-! ## Blanks -/

theorem dropWhile_ws {b s : Str} (h : Blank b) : (b ++ s).dropWhile isWs = s.dropWhile isWs := by
  induction b with
  | nil => rfl
  | cons c b ih =>
    rw [List.cons_append, List.dropWhile_cons_of_pos (h c List.mem_cons_self)]
    exact ih fun x hx => h x (List.mem_cons_of_mem _ hx)

theorem lstrip_blank {b s : Str} (h : Blank b) : lstrip (b ++ s) = lstrip s := dropWhile_ws h

theorem Blank.reverse {b : Str} (h : Blank b) : Blank b.reverse := fun c hc => h c (List.mem_reverse.1 hc)

theorem rstrip_blank {b s : Str} (h : Blank b) : rstrip (s ++ b) = rstrip s := by
  unfold rstrip
  rw [List.reverse_append, dropWhile_ws h.reverse]

theorem Blank.append {a b : Str} (ha : Blank a) (hb : Blank b) : Blank (a ++ b) := by
  intro c hc
  rcases List.mem_append.1 hc with h | h
  · exact ha c h
  · exact hb c h

theorem lstrip_cons {c : Char} {s : Str} (h : isWs c = false) : lstrip (c :: s) = c :: s := by
  unfold lstrip
  rw [List.dropWhile_cons_of_neg (by simp [h])]

/-- No blank at either end. -/
def Tight (x : Str) : Prop :=
  (∀ c, x.head? = some c → isWs c = false) ∧ (∀ c, x.getLast? = some c → isWs c = false)

theorem lstrip_tight {x : Str} (h : ∀ c, x.head? = some c → isWs c = false) : lstrip x = x := by
  cases x with
  | nil => rfl
  | cons c x => exact lstrip_cons (h c rfl)

theorem rstrip_tight {x : Str} (h : ∀ c, x.getLast? = some c → isWs c = false) : rstrip x = x := by
  have : lstrip x.reverse = x.reverse := lstrip_tight (by rw [List.head?_reverse]; exact h)
  unfold rstrip
  unfold lstrip at this
  rw [this, List.reverse_reverse]

theorem strip_tight {x : Str} (h : Tight x) : strip x = x := by
  unfold strip
  rw [rstrip_tight h.2, lstrip_tight h.1]

theorem strip_core {p x q : Str} (hp : Blank p) (hx : Tight x) (hq : Blank q) : strip (p ++ x ++ q) = x := by
  have := strip_tight hx
  unfold strip at this ⊢
  rw [rstrip_blank hq, lstrip_rstrip_comm, lstrip_blank hp, ← lstrip_rstrip_comm]
  exact this

theorem Blank.takeWhile_append {b : Str} (hb : Blank b) {c : Char} (hc : isWs c = false) (s : Str) :
    (b ++ c :: s).takeWhile isWs = b := by
  induction b with
  | nil => simp [hc]
  | cons x b ih =>
    rw [List.cons_append, List.takeWhile_cons_of_pos (hb x List.mem_cons_self),
      ih fun y hy => hb y (List.mem_cons_of_mem _ hy)]

/-! ## Splitting does not depend on blanks at the ends -/

theorem balance_blank {b : Str} (h : Blank b) : balance b = 0 := by
  have : b.count '(' = 0 ∧ b.count ')' = 0 := by
    constructor <;> refine List.count_eq_zero.2 fun hm => ?_
    · exact absurd (h _ hm) (by decide)
    · exact absurd (h _ hm) (by decide)
  unfold balance; omega

theorem lstrip_split (s : Str) : ∃ b, Blank b ∧ s = b ++ lstrip s := by
  refine ⟨s.takeWhile isWs, fun c hc => ?_, (List.takeWhile_append_dropWhile).symm⟩
  exact List.all_eq_true.1 List.all_takeWhile c hc

theorem rstrip_split (s : Str) : ∃ b, Blank b ∧ s = rstrip s ++ b := by
  obtain ⟨b, hb, e⟩ := lstrip_split s.reverse
  refine ⟨b.reverse, hb.reverse, ?_⟩
  have := congrArg List.reverse e
  rw [List.reverse_reverse, List.reverse_append] at this
  exact this

theorem strip_split (s : Str) : ∃ a b, Blank a ∧ Blank b ∧ s = a ++ strip s ++ b := by
  obtain ⟨b, hb, e⟩ := rstrip_split s
  obtain ⟨a, ha, e'⟩ := lstrip_split (rstrip s)
  refine ⟨a, b, ha, hb, ?_⟩
  unfold strip
  rw [← e']; exact e

/-- A part remains a part if blanks are added at its ends. -/
theorem part_blank {a r b : Str} (ha : Blank a) (hb : Blank b)
    (h : ∀ x y, r = x ++ ',' :: y → ¬ TopLevel x) : ∀ x y, a ++ r ++ b = x ++ ',' :: y → ¬ TopLevel x := by
  have hl : ∀ (a r : Str), Blank a → (∀ x y, r = x ++ ',' :: y → ¬ TopLevel x) →
      ∀ x y, a ++ r = x ++ ',' :: y → ¬ TopLevel x := by
    intro a
    induction a with
    | nil => intro r _ h; exact h
    | cons c a ih =>
      intro r ha h x y e
      cases x with
      | nil =>
        rw [List.nil_append, List.cons_append] at e
        injection e with e1 _
        have := ha c List.mem_cons_self
        rw [e1] at this
        exact absurd this (by decide)
      | cons d x =>
        rw [List.cons_append, List.cons_append] at e
        injection e with e1 e2
        have hw := ha c List.mem_cons_self
        have := ih r (fun z hz => ha z (List.mem_cons_of_mem _ hz)) h x y e2
        unfold TopLevel at this ⊢
        rw [← e1, show c :: x = [c] ++ x from rfl, balance_append,
          balance_blank (b := [c]) (by intro z hz; rw [List.mem_singleton.1 hz]; exact hw)]
        omega
  intro x y e
  -- the comma cannot be in `b`
  rcases List.append_eq_append_iff.1 e with ⟨a', e1, e2⟩ | ⟨c', e1, e2⟩
  · -- x = a ++ r ++ a', b = a' ++ ',' :: y
    exact absurd (hb ',' (e2 ▸ by simp)) (by decide)
  · cases c' with
    | nil => exact absurd (hb ',' (by rw [List.nil_append] at e2; rw [← e2]; simp)) (by decide)
    | cons z c' =>
      rw [List.cons_append] at e2
      injection e2 with ez _
      subst ez
      exact hl a r ha h x c' e1

theorem part_unblank {a r b : Str} (ha : Blank a)
    (h : ∀ x y, a ++ r ++ b = x ++ ',' :: y → ¬ TopLevel x) : ∀ x y, r = x ++ ',' :: y → ¬ TopLevel x := by
  intro x y e ht
  refine h (a ++ x) (y ++ b) (by rw [e]; simp) ?_
  unfold TopLevel at ht ⊢
  rw [balance_append, balance_blank ha, ht]; rfl

theorem balance_strip (s : Str) : balance (strip s) = balance s := by
  obtain ⟨a, b, ha, hb, e⟩ := strip_split s
  have := congrArg balance e
  rw [balance_append, balance_append, balance_blank ha, balance_blank hb] at this
  omega

/-- Change the last element. -/
def mapLast (f : Str → Str) : List Str → List Str
  | [] => []
  | [x] => [f x]
  | x :: y :: l => x :: mapLast f (y :: l)

theorem mapLast_ne {f : Str → Str} {l : List Str} (h : l ≠ []) : mapLast f l ≠ [] := by
  cases l with
  | nil => exact absurd rfl h
  | cons x l => cases l <;> simp [mapLast]

theorem rstrip_commaJoin (raw : List Str) : rstrip (commaJoin raw) = commaJoin (mapLast rstrip raw) := by
  induction raw with
  | nil => rfl
  | cons r raw ih =>
    cases raw with
    | nil => rfl
    | cons a l =>
      rw [mapLast, commaJoin_cons (by simp), commaJoin_cons (mapLast_ne (by simp)), rstrip_keep (by decide), ih]

theorem mem_mapLast {f : Str → Str} {l : List Str} {x : Str} (h : x ∈ mapLast f l) :
    ∃ y ∈ l, x = y ∨ x = f y := by
  induction l with
  | nil => cases h
  | cons a l ih =>
    cases l with
    | nil => exact ⟨a, List.mem_cons_self, Or.inr (by simpa [mapLast] using h)⟩
    | cons b l =>
      rw [mapLast] at h
      rcases List.mem_cons.1 h with rfl | h
      · exact ⟨x, List.mem_cons_self, Or.inl rfl⟩
      · obtain ⟨y, hy, e⟩ := ih h
        exact ⟨y, List.mem_cons_of_mem _ hy, e⟩

theorem items_mapLast (raw : List Str) : items (mapLast rstrip raw) = items raw := by
  induction raw with
  | nil => rfl
  | cons r raw ih =>
    cases raw with
    | nil => rw [mapLast, items_cons, items_cons, strip_rstrip]
    | cons a l => rw [mapLast, items_cons, items_cons, ih]

theorem part_rstrip {r : Str} (h : ∀ x y, r = x ++ ',' :: y → ¬ TopLevel x) :
    ∀ x y, rstrip r = x ++ ',' :: y → ¬ TopLevel x := by
  obtain ⟨b, hb, e⟩ := rstrip_split r
  refine part_unblank (a := []) (b := b) (by intro c hc; cases hc) ?_
  rw [List.nil_append, ← e]; exact h

theorem part_lstrip {r : Str} (h : ∀ x y, r = x ++ ',' :: y → ¬ TopLevel x) :
    ∀ x y, lstrip r = x ++ ',' :: y → ¬ TopLevel x := by
  obtain ⟨b, hb, e⟩ := lstrip_split r
  refine part_unblank (a := b) (b := []) hb ?_
  rw [List.append_nil, ← e]; exact h

theorem balance_rstrip (s : Str) : balance (rstrip s) = balance s := by
  obtain ⟨b, hb, e⟩ := rstrip_split s
  have := congrArg balance e
  rw [balance_append, balance_blank hb] at this
  omega

theorem balance_lstrip (s : Str) : balance (lstrip s) = balance s := by
  obtain ⟨b, hb, e⟩ := lstrip_split s
  have := congrArg balance e
  rw [balance_append, balance_blank hb] at this
  omega

theorem Parts.rstrip {s : Str} {raw : List Str} (h : Parts s raw) : Parts (Ccpp.rstrip s) (mapLast Ccpp.rstrip raw) := by
  refine ⟨mapLast_ne h.ne, by rw [h.join, rstrip_commaJoin], ?_, ?_⟩
  · intro r hr
    obtain ⟨y, hy, rfl | rfl⟩ := mem_mapLast hr
    · exact h.closed _ hy
    · rw [balance_rstrip]; exact h.closed _ hy
  · intro r hr
    obtain ⟨y, hy, rfl | rfl⟩ := mem_mapLast hr
    · exact h.whole _ hy
    · exact part_rstrip (h.whole _ hy)

theorem Parts.lstrip {s : Str} {raw : List Str} (h : Parts s raw) :
    ∃ raw', Parts (Ccpp.lstrip s) raw' ∧ items raw' = items raw := by
  cases raw with
  | nil => exact absurd rfl h.ne
  | cons r raw =>
    refine ⟨Ccpp.lstrip r :: raw, ⟨by simp, ?_, ?_, ?_⟩, ?_⟩
    · rw [h.join]
      cases raw with
      | nil => rfl
      | cons a l => rw [commaJoin_cons (t := r) (by simp), commaJoin_cons (t := Ccpp.lstrip r) (by simp), lstrip_keep (by decide)]
    · intro x hx
      rcases List.mem_cons.1 hx with rfl | hx
      · rw [balance_lstrip]; exact h.closed _ List.mem_cons_self
      · exact h.closed _ (List.mem_cons_of_mem _ hx)
    · intro x hx
      rcases List.mem_cons.1 hx with rfl | hx
      · exact part_lstrip (h.whole _ List.mem_cons_self)
      · exact h.whole _ (List.mem_cons_of_mem _ hx)
    · rw [items_cons, items_cons, strip_lstrip]

/-- Blanks at the ends of a list do not matter. -/
theorem reassemble_strip (s : Str) : reassemble (strip s) = reassemble s := by
  cases h : reassemble s with
  | none =>
    rw [C58_refused] at h ⊢
    rwa [balance_strip]
  | some out =>
    obtain ⟨raw, hp, rfl⟩ := (C58_items _ _).1 h
    obtain ⟨raw', hp', he⟩ := hp.rstrip.lstrip
    exact (C58_items _ _).2 ⟨raw', hp', by rw [he, items_mapLast]⟩

/-! ## Words -/

theorem lower_length (s : Str) : (lower s).length = s.length := by unfold lower; simp
theorem lower_append (a b : Str) : lower (a ++ b) = lower a ++ lower b := by unfold lower; simp
theorem lower_take (s : Str) (n : Nat) : lower (s.take n) = (lower s).take n := by unfold lower; simp [List.map_take]

theorem dropWord_match {w k : Str} (h : lower w = k) (r : Str) : dropWord? k (w ++ r) = some r := by
  unfold dropWord?
  have hl : k.length = w.length := by rw [← h, lower_length]
  rw [hl, List.take_left, if_pos h, List.drop_left]

/-- A word that differs among its first `j` characters. -/
theorem dropWord_no {w k : Str} {W : Str} (h : lower w = W) (j : Nat) (hj : j ≤ k.length) (hw : j ≤ W.length)
    (hne : W.take j ≠ k.take j) (r : Str) : dropWord? k (w ++ r) = none := by
  unfold dropWord?
  rw [if_neg]
  intro e
  apply hne
  have := congrArg (List.take j) e
  rw [← lower_take, List.take_take, Nat.min_eq_left hj] at this
  rw [← this, ← h, lower_take, lower_append, List.take_append_of_le_length (by rw [lower_length]; rw [← h, lower_length] at hw; exact hw)]

theorem toLower_cases (c : Char) : c.toLower = c ∨ c ∈ "ABCDEFGHIJKLMNOPQRSTUVWXYZ".toList := by
  by_cases h : c.val ≥ 'A'.val ∧ c.val ≤ 'Z'.val
  · right
    have h1 : 65 ≤ c.toNat := h.1
    have h2 : c.toNat ≤ 90 := h.2
    have key : ∀ k < 26, Char.ofNat (65 + k) ∈ "ABCDEFGHIJKLMNOPQRSTUVWXYZ".toList := by decide
    have := key (c.toNat - 65) (by omega)
    rwa [Nat.add_sub_cancel' h1, Char.ofNat_toNat] at this
  · left
    unfold Char.toLower
    rw [dif_neg h]

/-- A property of characters that upper and lower case letters share. -/
theorem toLower_same (p : Char → Bool)
    (h : ("ABCDEFGHIJKLMNOPQRSTUVWXYZ".toList.all fun c => p c.toLower == p c) = true) (c : Char) :
    p c.toLower = p c := by
  rcases toLower_cases c with e | e
  · rw [e]
  · exact eq_of_beq (List.all_eq_true.1 h c e)

theorem toLower_ws (c : Char) : isWs c.toLower = isWs c := toLower_same isWs (by decide) c
theorem toLower_alpha (c : Char) : c.toLower.isAlpha = c.isAlpha := toLower_same Char.isAlpha (by decide) c
theorem toLower_eq (d : Char) (hd : ("ABCDEFGHIJKLMNOPQRSTUVWXYZ".toList.all fun c => (c.toLower == d) == (c == d)) = true)
    (c : Char) : c.toLower = d ↔ c = d := by
  have := toLower_same (· == d) hd c
  rw [Bool.eq_iff_iff] at this
  simpa using this

theorem lower_blank {b : Str} (h : Blank b) : Blank (lower b) := by
  intro c hc
  unfold lower at hc
  obtain ⟨d, hd, rfl⟩ := List.mem_map.1 hc
  rw [toLower_ws]; exact h d hd

/-! ## Cutting behind the type -/

theorem findIdx_ge {w R : Str} {c : Char} {i : Nat} (h : (w ++ R).findIdx? (· == c) = some i) (hw : c ∉ w) :
    w.length ≤ i := by
  obtain ⟨hi, hc, _⟩ := List.findIdx?_eq_some_iff_getElem.1 h
  refine Nat.le_of_not_lt fun hlt => ?_
  rw [List.getElem_append_left hlt] at hc
  exact hw (by rw [← eq_of_beq hc]; exact List.getElem_mem hlt)

theorem parenEnd_ge (s : Str) : ∀ d pos, pos ≤ parenEnd d pos s := by
  induction s with
  | nil => intro d pos; cases d <;> simp [parenEnd]
  | cons c s ih =>
    intro d pos
    cases d with
    | zero => simp [parenEnd]
    | succ d =>
      rw [parenEnd]
      exact Nat.le_trans (Nat.le_succ _) (ih _ _)

theorem cutType_plain {w R : Str} (h1 : '(' ∉ w) (h2 : ',' ∉ w) (hb : '!' ∉ w ++ R) :
    ∃ Q, Q <+: R ∧ cutType (w ++ R) = w ++ Q := by
  have key : ∀ n, w.length ≤ n → ∃ Q, Q <+: R ∧ (w ++ R).take n = w ++ Q := by
    intro n hn
    exact ⟨R.take (n - w.length), List.take_prefix _ _, by rw [List.take_append, List.take_of_length_le hn]⟩
  unfold cutType
  rw [if_neg hb]
  simp only
  split
  · next p c hp hc =>
    have := findIdx_ge hp h1
    have := findIdx_ge hc h2
    split
    · exact key _ (by omega)
    · refine key _ ?_
      have := parenEnd_ge ((w ++ R).drop (p + 1)) 1 (p + 1)
      omega
  · next p hp _ =>
    have := findIdx_ge hp h1
    refine key _ ?_
    have := parenEnd_ge ((w ++ R).drop (p + 1)) 1 (p + 1)
    omega
  · next c _ hc => exact key _ (findIdx_ge hc h2)
  · exact ⟨R, List.prefix_rfl, rfl⟩

theorem parenEnd_close (inner R : Str) (h : ∀ c ∈ inner, c ≠ '(' ∧ c ≠ ')') : ∀ pos,
    parenEnd 1 pos (inner ++ ')' :: R) = pos + inner.length + 1 := by
  induction inner with
  | nil => intro pos; simp [parenEnd]
  | cons c s ih =>
    intro pos
    have hc := h c List.mem_cons_self
    rw [List.cons_append, parenEnd, if_neg hc.1, if_neg hc.2, ih fun x hx => h x (List.mem_cons_of_mem _ hx)]
    simp only [List.length_cons]; omega

theorem cutType_paren {h inner R : Str} (h1 : '(' ∉ h) (h2 : ',' ∉ h) (hi : ∀ c ∈ inner, c ≠ '(' ∧ c ≠ ')')
    (hb : '!' ∉ h ++ '(' :: (inner ++ ')' :: R)) :
    cutType (h ++ '(' :: (inner ++ ')' :: R)) = h ++ '(' :: (inner ++ ')' :: R.take 1) := by
  have hp : (h ++ '(' :: (inner ++ ')' :: R)).findIdx? (· == '(') = some h.length := by
    rw [List.findIdx?_append, List.findIdx?_eq_none_iff.2 (by
      intro x hx; rw [beq_eq_false_iff_ne]; rintro rfl; exact h1 hx), List.findIdx?_cons]
    simp
  have hd : (h ++ '(' :: (inner ++ ')' :: R)).drop (h.length + 1) = inner ++ ')' :: R := by
    rw [List.drop_append, List.drop_eq_nil_of_le (by omega)]
    simp
  have ht : (h ++ '(' :: (inner ++ ')' :: R)).take (h.length + 1 + inner.length + 1 + 1) =
      h ++ '(' :: (inner ++ ')' :: R.take 1) := by
    have e : h ++ '(' :: (inner ++ ')' :: R) = (h ++ '(' :: (inner ++ [')'])) ++ R := by simp
    have l : (h ++ '(' :: (inner ++ [')'])).length = h.length + 1 + inner.length + 1 := by simp; omega
    rw [e, ← l, List.take_append, List.take_of_length_le (by omega), Nat.add_sub_cancel_left]
    simp
  unfold cutType
  rw [if_neg hb]
  simp only [hp, hd, parenEnd_close _ _ hi]
  split
  · next p c e hc =>
    injection e with e
    subst e
    have hge := findIdx_ge hc h2
    rw [if_neg (by omega), hd, parenEnd_close _ _ hi, ht]
  · next p e _ =>
    injection e with e
    subst e
    rw [hd, parenEnd_close _ _ hi, ht]
  · next e _ => cases e
  · next e _ => cases e

/-! ## The type -/

theorem strip_append {t Q : Str} (ht : Tight t) (hne : t ≠ []) : strip (t ++ Q) = t ++ rstrip Q := by
  cases t with
  | nil => exact absurd rfl hne
  | cons a t =>
    obtain ⟨t', c, e⟩ : ∃ t' c, a :: t = t' ++ [c] := ⟨_, _, (List.dropLast_concat_getLast (by simp)).symm⟩
    have hc : isWs c = false := ht.2 c (by rw [e]; simp)
    have ha : isWs a = false := ht.1 a rfl
    unfold strip
    rw [e, List.append_assoc, List.singleton_append, rstrip_keep hc]
    rw [show t' ++ c :: rstrip Q = (a :: t) ++ rstrip Q by rw [e]; simp, List.cons_append, lstrip_cons ha]
    rw [← List.cons_append, e]

theorem lower_tight {x : Str} (h : Tight (lower x)) : Tight x := by
  constructor
  · intro c hc
    rw [← toLower_ws]
    exact h.1 _ (by unfold lower; rw [List.head?_map, hc]; rfl)
  · intro c hc
    rw [← toLower_ws]
    exact h.2 _ (by unfold lower; rw [List.getLast?_map, hc]; rfl)

theorem tight_append {a b : Str} (ha : Tight a) (hb : Tight b) (na : a ≠ []) (nb : b ≠ []) (m : Str) :
    Tight (a ++ m ++ b) := by
  constructor
  · intro c hc
    refine ha.1 c ?_
    cases a with
    | nil => exact absurd rfl na
    | cons x a => simpa using hc
  · intro c hc
    refine hb.2 c ?_
    rw [List.getLast?_append] at hc
    cases h : b.getLast? with
    | none => exact absurd (List.getLast?_eq_none_iff.1 h) nb
    | some y => rw [h] at hc; simpa using hc

theorem mem_lower {c : Char} {x : Str} (h : c ∈ x) : c.toLower ∈ lower x := List.mem_map_of_mem h

theorem not_mem_lower {c : Char} {x W : Str} (h : lower x = W) (hc : c.toLower = c) (hW : c ∉ W) : c ∉ x := by
  intro hm
  apply hW
  rw [← h, ← hc]
  exact mem_lower hm

/-- The words. -/
theorem IntrinsicWord.facts {w : Str} (h : IntrinsicWord w) : Tight w ∧ w ≠ [] ∧ '(' ∉ w ∧ ',' ∉ w := by
  cases h with
  | one h =>
    have aux : ∀ W ∈ [['i','n','t','e','g','e','r'], ['r','e','a','l'], ['l','o','g','i','c','a','l'],
      ['c','o','m','p','l','e','x']], (Tight W) ∧ W ≠ [] ∧ '(' ∉ W ∧ ',' ∉ W := by
      have dt : ∀ W : Str, (W.head?.map isWs = some false ∧ W.getLast?.map isWs = some false) → Tight W := by
        rintro W ⟨h1, h2⟩
        constructor
        · intro c hc; rw [hc] at h1; simpa using h1
        · intro c hc; rw [hc] at h2; simpa using h2
      intro W hW
      simp only [List.mem_cons, List.not_mem_nil, or_false] at hW
      rcases hW with rfl | rfl | rfl | rfl <;> exact ⟨dt _ (by decide), by decide, by decide, by decide⟩
    obtain ⟨h1, h2, h3, h4⟩ := aux _ h
    refine ⟨lower_tight h1, ?_, not_mem_lower rfl (by decide) h3, not_mem_lower rfl (by decide) h4⟩
    rintro rfl; exact h2 rfl
  | two h1 hb h2 =>
    have t1 : Tight "double".toList := ⟨by decide, by decide⟩
    have t2 : Tight "precision".toList := ⟨by decide, by decide⟩
    rename_i d b p
    have nd : d ≠ [] := by rintro rfl; exact absurd h1 (by decide)
    have np : p ≠ [] := by rintro rfl; exact absurd h2 (by decide)
    refine ⟨tight_append (lower_tight (h1 ▸ t1)) (lower_tight (h2 ▸ t2)) nd np b, by simp [nd], ?_, ?_⟩
    · simp only [List.mem_append, not_or]
      exact ⟨⟨not_mem_lower h1 (by decide) (by decide), fun h => absurd (hb _ h) (by decide)⟩,
        not_mem_lower h2 (by decide) (by decide)⟩
    · simp only [List.mem_append, not_or]
      exact ⟨⟨not_mem_lower h1 (by decide) (by decide), fun h => absurd (hb _ h) (by decide)⟩,
        not_mem_lower h2 (by decide) (by decide)⟩

theorem IntrinsicWord.name {w : Str} (h : IntrinsicWord w) (r : Str) : itypeName (w ++ r) = some w.length := by
  unfold itypeName
  cases h with
  | one h =>
    simp only [List.mem_cons, List.not_mem_nil, or_false] at h
    rcases h with h | h | h | h
    · rw [show "integer".toList = ['i','n','t','e','g','e','r'] from rfl, dropWord_match h r]
      rw [← lower_length w, h]; rfl
    · rw [dropWord_no h 1 (by decide) (by decide) (by decide),
        show "real".toList = ['r','e','a','l'] from rfl, dropWord_match h r]
      rw [← lower_length w, h]; rfl
    · rw [dropWord_no (k := "integer".toList) h 1 (by decide) (by decide) (by decide),
        dropWord_no (k := "real".toList) h 1 (by decide) (by decide) (by decide),
        show "logical".toList = ['l','o','g','i','c','a','l'] from rfl, dropWord_match h r]
      rw [← lower_length w, h]; rfl
    · rw [dropWord_no (k := "integer".toList) h 1 (by decide) (by decide) (by decide),
        dropWord_no (k := "real".toList) h 1 (by decide) (by decide) (by decide),
        dropWord_no (k := "logical".toList) h 1 (by decide) (by decide) (by decide),
        dropWord_no (k := "double".toList) h 1 (by decide) (by decide) (by decide),
        show "complex".toList = ['c','o','m','p','l','e','x'] from rfl, dropWord_match h r]
      rw [← lower_length w, h]; rfl
  | two h1 hb h2 =>
    rename_i d b p
    have hl : d.length = 6 := by rw [← lower_length, h1]; rfl
    have hl' : p.length = 9 := by rw [← lower_length, h2]; rfl
    rw [List.append_assoc, List.append_assoc]
    rw [dropWord_no (k := "integer".toList) h1 1 (by decide) (by decide) (by decide),
        dropWord_no (k := "real".toList) h1 1 (by decide) (by decide) (by decide),
        dropWord_no (k := "logical".toList) h1 1 (by decide) (by decide) (by decide), dropWord_match h1]
    have t2 : Tight p := lower_tight (h2 ▸ ⟨by decide, by decide⟩)
    cases p with
    | nil => cases hl'
    | cons c p =>
      have hc : isWs c = false := t2.1 c rfl
      simp only [Option.isSome_none, Bool.false_eq_true, if_false]
      rw [List.cons_append, lstrip_blank hb, lstrip_cons hc, hb.takeWhile_append hc, ← List.cons_append,
        dropWord_match h2]
      simp only [Option.isSome_some, if_true, List.length_append, hl, hl']
      congr 1; omega

theorem prefix_blank {Q b R1 : Str} {x : Char} (hb : Blank b) (hx : isWs x = false) (h : Q <+: b ++ x :: R1) :
    lstrip Q = [] ∨ ∃ q, lstrip Q = x :: q := by
  obtain ⟨z, hz⟩ := h
  rcases List.append_eq_append_iff.1 hz with ⟨a', e1, _⟩ | ⟨c', e1, e2⟩
  · left
    exact dropWhile_all fun c hc => hb c (e1 ▸ List.mem_append_left _ hc)
  · subst e1
    rw [lstrip_blank hb]
    cases c' with
    | nil => left; rfl
    | cons y c' =>
      rw [List.cons_append] at e2
      injection e2 with ey _
      subst ey
      exact Or.inr ⟨c', lstrip_cons hx⟩

/-- What follows a type: blanks, and then neither a parenthesis nor the end. -/
def Follows (R : Str) : Prop := ∃ b x R1, R = b ++ x :: R1 ∧ Blank b ∧ isWs x = false ∧ x ≠ '(' ∧ x ≠ ')'

theorem rstrip_prefix (s : Str) : rstrip s <+: s := by
  obtain ⟨b, _, e⟩ := rstrip_split s
  exact ⟨b, e.symm⟩

theorem factory_plain {w R : Str} (hw : IntrinsicWord w) (hb : '!' ∉ w ++ R) (hR : Follows R) :
    ∃ len, factory (w ++ R) = some (some ⟨false, w, none, len⟩) ∧ strip ((w ++ R).drop len) = strip R := by
  obtain ⟨ht, hne, h1, h2⟩ := hw.facts
  obtain ⟨b, x, R1, rfl, hbl, hx, hx1, _⟩ := hR
  obtain ⟨Q, hQ, hcut⟩ := cutType_plain h1 h2 hb
  have hQ' : rstrip Q <+: b ++ x :: R1 := (rstrip_prefix Q).trans hQ
  have hk : kindGroup (lstrip (rstrip Q)) = none := by
    rcases prefix_blank hbl hx hQ' with e | ⟨q, e⟩
    · rw [e]; rfl
    · rw [e]; unfold kindGroup
      split
      · next t e => injection e with e _; exact absurd e hx1
      · rfl
  refine ⟨w.length + ((rstrip Q).takeWhile isWs).length, ?_, ?_⟩
  · unfold factory
    simp only [hcut]
    unfold intrinsicType
    simp only [strip_append ht hne, hw.name, List.drop_left, hk, List.take_left]
  · obtain ⟨z, hz⟩ := hQ'
    rw [List.drop_append, List.drop_eq_nil_of_le (by omega), List.nil_append, Nat.add_sub_cancel_left, ← hz]
    obtain ⟨bb, hbb, e⟩ : ∃ bb, Blank bb ∧ (rstrip Q).takeWhile isWs = bb :=
      ⟨_, fun c hc => List.all_eq_true.1 List.all_takeWhile c hc, rfl⟩
    have e2 : rstrip Q ++ z = bb ++ ((rstrip Q).dropWhile isWs ++ z) := by
      rw [← e, ← List.append_assoc, List.takeWhile_append_dropWhile]
    rw [e, e2, List.drop_left]
    unfold strip
    rw [lstrip_rstrip_comm, lstrip_rstrip_comm, lstrip_blank hbb]

/-- What remains of the text after the type, in the cut line. -/
theorem follows_take {R : Str} (hR : Follows R) : ∀ c ∈ rstrip (R.take 1), c ≠ '(' ∧ c ≠ ')' := by
  obtain ⟨b, x, R1, rfl, hbl, hx, hx1, hx2⟩ := hR
  intro c hc
  have hc := mem_rstrip hc
  cases b with
  | nil => simp only [List.nil_append, List.take_succ_cons, List.take_zero, List.mem_singleton] at hc; subst hc; exact ⟨hx1, hx2⟩
  | cons y b =>
    simp only [List.cons_append, List.take_succ_cons, List.take_zero, List.mem_singleton] at hc
    subst hc
    have := hbl c List.mem_cons_self
    exact ⟨by rintro rfl; exact absurd this (by decide), by rintro rfl; exact absurd this (by decide)⟩

theorem isWordC_facts {c : Char} (h : isWordC c = true) : isWs c = false ∧ c ≠ '=' ∧ c ≠ ',' ∧ c ≠ '(' ∧
    c ≠ ')' ∧ c ≠ '\'' ∧ c ≠ '"' := by
  have aux : ∀ d : Char, isWordC d = false → c ≠ d := by rintro d hd rfl; rw [h] at hd; cases hd
  refine ⟨?_, aux _ (by decide), aux _ (by decide), aux _ (by decide), aux _ (by decide), aux _ (by decide),
    aux _ (by decide)⟩
  cases hw : isWs c with
  | false => rfl
  | true =>
    unfold isWs at hw
    simp only [Bool.or_eq_true, beq_iff_eq] at hw
    rcases hw with ((((rfl | rfl) | rfl) | rfl) | rfl) | rfl <;> exact absurd h (by decide)

theorem tight_of_all {k : Str} (h : ∀ c ∈ k, isWs c = false) : Tight k :=
  ⟨fun c hc => h c (List.mem_of_mem_head? hc), fun c hc => h c (List.mem_of_getLast? hc)⟩

theorem takeWhile_stop {p : Char → Bool} {a : Str} {c : Char} (r : Str) (ha : ∀ x ∈ a, p x = true)
    (hc : p c = false) : (a ++ c :: r).takeWhile p = a ∧ (a ++ c :: r).dropWhile p = c :: r := by
  induction a with
  | nil => simp [hc]
  | cons x a ih =>
    have hx := ha x List.mem_cons_self
    obtain ⟨h1, h2⟩ := ih fun y hy => ha y (List.mem_cons_of_mem _ hy)
    rw [List.cons_append, List.takeWhile_cons_of_pos hx, List.dropWhile_cons_of_pos hx, h1, h2]
    exact ⟨rfl, rfl⟩

theorem KindText.facts {s k : Str} (h : KindText s k) (hk : KindName k) :
    s ≠ [] ∧ (∀ c ∈ s, isKindChar c = true) ∧ kindSelector ('(' :: (s ++ [')'])) = some k := by
  obtain ⟨hne, hch, hnk⟩ := hk
  have kc : ∀ c, isWs c = true → isKindChar c = true := by
    intro c hc; unfold isKindChar; rw [hc]; simp
  have kw : ∀ c, isWordC c = true → isKindChar c = true := by
    intro c hc; unfold isWordC at hc; unfold isKindChar
    simp only [Bool.or_eq_true, beq_iff_eq] at hc ⊢
    rcases hc with hc | hc
    · simp [hc]
    · simp [hc]
  have ht : Tight k := tight_of_all fun c hc => (isWordC_facts (hch c hc)).1
  have hin : ∀ s : Str, ((('(' :: (s ++ [')'])).drop 1).dropLast) = s := by intro s; simp
  have hcond : ∀ s : Str, ('(' :: (s ++ [')'])).head? = some '(' ∧ ('(' :: (s ++ [')'])).getLast? = some ')' := by
    intro s
    refine ⟨rfl, ?_⟩
    rw [← List.cons_append, List.getLast?_append]; rfl
  have hq : '\'' ∉ k ∧ '"' ∉ k :=
    ⟨fun h => (isWordC_facts (hch _ h)).2.2.2.2.2.1 rfl, fun h => (isWordC_facts (hch _ h)).2.2.2.2.2.2 rfl⟩
  have fin : ¬ (lower k = "kind".toList ∨ '\'' ∈ k ∨ '"' ∈ k) := by
    rintro (h | h | h)
    · exact hnk h
    · exact hq.1 h
    · exact hq.2 h
  have heqw : ∀ b : Str, Blank b → '=' ∉ b := fun b hb h => absurd (hb _ h) (by decide)
  cases h with
  | plain ha hb =>
    rename_i a b
    have heq : '=' ∉ a ++ k ++ b := by
      simp only [List.mem_append, not_or]
      exact ⟨⟨heqw _ ha, fun h => (isWordC_facts (hch _ h)).2.1 rfl⟩, heqw _ hb⟩
    refine ⟨by simp [hne], ?_, ?_⟩
    · intro c hc
      simp only [List.mem_append] at hc
      rcases hc with (hc | hc) | hc
      · exact kc _ (ha c hc)
      · exact kw _ (hch c hc)
      · exact kc _ (hb c hc)
    · unfold kindSelector
      rw [if_neg (by simp)]
      simp only [hcond, and_self, if_true, hin, Chk.splitOn_item _ _ heq, strip_core ha ht hb]
      rw [if_neg fin]
  | keyed ha hw hb hc hd =>
    rename_i a w b c d
    have hweq : '=' ∉ w := not_mem_lower hw (by decide) (by decide)
    have heq1 : '=' ∉ a ++ w ++ b := by
      simp only [List.mem_append, not_or]
      exact ⟨⟨heqw _ ha, hweq⟩, heqw _ hb⟩
    have heq2 : '=' ∉ c ++ k ++ d := by
      simp only [List.mem_append, not_or]
      exact ⟨⟨heqw _ hc, fun h => (isWordC_facts (hch _ h)).2.1 rfl⟩, heqw _ hd⟩
    have tw : Tight w := lower_tight (hw ▸ ⟨by decide, by decide⟩)
    have hww : ∀ c ∈ w, isKindChar c = true := by
      intro c hc
      have h1 := mem_lower hc
      rw [hw] at h1
      have : isKindChar c.toLower = true := by
        have h2 : ∀ x ∈ "kind".toList, isKindChar x = true := by decide
        exact h2 _ h1
      rwa [toLower_same isKindChar (by decide)] at this
    refine ⟨by simp, ?_, ?_⟩
    · intro x hx
      simp only [List.mem_append, List.mem_cons] at hx
      rcases hx with ((hx | hx) | hx) | (hx | (hx | hx) | hx)
      · exact kc _ (ha x hx)
      · exact hww x hx
      · exact kc _ (hb x hx)
      · subst hx; decide
      · exact kc _ (hc x hx)
      · exact kw _ (hch x hx)
      · exact kc _ (hd x hx)
    · unfold kindSelector
      rw [if_neg (by simp)]
      simp only [hcond, and_self, if_true, hin, Chk.splitOn_append _ _ _ heq1, Chk.splitOn_item _ _ heq2,
        strip_core ha tw hb, strip_core hc ht hd, hw]
      rw [if_neg fin]

theorem kindGroup_eq {s r : Str} (hs : s ≠ []) (h : ∀ c ∈ s, isKindChar c = true) :
    kindGroup ('(' :: (s ++ ')' :: r)) = some ('(' :: (s ++ [')'])) := by
  obtain ⟨h1, h2⟩ := takeWhile_stop (p := isKindChar) r h (c := ')') (by decide)
  unfold kindGroup
  simp only [h1, h2, List.head?_cons]
  rw [if_pos ⟨hs, trivial⟩]
  rfl

/-- A word, blanks, and a parenthesised text: the line cut behind it. -/
theorem cut_strip {w g inner R : Str} (ht : Tight w) (hne : w ≠ []) (h1 : '(' ∉ w) (h2 : ',' ∉ w) (hg : Blank g)
    (hi : ∀ c ∈ inner, c ≠ '(' ∧ c ≠ ')') (hb : '!' ∉ w ++ g ++ '(' :: (inner ++ [')']) ++ R) :
    strip (cutType (w ++ g ++ '(' :: (inner ++ [')']) ++ R)) =
      w ++ (g ++ '(' :: (inner ++ ')' :: rstrip (R.take 1))) := by
  have e : w ++ g ++ '(' :: (inner ++ [')']) ++ R = (w ++ g) ++ '(' :: (inner ++ ')' :: R) := by simp
  rw [e] at hb ⊢
  rw [cutType_paren _ _ hi hb]
  · have e2 : (w ++ g) ++ '(' :: (inner ++ ')' :: R.take 1) = (w ++ (g ++ '(' :: inner) ++ [')']) ++ R.take 1 := by simp
    rw [e2, strip_append (tight_append ht ⟨by decide, by decide⟩ hne (by simp) _) (by simp)]
    simp
  · simp only [List.mem_append, not_or]
    exact ⟨h1, fun h => absurd (hg _ h) (by decide)⟩
  · simp only [List.mem_append, not_or]
    exact ⟨h2, fun h => absurd (hg _ h) (by decide)⟩

theorem factory_kind {w g s k R : Str} (hw : IntrinsicWord w) (hg : Blank g) (hs : KindText s k) (hk : KindName k)
    (hb : '!' ∉ w ++ g ++ '(' :: (s ++ [')']) ++ R) :
    factory (w ++ g ++ '(' :: (s ++ [')']) ++ R) =
      some (some ⟨false, w, some k, (w ++ g ++ '(' :: (s ++ [')'])).length⟩) := by
  obtain ⟨ht, hne, h1, h2⟩ := hw.facts
  obtain ⟨k1, k2, k3⟩ := hs.facts hk
  have hi : ∀ c ∈ s, c ≠ '(' ∧ c ≠ ')' := by
    intro c hc
    have := k2 c hc
    exact ⟨by rintro rfl; exact absurd this (by decide), by rintro rfl; exact absurd this (by decide)⟩
  unfold factory
  simp only
  unfold intrinsicType
  simp only [cut_strip ht hne h1 h2 hg hi hb, hw.name, List.drop_left, List.take_left,
    hg.takeWhile_append (c := '(') (by decide), lstrip_blank hg, lstrip_cons (c := '(') (by decide),
    kindGroup_eq k1 k2, k3]
  simp only [List.length_append, List.length_cons, List.length_nil]

/-! ## Characters and derived types -/

theorem itypeName_none {w W : Str} (h : lower w = W) (r : Str)
    (h1 : W.take 1 ≠ "i".toList) (h2 : W.take 1 ≠ "r".toList) (h3 : W.take 1 ≠ "l".toList)
    (h4 : W.take 1 ≠ "d".toList) (h5 : W.take 2 ≠ "co".toList) (hl : 2 ≤ W.length) :
    itypeName (w ++ r) = none := by
  unfold itypeName
  rw [dropWord_no (k := "integer".toList) h 1 (by decide) (by omega) h1,
    dropWord_no (k := "real".toList) h 1 (by decide) (by omega) h2,
    dropWord_no (k := "logical".toList) h 1 (by decide) (by omega) h3,
    dropWord_no (k := "double".toList) h 1 (by decide) (by omega) h4,
    dropWord_no (k := "complex".toList) h 2 (by decide) hl h5]
  rfl

theorem LengthText.facts {l : Str} (h : LengthText l) : l ≠ [] ∧ (∀ c ∈ l, isWs c = false ∧ c ≠ '=' ∧ c ≠ ',' ∧
    c ≠ '(' ∧ c ≠ ')' ∧ isCharSelChar c = true) ∧ lenToken l = some l := by
  have an : ∀ c : Char, c.isAlphanum = true → isWs c = false ∧ c ≠ '=' ∧ c ≠ ',' ∧
      c ≠ '(' ∧ c ≠ ')' ∧ isCharSelChar c = true := by
    intro c hc
    have hw : isWordC c = true := by unfold isWordC; rw [hc]; rfl
    obtain ⟨h1, h2, h3, h4, h5, _⟩ := isWordC_facts hw
    exact ⟨h1, h2, h3, h4, h5, by unfold isCharSelChar; rw [hc]; simp⟩
  rcases h with rfl | rfl | ⟨hne, hd⟩ | ⟨c, r, rfl, hc, hr⟩
  · decide
  · decide
  · refine ⟨hne, fun c hc => an c (by unfold Char.isAlphanum; rw [hd c hc]; simp), ?_⟩
    unfold lenToken
    rw [if_pos (Or.inr (Or.inr ⟨hne, List.all_eq_true.2 hd⟩))]
  · refine ⟨by simp, ?_, ?_⟩
    · intro x hx
      rcases List.mem_cons.1 hx with rfl | hx
      · exact an _ (by unfold Char.isAlphanum; rw [hc]; rfl)
      · exact an x (hr x hx)
    · unfold lenToken
      split
      · rfl
      · simp only
        rw [if_pos]
        rw [Bool.and_eq_true]
        refine ⟨hc, List.all_eq_true.2 fun x hx => ?_⟩
        unfold isWordC; rw [hr x hx]; rfl

theorem charGroup_eq {inner Q : Str} (hne : inner ≠ []) (h : ∀ c ∈ inner, isCharSelChar c = true)
    (hQ : ∀ c ∈ Q, c ≠ ')') : charGroup ('(' :: (inner ++ ')' :: Q)) = some ('(' :: (inner ++ [')'])) := by
  have e : (inner ++ ')' :: Q).takeWhile isCharSelChar = inner ++ ')' :: Q.takeWhile isCharSelChar := by
    clear hne
    induction inner with
    | nil =>
      rw [List.nil_append, List.nil_append, List.takeWhile_cons_of_pos (by decide)]
    | cons c s ih =>
      rw [List.cons_append, List.takeWhile_cons_of_pos (h c List.mem_cons_self),
        ih fun x hx => h x (List.mem_cons_of_mem _ hx)]
      rfl
  have hq : ∀ x ∈ (Q.takeWhile isCharSelChar).reverse, (x != ')') = true := by
    intro x hx
    have := hQ x ((List.takeWhile_prefix _).subset (List.mem_reverse.1 hx))
    simpa using this
  obtain ⟨_, d⟩ := takeWhile_stop (p := (· != ')')) (c := ')') inner.reverse hq (by decide)
  unfold charGroup
  simp only [e, List.reverse_append, List.reverse_cons, List.append_assoc, List.singleton_append, d]
  rw [if_pos]
  · simp
  · simp only [List.reverse_reverse, List.length_append, List.length_cons, List.length_nil]
    have := List.length_pos_iff.2 hne
    omega

theorem factory_character {w g a n b c l d R : Str} (hw : lower w = "character".toList) (hg : Blank g) (ha : Blank a)
    (hn : lower n = "len".toList) (hbk : Blank b) (hc : Blank c) (hl : LengthText l) (hd : Blank d)
    (hR : Follows R) (hb : '!' ∉ w ++ g ++ '(' :: (a ++ n ++ b ++ '=' :: (c ++ l ++ d) ++ [')']) ++ R) :
    factory (w ++ g ++ '(' :: (a ++ n ++ b ++ '=' :: (c ++ l ++ d) ++ [')']) ++ R) =
      some (some ⟨false, w, some ("len=".toList ++ l),
        (w ++ g ++ '(' :: (a ++ n ++ b ++ '=' :: (c ++ l ++ d) ++ [')'])).length⟩) := by
  have tw : Tight w := lower_tight (hw ▸ ⟨by decide, by decide⟩)
  have tn : Tight n := lower_tight (hn ▸ ⟨by decide, by decide⟩)
  have nw : w ≠ [] := by rintro rfl; exact absurd hw (by decide)
  have nn : n ≠ [] := by rintro rfl; exact absurd hn (by decide)
  have lw : w.length = 9 := by rw [← lower_length, hw]; rfl
  obtain ⟨l1, l2, l3⟩ := hl.facts
  have tl : Tight l := tight_of_all fun c hc => (l2 c hc).1
  have bc : ∀ x : Char, isWs x = true → x ≠ '=' ∧ x ≠ ',' ∧ x ≠ '(' ∧ x ≠ ')' ∧ isCharSelChar x = true := by
    intro x hx
    refine ⟨?_, ?_, ?_, ?_, ?_⟩
    · rintro rfl; exact absurd hx (by decide)
    · rintro rfl; exact absurd hx (by decide)
    · rintro rfl; exact absurd hx (by decide)
    · rintro rfl; exact absurd hx (by decide)
    · unfold isCharSelChar; rw [hx]; simp
  have nc : ∀ x ∈ n, x ≠ '=' ∧ x ≠ ',' ∧ x ≠ '(' ∧ x ≠ ')' ∧ isCharSelChar x = true := by
    intro x hx
    have h1 := mem_lower hx
    rw [hn] at h1
    refine ⟨?_, ?_, ?_, ?_, ?_⟩
    · rintro rfl; exact absurd h1 (by decide)
    · rintro rfl; exact absurd h1 (by decide)
    · rintro rfl; exact absurd h1 (by decide)
    · rintro rfl; exact absurd h1 (by decide)
    · have h2 : ∀ y ∈ "len".toList, isCharSelChar y = true := by decide
      have := h2 _ h1
      rwa [toLower_same isCharSelChar (by decide)] at this
  generalize hin : a ++ n ++ b ++ '=' :: (c ++ l ++ d) = inner at hb ⊢
  have hinner : ∀ x ∈ inner, x ≠ ',' ∧ x ≠ '(' ∧ x ≠ ')' ∧ isCharSelChar x = true := by
    intro x hx
    rw [← hin] at hx
    simp only [List.mem_append, List.mem_cons] at hx
    rcases hx with ((hx | hx) | hx) | (hx | (hx | hx) | hx)
    · exact (bc x (ha x hx)).2
    · exact (nc x hx).2
    · exact (bc x (hbk x hx)).2
    · subst hx; decide
    · exact (bc x (hc x hx)).2
    · exact (l2 x hx).2.2
    · exact (bc x (hd x hx)).2
  have hne : inner ≠ [] := by rw [← hin]; simp
  have hstrip : strip inner = n ++ b ++ '=' :: (c ++ l) := by
    have : inner = a ++ (n ++ (b ++ '=' :: c) ++ l) ++ d := by rw [← hin]; simp
    rw [this, strip_core ha (tight_append tn tl nn l1 _) hd]
    simp
  have hattrs : charAttrs ('(' :: (inner ++ [')'])) = some (l, none) := by
    unfold charAttrs
    have e1 : (('(' :: (inner ++ [')'])).drop 1).dropLast = inner := by simp
    rw [e1, Chk.splitOn_item _ _ (fun h => (hinner _ h).1 rfl)]
    simp only [List.map_cons, List.map_nil, hstrip]
    rw [if_neg]
    · unfold lenSelect
      have q1 : '=' ∉ n ++ b := by
        simp only [List.mem_append, not_or]
        exact ⟨fun h => (nc _ h).1 rfl, fun h => (bc _ (hbk _ h)).1 rfl⟩
      have q2 : '=' ∉ c ++ l := by
        simp only [List.mem_append, not_or]
        exact ⟨fun h => (bc _ (hc _ h)).1 rfl, fun h => (l2 _ h).2.1 rfl⟩
      rw [Chk.splitOn_append _ _ _ q1, Chk.splitOn_item _ _ q2]
      have s1 : strip (n ++ b) = n := by
        have := strip_core (p := []) (by intro c hc; cases hc) tn hbk
        simpa using this
      have s2 : strip (c ++ l) = l := by
        have := strip_core (q := []) hc tl (by intro c hc; cases hc)
        simpa using this
      simp only [List.map_cons, List.map_nil, s1, s2, hn, if_true, l3, Option.map_some]
    · intro h
      have := congrArg (List.take 1) h
      rw [← lower_take, List.take_take, lower_take, List.append_assoc, lower_append, hn] at this
      exact absurd this (by simp)
  unfold factory
  simp only
  have cs := cut_strip (R := R) tw nw (not_mem_lower hw (by decide) (by decide))
    (not_mem_lower hw (by decide) (by decide)) hg (fun x hx => ⟨(hinner x hx).2.1, (hinner x hx).2.2.1⟩) hb
  unfold intrinsicType
  simp only [cs]
  rw [itypeName_none hw _ (by decide) (by decide) (by decide) (by decide) (by decide) (by decide)]
  simp only
  unfold characterType
  simp only [cs, dropWord_match hw, hg.takeWhile_append (c := '(') (by decide), lstrip_blank hg,
    lstrip_cons (c := '(') (by decide)]
  rw [if_neg (by exact Bool.false_ne_true)]
  simp only [charGroup_eq hne (fun x hx => (hinner x hx).2.2.2) (fun x hx => (follows_take hR x hx).2), hattrs]
  rw [← lw, List.take_left]
  simp only [List.length_append, List.length_cons, List.length_nil]

theorem IsName.facts {n : Str} (h : Chk.IsName n) : ∃ c r, n = c :: r ∧ isLetter c = true ∧
    (∀ x ∈ n, isWordC x = true) := by
  obtain ⟨c, cs, rfl, hc, hs⟩ := h
  refine ⟨c, cs, rfl, hc, ?_⟩
  intro x hx
  unfold isWordC
  rcases List.mem_cons.1 hx with rfl | hx
  · unfold Char.isAlphanum; rw [hc]; rfl
  · rcases hs x hx with h | h
    · rw [h]; rfl
    · rw [h]; decide

theorem ddtMatch_eq (k : Nat) (close : Bool) {g a n b Q : Str} (hg : Blank g) (ha : Blank a) (hn : Chk.IsName n)
    (hb : Blank b) : ddtMatch k close (g ++ '(' :: (a ++ n ++ b ++ ')' :: Q)) =
      some (n, k + (g.length + (a.length + (n.length + (b.length + 1)))) + 1) := by
  obtain ⟨c, r, e, hc, hw⟩ := IsName.facts hn
  have hcw : isWs c = false := (isWordC_facts (hw c (by rw [e]; simp))).1
  have h0 : lstrip (g ++ '(' :: (a ++ n ++ b ++ ')' :: Q)) = '(' :: (a ++ n ++ b ++ ')' :: Q) := by
    rw [lstrip_blank hg, lstrip_cons (by decide)]
  have h1 : lstrip (a ++ n ++ b ++ ')' :: Q) = c :: (r ++ (b ++ ')' :: Q)) := by
    rw [List.append_assoc, List.append_assoc, lstrip_blank ha, e, List.cons_append, lstrip_cons hcw]
  have tw : (c :: (r ++ (b ++ ')' :: Q))).takeWhile isWordC = n ∧
      (c :: (r ++ (b ++ ')' :: Q))).dropWhile isWordC = b ++ ')' :: Q := by
    have e2 : c :: (r ++ (b ++ ')' :: Q)) = n ++ (b ++ ')' :: Q) := by rw [e]; rfl
    rw [e2]
    cases b with
    | nil => exact takeWhile_stop (p := isWordC) Q hw (by decide)
    | cons y b =>
      refine takeWhile_stop (p := isWordC) _ hw ?_
      cases hy : isWordC y with
      | false => rfl
      | true =>
        have := (isWordC_facts hy).1
        rw [hb y List.mem_cons_self] at this; cases this
  unfold ddtMatch
  simp only [h0, h1]
  rw [if_pos hc, tw.1, tw.2, lstrip_blank hb, lstrip_cons (by decide)]
  simp only [List.length_append, List.length_cons]
  congr 3
  omega

theorem factory_derived {w g a n b R : Str} (hw : lower w = "type".toList ∨ lower w = "class".toList) (hg : Blank g)
    (ha : Blank a) (hn : Chk.IsName n) (hbk : Blank b)
    (hb : '!' ∉ w ++ g ++ '(' :: (a ++ n ++ b ++ [')']) ++ R) :
    factory (w ++ g ++ '(' :: (a ++ n ++ b ++ [')']) ++ R) =
      some (some ⟨true, n, some n, (w ++ g ++ '(' :: (a ++ n ++ b ++ [')'])).length⟩) := by
  have tw : Tight w := by
    rcases hw with hw | hw
    · exact lower_tight (hw ▸ ⟨by decide, by decide⟩)
    · exact lower_tight (hw ▸ ⟨by decide, by decide⟩)
  have nw : w ≠ [] := by
    rintro rfl
    rcases hw with hw | hw <;> exact absurd hw (by decide)
  have n1 : '(' ∉ w := by rcases hw with hw | hw <;> exact not_mem_lower hw (by decide) (by decide)
  have n2 : ',' ∉ w := by rcases hw with hw | hw <;> exact not_mem_lower hw (by decide) (by decide)
  obtain ⟨_, _, _, _, hwc⟩ := IsName.facts hn
  have hi : ∀ c ∈ a ++ n ++ b, c ≠ '(' ∧ c ≠ ')' := by
    intro x hx
    simp only [List.mem_append] at hx
    have hbl : isWs x = true → x ≠ '(' ∧ x ≠ ')' := by
      intro h
      exact ⟨by rintro rfl; exact absurd h (by decide), by rintro rfl; exact absurd h (by decide)⟩
    rcases hx with (hx | hx) | hx
    · exact hbl (ha x hx)
    · exact ⟨(isWordC_facts (hwc x hx)).2.2.2.1, (isWordC_facts (hwc x hx)).2.2.2.2.1⟩
    · exact hbl (hbk x hx)
  have cs := cut_strip (R := R) tw nw n1 n2 hg hi hb
  unfold factory
  simp only
  unfold intrinsicType
  simp only [cs]
  rcases hw with hw | hw
  · have lw : w.length = 4 := by rw [← lower_length, hw]; rfl
    rw [itypeName_none hw _ (by decide) (by decide) (by decide) (by decide) (by decide) (by decide)]
    simp only
    unfold characterType ddtType
    simp only [cs]
    rw [dropWord_no hw 1 (by decide) (by decide) (by decide)]
    simp only [dropWord_match hw, Option.bind_some, ddtMatch_eq 4 false hg ha hn hbk]
    congr 3
    simp only [List.length_append, List.length_cons, List.length_nil, lw]
    omega
  · have lw : w.length = 5 := by rw [← lower_length, hw]; rfl
    rw [itypeName_none hw _ (by decide) (by decide) (by decide) (by decide) (by decide) (by decide)]
    simp only
    unfold characterType ddtType
    simp only [cs]
    rw [dropWord_no hw 2 (by decide) (by decide) (by decide),
      dropWord_no (k := "type".toList) hw 1 (by decide) (by decide) (by decide)]
    simp only [dropWord_match hw, Option.bind_some, Option.bind_none, ddtMatch_eq 5 true hg ha hn hbk]
    congr 3
    simp only [List.length_append, List.length_cons, List.length_nil, lw]
    omega

/-- The type of a declaration is recognised, whatever follows. -/
theorem factory_ok {t R : Str} {m : TypeMeaning} (ht : TypeText t m) (hb : '!' ∉ t ++ R) (hR : Follows R) :
    ∃ len, factory (t ++ R) = some (some ⟨m.ddt, m.name, m.kind, len⟩) ∧
      strip ((t ++ R).drop len) = strip R := by
  cases ht with
  | plain hw => exact factory_plain hw hb hR
  | kind hw hg hs hk => exact ⟨_, factory_kind hw hg hs hk hb, by rw [List.drop_left]⟩
  | character hw hg ha hn hbk hc hl hd =>
    exact ⟨_, factory_character hw hg ha hn hbk hc hl hd hR hb, by rw [List.drop_left]⟩
  | derived hw hg ha hn hbk => exact ⟨_, factory_derived hw hg ha hn hbk hb, by rw [List.drop_left]⟩

end Ccpp.FDecl
