import Verif.Props.XmlStrings
/-!
# Lemmas for C65: what PrettyElementTree.write writes
-/
namespace Ccpp.XF

theorem take_drop (p : Char → Bool) (s : Str) : s.takeWhile p ++ s.dropWhile p = s := List.takeWhile_append_dropWhile

theorem begTag_shorter {s o r : Str} (h : begTag s = some (o, r)) : r.length < s.length := by
  unfold begTag at h
  split at h
  · rename_i c t
    have ht := congrArg List.length (take_drop notAngle t)
    rw [List.length_append] at ht
    split at h
    · cases h
    · split at h
      · rename_i x rest hd
        simp only [Option.some.injEq, Prod.mk.injEq] at h
        rw [hd] at ht
        simp only [List.length_cons, ← h.2] at ht ⊢
        omega
      · rename_i rest _ hd
        rw [hd] at ht
        split at h
        · split at h
          · simp only [Option.some.injEq, Prod.mk.injEq] at h
            simp only [List.length_cons, ← h.2] at ht ⊢
            omega
          · cases h
        · cases h
      · cases h
  · cases h

theorem endTag_shorter {s o r : Str} (h : endTag s = some (o, r)) : r.length < s.length := by
  unfold endTag at h
  split at h
  · rename_i t
    have ht := congrArg List.length (take_drop plain t)
    rw [List.length_append] at ht
    split at h
    · rename_i hd
      simp only [Option.some.injEq, Prod.mk.injEq] at h
      rw [hd] at ht
      simp only [List.length_cons, ← h.2] at ht ⊢
      omega
    · cases h
  · cases h

theorem simpleTag_shorter {s o r : Str} (h : simpleTag s = some (o, r)) : r.length < s.length := by
  unfold simpleTag at h
  split at h
  · rename_i c t
    have ht := congrArg List.length (take_drop plain t)
    rw [List.length_append] at ht
    split at h
    · cases h
    · split at h
      · rename_i hd
        simp only [Option.some.injEq, Prod.mk.injEq] at h
        rw [hd] at ht
        simp only [List.length_cons, ← h.2] at ht ⊢
        omega
      · cases h
  · cases h

theorem dropWhile_shorter {s : Str} {p : Char → Bool} (h : s.takeWhile p ≠ []) : (s.dropWhile p).length < s.length := by
  have ht := congrArg List.length (take_drop p s)
  rw [List.length_append] at ht
  have := List.length_pos_iff.2 h
  omega

theorem loop_fuel : ∀ (n f ind : Nat) (lt : Bool) (s : Str), s.length ≤ n → s.length ≤ f →
    prettyLoop f ind lt s = prettyLoop n ind lt s
  | n, f, ind, lt, [], _, _ => by rw [prettyLoop, prettyLoop]
  | 0, f, ind, lt, c :: s, h, _ => by simp at h
  | n, 0, ind, lt, c :: s, _, h => by simp at h
  | n + 1, f + 1, ind, lt, c :: s, hn, hf => by
    rw [prettyLoop, prettyLoop]
    · cases hb : begTag (c :: s) with
      | some p =>
        have := begTag_shorter hb
        cases hr : p.2 with
        | nil => simp only [hr]
        | cons x r =>
          simp only [hr]
          rw [hr] at this
          rw [loop_fuel n f _ _ _ (by simp at this hn ⊢; omega) (by simp at this hf ⊢; omega)]
      | none =>
        cases he : endTag (c :: s) with
        | some p =>
          have := endTag_shorter he
          simp only
          rw [loop_fuel n f _ _ _ (by simp at this hn ⊢; omega) (by simp at this hf ⊢; omega)]
        | none =>
          cases hs : simpleTag (c :: s) with
          | some p =>
            have := simpleTag_shorter hs
            simp only
            rw [loop_fuel n f _ _ _ (by simp at this hn ⊢; omega) (by simp at this hf ⊢; omega)]
          | none =>
            cases ht : (c :: s).takeWhile (· != '<') with
            | nil => simp only [ht]
            | cons x t =>
              have := dropWhile_shorter (s := c :: s) (p := (· != '<')) (by rw [ht]; simp)
              simp only [ht]
              rw [loop_fuel n f _ _ _ (by simp at this hn ⊢; omega) (by simp at this hf ⊢; omega)]
    · simp
    · simp

/-- What is written for the rest of the input. -/
def pretty (ind : Nat) (lt : Bool) (s : Str) : Option Str := prettyLoop s.length ind lt s

theorem pretty_nil (ind : Nat) (lt : Bool) : pretty ind lt [] = some [] := rfl

theorem pretty_cons (ind : Nat) (lt : Bool) (c : Char) (s : Str) : pretty ind lt (c :: s) =
    match begTag (c :: s) with
    | some (o, r) =>
      match r with
      | [] => none
      | x :: _ => (pretty (ind + 1) false r).map (indent ind ++ o ++ (if x ≠ '<' then [] else ['\n']) ++ ·)
    | none =>
      match endTag (c :: s) with
      | some (o, r) => (pretty (ind - 1) false r).map ((if lt then [] else indent (ind - 1)) ++ o ++ ['\n'] ++ ·)
      | none =>
        match simpleTag (c :: s) with
        | some (o, r) => (pretty ind false r).map (indent ind ++ o ++ ['\n'] ++ ·)
        | none =>
          match (c :: s).takeWhile (· != '<') with
          | [] => none
          | t => (pretty ind true ((c :: s).dropWhile (· != '<'))).map (strip t ++ ·) := by
  unfold pretty
  rw [List.length_cons, prettyLoop]
  · cases hb : begTag (c :: s) with
    | some p =>
      have := begTag_shorter hb
      cases hr : p.2 with
      | nil => simp only [hr]
      | cons x r =>
        simp only [hr]
        rw [hr] at this
        rw [loop_fuel _ s.length _ _ _ (Nat.le_refl _) (by simp at this ⊢; omega)]
    | none =>
      cases he : endTag (c :: s) with
      | some p =>
        have := endTag_shorter he
        simp only
        rw [loop_fuel _ s.length _ _ _ (Nat.le_refl _) (by simp at this ⊢; omega)]
      | none =>
        cases hs : simpleTag (c :: s) with
        | some p =>
          have := simpleTag_shorter hs
          simp only
          rw [loop_fuel _ s.length _ _ _ (Nat.le_refl _) (by simp at this ⊢; omega)]
        | none =>
          cases ht : (c :: s).takeWhile (· != '<') with
          | nil => simp only [ht]
          | cons x t =>
            have := dropWhile_shorter (s := c :: s) (p := (· != '<')) (by rw [ht]; simp)
            simp only [ht]
            rw [loop_fuel _ s.length _ _ _ (Nat.le_refl _) (by simp at this ⊢; omega)]
  · simp

/-! ## The four kinds of input -/

theorem takeWhile_stop {p : Char → Bool} {a : Str} (h : ∀ c ∈ a, p c = true) (x : Char) (s : Str) (hx : p x = false) :
    (a ++ x :: s).takeWhile p = a ∧ (a ++ x :: s).dropWhile p = x :: s := by
  induction a with
  | nil => exact ⟨by rw [List.nil_append, List.takeWhile_cons_of_neg (by simp [hx])], dropWhile_id hx⟩
  | cons c a ih =>
    have := ih fun y hy => h y (by simp [hy])
    rw [List.cons_append, List.takeWhile_cons_of_pos (h c (by simp)), List.dropWhile_cons_of_pos (h c (by simp)), this.1]
    exact ⟨rfl, this.2⟩

theorem begTag_tag {c : Char} {r s : Str} (hr : ∀ x ∈ r, notAngle x = true) (hs : s.head? ≠ some '>') :
    begTag ('<' :: c :: r ++ '>' :: s) = if c = '/' then none else
      match r.getLast? with
      | some l => if l ≠ '/' then some ('<' :: c :: r ++ ['>'], s) else none
      | none => none := by
  obtain ⟨h1, h2⟩ := takeWhile_stop hr '>' s (by decide)
  rw [List.cons_append, List.cons_append, begTag, h1, h2]
  cases s with
  | nil => rfl
  | cons x s =>
    have : x ≠ '>' := fun he => hs (by rw [he]; rfl)
    by_cases hc : c = '/'
    · rw [if_pos hc, if_pos hc]
    · rw [if_neg hc, if_neg hc]
      split
      · rename_i h
        injection h with _ h
        injection h with h _
        exact absurd h this
      · rename_i h
        injection h with _ h
        subst h
        rfl
      · rename_i h
        exact absurd rfl (h _)

theorem endTag_slash {c : Char} {s : Str} (hc : c ≠ '/') : endTag ('<' :: c :: s) = none := by
  unfold endTag
  split
  · rename_i h
    injection h with _ h
    injection h with h _
    exact absurd h hc
  · rfl

/-- A start tag of more than one character is written on a new line. -/
theorem pretty_begin {ind : Nat} {lt : Bool} {c x : Char} {r s : Str} (hc : c ≠ '/') (hr : ∀ x ∈ r, notAngle x = true)
    {l : Char} (hl : r.getLast? = some l) (hl' : l ≠ '/') (hx : x ≠ '>') :
    pretty ind lt ('<' :: c :: r ++ '>' :: x :: s) =
      (pretty (ind + 1) false (x :: s)).map
        (indent ind ++ ('<' :: c :: r ++ ['>']) ++ (if x ≠ '<' then [] else ['\n']) ++ ·) := by
  have hb := begTag_tag (c := c) (s := x :: s) hr (by simpa using hx)
  rw [if_neg hc, hl] at hb
  simp only [if_pos hl'] at hb
  rw [List.cons_append, List.cons_append] at hb ⊢
  rw [pretty_cons, hb]

/-- A start tag of one character cannot be written. -/
theorem pretty_begin_one {ind : Nat} {lt : Bool} {c : Char} {s : Str} (hc : c ≠ '/') (hs : s.head? ≠ some '>') :
    pretty ind lt ('<' :: c :: '>' :: s) = none := by
  have hb := begTag_tag (c := c) (r := []) (s := s) (by simp) hs
  rw [if_neg hc] at hb
  rw [pretty_cons, show begTag ('<' :: c :: '>' :: s) = none from hb]
  simp only
  rw [endTag_slash hc]
  simp only
  have : simpleTag ('<' :: c :: '>' :: s) = none := by
    rw [simpleTag, if_neg hc]
    rfl
  rw [this]
  simp

/-- An end tag. -/
theorem pretty_end {ind : Nat} {lt : Bool} {n s : Str} (hn : n ≠ []) (hp : ∀ x ∈ n, plain x = true) :
    pretty ind lt ('<' :: '/' :: n ++ '>' :: s) =
      (pretty (ind - 1) false s).map ((if lt then [] else indent (ind - 1)) ++ ('<' :: '/' :: n ++ ['>']) ++ ['\n'] ++ ·) := by
  have hb : begTag ('<' :: '/' :: n ++ '>' :: s) = none := by
    rw [List.cons_append, List.cons_append, begTag, if_pos rfl]
  have he : endTag ('<' :: '/' :: n ++ '>' :: s) = some ('<' :: '/' :: n ++ ['>'], s) := by
    obtain ⟨h1, h2⟩ := takeWhile_stop hp '>' s (by decide)
    cases n with
    | nil => exact absurd rfl hn
    | cons c cs =>
      rw [List.cons_append, List.cons_append, endTag, h1, h2]
      rfl
  rw [List.cons_append, List.cons_append] at hb he ⊢
  rw [pretty_cons, hb]
  simp only
  rw [he]

theorem begTag_empty {c : Char} {r s : Str} (hr : ∀ x ∈ r, notAngle x = true) (hs : s.head? ≠ some '>') :
    begTag ('<' :: c :: (r ++ ['/']) ++ '>' :: s) = none := by
  have hb := begTag_tag (c := c) (r := r ++ ['/']) (s := s) (by
    intro x hx
    rcases List.mem_append.1 hx with hx | hx
    · exact hr x hx
    · simp only [List.mem_singleton] at hx; subst hx; decide) hs
  rw [hb]
  split
  · rfl
  · simp

/-- An empty element without slash. -/
theorem pretty_simple {ind : Nat} {lt : Bool} {c : Char} {r s : Str} (hc : c ≠ '/') (hr : ∀ x ∈ r, plain x = true)
    (hne : r ≠ []) (hs : s.head? ≠ some '>') :
    pretty ind lt ('<' :: c :: (r ++ ['/']) ++ '>' :: s) =
      (pretty ind false s).map (indent ind ++ ('<' :: c :: (r ++ ['/']) ++ ['>']) ++ ['\n'] ++ ·) := by
  have hb := begTag_empty (c := c) (s := s) (fun x hx => (by
    have := hr x hx
    unfold plain at this
    exact (Bool.and_eq_true_iff.1 this).1 : notAngle x = true)) hs
  have h2 : simpleTag ('<' :: c :: (r ++ ['/']) ++ '>' :: s) = some ('<' :: c :: (r ++ ['/']) ++ ['>'], s) := by
    obtain ⟨h1, h2⟩ := takeWhile_stop hr '/' ('>' :: s) (by decide)
    rw [List.cons_append, List.cons_append, simpleTag, if_neg hc, List.append_assoc, List.cons_append, List.nil_append, h1, h2]
    cases r with
    | nil => exact absurd rfl hne
    | cons x xs => simp
  rw [List.cons_append, List.cons_append] at hb h2 ⊢
  rw [pretty_cons, hb]
  simp only
  rw [endTag_slash hc]
  simp only
  rw [h2]

/-- An empty element with a slash cannot be written. -/
theorem pretty_simple_slash {ind : Nat} {lt : Bool} {c : Char} {r s : Str} (hc : c ≠ '/')
    (hr : ∀ x ∈ r, notAngle x = true) (hm : '/' ∈ r) (hs : s.head? ≠ some '>') :
    pretty ind lt ('<' :: c :: (r ++ ['/']) ++ '>' :: s) = none := by
  have hb := begTag_empty (c := c) (s := s) hr hs
  have h2 : simpleTag ('<' :: c :: (r ++ ['/']) ++ '>' :: s) = none := by
    obtain ⟨a, b, rfl, ha⟩ : ∃ a b, r = a ++ '/' :: b ∧ ∀ x ∈ a, plain x = true := by
      refine ⟨r.takeWhile plain, ((r.dropWhile plain).drop 1), ?_, fun x hx => List.all_eq_true.1 List.all_takeWhile x hx⟩
      cases hd : r.dropWhile plain with
      | nil =>
        exfalso
        have := take_drop plain r
        rw [hd, List.append_nil] at this
        rw [← this] at hm
        have := List.all_eq_true.1 (List.all_takeWhile (p := plain) (l := r)) '/' hm
        revert this; decide
      | cons y ys =>
        have h1 := take_drop plain r
        have h2 : plain y = false := dropWhile_head (s := r) (by rw [hd]; rfl)
        have h3 : notAngle y = true := hr y (by rw [← h1, hd]; simp)
        have : y = '/' := by
          unfold plain at h2
          rw [h3] at h2
          simpa using h2
        rw [hd, this] at h1
        simp [h1]
    obtain ⟨h1, h2⟩ := takeWhile_stop ha '/' (b ++ '/' :: '>' :: s) (by decide)
    have : (a ++ '/' :: b ++ ['/']) ++ '>' :: s = a ++ '/' :: (b ++ '/' :: '>' :: s) := by simp
    rw [List.cons_append, List.cons_append, simpleTag, if_neg hc, this, h1, h2]
    split
    · rename_i h
      injection h with _ h
      cases b with
      | nil => simp at h
      | cons y ys =>
        rw [List.cons_append] at h
        injection h with h _
        have := hr y (by simp)
        rw [h] at this
        exact absurd this (by decide)
    · rfl
  rw [List.cons_append, List.cons_append] at hb h2 ⊢
  rw [pretty_cons, hb]
  simp only
  rw [endTag_slash hc]
  simp only
  rw [h2]
  simp

/-- A text up to the next tag. -/
theorem pretty_text {ind : Nat} {lt : Bool} {t s : Str} (ht : t ≠ []) (hp : ∀ x ∈ t, x ≠ '<')
    (hs : s = [] ∨ s.head? = some '<') :
    pretty ind lt (t ++ s) = (pretty ind true s).map (strip t ++ ·) := by
  cases t with
  | nil => exact absurd rfl ht
  | cons c t =>
    have hc := hp c (by simp)
    have h1 : begTag (c :: (t ++ s)) = none := by
      unfold begTag
      split
      · rename_i h; injection h with h _; exact absurd h hc
      · rfl
    have h2 : endTag (c :: (t ++ s)) = none := by
      unfold endTag
      split
      · rename_i h; injection h with h _; exact absurd h hc
      · rfl
    have h3 : simpleTag (c :: (t ++ s)) = none := by
      unfold simpleTag
      split
      · rename_i h; injection h with h _; exact absurd h hc
      · rfl
    have h4 : (c :: (t ++ s)).takeWhile (· != '<') = c :: t ∧ (c :: (t ++ s)).dropWhile (· != '<') = s := by
      have hall : ∀ x ∈ c :: t, (x != '<') = true := fun x hx => by simpa using hp x hx
      rw [← List.cons_append]
      rcases hs with rfl | hs
      · rw [List.append_nil]
        have e : ∀ l : Str, (∀ x ∈ l, (x != '<') = true) → l.takeWhile (· != '<') = l ∧ l.dropWhile (· != '<') = [] := by
          intro l hl
          have h1 := dropWhile_append_all (b := []) hl
          rw [List.append_nil] at h1
          have h2 := take_drop (· != '<') l
          rw [h1] at h2
          exact ⟨by simpa using h2, h1⟩
        exact e _ hall
      · cases s with
        | nil => cases hs
        | cons x s =>
          simp only [List.head?_cons, Option.some.injEq] at hs
          subst hs
          exact takeWhile_stop hall '<' s (by decide)
    rw [List.cons_append, pretty_cons, h1]
    simp only
    rw [h2]
    simp only
    rw [h3]
    simp only
    rw [h4.1, h4.2]

end Ccpp.XF
