import Verif.Model.Checkers
import Verif.Spec.Checkers
/-!
# C26, C27, C48, C49, C50: parenthesis matching and identifier checkers
-/
namespace Ccpp.Chk

/-! ## C26 -/

/-- Where the depth, starting from `d`, reaches zero. -/
def hit (d : Nat) : Str → Option Nat
  | [] => none
  | c :: s =>
    if c = '(' then (hit (d + 1) s).map (· + 1)
    else if c = ')' then (if d = 1 then some 0 else (hit (d - 1) s).map (· + 1))
    else (hit d s).map (· + 1)

/-- Only quotes delimit literals. -/
def QOk (q : Option Char) : Prop := ∀ k, q = some k → k = '"' ∨ k = '\''

theorem QOk.none : QOk none := by intro k h; cases h

theorem map_add_add (o : Option Nat) (n : Nat) : (o.map (· + 1)).map (n + ·) = o.map (n + 1 + ·) := by
  cases o with
  | none => rfl
  | some k => simp; omega

/-- One step of the loop in terms of the masked text. -/
theorem scan_step (idx : Nat) (b : Option Nat) (d : Int) (q : Option Char) (hq : QOk q) (c : Char)
    (s : Str) :
    ∃ c' q', QOk q' ∧ mask q (c :: s) = c' :: mask q' s ∧
      scan idx b d q (c :: s) =
        if c' = '(' then
          if d + 1 = 0 then (if d = 0 then some idx else b, none)
          else scan (idx + 1) (if d = 0 then some idx else b) (d + 1) q' s
        else if c' = ')' then
          if d - 1 = 0 then (b, some idx) else scan (idx + 1) b (d - 1) q' s
        else scan (idx + 1) b d q' s := by
  rw [scan]
  by_cases hc : c = '"' ∨ c = '\''
  · rw [if_pos hc]
    cases q with
    | none =>
      refine ⟨' ', some c, ?_, ?_, ?_⟩
      · intro k hk; cases hk; exact hc
      · rw [mask, if_pos hc]
      · rw [if_neg (by simp), if_pos rfl]; simp
    | some k =>
      by_cases hk : c = k
      · subst hk
        refine ⟨' ', none, QOk.none, ?_, ?_⟩
        · rw [mask]; simp
        · rw [if_pos rfl]; simp
      · refine ⟨' ', some k, hq, ?_, ?_⟩
        · rw [mask]; simp [hk]
        · rw [if_neg (by simpa using fun h => hk h.symm), if_neg (by simp)]; simp
  · rw [if_neg hc]
    cases q with
    | some k =>
      have hk : c ≠ k := by rintro rfl; exact hc (hq _ rfl)
      refine ⟨' ', some k, hq, ?_, ?_⟩
      · rw [mask]; simp [hk]
      · rw [if_pos (by simp)]; simp
    | none =>
      refine ⟨c, none, QOk.none, ?_, ?_⟩
      · rw [mask, if_neg hc]
      · rw [if_neg (by simp)]

/-- Inside a parenthesis. -/
theorem scan_pos (s : Str) : ∀ (idx : Nat) (b : Option Nat) (d : Nat) (q : Option Char), QOk q → 0 < d →
    scan idx b d q s = (b, (hit d (mask q s)).map (idx + ·)) := by
  induction s with
  | nil => intro idx b d q _ _; simp [scan, mask, hit]
  | cons c s ih =>
    intro idx b d q hq hd
    obtain ⟨c', q', h1, h2, h3⟩ := scan_step idx b d q hq c s
    rw [h3, h2, hit]
    split
    · rw [if_neg (by omega), if_neg (by omega), show (d : Int) + 1 = ((d + 1 : Nat) : Int) by omega,
        ih _ _ _ _ h1 (by omega), map_add_add]
    · split
      · by_cases h : d = 1
        · subst h; simp
        · rw [if_neg (by omega), if_neg h, show (d : Int) - 1 = ((d - 1 : Nat) : Int) by omega,
            ih _ _ _ _ h1 (by omega), map_add_add]
      · rw [ih _ _ _ _ h1 hd, map_add_add]

/-- After an unmatched closing parenthesis nothing is found. -/
theorem scan_neg (s : Str) : ∀ (idx : Nat) (b : Option Nat) (d : Int) (q : Option Char), QOk q → d < 0 →
    scan idx b d q s = (b, none) := by
  induction s with
  | nil => intro idx b d q _ _; simp [scan]
  | cons c s ih =>
    intro idx b d q hq hd
    obtain ⟨c', q', h1, h2, h3⟩ := scan_step idx b d q hq c s
    rw [h3]
    split
    · split
      · rw [if_neg (by omega)]
      · rw [if_neg (by omega), ih _ _ _ _ h1 (by omega)]
    · split
      · rw [if_neg (by omega), ih _ _ _ _ h1 (by omega)]
      · exact ih _ _ _ _ h1 hd

/-- The result in terms of the masked text. -/
def result (idx : Nat) : Str → Option Nat × Option Nat
  | [] => (none, none)
  | c :: s =>
    if c = '(' then (some idx, (hit 1 s).map (idx + 1 + ·))
    else if c = ')' then (none, none)
    else result (idx + 1) s

theorem scan_zero (s : Str) : ∀ (idx : Nat) (q : Option Char), QOk q →
    scan idx none 0 q s = result idx (mask q s) := by
  induction s with
  | nil => intro idx q _; simp [scan, mask, result]
  | cons c s ih =>
    intro idx q hq
    obtain ⟨c', q', h1, h2, h3⟩ := scan_step idx none 0 q hq c s
    rw [h3, h2, result]
    split
    · rw [if_neg (by omega), if_pos rfl, show (0 : Int) + 1 = ((1 : Nat) : Int) by omega,
        scan_pos s _ _ _ _ h1 (by omega)]
    · split
      · rw [if_neg (by omega), scan_neg s _ _ _ _ h1 (by omega)]
      · exact ih _ _ h1

theorem balance_cons (c : Char) (t : Str) :
    balance (c :: t) = balance t + (if c = '(' then 1 else if c = ')' then -1 else 0) := by
  unfold balance
  simp only [List.count_cons, beq_iff_eq]
  by_cases h1 : c = '('
  · subst h1; simp; omega
  · by_cases h2 : c = ')'
    · subst h2; simp; omega
    · simp [h1, h2]

/-- `hit` finds the position where the balance reaches `-d`. -/
theorem hit_spec (s : Str) : ∀ (d : Nat), 0 < d → ∀ j,
    hit d s = some j ↔ (j < s.length ∧ (d : Int) + balance (s.take (j + 1)) = 0 ∧
      ∀ k, k ≤ j → 0 < (d : Int) + balance (s.take k)) := by
  induction s with
  | nil => intro d _ j; simp [hit]
  | cons c s ih =>
    intro d hd j
    have b0 : balance ([] : Str) = 0 := rfl
    -- shift the index
    have shift : ∀ (e : Nat), 0 < e →
        (e : Int) = d + (if c = '(' then 1 else if c = ')' then -1 else 0) →
        ((hit e s).map (· + 1) = some j ↔ (j < (c :: s).length ∧
          (d : Int) + balance ((c :: s).take (j + 1)) = 0 ∧
          ∀ k, k ≤ j → 0 < (d : Int) + balance ((c :: s).take k))) := by
      intro e he hee
      cases j with
      | zero =>
        simp only [Nat.zero_add, List.take_succ_cons, List.take_zero, balance_cons, b0]
        constructor
        · intro h; cases hh : hit e s <;> simp [hh] at h
        · rintro ⟨-, h, -⟩; omega
      | succ j =>
        have : (hit e s).map (· + 1) = some (j + 1) ↔ hit e s = some j := by
          cases hit e s <;> simp
        rw [this, ih e he j]
        constructor
        · rintro ⟨h1, h2, h3⟩
          refine ⟨by simpa using h1, ?_, ?_⟩
          · rw [List.take_succ_cons, balance_cons]; omega
          · intro k hk
            cases k with
            | zero => simp [b0]; omega
            | succ k =>
              rw [List.take_succ_cons, balance_cons]
              have := h3 k (by omega)
              omega
        · rintro ⟨h1, h2, h3⟩
          refine ⟨by simpa using h1, ?_, ?_⟩
          · rw [List.take_succ_cons, balance_cons] at h2; omega
          · intro k hk
            have := h3 (k + 1) (by omega)
            rw [List.take_succ_cons, balance_cons] at this
            omega
    rw [hit]
    by_cases h1 : c = '('
    · rw [if_pos h1]
      exact shift (d + 1) (by omega) (by rw [if_pos h1]; omega)
    · rw [if_neg h1]
      by_cases h2 : c = ')'
      · rw [if_pos h2]
        by_cases hd1 : d = 1
        · rw [if_pos hd1]
          subst hd1 h2
          constructor
          · intro h
            cases h
            refine ⟨by simp, by simp [balance_cons, b0], ?_⟩
            intro k hk
            have : k = 0 := by omega
            subst this; simp [b0]
          · rintro ⟨-, -, h3⟩
            cases j with
            | zero => rfl
            | succ j =>
              have := h3 1 (by omega)
              simp [balance_cons, b0] at this
        · rw [if_neg hd1]
          exact shift (d - 1) (by omega) (by rw [if_neg h1, if_pos h2]; omega)
      · rw [if_neg h2]
        exact shift d hd (by rw [if_neg h1, if_neg h2]; omega)

/-- `result` in terms of the specification. -/
theorem result_spec (t : Str) : ∀ (idx : Nat),
    (∀ i, FirstOpen t i → (result idx t).1 = some (idx + i) ∧
      ∀ j, (result idx t).2 = some (idx + j) ↔ Matching t i j) ∧
    ((¬ ∃ i, FirstOpen t i) → result idx t = (none, none)) ∧
    (∀ e, (result idx t).2 = some e → ∃ j, e = idx + j) := by
  induction t with
  | nil =>
    intro idx
    refine ⟨?_, fun _ => rfl, ?_⟩
    · rintro i ⟨h, -⟩; simp at h
    · intro e h; simp [result] at h
  | cons c t ih =>
    intro idx
    by_cases h1 : c = '('
    · subst h1
      refine ⟨?_, ?_, ?_⟩
      · rintro i ⟨h2, h3⟩
        have hi : i = 0 := by
          cases i with
          | zero => rfl
          | succ i => exact absurd rfl (h3 0 (by omega)).1
        subst hi
        refine ⟨by simp [result], ?_⟩
        intro j
        simp only [result, if_true]
        cases j with
        | zero =>
          constructor
          · intro h
            cases hh : hit 1 t with
            | none => simp [hh] at h
            | some k => simp [hh] at h; omega
          · rintro ⟨h, -⟩; omega
        | succ j =>
          have e : (hit 1 t).map (idx + 1 + ·) = some (idx + (j + 1)) ↔ hit 1 t = some j := by
            cases hit 1 t with
            | none => simp
            | some k => simp; omega
          rw [e, hit_spec t 1 (by omega) j]
          unfold Matching
          simp only [List.drop_zero, List.length_cons, Nat.sub_zero]
          constructor
          · rintro ⟨g1, g2, g3⟩
            refine ⟨by omega, by omega, ?_, ?_⟩
            · rw [List.take_succ_cons, balance_cons]; simp; omega
            · intro k hk hk2
              obtain ⟨k, rfl⟩ : ∃ k', k = k' + 1 := ⟨k - 1, by omega⟩
              rw [List.take_succ_cons, balance_cons]
              have := g3 k (by omega)
              simp; omega
          · rintro ⟨-, g1, g2, g3⟩
            refine ⟨by omega, ?_, ?_⟩
            · rw [List.take_succ_cons, balance_cons] at g2; simp at g2; omega
            · intro k hk
              have := g3 (k + 1) (by omega) (by omega)
              rw [List.take_succ_cons, balance_cons] at this
              simp at this; omega
      · intro h
        exact absurd ⟨0, rfl, by intro k hk; omega⟩ h
      · intro e h
        simp only [result, if_true] at h
        cases hh : hit 1 t with
        | none => simp [hh] at h
        | some k => simp [hh] at h; exact ⟨1 + k, by omega⟩
    · by_cases h2 : c = ')'
      · subst h2
        have er : result idx (')' :: t) = (none, none) := by simp [result]
        refine ⟨?_, fun _ => er, ?_⟩
        · rintro i ⟨h3, h4⟩
          cases i with
          | zero => simp at h3
          | succ i => exact absurd rfl (h4 0 (by omega)).2
        · intro e h; rw [er] at h; cases h
      · have er : result idx (c :: t) = result (idx + 1) t := by simp [result, h1, h2]
        obtain ⟨i1, i2, i3⟩ := ih (idx + 1)
        refine ⟨?_, ?_, ?_⟩
        · rintro i ⟨h3, h4⟩
          cases i with
          | zero => simp at h3; exact absurd h3 h1
          | succ i =>
            have hf : FirstOpen t i := ⟨by simpa using h3, fun k hk => by simpa using h4 (k + 1) (by omega)⟩
            obtain ⟨g1, g2⟩ := i1 i hf
            rw [er]
            refine ⟨by rw [g1]; congr 1; omega, ?_⟩
            intro j
            cases j with
            | zero =>
              constructor
              · intro h
                obtain ⟨j, hj⟩ := i3 _ h
                omega
              · rintro ⟨h, -⟩; omega
            | succ j =>
              rw [show idx + (j + 1) = idx + 1 + j by omega, g2 j]
              unfold Matching
              simp only [List.drop_succ_cons, List.length_cons]
              rw [show j + 1 + 1 - (i + 1) = j + 1 - i by omega]
              constructor
              · rintro ⟨a1, a2, a3, a4⟩
                refine ⟨by omega, by omega, a3, ?_⟩
                intro k hk hk2
                have := a4 (k - 1) (by omega) (by omega)
                rwa [show k - 1 - i = k - (i + 1) by omega] at this
              · rintro ⟨a1, a2, a3, a4⟩
                refine ⟨by omega, by omega, a3, ?_⟩
                intro k hk hk2
                have := a4 (k + 1) (by omega) (by omega)
                rwa [show k + 1 - (i + 1) = k - i by omega] at this
        · intro h
          rw [er]
          apply i2
          rintro ⟨i, h3, h4⟩
          refine h ⟨i + 1, by simpa using h3, ?_⟩
          intro k hk
          cases k with
          | zero => simp [h1, h2]
          | succ k => simpa using h4 k (by omega)
        · intro e h
          rw [er] at h
          obtain ⟨j, hj⟩ := i3 e h
          exact ⟨1 + j, by omega⟩

/-- The text from `start` on, with character literals blanked out. -/
def code (s : Str) (start : Nat) : Str := mask none (s.drop start)

/-- **C26 (found).**  `(b, e)` is returned exactly when, disregarding character literals, the first
parenthesis at or after start is an opening one at `b` and it is closed at `e`.  Missing compared with
C26: with a closing parenthesis before the first opening one nothing is found (`C26_violated`). -/
theorem C26_found_partial (s : Str) (start b e : Nat) :
    balancedParen s start = (some b, some e) ↔
      ∃ i j, b = start + i ∧ e = start + j ∧ FirstOpen (code s start) i ∧
        Matching (code s start) i j := by
  unfold balancedParen code
  rw [scan_zero _ _ _ QOk.none]
  obtain ⟨h1, h2, h3⟩ := result_spec (mask none (s.drop start)) start
  constructor
  · intro h
    by_cases hf : ∃ i, FirstOpen (mask none (s.drop start)) i
    · obtain ⟨i, hf⟩ := hf
      obtain ⟨g1, g2⟩ := h1 i hf
      obtain ⟨j, hj⟩ := h3 e (by rw [h])
      refine ⟨i, j, ?_, hj, hf, (g2 j).1 (by rw [h, hj])⟩
      rw [h] at g1; simpa using g1
    · rw [h2 hf] at h; cases h
  · rintro ⟨i, j, rfl, rfl, hf, hm⟩
    obtain ⟨g1, g2⟩ := h1 i hf
    exact Prod.ext g1 ((g2 j).2 hm)

/-- **C26 (unbalanced).**  `(b, -1)` is returned exactly when the first parenthesis is an opening one
that is never closed. -/
theorem C26_unbalanced (s : Str) (start b : Nat) :
    balancedParen s start = (some b, none) ↔
      ∃ i, b = start + i ∧ FirstOpen (code s start) i ∧ ¬ ∃ j, Matching (code s start) i j := by
  unfold balancedParen code
  rw [scan_zero _ _ _ QOk.none]
  obtain ⟨h1, h2, h3⟩ := result_spec (mask none (s.drop start)) start
  constructor
  · intro h
    by_cases hf : ∃ i, FirstOpen (mask none (s.drop start)) i
    · obtain ⟨i, hf⟩ := hf
      obtain ⟨g1, g2⟩ := h1 i hf
      refine ⟨i, ?_, hf, ?_⟩
      · rw [h] at g1; simpa using g1
      · rintro ⟨j, hj⟩
        have := (g2 j).2 hj
        rw [h] at this; cases this
    · rw [h2 hf] at h; cases h
  · rintro ⟨i, rfl, hf, hm⟩
    obtain ⟨g1, g2⟩ := h1 i hf
    refine Prod.ext g1 ?_
    cases h : (result start (mask none (s.drop start))).2 with
    | none => rfl
    | some e =>
      obtain ⟨j, rfl⟩ := h3 e h
      exact absurd ⟨j, (g2 j).1 h⟩ hm

/-- **C26 (nothing).**  `(-1, -1)` is returned exactly when there is no parenthesis or the first one is
a closing one. -/
theorem C26_none (s : Str) (start : Nat) :
    balancedParen s start = (none, none) ↔ ¬ ∃ i, FirstOpen (code s start) i := by
  unfold balancedParen code
  rw [scan_zero _ _ _ QOk.none]
  obtain ⟨h1, h2, h3⟩ := result_spec (mask none (s.drop start)) start
  constructor
  · rintro h ⟨i, hf⟩
    have := (h1 i hf).1
    rw [h] at this; cases this
  · exact h2

/-- With error=True an exception is raised exactly in the unbalanced case. -/
theorem C26_error (s : Str) (start : Nat) :
    balancedParenErr s start = none ↔ ∃ b, balancedParen s start = (some b, none) := by
  unfold balancedParenErr
  cases h : balancedParen s start with
  | mk a b => cases a <;> cases b <;> simp

/-- A match of an opening parenthesis is not found if an unmatched closing one precedes it: in `)(a)`
the parenthesis opened at 1 is closed at 3, but (-1, -1) is returned (parse_checkers.py:1043-1046). -/
theorem C26_violated :
    (code ")(a)".toList 0)[1]? = some '(' ∧ Matching (code ")(a)".toList 0) 1 3 ∧
      balancedParen ")(a)".toList 0 = (none, none) := by
  refine ⟨by decide, ⟨by decide, by decide, by decide, ?_⟩, by decide⟩
  intro k h1 h2
  have : k = 2 ∨ k = 3 := by omega
  rcases this with rfl | rfl <;> decide

/-- Non-vacuity: nested parentheses and a literal. -/
example : balancedParen "x(f(')'),y) z".toList 0 = (some 1, some 10) := by decide
example : balancedParen "(foo('bar()')".toList 0 = (some 0, none) := by decide

/-! ## C27 -/

theorem fidMatch_iff (s : Str) : fidMatch s = true ↔ IsName s ∨ ∃ t, IsName t ∧ s = t ++ ['\n'] := by
  have wordC : ∀ x : Char, isWordC x = true ↔ (x.isAlphanum = true ∨ x = '_') := by
    intro x; simp [isWordC]
  constructor
  · intro h
    cases s with
    | nil => cases h
    | cons c s =>
      simp only [fidMatch, Bool.and_eq_true, Bool.or_eq_true, beq_iff_eq] at h
      obtain ⟨hc, h⟩ := h
      have e := List.takeWhile_append_dropWhile (p := isWordC) (l := s)
      have hw : ∀ x ∈ s.takeWhile isWordC, x.isAlphanum = true ∨ x = '_' := by
        intro x hx
        have : ∀ (l : Str), x ∈ l.takeWhile isWordC → isWordC x = true := by
          intro l
          induction l with
          | nil => intro h; cases h
          | cons a l ih =>
            intro h
            rw [List.takeWhile_cons] at h
            split at h
            · next ha =>
              rcases List.mem_cons.1 h with rfl | h
              · exact ha
              · exact ih h
            · cases h
        exact (wordC x).1 (this s hx)
      rcases h with h | h
      · left
        rw [h, List.append_nil] at e
        rw [e] at hw
        exact ⟨c, s, rfl, hc, hw⟩
      · right
        rw [h] at e
        exact ⟨c :: s.takeWhile isWordC, ⟨c, _, rfl, hc, hw⟩, by rw [List.cons_append, e]⟩
  · have key : ∀ (c : Char) (cs r : Str), c.isAlpha = true → (∀ x ∈ cs, x.isAlphanum = true ∨ x = '_') →
        (r = [] ∨ r = ['\n']) → fidMatch (c :: cs ++ r) = true := by
      intro c cs r hc hcs hr
      rw [List.cons_append, fidMatch, List.dropWhile_append_of_pos (fun x hx => (wordC x).2 (hcs x hx))]
      rcases hr with rfl | rfl
      · simp [isLetter, hc]
      · simp only [isLetter, hc, Bool.true_and]; decide
    rintro (⟨c, cs, rfl, hc, hcs⟩ | ⟨_, ⟨c, cs, rfl, hc, hcs⟩, rfl⟩)
    · have := key c cs [] hc hcs (Or.inl rfl)
      rwa [List.append_nil] at this
    · exact key c cs ['\n'] hc hcs (Or.inr rfl)

/-- **C27 (Fortran names).**  A text without a final newline is accepted (and returned unchanged)
exactly if it is a legal name and, for a positive maximum length, not longer than that. -/
theorem C27_fortran_id_partial (s : Str) (hs : s.getLast? ≠ some '\n') (error : Bool) (maxLen : Nat) :
    (fortranId s error maxLen = .val s ↔ IsName s ∧ (maxLen = 0 ∨ s.length ≤ maxLen)) ∧
    (fortranId s error maxLen ≠ .val s → fortranId s error maxLen = if error then .raise else .none) := by
  have hm : fidMatch s = true ↔ IsName s := by
    rw [fidMatch_iff]
    constructor
    · rintro (h | ⟨t, -, rfl⟩)
      · exact h
      · simp at hs
    · exact Or.inl
  unfold fortranId
  constructor
  · cases hf : fidMatch s with
    | false =>
      have : ¬ IsName s := by rw [← hm, hf]; simp
      cases error <;> simp [this]
    | true =>
      have hn : IsName s := hm.1 hf
      simp only [hn, true_and]
      split
      · next h => simp at h
      · split
        · next h => cases error <;> simp <;> omega
        · next h => simp; omega
  · intro h
    split
    · rfl
    · next h1 =>
      rw [if_neg h1] at h
      split
      · rfl
      · next h2 => rw [if_neg h2] at h; exact absurd rfl h

/-- An identifier followed by a newline is accepted, newline included (`$` matches before it). -/
theorem C27_newline_violated :
    fortranId "abc\n".toList true 0 = .val "abc\n".toList ∧ ¬ IsName "abc\n".toList := by
  refine ⟨by decide, ?_⟩
  rintro ⟨c, cs, h, -, hcs⟩
  have e : cs = "bc\n".toList := by
    have := List.cons.inj (show ('a' :: "bc\n".toList) = c :: cs from h)
    exact this.2.symm
  have := hcs '\n' (by rw [e]; decide)
  revert this
  decide

/-- **C27 (standard names).**  For ASCII text without a final newline: accepted exactly if it is a
legal name; the lower-case spelling is returned.  The empty text always raises. -/
theorem C27_standard_name_partial (s : Str) (hs : s.getLast? ≠ some '\n') (ha : ∀ c ∈ s, c.val < 128)
    (error : Bool) :
    (IsName s → cfStandardName s error = .val (s.map Char.toLower)) ∧
    (¬ IsName s → s ≠ [] → cfStandardName s error = if error then .raise else .none) ∧
    cfStandardName [] error = .raise := by
  have low : ∀ (t : Str), (∀ c ∈ t, c.val < 128) → cfLower t = t.map Char.toLower := by
    intro t ht
    induction t with
    | nil => rfl
    | cons c t ih =>
      have hc := ht c (by simp)
      have h1 : c ≠ '\u0130' := by rintro rfl; exact absurd hc (by decide)
      have h2 : c ≠ '\u212a' := by rintro rfl; exact absurd hc (by decide)
      have ih := ih (fun x hx => ht x (by simp [hx]))
      simp only [cfLower] at ih ⊢
      simp [h1, h2, ih]
  have lett : ∀ c : Char, c.val < 128 → isCfLetter c = isLetter c := by
    intro c hc
    have h1 : c ≠ '\u0130' := by rintro rfl; exact absurd hc (by decide)
    have h2 : c ≠ '\u212a' := by rintro rfl; exact absurd hc (by decide)
    have h3 : c ≠ '\u0131' := by rintro rfl; exact absurd hc (by decide)
    have h4 : c ≠ '\u017f' := by rintro rfl; exact absurd hc (by decide)
    have e1 := beq_false_of_ne h1
    have e2 := beq_false_of_ne h2
    have e3 := beq_false_of_ne h3
    have e4 := beq_false_of_ne h4
    simp only [isCfLetter, e1, e2, e3, e4, Bool.or_false]
  have chr : ∀ c : Char, c.val < 128 → isCfChar c = isWordC c := by
    intro c hc
    simp [isCfChar, isWordC, lett c hc, isLetter, Char.isAlphanum]
  have dw : ∀ (t : Str), (∀ c ∈ t, c.val < 128) → t.dropWhile isCfChar = t.dropWhile isWordC := by
    intro t ht
    induction t with
    | nil => rfl
    | cons c t ih =>
      rw [List.dropWhile_cons, List.dropWhile_cons, chr c (ht c (by simp)),
        ih (fun x hx => ht x (by simp [hx]))]
  have hcf : cfMatch s = fidMatch s := by
    cases s with
    | nil => rfl
    | cons c t =>
      simp only [cfMatch, fidMatch]
      rw [lett c (ha c (by simp)), dw t (fun x hx => ha x (by simp [hx]))]
  have hm : cfMatch s = true ↔ IsName s := by
    rw [hcf, fidMatch_iff]
    constructor
    · rintro (h | ⟨t, -, rfl⟩)
      · exact h
      · simp at hs
    · exact Or.inl
  refine ⟨?_, ?_, rfl⟩
  all_goals unfold cfStandardName
  · intro hn
    have : s ≠ [] := by obtain ⟨c, cs, rfl, -⟩ := hn; simp
    rw [if_neg this, if_pos (hm.2 hn), low s ha]
  · intro hn hne
    rw [if_neg hne, if_neg (by rw [hm]; exact hn)]

/-- With `(?i)` the class `[a-z]` also matches the long s, so a non-ASCII name is accepted. -/
theorem C27_unicode_violated :
    cfStandardName ['\u017f'] true = .val ['\u017f'] ∧ ¬ IsName ['\u017f'] := by
  refine ⟨by decide, ?_⟩
  rintro ⟨c, cs, h, hc, -⟩
  have := (List.cons.inj h).1
  subst this
  revert hc; decide

/-- Non-vacuity. -/
example : IsName "Agood4_id".toList := ⟨'A', "good4_id".toList, rfl, by decide, by decide⟩
example : fortranId "hi_mom".toList false 5 = .none ∧ fortranId "hi_mom".toList true 6 = .val "hi_mom".toList := by
  decide
example : cfStandardName "Agood4ID".toList true = .val "agood4id".toList := by decide

/-! ## C48: lists -/

/-- Items joined by commas. -/
def joinComma : List Str → Str
  | [] => []
  | [t] => t
  | t :: ts => t ++ ',' :: joinComma ts

theorem splitOn_ne_nil (sep : Char) (s : Str) : splitOn sep s ≠ [] := by
  cases s with
  | nil => simp [splitOn]
  | cons c s =>
    rw [splitOn]
    split
    · simp
    · split <;> simp

theorem splitOn_item (sep : Char) (t : Str) (h : sep ∉ t) : splitOn sep t = [t] := by
  induction t with
  | nil => rfl
  | cons c t ih =>
    rw [splitOn, if_neg (by rintro rfl; exact h (by simp)), ih (fun hm => h (by simp [hm]))]

theorem splitOn_append (sep : Char) (t r : Str) (h : sep ∉ t) :
    splitOn sep (t ++ sep :: r) = t :: splitOn sep r := by
  induction t with
  | nil => simp [splitOn]
  | cons c t ih =>
    rw [List.cons_append, splitOn, if_neg (by rintro rfl; exact h (by simp)),
      ih (fun hm => h (by simp [hm]))]

theorem splitOn_join (ts : List Str) (hne : ts ≠ []) (h : ∀ t ∈ ts, ',' ∉ t) :
    splitOn ',' (joinComma ts) = ts := by
  induction ts with
  | nil => exact absurd rfl hne
  | cons t ts ih =>
    cases ts with
    | nil => exact splitOn_item _ _ (h t (by simp))
    | cons t' ts =>
      rw [joinComma, splitOn_append _ _ _ (h t (by simp)), ih (by simp) (fun x hx => h x (by simp [hx]))]
      simp

theorem mask_plain (s : Str) (h : ∀ c ∈ s, c ≠ '"' ∧ c ≠ '\'') : mask none s = s := by
  induction s with
  | nil => rfl
  | cons c s ih =>
    have hc := h c (by simp)
    rw [mask, if_neg (by simp [hc]), ih (fun x hx => h x (by simp [hx]))]

theorem hit_plain (s r : Str) (h : ∀ c ∈ s, c ≠ '(' ∧ c ≠ ')') : hit 1 (s ++ ')' :: r) = some s.length := by
  induction s with
  | nil => simp [hit]
  | cons c s ih =>
    have hc := h c (by simp)
    rw [List.cons_append, hit, if_neg hc.1, if_neg hc.2, ih (fun x hx => h x (by simp [hx]))]
    simp

/-- A simple item: no comma, parenthesis or quote, and not blank. -/
def Simple (t : Str) : Prop :=
  (∀ c ∈ t, c ≠ ',' ∧ c ≠ '(' ∧ c ≠ ')' ∧ c ≠ '"' ∧ c ≠ '\'') ∧ strip t ≠ []

theorem joinComma_mem {ts : List Str} {c : Char} (h : c ∈ joinComma ts) :
    c = ',' ∨ ∃ t ∈ ts, c ∈ t := by
  induction ts with
  | nil => cases h
  | cons t ts ih =>
    cases ts with
    | nil => exact Or.inr ⟨t, by simp, h⟩
    | cons t' ts =>
      have e : joinComma (t :: t' :: ts) = t ++ ',' :: joinComma (t' :: ts) := by
        rw [joinComma]; simp
      rw [e] at h
      rcases List.mem_append.1 h with h | h
      · exact Or.inr ⟨t, by simp, h⟩
      · rcases List.mem_cons.1 h with h | h
        · exact Or.inl h
        · rcases ih h with h | ⟨u, hu, h⟩
          · exact Or.inl h
          · exact Or.inr ⟨u, List.mem_cons_of_mem _ hu, h⟩

/-- **C48.**  A parenthesised, comma-separated list of simple items yields the items, stripped, in
order.  Missing: items with nested parentheses (`C48_nested_violated`). -/
theorem C48_list_partial (ts : List Str) (hne : ts ≠ []) (h : ∀ t ∈ ts, Simple t) (rest : Str) :
    listMatch ('(' :: joinComma ts ++ ')' :: rest) = some (ts.map strip) := by
  have hb : ∀ c ∈ joinComma ts, c ≠ '(' ∧ c ≠ ')' ∧ c ≠ '"' ∧ c ≠ '\'' := by
    intro c hc
    rcases joinComma_mem hc with rfl | ⟨t, ht, hc⟩
    · decide
    · exact ((h t ht).1 c hc).2
  have hbal : balancedParen ('(' :: joinComma ts ++ ')' :: rest) 0 =
      (some 0, some ((joinComma ts).length + 1)) := by
    have step : ∀ (s : Str), (∀ c ∈ s, c ≠ '(' ∧ c ≠ ')' ∧ c ≠ '"' ∧ c ≠ '\'') → ∀ (idx b : Nat),
        scan idx (some b) 1 none (s ++ ')' :: rest) = (some b, some (idx + s.length)) := by
      intro s
      induction s with
      | nil => intro _ idx b; simp [scan]
      | cons c s ih =>
        intro hs idx b
        have hc := hs c (by simp)
        rw [List.cons_append, scan, if_neg (by simp [hc]), if_neg (by simp), if_neg hc.1, if_neg hc.2.1,
          ih (fun x hx => hs x (by simp [hx]))]
        simp; omega
    rw [balancedParen, List.drop_zero, List.cons_append, scan]
    simp only [Char.reduceEq, or_self, if_false, ne_eq, not_true_eq_false, if_true]
    rw [if_neg (by omega), show (0 : Int) + 1 = 1 by omega, step _ hb]
    simp; omega
  unfold listMatch
  rw [hbal]
  simp only
  rw [if_pos (by omega)]
  have e : (('(' :: joinComma ts ++ ')' :: rest).take ((joinComma ts).length + 1)).drop (0 + 1) =
      joinComma ts := by
    rw [List.cons_append, List.take_succ_cons]
    simp
  rw [e, splitOn_join ts hne (fun t ht hm => ((h t ht).1 ',' hm).1 rfl)]
  rw [if_neg]
  rintro ⟨-, h2⟩
  simp only [List.any_map, List.any_eq_true, Function.comp_apply, List.isEmpty_iff] at h2
  obtain ⟨t, ht, h3⟩ := h2
  exact (h t ht).2 h3

/-- A nested call is torn apart at its commas. -/
theorem C48_nested_violated :
    listMatch "(f(a,b), c)".toList = some ["f(a".toList, "b)".toList, "c".toList] := by decide

/-- A list with a blank item (other than the empty list) is refused. -/
theorem C48_blank_item (ts : List Str) (h : ∀ t ∈ ts, ∀ c ∈ t, c ≠ ',' ∧ c ≠ '(' ∧ c ≠ ')' ∧ c ≠ '"' ∧ c ≠ '\'')
    (hl : 1 < ts.length) (hb : ∃ t ∈ ts, strip t = []) (rest : Str) :
    listMatch ('(' :: joinComma ts ++ ')' :: rest) = none := by
  have hne : ts ≠ [] := by rintro rfl; simp at hl
  unfold listMatch
  have hb' : ∀ c ∈ joinComma ts, c ≠ '(' ∧ c ≠ ')' ∧ c ≠ '"' ∧ c ≠ '\'' := by
    intro c hc
    rcases joinComma_mem hc with rfl | ⟨t, ht, hc⟩
    · decide
    · exact (h t ht c hc).2
  split
  · next b e hbe =>
    split
    · have : balancedParen ('(' :: joinComma ts ++ ')' :: rest) 0 =
          (some 0, some ((joinComma ts).length + 1)) := by
        have step : ∀ (s : Str), (∀ c ∈ s, c ≠ '(' ∧ c ≠ ')' ∧ c ≠ '"' ∧ c ≠ '\'') → ∀ (idx b : Nat),
            scan idx (some b) 1 none (s ++ ')' :: rest) = (some b, some (idx + s.length)) := by
          intro s
          induction s with
          | nil => intro _ idx b; simp [scan]
          | cons c s ih =>
            intro hs idx b
            have hc := hs c (by simp)
            rw [List.cons_append, scan, if_neg (by simp [hc]), if_neg (by simp), if_neg hc.1,
              if_neg hc.2.1, ih (fun x hx => hs x (by simp [hx]))]
            simp; omega
        rw [balancedParen, List.drop_zero, List.cons_append, scan]
        simp only [Char.reduceEq, or_self, if_false, ne_eq, not_true_eq_false, if_true]
        rw [if_neg (by omega), show (0 : Int) + 1 = 1 by omega, step _ hb']
        simp; omega
      rw [this] at hbe
      cases hbe
      have e : (('(' :: joinComma ts ++ ')' :: rest).take ((joinComma ts).length + 1)).drop (0 + 1) =
          joinComma ts := by
        rw [List.cons_append, List.take_succ_cons]
        simp
      simp only
      rw [e, splitOn_join ts hne (fun t ht hm => (h t ht ',' hm).1 rfl), if_pos]
      refine ⟨by simpa using hl, ?_⟩
      obtain ⟨t, ht, h3⟩ := hb
      simp only [List.any_map, List.any_eq_true, Function.comp_apply, List.isEmpty_iff]
      exact ⟨t, ht, h3⟩
    · rfl
  · rfl

example : Simple " foo".toList ∧ Simple "bar:baz".toList := by
  refine ⟨⟨by decide, by decide⟩, ⟨by decide, by decide⟩⟩

/-! ## C49, C50: the error flag and dimensions -/

/-- The verdict does not depend on the error flag: with error=True the checker raises exactly where it
returns None (or raises) without, and otherwise returns the same value. -/
def FlagConsistent {α : Type} (f : Bool → Res α) : Prop :=
  (∀ a, f true = .val a ↔ f false = .val a) ∧ (f true = .none → False) 

/-- **C49.**  check_fortran_id and check_cf_standard_name give the same verdict with and without the
error flag. -/
theorem C49_flag_partial (s : Str) (maxLen : Nat) :
    FlagConsistent (fun e => fortranId s e maxLen) ∧ FlagConsistent (fun e => cfStandardName s e) := by
  refine ⟨⟨fun a => ?_, ?_⟩, ⟨fun a => ?_, ?_⟩⟩
  · simp only [fortranId]
    split
    · simp
    · split <;> simp
  · simp only [fortranId]
    split
    · simp
    · split <;> simp
  · simp only [cfStandardName]
    split
    · simp
    · split <;> simp
  · simp only [cfStandardName]
    split
    · simp
    · split <;> simp

/-- check_dimensions: `size(foo)` is accepted without the error flag and refused with it, and an
unbalanced `size(foo` raises even without it. -/
theorem C49_dimensions_violated :
    dimensions ["size(foo)".toList] false 0 = .val ["size(foo)".toList] ∧
    dimensions ["size(foo)".toList] true 0 = .raise ∧
    dimensions ["size(foo".toList] false 0 = .raise := by decide

/-- No part of the dimension starts with `size`. -/
def NoSize (d : Str) : Prop := ∀ t ∈ splitOn ':' d, (lower (strip (strip t))).take 4 ≠ "size".toList

/-- The verdicts with and without the error flag belong together. -/
def Agree (t f : Res Bool) : Prop :=
  (t = .val true ∧ f = .val true) ∨ (t = .raise ∧ f = .val false)

theorem dimItems_false (maxLen : Nat) (ds : List Str)
    (h : ∀ d ∈ ds, dimComponents false maxLen (((splitOn ':' d).filter (!·.isEmpty)).map strip) =
      .val true ∨ dimComponents false maxLen (((splitOn ':' d).filter (!·.isEmpty)).map strip) =
      .val false) : dimItems false maxLen false ds = .val false := by
  induction ds with
  | nil => rfl
  | cons d ds ih =>
    have ih := ih (fun x hx => h x (by simp [hx]))
    rw [dimItems]
    split
    · simp
    · rcases h d (by simp) with h | h <;> rw [h] <;> exact ih

/-- **C49 (check_dimensions).**  Without parts that start with `size` the flag does not change the
verdict. -/
theorem C49_dimensions_partial (dims : List Str) (maxLen : Nat) (hs : ∀ d ∈ dims, NoSize d) :
    FlagConsistent (fun e => dimensions dims e maxLen) := by
  have comp : ∀ t, (lower (strip t)).take 4 ≠ "size".toList →
      Agree (dimComponent t true maxLen) (dimComponent t false maxLen) := by
    intro t ht
    unfold dimComponent fortranId
    rw [if_neg ht]
    cases h1 : isPyInt t with
    | true => exact Or.inl ⟨rfl, rfl⟩
    | false =>
      simp only [Bool.false_eq_true, if_false]
      cases h2 : fidMatch t with
      | false => exact Or.inr ⟨rfl, by simp⟩
      | true =>
        simp only [Bool.true_eq_false, if_false]
        by_cases h3 : maxLen > 0 ∧ t.length > maxLen
        · simp only [h3, and_self, if_true]; exact Or.inr ⟨rfl, rfl⟩
        · simp only [h3, if_false]; exact Or.inl ⟨rfl, rfl⟩
  have comps : ∀ ts : List Str, (∀ t ∈ ts, (lower (strip t)).take 4 ≠ "size".toList) →
      Agree (dimComponents true maxLen ts) (dimComponents false maxLen ts) := by
    intro ts hts
    induction ts with
    | nil => exact Or.inl ⟨rfl, rfl⟩
    | cons t ts ih =>
      have ih := ih (fun x hx => hts x (by simp [hx]))
      rcases comp t (hts t (by simp)) with ⟨a, b⟩ | ⟨a, b⟩
      · rw [dimComponents, dimComponents, a, b]; exact ih
      · rw [dimComponents, dimComponents, a, b]; exact Or.inr ⟨rfl, by simp⟩
  have one : ∀ d : Str, NoSize d →
      Agree (dimComponents true maxLen (((splitOn ':' d).filter (!·.isEmpty)).map strip))
        (dimComponents false maxLen (((splitOn ':' d).filter (!·.isEmpty)).map strip)) := by
    intro d hd
    apply comps
    intro t ht
    obtain ⟨u, hu, rfl⟩ := List.mem_map.1 ht
    exact hd u (List.mem_filter.1 hu).1
  have items : ∀ ds : List Str, (∀ d ∈ ds, NoSize d) →
      Agree (dimItems true maxLen true ds) (dimItems false maxLen true ds) := by
    intro ds hds
    induction ds with
    | nil => exact Or.inl ⟨rfl, rfl⟩
    | cons d ds ih =>
      have ih := ih (fun x hx => hds x (by simp [hx]))
      rw [dimItems, dimItems]
      split
      · exact Or.inr ⟨rfl, rfl⟩
      · rcases one d (hds d (by simp)) with ⟨a, b⟩ | ⟨a, b⟩
        · rw [a, b]; exact ih
        · rw [a, b]
          refine Or.inr ⟨rfl, dimItems_false maxLen ds (fun x hx => ?_)⟩
          rcases one x (hds x (by simp [hx])) with ⟨_, b⟩ | ⟨_, b⟩
          · exact Or.inl b
          · exact Or.inr b
  unfold FlagConsistent dimensions
  dsimp only
  rcases items dims hs with ⟨a, b⟩ | ⟨a, b⟩
  · rw [a, b]; simp
  · rw [a, b]; simp

example : FlagConsistent (fun e => dimensions ["a:b".toList, "1%x".toList, "3".toList] e 0) :=
  C49_dimensions_partial _ _ (by unfold NoSize; decide)

theorem digitGroups_iff (s : Str) : digitGroups s = true ↔ DigitSeq s := by
  constructor
  · induction s using digitGroups.induct with
    | case1 => intro h; cases h
    | case2 c => intro h; exact .one (by simpa [digitGroups] using h)
    | case3 c s ih =>
      intro h
      simp only [digitGroups, Bool.and_eq_true] at h
      exact .underscore h.1 (ih h.2)
    | case4 c s h1 h2 ih =>
      intro h
      rw [digitGroups] at h
      · simp only [Bool.and_eq_true] at h
        exact .more h.1 (ih h.2)
      · exact h1
      · exact h2
  · intro h
    induction h with
    | one h => simpa [digitGroups] using h
    | @more c s hc hs ih =>
      cases s with
      | nil => cases hs
      | cons x xs =>
        by_cases hx : x = '_'
        · subst hx
          exfalso
          cases hs with
          | one h => revert h; decide
          | more h _ => revert h; decide
          | underscore h _ => revert h; decide
        · rw [digitGroups]
          · simp [hc, ih]
          · simp
          · intro s' e; simp only [List.cons.injEq] at e; exact absurd e.1 hx
    | underscore hc _ ih => simp [digitGroups, hc, ih]

theorem isPyInt_iff (s : Str) : isPyInt s = true ↔ IsInt s := by
  unfold IsInt
  have nd : ∀ (c : Char) (t : Str), c.isDigit = false → ¬ DigitSeq (c :: t) := by
    intro c t hc h
    cases h with
    | one h => rw [hc] at h; cases h
    | more h _ => rw [hc] at h; cases h
    | underscore h _ => rw [hc] at h; cases h
  unfold isPyInt
  split
  · next t =>
    rw [digitGroups_iff]
    constructor
    · intro h; exact Or.inr ⟨t, Or.inl rfl, h⟩
    · rintro (h | ⟨t', h1 | h1, h⟩)
      · exact absurd h (nd _ _ (by decide))
      · cases h1; exact h
      · simp at h1
  · next t =>
    rw [digitGroups_iff]
    constructor
    · intro h; exact Or.inr ⟨t, Or.inr rfl, h⟩
    · rintro (h | ⟨t', h1 | h1, h⟩)
      · exact absurd h (nd _ _ (by decide))
      · simp at h1
      · cases h1; exact h
  · next h1 h2 =>
    rw [digitGroups_iff]
    constructor
    · exact Or.inl
    · rintro (h | ⟨t', h3 | h3, h⟩)
      · exact h
      · exact absurd h3 (h1 t')
      · exact absurd h3 (h2 t')

theorem strip_noNewline (t : Str) : (strip t).getLast? ≠ some '\n' := by
  have h : ∀ (u : Str) , (∀ x, (rstrip u).getLast? = some x → isWs x = false) := by
    intro u x hx
    unfold rstrip at hx
    rw [List.getLast?_reverse] at hx
    have := List.head?_dropWhile_not isWs u.reverse
    rw [hx] at this
    simpa using this
  intro he
  unfold strip lstrip at he
  have hsuf : (List.dropWhile isWs (rstrip t)) <:+ rstrip t := List.dropWhile_suffix _
  obtain ⟨a, ha⟩ := hsuf
  have : (rstrip t).getLast? = some '\n' := by
    rw [← ha, List.getLast?_append, he]; rfl
  have := h t _ this
  revert this; decide

/-- A component of a dimension: an integer or a name of at most maxLen characters. -/
def ComponentOk (maxLen : Nat) (t : Str) : Prop :=
  isPyInt t = true ∨ (fidMatch t = true ∧ (maxLen = 0 ∨ t.length ≤ maxLen))

/-- With the error flag, a list of dimensions is accepted exactly if each of them has at most
two colons and every non-empty part between them is (after stripping) an integer or a name that is not
too long; otherwise an exception is raised. -/
theorem dimensions_aux (dims : List Str) (maxLen : Nat) :
    (dimensions dims true maxLen = .val dims ↔
      ∀ d ∈ dims, (splitOn ':' d).length ≤ 3 ∧
        ∀ t ∈ splitOn ':' d, t ≠ [] → ComponentOk maxLen (strip t)) ∧
    (dimensions dims true maxLen ≠ .val dims → dimensions dims true maxLen = .raise) := by
  have comp : ∀ t, dimComponent t true maxLen = .val true ↔ ComponentOk maxLen t := by
    intro t
    unfold dimComponent ComponentOk fortranId
    cases h1 : isPyInt t with
    | true => simp
    | false =>
      simp only [Bool.false_eq_true, if_false, false_or]
      cases h2 : fidMatch t with
      | false => simp
      | true =>
        simp only [Bool.true_eq_false, if_false, true_and]
        by_cases h3 : maxLen > 0 ∧ t.length > maxLen
        · simp [h3]; omega
        · simp only [h3, if_false, true_iff]; omega
  have comp' : ∀ t, dimComponent t true maxLen = .val true ∨ dimComponent t true maxLen = .raise := by
    intro t
    unfold dimComponent fortranId
    split
    · exact Or.inl rfl
    · split
      · exact Or.inr rfl
      · exact Or.inl rfl
      · next h =>
        exfalso
        split at h
        · simp at h
        · split at h <;> simp at h
  have comps : ∀ ts, (dimComponents true maxLen ts = .val true ↔ ∀ t ∈ ts, ComponentOk maxLen t) ∧
      (dimComponents true maxLen ts = .val true ∨ dimComponents true maxLen ts = .raise) := by
    intro ts
    induction ts with
    | nil => simp [dimComponents]
    | cons t ts ih =>
      have hc := comp t
      rcases comp' t with h | h
      · simp only [dimComponents, h, List.mem_cons, forall_eq_or_imp, hc.1 h, true_and]
        exact ih
      · have : ¬ ComponentOk maxLen t := by rw [← hc, h]; simp
        simp [dimComponents, h, this]
  have items : ∀ ds, (dimItems true maxLen true ds = .val true ↔
      ∀ d ∈ ds, (splitOn ':' d).length ≤ 3 ∧
        ∀ t ∈ splitOn ':' d, t ≠ [] → ComponentOk maxLen (strip t)) ∧
      (dimItems true maxLen true ds = .val true ∨ dimItems true maxLen true ds = .raise) := by
    intro ds
    induction ds with
    | nil => simp [dimItems]
    | cons d ds ih =>
      rw [dimItems]
      simp only [if_true]
      by_cases hl : (splitOn ':' d).length > 3
      · rw [if_pos hl]
        simp; omega
      · rw [if_neg hl]
        obtain ⟨c1, c2⟩ := comps (((splitOn ':' d).filter (!·.isEmpty)).map strip)
        have c3 : (∀ t ∈ ((splitOn ':' d).filter (!·.isEmpty)).map strip, ComponentOk maxLen t) ↔
            ∀ t ∈ splitOn ':' d, t ≠ [] → ComponentOk maxLen (strip t) := by
          simp only [List.mem_map, List.mem_filter, Bool.not_eq_true', List.isEmpty_eq_false_iff,
            forall_exists_index, and_imp]
          constructor
          · intro h t ht hne; exact h _ t ht hne rfl
          · rintro h _ t ht hne rfl; exact h t ht hne
        rw [c3] at c1
        rcases c2 with c2 | c2
        · rw [c2]
          simp only [List.mem_cons, forall_eq_or_imp]
          refine ⟨?_, ih.2⟩
          rw [ih.1]
          constructor
          · intro h; exact ⟨⟨by omega, c1.1 c2⟩, h⟩
          · rintro ⟨-, h⟩; exact h
        · rw [c2]
          refine ⟨?_, Or.inr rfl⟩
          constructor
          · intro h; cases h
          · intro h
            have := c1.2 (h d (by simp)).2
            rw [c2] at this; cases this
  unfold dimensions
  obtain ⟨i1, i2⟩ := items dims
  rcases i2 with h | h
  · rw [h]; simp only; exact ⟨by simp only [true_iff]; exact i1.1 h, by simp⟩
  · rw [h]; simp only
    refine ⟨⟨fun hh => (by cases hh), fun hh => ?_⟩, fun _ => trivial⟩
    have := i1.2 hh
    rw [h] at this; cases this

theorem componentOk_iff (maxLen : Nat) (t : Str) :
    ComponentOk maxLen (strip t) ↔ DimPart maxLen (strip t) := by
  unfold ComponentOk DimPart
  rw [isPyInt_iff, fidMatch_iff]
  have : (∃ u, IsName u ∧ strip t = u ++ ['\n']) → False := by
    rintro ⟨u, -, h⟩
    exact strip_noNewline t (by rw [h]; simp)
  constructor
  · rintro (h | ⟨h | h, h'⟩)
    · exact Or.inl h
    · exact Or.inr ⟨h, h'⟩
    · exact absurd h this
  · rintro (h | ⟨h, h'⟩)
    · exact Or.inl h
    · exact Or.inr ⟨Or.inl h, h'⟩

/-- **C50.**  With the error flag, a list of dimensions is accepted exactly if each of them has at most
two colons and every non-empty part between them is (after stripping) an integer or a name that is not
too long; otherwise an exception is raised. -/
theorem C50_dimensions (dims : List Str) (maxLen : Nat) :
    (dimensions dims true maxLen = .val dims ↔
      ∀ d ∈ dims, (splitOn ':' d).length ≤ 3 ∧
        ∀ t ∈ splitOn ':' d, t ≠ [] → DimPart maxLen (strip t)) ∧
    (dimensions dims true maxLen ≠ .val dims → dimensions dims true maxLen = .raise) := by
  have := dimensions_aux dims maxLen
  simpa only [componentOk_iff] using this

/-- The parts of a dimension: its text cut at the colons. -/
theorem C50_parts (d : Str) : ∃ ts, splitOn ':' d = ts ∧ ts ≠ [] ∧ (∀ t ∈ ts, ':' ∉ t) ∧
    d = [':'].intercalate ts := by
  refine ⟨_, rfl, splitOn_ne_nil _ _, ?_, ?_⟩
  · induction d with
    | nil => simp [splitOn]
    | cons c d ih =>
      rw [splitOn]
      split
      · intro t ht
        rcases List.mem_cons.1 ht with rfl | ht
        · simp
        · exact ih t ht
      · next hc =>
        split
        · next h => exact absurd h (splitOn_ne_nil _ _)
        · next u us h =>
          rw [h] at ih
          intro t ht
          rcases List.mem_cons.1 ht with rfl | ht
          · intro hm
            rcases List.mem_cons.1 hm with e | hm
            · exact hc e.symm
            · exact ih u (by simp) hm
          · exact ih t (by simp [ht])
  · induction d with
    | nil => rfl
    | cons c d ih =>
      rw [splitOn]
      split
      · next hc =>
        subst hc
        cases h : splitOn ':' d with
        | nil => exact absurd h (splitOn_ne_nil _ _)
        | cons u us =>
          rw [h] at ih
          rw [ih]
          simp [List.intercalate, List.intersperse]
      · split
        · next h => exact absurd h (splitOn_ne_nil _ _)
        · next u us h =>
          rw [h] at ih
          rw [ih]
          cases us <;> simp [List.intercalate, List.intersperse]

example : dimensions ["a:b".toList, "1 :".toList, "::n".toList] true 0 =
    .val ["a:b".toList, "1 :".toList, "::n".toList] := by decide

end Ccpp.Chk
