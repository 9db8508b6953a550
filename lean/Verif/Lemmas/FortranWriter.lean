import Verif.Spec.FortranWriter
/-! # Lemmas about the Fortran writer -/
namespace Ccpp.FW

/-! ## Break points -/

theorem maxOf_mem {l : List Nat} (h : l ≠ []) : maxOf l ∈ l := by
  induction l with
  | nil => exact absurd rfl h
  | cons x xs ih =>
    simp only [maxOf]
    by_cases hx : xs = []
    · subst hx; simp [maxOf]
    · have := ih hx
      rcases Nat.le_total x (maxOf xs) with hle | hle
      · rw [show Nat.max x (maxOf xs) = maxOf xs from Nat.max_eq_right hle]
        exact List.mem_cons_of_mem _ this
      · rw [show Nat.max x (maxOf xs) = x from Nat.max_eq_left hle]
        exact List.mem_cons_self

theorem breakBelow_cases (c : Cfg) (ch : List Nat) (last : Nat) :
    (breakBelow c ch last ∈ ch ∧ 0 < breakBelow c ch last ∧ breakBelow c ch last < last) ∨
    (breakBelow c ch last = c.max + 1 ∧ ∀ x ∈ ch, ¬ (0 < x ∧ x < last)) := by
  unfold breakBelow
  by_cases h : ch.filter (fun x => decide (0 < x) && decide (x < last)) = []
  · right
    refine ⟨by simp only [h, List.isEmpty_nil, if_true], ?_⟩
    intro x hx hc
    have : x ∈ ch.filter (fun x => decide (0 < x) && decide (x < last)) := by
      rw [List.mem_filter]; exact ⟨hx, by simp [hc.1, hc.2]⟩
    rw [h] at this; cases this
  · left
    have hm := maxOf_mem h
    have he : (ch.filter (fun x => decide (0 < x) && decide (x < last))).isEmpty = false := by
      simpa [List.isEmpty_iff] using h
    simp only [he, Bool.false_eq_true, if_false]
    rw [List.mem_filter] at hm
    simp at hm
    exact ⟨hm.1, hm.2.1, hm.2.2⟩

theorem findBestBreak_cases (c : Cfg) (hf : c.fill < c.max) (ch : List Nat) :
    (findBestBreak c ch ∈ ch ∧ 0 < findBestBreak c ch ∧ findBestBreak c ch < c.max) ∨
    (findBestBreak c ch = c.max + 1 ∧ ∀ x ∈ ch, ¬ (0 < x ∧ x < c.max)) := by
  unfold findBestBreak
  rcases breakBelow_cases c ch c.fill with ⟨h1, h2, h3⟩ | ⟨h1, h2⟩
  · left
    rw [if_neg (by omega)]
    exact ⟨h1, h2, by omega⟩
  · rw [if_pos (by omega)]
    exact breakBelow_cases c ch c.max

/-- The chosen break is a candidate below line_max, or there is none and it is line_max - 1. -/
theorem bestBreak_cases (c : Cfg) (hf : c.fill < c.max) (S K : List Nat) :
    ((bestBreak c S K ∈ S ∨ bestBreak c S K ∈ K) ∧ 0 < bestBreak c S K ∧
      bestBreak c S K < c.max) ∨
    (bestBreak c S K = c.max - 1 ∧ ∀ x, x ∈ S ∨ x ∈ K → ¬ (0 < x ∧ x < c.max)) := by
  unfold bestBreak
  rcases findBestBreak_cases c hf S with ⟨h1, h2, h3⟩ | ⟨h1, h2⟩
  · left
    by_cases hb : findBestBreak c S ≥ c.fill
    · simp only [hb, if_true]
      rcases findBestBreak_cases c hf K with ⟨k1, k2, k3⟩ | ⟨k1, k2⟩
      · rcases Nat.le_total (findBestBreak c S) (findBestBreak c K) with hle | hle
        · rw [show Nat.min (findBestBreak c S) (findBestBreak c K) = findBestBreak c S from
            Nat.min_eq_left hle, if_neg (by omega)]
          exact ⟨Or.inl h1, h2, h3⟩
        · rw [show Nat.min (findBestBreak c S) (findBestBreak c K) = findBestBreak c K from
            Nat.min_eq_right hle, if_neg (by omega)]
          exact ⟨Or.inr k1, k2, k3⟩
      · rw [show Nat.min (findBestBreak c S) (findBestBreak c K) = findBestBreak c S from
            Nat.min_eq_left (by omega), if_neg (by omega)]
        exact ⟨Or.inl h1, h2, h3⟩
    · simp only [hb, if_false]
      rw [if_neg (by omega)]
      exact ⟨Or.inl h1, h2, h3⟩
  · have hb : findBestBreak c S ≥ c.fill := by omega
    simp only [hb, if_true]
    rcases findBestBreak_cases c hf K with ⟨k1, k2, k3⟩ | ⟨k1, k2⟩
    · left
      rw [show Nat.min (findBestBreak c S) (findBestBreak c K) = findBestBreak c K from
            Nat.min_eq_right (by omega), if_neg (by omega)]
      exact ⟨Or.inr k1, k2, k3⟩
    · right
      rw [show Nat.min (findBestBreak c S) (findBestBreak c K) = findBestBreak c S from
            Nat.min_eq_left (by omega), if_pos (by omega)]
      refine ⟨rfl, ?_⟩
      rintro x (hx | hx)
      · exact h2 x hx
      · exact k2 x hx

theorem bestBreak_lt (c : Cfg) (hm : 0 < c.max) (S K : List Nat) : bestBreak c S K < c.max := by
  unfold bestBreak
  dsimp only
  generalize (if findBestBreak c S ≥ c.fill then (findBestBreak c S).min (findBestBreak c K)
    else findBestBreak c S) = b
  split <;> omega

/-! ## The scan -/

/-- Exactly the unquoted blanks, commas and double slashes are candidates. -/
theorem scan_mem (c : Cfg) (cur : Str) : ∀ (p : Nat) (q : Q),
    (∀ a ch b, cur = a ++ ch :: b → a.foldl Q.step q = .out → ch ≠ '!') →
    (scan c false p q cur).comment = false ∧
    (∀ x, x ∈ (scan c false p q cur).spaces ↔
      ∃ j, x = p + j ∧ cur[j]? = some ' ' ∧ (cur.take j).foldl Q.step q = .out) ∧
    (∀ x, x ∈ (scan c false p q cur).commas ↔
      (∃ j, x = p + j ∧ cur[j]? = some ',' ∧ (cur.take j).foldl Q.step q = .out) ∨
      (∃ j, x = p + j + 1 ∧ cur[j]? = some '/' ∧ cur[j+1]? = some '/' ∧
        (cur.take j).foldl Q.step q = .out)) := by
  induction cur with
  | nil => intro p q _; simp [scan]
  | cons ch cur ih =>
    intro p q hnc
    have hnc' : ∀ a ch' b, cur = a ++ ch' :: b → a.foldl Q.step (q.step ch) = .out → ch' ≠ '!' := by
      intro a ch' b hc ha
      exact hnc (ch :: a) ch' b (by rw [hc]; rfl) ha
    obtain ⟨i1, i2, i3⟩ := ih (p + 1) (q.step ch) hnc'
    have shift : ∀ (P : Nat → Prop) , (∃ j, P j) ↔ (P 0 ∨ ∃ j, P (j + 1)) := by
      intro P
      constructor
      · rintro ⟨j, h⟩
        cases j with
        | zero => exact Or.inl h
        | succ j => exact Or.inr ⟨j, h⟩
      · rintro (h | ⟨j, h⟩)
        · exact ⟨0, h⟩
        · exact ⟨j + 1, h⟩
    have e1 : ∀ x, (∃ j, x = p + j ∧ (ch :: cur)[j]? = some ' ' ∧
        ((ch :: cur).take j).foldl Q.step q = .out) ↔
        ((x = p ∧ ch = ' ' ∧ q = .out) ∨ ∃ j, x = p + 1 + j ∧ cur[j]? = some ' ' ∧
          (cur.take j).foldl Q.step (q.step ch) = .out) := by
      intro x
      rw [shift]
      simp [Nat.add_comm, Nat.add_left_comm]
    have e2 : ∀ x, (∃ j, x = p + j ∧ (ch :: cur)[j]? = some ',' ∧
        ((ch :: cur).take j).foldl Q.step q = .out) ↔
        ((x = p ∧ ch = ',' ∧ q = .out) ∨ ∃ j, x = p + 1 + j ∧ cur[j]? = some ',' ∧
          (cur.take j).foldl Q.step (q.step ch) = .out) := by
      intro x
      rw [shift]
      simp [Nat.add_comm, Nat.add_left_comm]
    have e3 : ∀ x, (∃ j, x = p + j + 1 ∧ (ch :: cur)[j]? = some '/' ∧ (ch :: cur)[j+1]? = some '/' ∧
        ((ch :: cur).take j).foldl Q.step q = .out) ↔
        ((x = p + 1 ∧ ch = '/' ∧ cur.head? = some '/' ∧ q = .out) ∨
          ∃ j, x = p + 1 + j + 1 ∧ cur[j]? = some '/' ∧ cur[j+1]? = some '/' ∧
          (cur.take j).foldl Q.step (q.step ch) = .out) := by
      intro x
      rw [shift]
      simp [Nat.add_comm, Nat.add_left_comm, List.head?_eq_getElem?]
    simp only [e1, e2, e3]
    rw [scan.eq_def]
    cases q with
    | sq => 
      simp only [Q.step] at i1 i2 i3
      refine ⟨i1, fun x => ?_, fun x => ?_⟩
      · rw [i2]; simp [Q.step]
      · rw [i3]; simp [Q.step]
    | dq =>
      simp only [Q.step] at i1 i2 i3
      refine ⟨i1, fun x => ?_, fun x => ?_⟩
      · rw [i2]; simp [Q.step]
      · rw [i3]; simp [Q.step]
    | out =>
      have hb : ch ≠ '!' := hnc [] ch cur rfl rfl
      simp only [Q.step] at i1 i2 i3
      dsimp only
      by_cases h1 : ch = '\''
      · subst h1
        simp only [if_true] at i1 i2 i3 ⊢
        refine ⟨i1, fun x => ?_, fun x => ?_⟩
        · rw [i2]; simp [Q.step]
        · rw [i3]; simp [Q.step]
      rw [if_neg h1] at i1 i2 i3 ⊢
      by_cases h2 : ch = '"'
      · subst h2
        simp only [if_true] at i1 i2 i3 ⊢
        refine ⟨i1, fun x => ?_, fun x => ?_⟩
        · rw [i2]; simp [Q.step]
        · rw [i3]; simp [Q.step]
      rw [if_neg h2] at i1 i2 i3 ⊢
      rw [if_neg hb]
      have hq : Q.step .out ch = .out := by simp [Q.step, h1, h2]
      rw [hq]
      by_cases h3 : ch = ' '
      · subst h3
        simp only [if_true]
        refine ⟨i1, fun x => ?_, fun x => ?_⟩
        · rw [List.mem_cons, i2]; simp
        · rw [i3]; simp
      rw [if_neg h3]
      by_cases h4 : ch = ','
      · subst h4
        simp only [if_true]
        refine ⟨i1, fun x => ?_, fun x => ?_⟩
        · rw [i2]; simp
        · rw [List.mem_cons, i3]; simp [or_assoc]
      rw [if_neg h4]
      by_cases h5 : ch = '/' ∧ cur.head? = some '/'
      · rw [if_pos h5]
        refine ⟨i1, fun x => ?_, fun x => ?_⟩
        · rw [i2]; simp [h3]
        · rw [List.mem_cons, i3]; simp [h5]
          constructor
          · rintro (h | h | h)
            · exact Or.inr (Or.inl h)
            · exact Or.inl h
            · exact Or.inr (Or.inr h)
          · rintro (h | h | h)
            · exact Or.inr (Or.inl h)
            · exact Or.inl h
            · exact Or.inr (Or.inr h)
      · rw [if_neg h5]
        refine ⟨i1, fun x => ?_, fun x => ?_⟩
        · rw [i2]; simp [h3]
        · rw [i3]; simp [h4]
          constructor
          · rintro (h | h)
            · exact Or.inl h
            · exact Or.inr (Or.inr h)
          · rintro (h | h | h)
            · exact Or.inl h
            · exact absurd ⟨h.2.1, h.2.2⟩ h5
            · exact Or.inr h

/-! ## Reading back -/

theorem normFrom_append (st : LexSt) (a b : Str) :
    normFrom st (a ++ b) = normFrom st a ++ normFrom (st.after a) b := by
  induction a generalizing st with
  | nil => rfl
  | cons ch a ih => simp [normFrom, ih, LexSt.after, List.append_assoc]

theorem after_append (st : LexSt) (a b : Str) : st.after (a ++ b) = (st.after a).after b := by
  simp [LexSt.after]

/-- White space is dropped where it does not matter. -/
theorem after_ws {st : LexSt} (hq : st.q = .out) (hs : st.sep = true) {a : Str}
    (ha : ∀ ch ∈ a, isWs ch = true) : st.after a = st ∧ normFrom st a = [] := by
  induction a with
  | nil => exact ⟨rfl, rfl⟩
  | cons ch a ih =>
    have h1 : isWs ch = true := ha ch List.mem_cons_self
    have h2 : st.step ch = st := by simp [LexSt.step, hq, h1, hs]
    obtain ⟨i1, i2⟩ := ih (fun x hx => ha x (List.mem_cons_of_mem _ hx))
    refine ⟨?_, ?_⟩
    · simp only [LexSt.after, List.foldl_cons, h2]; exact i1
    · simp [normFrom, LexSt.emit, hq, h1, hs, h2, i2]

theorem isWs_not_quote {ch : Char} (h : isWs ch = true) : ch ≠ '\'' ∧ ch ≠ '"' ∧ ch ≠ '!' ∧
    ch ≠ '&' ∧ ch ≠ ',' ∧ ch ≠ '/' := by
  refine ⟨?_, ?_, ?_, ?_, ?_, ?_⟩ <;> (rintro rfl; revert h; decide)

theorem step_q (st : LexSt) (ch : Char) : (st.step ch).q = st.q.step ch := by
  unfold LexSt.step
  split
  · next h =>
    obtain ⟨h1, h2⟩ := h
    obtain ⟨h3, h4, -⟩ := isWs_not_quote h2
    split <;> simp [h1, Q.step, h3, h4]
  · rfl

theorem after_q (st : LexSt) (s : Str) : (st.after s).q = s.foldl Q.step st.q := by
  induction s generalizing st with
  | nil => rfl
  | cons ch s ih => simp only [LexSt.after, List.foldl_cons] at ih ⊢; rw [ih, step_q]

theorem foldl_ws {a : Str} (ha : ∀ ch ∈ a, isWs ch = true) : a.foldl Q.step .out = .out := by
  induction a with
  | nil => rfl
  | cons ch a ih =>
    obtain ⟨h3, h4, -⟩ := isWs_not_quote (ha ch List.mem_cons_self)
    simp only [List.foldl_cons]
    rw [show Q.step .out ch = .out by simp [Q.step, h3, h4]]
    exact ih (fun x hx => ha x (List.mem_cons_of_mem _ hx))

theorem step_out_plain {q : Q} {ch : Char} (h : ch ≠ '\'' ∧ ch ≠ '"') (ho : q.step ch = .out) :
    q = .out := by
  cases q with
  | out => rfl
  | sq => simp [Q.step, h.1] at ho
  | dq => simp [Q.step, h.2] at ho

theorem getLast?_some {x : Str} {ch : Char} (h : x.getLast? = some ch) :
    ∃ y, x = y ++ [ch] := by
  rw [List.getLast?_eq_some_iff] at h; exact h

/-- After a break point white space does not matter. -/
theorem after_break (st : LexSt) (x : Str) (hb : EndsBreak x) (ho : (st.after x).q = .out) :
    (st.after x).sep = true := by
  rcases hb with h | h | h
  · obtain ⟨y, rfl⟩ := getLast?_some h
    rw [after_append] at ho ⊢
    have h1 : ((st.after y).after [' ']) = (st.after y).step ' ' := rfl
    rw [h1] at ho ⊢
    rw [step_q] at ho
    have hq := step_out_plain (by decide) ho
    unfold LexSt.step
    rw [if_pos ⟨hq, by decide⟩]
    split
    · assumption
    · rfl
  · obtain ⟨y, rfl⟩ := getLast?_some h
    rw [after_append] at ho ⊢
    have h1 : ((st.after y).after [',']) = (st.after y).step ',' := rfl
    rw [h1] at ho ⊢
    rw [step_q] at ho
    have hq := step_out_plain (by decide) ho
    unfold LexSt.step
    rw [if_neg (by rintro ⟨-, h⟩; revert h; decide)]
    simp [hq]
  · obtain ⟨y, rfl⟩ := h
    rw [after_append] at ho ⊢
    have h1 : ((st.after y).after "//".toList) = ((st.after y).step '/').step '/' := rfl
    rw [h1] at ho ⊢
    rw [step_q, step_q] at ho
    have hq1 := step_out_plain (by decide) ho
    have hq := step_out_plain (by decide) hq1
    have hw : isWs '/' = false := by decide
    simp [LexSt.step, hq, hw, Q.step]

/-! ## strip -/

theorem dropWhile_append_ws (p : Char → Bool) (l : Str) :
    ∃ a, l = a ++ l.dropWhile p ∧ ∀ ch ∈ a, p ch = true := by
  refine ⟨l.takeWhile p, (List.takeWhile_append_dropWhile).symm, ?_⟩
  intro ch h
  have := List.all_takeWhile (p := p) (l := l)
  exact List.all_eq_true.1 this ch h

theorem rstrip_of_last {s : Str} {z : Char} (h : s.getLast? = some z) (hz : isWs z = false) :
    rstrip s = s := by
  obtain ⟨y, rfl⟩ := getLast?_some h
  simp [rstrip, hz]

theorem lstrip_head_ne {s : Str} {ch : Char} {t : Str} (h : lstrip s = ch :: t) :
    isWs ch = false := by
  unfold lstrip at h
  induction s with
  | nil => cases h
  | cons x s ih =>
    rw [List.dropWhile_cons] at h
    split at h
    · exact ih h
    · next hx => cases h; simpa using hx

theorem lstrip_ws_append {a b : Str} (ha : ∀ ch ∈ a, isWs ch = true) : lstrip (a ++ b) = lstrip b := by
  induction a with
  | nil => rfl
  | cons ch a ih =>
    have := ih (fun x hx => ha x (List.mem_cons_of_mem _ hx))
    unfold lstrip at this ⊢
    rw [List.cons_append, List.dropWhile_cons, if_pos (ha ch List.mem_cons_self)]
    exact this

theorem lstrip_cons_of {ch : Char} {t : Str} (h : isWs ch = false) : lstrip (ch :: t) = ch :: t := by
  simp [lstrip, h]

theorem indent_ws (c : Cfg) (level : Nat) (cl : Bool) : ∀ ch ∈ c.indent level cl, isWs ch = true := by
  intro ch h
  unfold Cfg.indent at h
  rw [List.mem_replicate] at h
  rw [h.2]; decide

theorem strip_blank {s : Str} (h : ∀ ch ∈ s, isWs ch = true) : strip s = [] := by
  have h1 : lstrip s = [] := by
    have := lstrip_ws_append (b := []) h
    simpa [lstrip] using this
  have h2 : rstrip s = [] := by
    unfold rstrip
    have : s.reverse.dropWhile isWs = [] := by
      have := lstrip_ws_append (a := s.reverse) (b := []) (fun ch hc => h ch (by simpa using hc))
      simpa [lstrip] using this
    simp [this]
  simp [strip, h2, lstrip]

end Ccpp.FW
