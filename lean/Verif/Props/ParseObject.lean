import Verif.Model.ParseObject
/-!
# C24: reading a source file line by line
-/
namespace Ccpp.PO

/-! ## Specification -/

/-- The logical lines of a list of physical lines: a line whose text (without trailing blanks) ends
in a backslash is joined with the next logical line. -/
def logical : List Str → List Str
  | [] => []
  | l :: ls =>
    if (rstrip l).getLast? = some '\\' then
      match logical ls with
      | [] => [(rstrip l).dropLast]
      | t :: ts => ((rstrip l).dropLast ++ t) :: ts
    else rstrip l :: logical ls

/-- `LinesFrom ls t k`: the first logical line of `ls` is `t` and takes up `k` physical lines. -/
inductive First : List Str → Str → Nat → Prop
  | plain {l ls} : (rstrip l).getLast? ≠ some '\\' → First (l :: ls) (rstrip l) 1
  | last {l} : (rstrip l).getLast? = some '\\' → First [l] (rstrip l).dropLast 1
  | cont {l ls t k} : (rstrip l).getLast? = some '\\' → First ls t k →
      First (l :: ls) ((rstrip l).dropLast ++ t) (k + 1)

theorem First.logical {ls : List Str} {t : Str} {k : Nat} (h : First ls t k) :
    PO.logical ls = t :: PO.logical (ls.drop k) := by
  induction h with
  | plain hb => rw [PO.logical, if_neg hb]; rfl
  | last hb => rw [PO.logical, if_pos hb]; rfl
  | cont hb _ ih => rw [PO.logical, if_pos hb, ih]; rfl

theorem First.pos {ls : List Str} {t : Str} {k : Nat} (h : First ls t k) :
    1 ≤ k ∧ k ≤ ls.length := by
  induction h with
  | plain _ => simp
  | last _ => simp
  | cont _ _ ih => simp only [List.length_cons]; omega

theorem currLine_first : ∀ (n : Nat) (s : St), s.lines.length - s.num = n → s.num < s.lines.length →
    ∃ t k, First (s.lines.drop s.num) t k ∧
      s.currLine = (some t, s.num, { s with
                                     next := s.num + k
                                     last := s.num + k }) := by
  intro n
  induction n with
  | zero => intro s h1 h2; omega
  | succ n ih =>
    intro s hn hlt
    have hd : s.lines.drop s.num = s.lines[s.num] :: s.lines.drop (s.num + 1) :=
      List.drop_eq_getElem_cons hlt
    rw [St.currLine, dif_pos hlt]
    by_cases hb : (rstrip s.lines[s.num]).getLast? = some '\\'
    · have hb' : endsBackslash (rstrip s.lines[s.num]) = true := by simp [endsBackslash, hb]
      simp only [hb', if_true]
      by_cases hlast : s.num + 1 < s.lines.length
      · obtain ⟨t, k, h1, h2⟩ := ih { s with
                                    num := s.num + 1
                                    next := s.num + 1
                                    last := s.num + 1 } (by simp only; omega) hlast
        simp only at h1 h2
        refine ⟨(rstrip s.lines[s.num]).dropLast ++ t, k + 1, ?_, ?_⟩
        · rw [hd]; exact First.cont hb h1
        · simp only [h2]
          rw [show s.num + 1 + k = s.num + (k + 1) by omega]
      · refine ⟨(rstrip s.lines[s.num]).dropLast, 1, ?_, ?_⟩
        · rw [hd, List.drop_eq_nil_of_le (by omega)]; exact First.last hb
        · rw [St.currLine, dif_neg (by simp only; omega)]
    · have hb' : endsBackslash (rstrip s.lines[s.num]) = false := by simp [endsBackslash, hb]
      simp only [hb', Bool.false_eq_true, if_false]
      exact ⟨_, 1, by rw [hd]; exact First.plain hb, rfl⟩

/-- **C24 (progress).**  While the position is inside the file, next_line returns the next logical
line and its line number, moves past all the physical lines it consists of, and keeps the lines. -/
theorem C24_next_line (s : St) (h : s.next < s.lines.length) :
    ∃ t k, First (s.lines.drop s.next) t k ∧ 1 ≤ k ∧ s.next + k ≤ s.lines.length ∧
      ∃ s', s.nextLine = (some t, s.next, s') ∧ s'.lines = s.lines ∧ s'.next = s.next + k ∧
        s'.num = s.next := by
  obtain ⟨t, k, h1, h2⟩ := currLine_first _ { s with num := s.next } rfl h
  have hp := h1.pos
  simp only [List.length_drop] at hp h1
  refine ⟨t, k, h1, hp.1, by omega, _, h2, rfl, rfl, rfl⟩

/-- **C24 (end).**  At the end of the file next_line returns no line, now and ever after. -/
theorem C24_end (s : St) (h : s.lines.length ≤ s.next) :
    ∃ s', s.nextLine = (none, s.next, s') ∧ s'.lines = s.lines ∧ s'.next = s.next := by
  unfold St.nextLine
  rw [St.currLine, dif_neg (by simp only; omega)]
  exact ⟨_, rfl, rfl, rfl⟩

/-- curr_line does not move the position and can be repeated. -/
theorem C24_curr_line (s : St) :
    let r := s.currLine
    r.2.1 = s.num ∧ r.2.2.num = s.num ∧ r.2.2.lines = s.lines ∧ r.2.2.currLine = r := by
  intro r
  by_cases h : s.num < s.lines.length
  · obtain ⟨t, k, h1, h2⟩ := currLine_first _ s rfl h
    obtain ⟨t', k', h1', h2'⟩ := currLine_first _ { s with
                                                    next := s.num + k
                                                    last := s.num + k } rfl h
    have e1 : r = (some t, s.num, { s with
                                    next := s.num + k
                                    last := s.num + k }) := h2
    rw [e1]
    refine ⟨rfl, rfl, rfl, ?_⟩
    have hf := h1.logical
    have hf' := h1'.logical
    rw [hf] at hf'
    simp only [List.cons.injEq] at hf'
    have hk : k = k' := by
      clear h2 h2' e1 hf hf'
      revert h1'
      simp only
      generalize s.lines.drop s.num = l at h1
      intro h1'
      induction h1 generalizing t' k' with
      | plain hb => cases h1' with
        | plain _ => rfl
        | last hb' => exact absurd hb' hb
        | cont hb' _ => exact absurd hb' hb
      | last hb => cases h1' with
        | plain hb' => exact absurd hb hb'
        | last _ => rfl
        | cont _ h => cases h
      | cont hb hx ih => cases h1' with
        | plain hb' => exact absurd hb hb'
        | last _ => cases hx
        | cont _ h => rw [ih _ _ h]
    simp only at h2'
    rw [h2', ← hk, hf'.1]
  · have e1 : r = (none, s.num, s) := by
      show s.currLine = _
      rw [St.currLine, dif_neg h]
    rw [e1]
    refine ⟨rfl, rfl, rfl, ?_⟩
    show s.currLine = _
    rw [St.currLine, dif_neg h]

/-- Call next_line until it returns no line. -/
def readAll : Nat → St → List Str × St
  | 0, s => ([], s)
  | fuel + 1, s =>
    match s.nextLine with
    | (none, _, s') => ([], s')
    | (some t, _, s') => (t :: (readAll fuel s').1, (readAll fuel s').2)

/-- **C24.**  Reading on until no line is returned yields exactly the logical lines from the current
position on, in order, and stops at the end of the file. -/
theorem C24_read_all : ∀ (fuel : Nat) (s : St), s.lines.length - s.next < fuel →
    s.next ≤ s.lines.length →
    (readAll fuel s).1 = logical (s.lines.drop s.next) ∧ (readAll fuel s).2.next = s.lines.length := by
  intro fuel
  induction fuel with
  | zero => intro s h; omega
  | succ fuel ih =>
    intro s h hle
    by_cases hlt : s.next < s.lines.length
    · obtain ⟨t, k, h1, h2, h3, s', h4, h5, h6, h7⟩ := C24_next_line s hlt
      obtain ⟨i1, i2⟩ := ih s' (by rw [h5, h6]; omega) (by rw [h5, h6]; omega)
      rw [readAll, h4]
      simp only
      rw [i1, i2, h5, h6, h1.logical, List.drop_drop]
      exact ⟨rfl, rfl⟩
    · obtain ⟨s', h4, h5, h6⟩ := C24_end s (by omega)
      rw [readAll, h4]
      simp only
      rw [List.drop_eq_nil_of_le (by omega)]
      exact ⟨rfl, by rw [h6]; omega⟩

/-- A newly created object reads all logical lines of the file. -/
theorem C24_whole_file (lines : List Str) :
    (readAll (lines.length + 1) (init lines 0)).1 = logical lines := by
  have := (C24_read_all (lines.length + 1) (init lines 0) (by simp [init]) (by simp [init])).1
  simpa [init] using this

/-- **C24 (reset_pos).**  Exactly the positions inside the file are accepted, and reading goes on from
there. -/
theorem C24_reset (s : St) (i : Nat) :
    (s.lines.length ≤ i → s.resetPos i = none) ∧
    (i < s.lines.length → ∃ s', s.resetPos i = some s' ∧ s'.lines = s.lines ∧ s'.next = i ∧
      s'.num = i) := by
  unfold St.resetPos
  refine ⟨fun h => if_pos h, fun h => ⟨_, if_neg (by omega), rfl, rfl, rfl⟩⟩

/-- **C24 (write_line, peek_line).**  Exactly the positions inside the file are accepted; afterwards
the line written is the one read, all others are unchanged, and the position has not moved. -/
theorem C24_write_line (s : St) (i : Nat) (l : Str) :
    (s.lines.length ≤ i → s.writeLine i l = none ∧ s.peekLine i = none) ∧
    (i < s.lines.length → ∃ s', s.writeLine i l = some s' ∧ s'.peekLine i = some l ∧
      (∀ j, j ≠ i → s'.peekLine j = s.peekLine j) ∧ s'.lines.length = s.lines.length ∧
      s'.next = s.next ∧ s'.num = s.num) := by
  unfold St.writeLine St.peekLine
  refine ⟨fun h => ⟨if_pos h, List.getElem?_eq_none h⟩,
    fun h => ⟨_, if_neg (by omega), ?_, ?_, ?_, rfl, rfl⟩⟩
  · simp [List.getElem?_set, h]
  · intro j hj; simp [List.getElem?_set, Ne.symm hj]
  · simp

/-- `n` calls of add_syntax_err. -/
def addErrs : Nat → St → Option St
  | 0, s => some s
  | n + 1, s => match s.addSyntaxErr with
    | none => none
    | some s' => addErrs n s'

/-- **C47.**  However many syntax errors are found: the first 32 are stored, the 33rd ends the reading
(next_line returns no line from then on), and the 34th raises an exception. -/
theorem C47_error_limit (lines : List Str) (start n : Nat) :
    (n ≤ 32 → ∃ s, addErrs n (init lines start) = some s ∧ s.messages = n ∧ s.next = start ∧
      s.walked = false) ∧
    (n = 33 → ∃ s, addErrs n (init lines start) = some s ∧ s.messages = 32 ∧ s.walked = true ∧
      s.nextLine.1 = none) ∧
    (33 < n → addErrs n (init lines start) = none) := by
  have step : ∀ n s, addErrs (n + 1) s = (addErrs n s).bind St.addSyntaxErr := by
    intro n
    induction n with
    | zero => intro s; simp only [addErrs, Option.bind_some]; cases s.addSyntaxErr <;> rfl
    | succ n ih =>
      intro s
      rw [addErrs]
      cases h : s.addSyntaxErr with
      | none => simp [addErrs, h]
      | some s' => simp only; rw [ih]; conv => rhs; rw [addErrs, h]
  have low : ∀ n, n ≤ 32 → ∃ s, addErrs n (init lines start) = some s ∧ s.messages = n ∧
      s.next = start ∧ s.walked = false ∧ s.errs = n ∧ s.lines = lines := by
    intro n
    induction n with
    | zero => intro _; exact ⟨_, rfl, rfl, rfl, rfl, rfl, rfl⟩
    | succ n ih =>
      intro h
      obtain ⟨s, h1, h2, h3, h4, h5, h6⟩ := ih (by omega)
      rw [step, h1]
      simp only [Option.bind_some, St.addSyntaxErr, maxErrors, h5]
      rw [if_neg (show ¬ n = 32 by omega), if_neg (show ¬ n > 32 by omega)]
      simp only [ite_self]
      refine ⟨_, rfl, ?_, h3, h4, by simp [h5], h6⟩
      simp only [h5, h2]; rw [if_pos (by omega)]
  have e33 : ∃ s, addErrs 33 (init lines start) = some s ∧ s.messages = 32 ∧ s.walked = true ∧
      s.nextLine.1 = none ∧ s.errs = 33 := by
    obtain ⟨s, h1, h2, h3, h4, h5, h6⟩ := low 32 (Nat.le_refl _)
    rw [step, h1]
    simp only [Option.bind_some, St.addSyntaxErr, maxErrors, h5]
    refine ⟨_, rfl, ?_, rfl, ?_, ?_⟩
    · simp [h5, h2]
    · unfold St.nextLine
      rw [St.currLine, dif_neg (by simp)]
    · simp [h5]
  refine ⟨fun h => ?_, ?_, ?_⟩
  · obtain ⟨s, h1, h2, h3, h4, -⟩ := low n h
    exact ⟨s, h1, h2, h3, h4⟩
  · rintro rfl
    obtain ⟨s, h1, h2, h3, h4, -⟩ := e33
    exact ⟨s, h1, h2, h3, h4⟩
  · intro h
    obtain ⟨k, rfl⟩ : ∃ k, n = 34 + k := ⟨n - 34, by omega⟩
    clear h
    induction k with
    | zero =>
      obtain ⟨s, h1, -, -, -, h5⟩ := e33
      rw [show 34 + 0 = 33 + 1 from rfl, step, h1]
      simp [St.addSyntaxErr, maxErrors, h5]
    | succ k ih => rw [show 34 + (k + 1) = (34 + k) + 1 from rfl, step, ih]; rfl

/-- Non-vacuity: a continued line, a plain one, and a backslash on the last line. -/
example : logical ["a \\ ".toList, "b\\".toList, "c".toList, "d ".toList, "e\\".toList] =
    ["a bc".toList, "d".toList, "e".toList] := by decide

example : (readAll 6 (init ["a \\ ".toList, "b\\".toList, "c".toList, "d ".toList, "e\\".toList] 0)).1 =
    ["a bc".toList, "d".toList, "e".toList] := by
  have := C24_whole_file ["a \\ ".toList, "b\\".toList, "c".toList, "d ".toList, "e\\".toList]
  rw [show (6 : Nat) = ["a \\ ".toList, "b\\".toList, "c".toList, "d ".toList, "e\\".toList].length + 1
    from rfl, this]
  decide

end Ccpp.PO
