import Verif.Lemmas.FortranWriter
/-!
# C21, C22: FortranWriter.write
-/
namespace Ccpp.FW

theorem length_rstrip_le (s : Str) : (rstrip s).length ≤ s.length := by
  have : ∀ l : Str, (l.dropWhile isWs).length ≤ l.length := by
    intro l
    obtain ⟨a, h, -⟩ := dropWhile_append_ws isWs l
    have := congrArg List.length h
    simp only [List.length_append] at this
    omega
  have := this s.reverse
  simpa [rstrip] using this

theorem outLine_length (c : Cfg) (hf : c.fill < c.max) (outstr : Str) (best : Nat) (lc : Cont)
    (hb : best < c.max) : (outLine c outstr best lc).length ≤ c.max + 1 := by
  unfold outLine
  refine Nat.le_trans (length_rstrip_le _) ?_
  simp only [List.length_append, List.length_take]
  split
  · simp only [List.length_nil]; omega
  · simp only [List.length_append, List.length_replicate, List.length_singleton]; omega

theorem write1_length (c : Cfg) (hf : c.fill < c.max) (level : Nat) : ∀ (fuel : Nat) (s : Str)
    (cl : Bool), ∀ l ∈ (write1 c level fuel s cl).1, l.length ≤ c.max + 1 := by
  intro fuel
  induction fuel with
  | zero => intro s cl l h; simp [write1] at h
  | succ fuel ih =>
    intro s cl l h
    simp only [write1] at h
    split at h
    · split at h
      · cases h
      · split at h
        · cases h
        · split at h
          · rw [List.mem_singleton] at h
            subst h
            exact outLine_length c hf _ _ _ (bestBreak_lt c (by omega) _ _)
          · rcases List.mem_cons.1 h with h | h
            · subst h
              exact outLine_length c hf _ _ _ (bestBreak_lt c (by omega) _ _)
            · exact ih _ _ _ h
    · next hle =>
      rw [List.mem_singleton] at h
      subst h; omega

/-- **C21 (partial).**  Whatever the statement, level and configuration with line_fill < line_max,
and whether or not the call ends in an exception, no line written is longer than line_max + 1
characters.  What is missing is the "+ 1" (`C21_violated`). -/
theorem C21_line_limit_partial (c : Cfg) (hf : c.fill < c.max) (level fuel : Nat) (s : Str)
    (cl : Bool) : ∀ l ∈ (write c level fuel s cl).1, l.length ≤ c.max + 1 := by
  unfold write
  generalize splitNL s = parts
  induction parts with
  | nil => intro l h; simp [writeParts] at h
  | cons p ps ih =>
    intro l h
    simp only [writeParts] at h
    split at h
    · rcases List.mem_append.1 h with h | h
      · exact write1_length c hf level fuel p cl l h
      · exact ih l h
    · exact write1_length c hf level fuel p cl l h

/-- With the default configuration every line fits Fortran's limit of 132 characters. -/
theorem C21_default (level fuel : Nat) (s : Str) (cl : Bool) :
    ∀ l ∈ (write .default level fuel s cl).1, l.length ≤ 131 :=
  C21_line_limit_partial .default (by decide) level fuel s cl

/-! ### Unbreakable words -/

/-- A word: letters, digits and underscores. -/
def Word (s : Str) : Prop := ∀ ch ∈ s, isWordC ch = true

theorem word_char {ch : Char} (h : isWordC ch = true) : ch ≠ '\'' ∧ ch ≠ '"' ∧ ch ≠ '!' ∧
    ch ≠ ' ' ∧ ch ≠ ',' ∧ ch ≠ '/' ∧ ch ≠ '&' ∧ isWs ch = false := by
  refine ⟨?_, ?_, ?_, ?_, ?_, ?_, ?_, ?_⟩
  all_goals first
    | (rintro rfl; revert h; decide)
    | (cases hw : isWs ch with
       | false => rfl
       | true =>
         exfalso
         simp only [isWs, Bool.or_eq_true, beq_iff_eq] at hw
         rcases hw with ((((rfl | rfl) | rfl) | rfl) | rfl) | rfl <;> revert h <;> decide)

theorem scan_word (c : Cfg) (w : Str) (hw : Word w) : ∀ p,
    scan c false p .out w = ⟨[], [], false⟩ := by
  induction w with
  | nil => intro p; rfl
  | cons ch w ih =>
    intro p
    obtain ⟨h1, h2, h3, h4, h5, h6, -⟩ := word_char (hw ch List.mem_cons_self)
    rw [scan.eq_def]
    simp only [h1, h2, h3, h4, h5, h6, if_false, false_and]
    exact ih (fun x hx => hw x (List.mem_cons_of_mem _ hx)) (p + 1)

theorem strip_word {w : Str} (hw : Word w) : strip w = w := by
  cases w with
  | nil => rfl
  | cons ch w =>
    have hl : ∃ z, (ch :: w).getLast? = some z ∧ isWs z = false := by
      refine ⟨(ch :: w).getLast (by simp), List.getLast?_eq_some_getLast _, ?_⟩
      exact (word_char (hw _ (List.getLast_mem _))).2.2.2.2.2.2.2
    obtain ⟨z, h1, h2⟩ := hl
    rw [strip, rstrip_of_last h1 h2, lstrip_cons_of]
    exact (word_char (hw ch List.mem_cons_self)).2.2.2.2.2.2.2

theorem foldl_word {w : Str} (hw : Word w) : w.foldl Q.step .out = .out := by
  induction w with
  | nil => rfl
  | cons ch w ih =>
    obtain ⟨h1, h2, -⟩ := word_char (hw ch List.mem_cons_self)
    rw [List.foldl_cons, show Q.step .out ch = .out by simp [Q.step, h1, h2]]
    exact ih (fun x hx => hw x (List.mem_cons_of_mem _ hx))

theorem normFrom_word {st : LexSt} (hq : st.q = .out) {w : Str} (hw : Word w) :
    normFrom st w = w := by
  induction w generalizing st with
  | nil => rfl
  | cons ch w ih =>
    obtain ⟨h1, h2, -, -, -, -, -, h8⟩ := word_char (hw ch List.mem_cons_self)
    have hs : (st.step ch).q = .out := by rw [step_q, hq]; simp [Q.step, h1, h2]
    rw [normFrom, ih hs (fun x hx => hw x (List.mem_cons_of_mem _ hx))]
    simp [LexSt.emit, h8]

theorem bestBreak_nil (c : Cfg) (hf : c.fill < c.max) : bestBreak c [] [] = c.max - 1 := by
  rcases bestBreak_cases c hf [] [] with ⟨h, -⟩ | ⟨h, -⟩
  · simp at h
  · exact h

/-- One step of write on a word longer than a line. -/
theorem write1_word (c : Cfg) (hf : c.fill < c.max) (hm : 2 ≤ c.max) (level fuel : Nat) (w : Str)
    (cl : Bool) (hw : Word w) (hi : (c.indent level cl).length < c.max)
    (hl : c.max < (c.indent level cl ++ w).length) :
    write1 c level (fuel + 1) w cl =
      let r := write1 c level fuel ((c.indent level cl ++ w).drop c.max) true
      (((c.indent level cl ++ w).take c.max ++ ['&']) :: r.1, r.2) := by
  generalize hI : c.indent level cl = I at *
  have hws : ∀ ch ∈ I, isWs ch = true := by rw [← hI]; exact indent_ws c level cl
  cases w with
  | nil => simp at hl; omega
  | cons ch w =>
    obtain ⟨h1, h2, h3, h4, h5, h6, h7, h8⟩ := word_char (hw ch List.mem_cons_self)
    have hos : outStr I (ch :: w) = I ++ ch :: w := by simp [outStr, h7]
    simp only [write1, hI, strip_word hw, hos]
    rw [if_pos (by omega)]
    have hic : decide ((ch :: w).head? = some '!') = false := by simp [h3]
    rw [hic]
    simp only [List.drop_left, scan_word c _ hw]
    have hrej : rejectEarly (I ++ ch :: w) [] = some [] := by
      unfold rejectEarly
      rw [lstrip_ws_append hws, lstrip_cons_of h8]
      simp [h3]
    simp only [hrej, bestBreak_nil c hf]
    have e1 : c.max - 1 + 1 = c.max := by omega
    have htake : (I ++ ch :: w).take c.max = I ++ (ch :: w).take (c.max - I.length) := by
      rw [List.take_append, List.take_of_length_le (Nat.le_of_lt hi)]
    have hdrop : (I ++ ch :: w).drop c.max = (ch :: w).drop (c.max - I.length) := by
      rw [List.drop_append, List.drop_eq_nil_of_le (Nat.le_of_lt hi)]; rfl
    have hq : inQuote ((I ++ ch :: w).take c.max) = false := by
      rw [htake, inQuote, List.foldl_append, foldl_ws hws,
        foldl_word (fun x hx => hw x (List.mem_of_mem_take hx))]
      rfl
    have hne : ((ch :: w).drop (c.max - I.length)) ≠ [] := by
      intro h
      rw [List.drop_eq_nil_iff] at h
      rw [List.length_append] at hl
      omega
    obtain ⟨d, ds, hd⟩ := List.exists_cons_of_ne_nil hne
    have hdw := word_char (hw d (List.mem_of_mem_drop (i := c.max - I.length) (by rw [hd]; simp)))
    have hlc : lineContinue (I ++ ch :: w) (c.max - 1) false = some .yes := by
      unfold lineContinue
      rw [if_pos (by omega), e1, hq, hdrop, hd, lstrip_cons_of hdw.2.2.2.2.2.2.2]
      simp [hdw.2.2.1]
    simp only [hlc, Bool.or_false]
    rw [if_neg (by omega)]
    have hline : outLine c (I ++ ch :: w) (c.max - 1) .yes = (I ++ ch :: w).take c.max ++ ['&'] := by
      unfold outLine
      rw [e1, show c.fill - (c.max - 1) = 0 by omega]
      simp only [List.replicate_zero, List.nil_append, reduceCtorEq, if_false]
      exact rstrip_of_last (z := '&') (by simp) (by decide)
    rw [hline, e1]
    simp [show (Cont.yes != Cont.no) = true from rfl]

/-- **C21 is false in general**: every word longer than the line is written with a first line of
line_max + 1 characters. -/
theorem C21_violated (c : Cfg) (hf : c.fill < c.max) (hm : 2 ≤ c.max) (level fuel : Nat) (w : Str)
    (cl : Bool) (hw : Word w) (hi : (c.indent level cl).length < c.max)
    (hl : c.max < (c.indent level cl ++ w).length) :
    ∃ l ∈ (write1 c level (fuel + 1) w cl).1, l.length = c.max + 1 := by
  rw [write1_word c hf hm level fuel w cl hw hi hl]
  refine ⟨_, List.mem_cons_self, ?_⟩
  simp only [List.length_append, List.length_take, List.length_singleton]
  rw [List.length_append] at hl
  omega

example : ∃ l ∈ (write1 .default 1 2 (List.replicate 140 'x') false).1, l.length = 131 :=
  C21_violated .default (by decide) (by decide) 1 1 _ false
    (fun ch h => by rw [(List.mem_replicate.1 h).2]; decide) (by decide)
    (by simp [Cfg.indent, Cfg.default])

/-- **C22 is false in general (1)**: a word longer than the line is cut in two, and the next line
does not start with `&`, so that the compiler sees two words. -/
theorem C22_word_cut_violated (c : Cfg) (hf : c.fill < c.max) (hm : 2 ≤ c.max) (level fuel : Nat)
    (w : Str) (hw : Word w) (hi : (c.indent level false).length < c.max) (hind : 0 < c.cont)
    (hl : c.max < (c.indent level false ++ w).length)
    (hl2 : (c.indent level true).length + ((c.indent level false ++ w).length - c.max) ≤ c.fill) :
    ∃ lines x y, write1 c level (fuel + 2) w false = (lines, .ok) ∧ w = x ++ y ∧ x ≠ [] ∧ y ≠ [] ∧
      (readStmts lines).map norm = [x ++ ' ' :: y] ∧ norm w = w := by
  rw [write1_word c hf hm level (fuel + 1) w false hw hi hl]
  generalize hI : c.indent level false = I at *
  have hws : ∀ ch ∈ I, isWs ch = true := by rw [← hI]; exact indent_ws c level false
  have htake : (I ++ w).take c.max = I ++ w.take (c.max - I.length) := by
    rw [List.take_append, List.take_of_length_le (Nat.le_of_lt hi)]
  have hdrop : (I ++ w).drop c.max = w.drop (c.max - I.length) := by
    rw [List.drop_append, List.drop_eq_nil_of_le (Nat.le_of_lt hi)]; rfl
  rw [htake, hdrop]
  rw [List.length_append] at hl hl2
  have hne : (w.drop (c.max - I.length)) ≠ [] := by
    intro h; rw [List.drop_eq_nil_iff] at h; omega
  have hne1 : (w.take (c.max - I.length)) ≠ [] := by
    intro h
    have := congrArg List.length h
    simp only [List.length_take, List.length_nil] at this; omega
  have hwy : Word (w.drop (c.max - I.length)) := fun ch h => hw ch (List.mem_of_mem_drop h)
  have hwx : Word (w.take (c.max - I.length)) := fun ch h => hw ch (List.mem_of_mem_take h)
  generalize hx : w.take (c.max - I.length) = x at *
  generalize hy : w.drop (c.max - I.length) = y at *
  have hxy : w = x ++ y := by rw [← hx, ← hy, List.take_append_drop]
  have hly : y.length = I.length + w.length - c.max := by rw [← hy, List.length_drop]; omega
  obtain ⟨d, ds, rfl⟩ := List.exists_cons_of_ne_nil hne
  have hdw := word_char (hwy d List.mem_cons_self)
  have hos : outStr (c.indent level true) (d :: ds) = c.indent level true ++ d :: ds := by
    simp [outStr, hdw.2.2.2.2.2.2.1]
  have h2 : write1 c level (fuel + 1) (d :: ds) true = ([c.indent level true ++ d :: ds], .ok) := by
    simp only [write1, strip_word hwy, hos]
    rw [if_neg]
    rw [List.length_append, hly]
    omega
  rw [h2]
  refine ⟨_, x, d :: ds, rfl, hxy, hne1, by simp, ?_⟩
  have hb2 : ¬ Blank (c.indent level true ++ d :: ds) := by
    intro h
    have := h d (by simp)
    rw [hdw.2.2.2.2.2.2.2] at this; cases this
  have hlast : (c.indent level true ++ d :: ds).getLast? ≠ some '&' := by
    intro h
    have h' : (d :: ds).getLast? = some '&' := by
      rw [List.getLast?_append] at h
      cases hg : (d :: ds).getLast? with
      | none => simp at hg
      | some z => rw [hg] at h; simpa using h
    have := hwy '&' (List.mem_of_getLast? h')
    revert this; decide
  have hb1 : ¬ Blank (I ++ x ++ ['&']) := by
    intro h
    have := h '&' (by simp)
    revert this; decide
  have hr2 : readStmts [c.indent level true ++ d :: ds] = [c.indent level true ++ d :: ds] := by
    rw [readStmts, if_neg hb2, if_neg hlast]; rfl
  have hcont : contText (c.indent level true ++ d :: ds) = c.indent level true ++ d :: ds := by
    unfold contText
    rw [lstrip_ws_append (indent_ws c level true), lstrip_cons_of hdw.2.2.2.2.2.2.2]
    simp [hdw.2.2.2.2.2.2.1]
  dsimp only
  rw [readStmts, if_neg hb1, if_pos (by simp), hr2]
  dsimp only
  rw [hcont]
  simp only [List.map_cons, List.map_nil, List.cons.injEq, List.dropLast_concat, and_true]
  -- norms
  refine ⟨?_, normFrom_word rfl hw⟩
  unfold norm
  have hI0 := after_ws (st := .start) rfl rfl hws
  have hst : (LexSt.start.after x).q = .out ∧ (LexSt.start.after x).sep = false := by
    refine ⟨by rw [after_q]; exact foldl_word hwx, ?_⟩
    obtain ⟨v, z, rfl⟩ : ∃ v z, x = v ++ [z] :=
      ⟨x.dropLast, x.getLast hne1, (List.dropLast_concat_getLast hne1).symm⟩
    rw [after_append]
    have hwl := word_char (hwx z (by simp))
    show ((LexSt.start.after v).step z).sep = false
    unfold LexSt.step
    rw [if_neg (by rw [hwl.2.2.2.2.2.2.2]; simp)]
    simp [hwl.2.2.2.2.1, hwl.2.2.2.2.2.1]
  obtain ⟨s1, s2⟩ := hst
  have hrep : ∃ n, c.indent level true = ' ' :: List.replicate n ' ' := by
    unfold Cfg.indent
    refine ⟨c.ind * level + c.cont - 1, ?_⟩
    rw [← List.replicate_succ]; congr 1; simp; omega
  obtain ⟨n, hn⟩ := hrep
  have hws2 : ∀ ch ∈ List.replicate n ' ', isWs ch = true := by
    intro ch h; rw [(List.mem_replicate.1 h).2]; decide
  have hq2 : ((LexSt.start.after x).step ' ') = ⟨.out, true, false⟩ := by
    unfold LexSt.step
    rw [if_pos ⟨s1, by decide⟩, if_neg (by rw [s2]; simp)]
  have he : (LexSt.start.after x).emit ' ' = [' '] := by
    unfold LexSt.emit
    rw [if_pos ⟨s1, by decide⟩, if_neg (by rw [s2]; simp)]
  obtain ⟨a1, a2⟩ := after_ws (st := ⟨.out, true, false⟩) rfl rfl hws2
  rw [normFrom_append, normFrom_append, hI0.2, hI0.1, after_append, hI0.1, normFrom_word rfl hwx,
    hn, List.cons_append]
  simp only [normFrom, he, hq2]
  rw [normFrom_append, a1, a2]
  have := normFrom_word (st := ⟨.out, true, false⟩) rfl hwy
  rw [List.nil_append, this]
  simp

example : ∃ lines x y, write1 .default 1 3 (List.replicate 140 'x') false = (lines, .ok) ∧
    List.replicate 140 'x' = x ++ y ∧ x ≠ [] ∧ y ≠ [] ∧
    (readStmts lines).map norm = [x ++ ' ' :: y] ∧ norm (List.replicate 140 'x') =
      List.replicate 140 'x' :=
  C22_word_cut_violated .default (by decide) (by decide) 1 1 _
    (fun ch h => by rw [(List.mem_replicate.1 h).2]; decide) (by decide) (by decide)
    (by simp [Cfg.indent, Cfg.default]) (by simp [Cfg.indent, Cfg.default])

/-- **C22 is false in general (2)**: a word that fills the line exactly raises an IndexError and
nothing is written. -/
theorem C22_exact_fit_violated (c : Cfg) (hf : c.fill < c.max) (level fuel : Nat) (w : Str)
    (cl : Bool) (hw : Word w) (hne : w ≠ []) (hl : (c.indent level cl ++ w).length = c.max) :
    write1 c level (fuel + 1) w cl = ([], .crash) := by
  generalize hI : c.indent level cl = I at *
  have hws : ∀ ch ∈ I, isWs ch = true := by rw [← hI]; exact indent_ws c level cl
  obtain ⟨ch, w, rfl⟩ := List.exists_cons_of_ne_nil hne
  obtain ⟨h1, h2, h3, h4, h5, h6, h7, h8⟩ := word_char (hw ch List.mem_cons_self)
  have hos : outStr I (ch :: w) = I ++ ch :: w := by simp [outStr, h7]
  simp only [write1, hI, strip_word hw, hos]
  rw [if_pos (by omega)]
  have hic : decide ((ch :: w).head? = some '!') = false := by simp [h3]
  rw [hic]
  simp only [List.drop_left, scan_word c _ hw]
  have hrej : rejectEarly (I ++ ch :: w) [] = some [] := by
    unfold rejectEarly
    rw [lstrip_ws_append hws, lstrip_cons_of h8]
    simp [h3]
  simp only [hrej, bestBreak_nil c hf]
  have e1 : c.max - 1 + 1 = c.max := by omega
  have hlc : lineContinue (I ++ ch :: w) (c.max - 1) false = none := by
    unfold lineContinue
    rw [if_pos (by omega), e1, List.take_of_length_le (by omega), List.drop_eq_nil_of_le (by omega)]
    have : inQuote (I ++ ch :: w) = false := by
      rw [inQuote, List.foldl_append, foldl_ws hws, foldl_word hw]; rfl
    rw [this]
    simp [lstrip]
  simp only [hlc, Bool.or_false]

example : write1 .default 0 1 (List.replicate 130 'x') false = ([], .crash) :=
  C22_exact_fit_violated .default (by decide) 0 0 _ false
    (fun ch h => by rw [(List.mem_replicate.1 h).2]; decide) (by simp) (by simp [Cfg.indent, Cfg.default])

/-! ### Character literals that are cut once -/

theorem scan_literal (c : Cfg) (w : Str) (hw : '\'' ∉ w) : ∀ p,
    scan c false p .sq (w ++ ['\'']) = ⟨[], [], false⟩ := by
  induction w with
  | nil => intro p; simp [scan]
  | cons ch w ih =>
    intro p
    simp only [List.mem_cons, not_or] at hw
    rw [List.cons_append, scan.eq_def]
    simp only [Ne.symm hw.1, if_false]
    exact ih hw.2 (p + 1)

theorem foldl_literal (w : Str) (hw : '\'' ∉ w) : w.foldl Q.step .sq = .sq := by
  induction w with
  | nil => rfl
  | cons ch w ih =>
    simp only [List.mem_cons, not_or] at hw
    rw [List.foldl_cons, show Q.step .sq ch = .sq by simp [Q.step, Ne.symm hw.1]]
    exact ih hw.2

/-- **C22 (literals).**  A character literal longer than the line, whatever it contains, that fits on
two lines: it is cut, the second line starts with `&`, and it is read back unchanged. -/
theorem C22_literal_two_lines (c : Cfg) (hf : c.fill < c.max) (hm : 2 ≤ c.max) (level fuel : Nat)
    (w : Str) (hw : '\'' ∉ w) (cl : Bool) (hi : (c.indent level cl).length < c.max)
    (hl : c.max < (c.indent level cl ++ '\'' :: w ++ ['\'']).length)
    (hl2 : 1 + ((c.indent level cl ++ '\'' :: w ++ ['\'']).length - c.max) ≤ c.fill) :
    ∃ lines, write1 c level (fuel + 2) ('\'' :: w ++ ['\'']) cl = (lines, .ok) ∧ lines.length = 2 ∧
      (readStmts lines).map norm = [norm ('\'' :: w ++ ['\''])] := by
  generalize hI : c.indent level cl = I at *
  have hws : ∀ ch ∈ I, isWs ch = true := by rw [← hI]; exact indent_ws c level cl
  have hlast : ('\'' :: (w ++ ['\''])).getLast? = some '\'' := by
    exact List.getLast?_concat (l := '\'' :: w)
  have hstrip : strip ('\'' :: (w ++ ['\''])) = '\'' :: (w ++ ['\'']) := by
    rw [strip, rstrip_of_last hlast (by decide), lstrip_cons_of (by decide)]
  have hos : outStr I ('\'' :: (w ++ ['\''])) = I ++ '\'' :: (w ++ ['\'']) := by simp [outStr]
  simp only [List.cons_append, List.append_assoc] at hl hl2 ⊢
  obtain ⟨k, hk⟩ : ∃ k, c.max - I.length = k + 1 := ⟨c.max - I.length - 1, by omega⟩
  have hlen : (I ++ '\'' :: (w ++ ['\''])).length = I.length + w.length + 2 := by simp; omega
  rw [hlen] at hl hl2
  have hkw : k ≤ w.length := by omega
  have htake : (I ++ '\'' :: (w ++ ['\''])).take c.max = I ++ '\'' :: w.take k := by
    rw [List.take_append, List.take_of_length_le (Nat.le_of_lt hi), hk, List.take_succ_cons,
      List.take_append_of_le_length hkw]
  have hdrop : (I ++ '\'' :: (w ++ ['\''])).drop c.max = w.drop k ++ ['\''] := by
    rw [List.drop_append, List.drop_eq_nil_of_le (Nat.le_of_lt hi), hk, List.drop_succ_cons,
      List.drop_append_of_le_length hkw]
    rfl
  have e1 : c.max - 1 + 1 = c.max := by omega
  have hq : inQuote (I ++ '\'' :: w.take k) = true := by
    rw [inQuote, List.foldl_append, foldl_ws hws, List.foldl_cons,
      show Q.step .out '\'' = .sq from rfl, foldl_literal _ (fun h => hw (List.mem_of_mem_take h))]
    rfl
  have hlc : lineContinue (I ++ '\'' :: (w ++ ['\''])) (c.max - 1) false = some .amp := by
    unfold lineContinue
    rw [if_pos (by omega), e1, htake, hq]
    rfl
  have hrej : rejectEarly (I ++ '\'' :: (w ++ ['\''])) [] = some [] := by
    unfold rejectEarly
    rw [lstrip_ws_append hws, lstrip_cons_of (by decide)]
    simp
  have hline : outLine c (I ++ '\'' :: (w ++ ['\''])) (c.max - 1) .amp =
      I ++ '\'' :: w.take k ++ ['&'] := by
    unfold outLine
    rw [e1, show c.fill - (c.max - 1) = 0 by omega, htake]
    simp only [List.replicate_zero, List.nil_append, reduceCtorEq, if_false]
    exact rstrip_of_last (z := '&') List.getLast?_concat (by decide)
  have hsc : scan c false I.length .out ('\'' :: (w ++ ['\''])) = ⟨[], [], false⟩ := by
    rw [scan.eq_def]
    exact scan_literal c w hw _
  have hlast2 : ('&' :: (w.drop k ++ ['\''])).getLast? = some '\'' := by
    exact List.getLast?_concat (l := '&' :: w.drop k)
  have hstrip2 : strip ('&' :: (w.drop k ++ ['\''])) = '&' :: (w.drop k ++ ['\'']) := by
    rw [strip, rstrip_of_last hlast2 (by decide), lstrip_cons_of (by decide)]
  have hsecond : write1 c level (fuel + 1) ('&' :: (w.drop k ++ ['\''])) true =
      (['&' :: (w.drop k ++ ['\''])], .ok) := by
    have hos2 : outStr (c.indent level true) ('&' :: (w.drop k ++ ['\''])) =
        '&' :: (w.drop k ++ ['\'']) := by simp [outStr]
    simp only [write1, hstrip2, hos2]
    rw [if_neg]
    simp only [List.length_cons, List.length_append, List.length_drop, List.length_nil]
    omega
  refine ⟨[I ++ '\'' :: w.take k ++ ['&'], '&' :: (w.drop k ++ ['\''])], ?_, rfl, ?_⟩
  · rw [write1]
    simp only [hI, hstrip, hos]
    rw [if_pos (by omega)]
    have hic : decide (('\'' :: (w ++ ['\''])).head? = some '!') = false := rfl
    rw [hic]
    simp only [List.drop_left, hsc, hrej, bestBreak_nil c hf, Bool.or_false, hlc, hline]
    rw [if_neg (by omega), e1, hdrop]
    simp [hsecond, show (Cont.amp != Cont.no) = true from rfl]
  · have hb1 : ¬ Blank (I ++ '\'' :: w.take k ++ ['&']) := by
      intro h
      have := h '&' (by simp)
      revert this; decide
    have hb2 : ¬ Blank ('&' :: (w.drop k ++ ['\''])) := by
      intro h
      have := h '&' (by simp)
      revert this; decide
    have hr2 : readStmts ['&' :: (w.drop k ++ ['\''])] = ['&' :: (w.drop k ++ ['\''])] := by
      rw [readStmts, if_neg hb2, if_neg (by rw [hlast2]; decide)]; rfl
    have hcont : contText ('&' :: (w.drop k ++ ['\''])) = w.drop k ++ ['\''] := by
      unfold contText
      rw [lstrip_cons_of (by decide)]
      simp
    rw [readStmts, if_neg hb1, if_pos List.getLast?_concat, hr2]
    dsimp only
    rw [hcont]
    simp only [List.map_cons, List.map_nil, List.cons.injEq, List.dropLast_concat, and_true]
    have hI0 := after_ws (st := .start) rfl rfl hws
    rw [List.append_assoc, List.cons_append, ← List.append_assoc, List.take_append_drop]
    unfold norm
    rw [normFrom_append, hI0.2, hI0.1, List.nil_append]

example : ∃ lines, write1 .default 1 3 ('\'' :: List.replicate 70 'x' ++ ' ' :: ',' :: List.replicate 70 'y' ++ ['\''])
    false = (lines, .ok) ∧ lines.length = 2 ∧ (readStmts lines).map norm =
      [norm ('\'' :: List.replicate 70 'x' ++ ' ' :: ',' :: List.replicate 70 'y' ++ ['\''])] := by
  have := C22_literal_two_lines .default (by decide) (by decide) 1 1
    (List.replicate 70 'x' ++ ' ' :: ',' :: List.replicate 70 'y') (by decide) false (by decide)
    (by simp [Cfg.indent, Cfg.default]) (by simp [Cfg.indent, Cfg.default])
  simpa using this

/-- **C22 is false in general (3)**: code in front of a trailing comment is turned into a comment
when it has to be broken. -/
theorem C22_comment_violated : (write .default 1 9
      ("real(kind_phys), intent(inout) :: tendency_of_air_temperature_due_to_longwave(" ++
        ":, horizontal_begin:horizontal_end) ! tendency_of_air_temperature").toList false) =
    ([("   real(kind_phys), intent(inout) :: tendency_of_air_temperature_due_to_longwave(" ++
        ":,").toList,
      "   ! horizontal_begin:horizontal_end) ! tendency_of_air_temperature".toList], .ok) := by
  decide +kernel

/-- **C22 is false in general (4)**: in a character literal of more than two lines, blanks become
break points and the literal changes. -/
theorem C22_literal_violated :
    let s := "x = 'aaaaaaaaaaaaaaaaaaaaaaaaaaaaaaa bbbbb  ccccccccccccccccccccccccccccccc'".toList
    let lines := (write1 ⟨3, 5, 20, 30⟩ 0 9 s false).1
    (write1 ⟨3, 5, 20, 30⟩ 0 9 s false).2 = .ok ∧ (readStmts lines).map norm ≠ [norm s] := by
  decide +kernel

/-! ### The class of statements that survive -/

theorem foldl_append_out {a b : Str} (ha : a.foldl Q.step .out = .out) :
    (a ++ b).foldl Q.step .out = b.foldl Q.step .out := by
  rw [List.foldl_append, ha]

theorem NoComment.suffix {a b : Str} (h : NoComment (a ++ b)) (ha : a.foldl Q.step .out = .out) :
    NoComment b := by
  intro x ch y hb hx
  exact h (a ++ x) ch y (by rw [hb, List.append_assoc]) (by rw [foldl_append_out ha]; exact hx)

theorem Breakable.suffix {w : Nat} {a b : Str} (h : Breakable w (a ++ b))
    (ha : a.foldl Q.step .out = .out) : Breakable w b := by
  intro x y hb hl
  obtain ⟨k, h1, h2, h3, h4⟩ := h (a ++ x) y (by rw [hb, List.append_assoc]) hl
  refine ⟨k, h1, h2, h3, ?_⟩
  rw [List.append_assoc, foldl_append_out ha] at h4
  exact h4

/-- A candidate of the scan is a place where the statement may be broken. -/
theorem scan_sound (c : Cfg) (cur : Str) (p x : Nat)
    (hnc : ∀ a ch b, cur = a ++ ch :: b → a.foldl Q.step .out = .out → ch ≠ '!')
    (hx : x ∈ (scan c false p .out cur).spaces ∨ x ∈ (scan c false p .out cur).commas) :
    ∃ k, 1 ≤ k ∧ k ≤ cur.length ∧ x + 1 = p + k ∧ EndsBreak (cur.take k) ∧
      (cur.take k).foldl Q.step .out = .out := by
  obtain ⟨-, h1, h2⟩ := scan_mem c cur p .out hnc
  have one : ∀ j ch, cur[j]? = some ch → (cur.take j).foldl Q.step .out = .out →
      ch ≠ '\'' → ch ≠ '"' → j < cur.length ∧ cur.take (j + 1) = cur.take j ++ [ch] ∧
      (cur.take (j + 1)).foldl Q.step .out = .out := by
    intro j ch hj ho q1 q2
    have hlt : j < cur.length := by
      rcases Nat.lt_or_ge j cur.length with h | h
      · exact h
      · rw [List.getElem?_eq_none h] at hj; cases hj
    have ht : cur.take (j + 1) = cur.take j ++ [ch] := by
      rw [List.take_add_one, hj]; rfl
    refine ⟨hlt, ht, ?_⟩
    rw [ht, List.foldl_append, ho]
    simp [Q.step, q1, q2]
  have comma : x ∈ (scan c false p .out cur).commas → _ := (h2 x).1
  rcases hx with hx | hx
  · obtain ⟨j, e, hj, ho⟩ := (h1 x).1 hx
    obtain ⟨a1, a2, a3⟩ := one j ' ' hj ho (by decide) (by decide)
    exact ⟨j + 1, by omega, by omega, by omega, Or.inl (by rw [a2]; simp), a3⟩
  · rcases (h2 x).1 hx with ⟨j, e, hj, ho⟩ | ⟨j, e, hj, hj1, ho⟩
    · obtain ⟨a1, a2, a3⟩ := one j ',' hj ho (by decide) (by decide)
      exact ⟨j + 1, by omega, by omega, by omega, Or.inr (Or.inl (by rw [a2]; simp)), a3⟩
    · obtain ⟨a1, a2, a3⟩ := one j '/' hj ho (by decide) (by decide)
      obtain ⟨b1, b2, b3⟩ := one (j + 1) '/' hj1 a3 (by decide) (by decide)
      refine ⟨j + 2, by omega, by omega, by omega, Or.inr (Or.inr ?_), b3⟩
      rw [b2, a2]
      exact ⟨cur.take j, by simp⟩

/-- Every place where the statement may be broken is a candidate. -/
theorem scan_complete (c : Cfg) (cur : Str) (p : Nat)
    (hnc : ∀ a ch b, cur = a ++ ch :: b → a.foldl Q.step .out = .out → ch ≠ '!')
    {a x b : Str} (hc : cur = a ++ x ++ b) (hx : EndsBreak x)
    (ho : (a ++ x).foldl Q.step .out = .out) :
    (p + (a ++ x).length - 1) ∈ (scan c false p .out cur).spaces ∨
    (p + (a ++ x).length - 1) ∈ (scan c false p .out cur).commas := by
  obtain ⟨-, h1, h2⟩ := scan_mem c cur p .out hnc
  rcases hx with h | h | h
  · left
    obtain ⟨y, rfl⟩ := getLast?_some h
    rw [← List.append_assoc, List.foldl_append] at ho
    have hq := step_out_plain (ch := ' ') (by decide) ho
    have hc : cur = (a ++ y) ++ ' ' :: b := by rw [hc]; simp
    rw [h1]
    refine ⟨(a ++ y).length, by simp; omega, ?_, ?_⟩
    · rw [hc]; simp
    · rw [hc, List.take_left]; exact hq
  · right
    obtain ⟨y, rfl⟩ := getLast?_some h
    rw [← List.append_assoc, List.foldl_append] at ho
    have hq := step_out_plain (ch := ',') (by decide) ho
    have hc : cur = (a ++ y) ++ ',' :: b := by rw [hc]; simp
    rw [h2]
    left
    refine ⟨(a ++ y).length, by simp; omega, ?_, ?_⟩
    · rw [hc]; simp
    · rw [hc, List.take_left]; exact hq
  · right
    obtain ⟨y, rfl⟩ := h
    rw [← List.append_assoc, List.foldl_append] at ho
    have hq1 := step_out_plain (ch := '/') (by decide) ho
    have hq := step_out_plain (ch := '/') (by decide) hq1
    have hc : cur = (a ++ y) ++ '/' :: '/' :: b := by rw [hc]; simp
    rw [h2]
    right
    refine ⟨(a ++ y).length, by simp; omega, ?_, ?_, ?_⟩
    · rw [hc]; simp
    · rw [hc, List.getElem?_append_right (by omega)]
      rw [show (a ++ y).length + 1 - (a ++ y).length = 1 by omega]; rfl
    · rw [hc, List.take_left]; exact hq

/-- The last character of a statement of the class. -/
def GoodLast (s : Str) : Prop :=
  ∃ z, s.getLast? = some z ∧ isWs z = false ∧ z ≠ ',' ∧ z ≠ '/' ∧ z ≠ '&'

theorem GoodLast.suffix {a b : Str} (h : GoodLast (a ++ b)) (hb : b ≠ []) : GoodLast b := by
  obtain ⟨z, h1, h2⟩ := h
  refine ⟨z, ?_, h2⟩
  rw [List.getLast?_append] at h1
  cases hg : b.getLast? with
  | none => rw [List.getLast?_eq_none_iff] at hg; exact absurd hg hb
  | some y => rw [hg] at h1; simpa using h1

theorem GoodLast.not_break {x : Str} (h : GoodLast x) : ¬ EndsBreak x := by
  obtain ⟨z, h1, h2, h3, h4, h5⟩ := h
  rintro (h | h | h)
  · rw [h1] at h; cases h; revert h2; decide
  · rw [h1] at h; cases h; exact h3 rfl
  · obtain ⟨y, rfl⟩ := h
    rw [List.getLast?_append] at h1
    simp at h1
    exact h4 h1.symm

theorem GoodLast.nonblank {x : Str} (h : GoodLast x) : ¬ Blank x := by
  obtain ⟨z, h1, h2, -⟩ := h
  intro hb
  rw [hb z (List.mem_of_getLast? h1)] at h2; cases h2

theorem GoodLast.pre {a b : Str} (h : GoodLast b) : GoodLast (a ++ b) := by
  obtain ⟨z, h1, h2⟩ := h
  refine ⟨z, ?_, h2⟩
  rw [List.getLast?_append, h1]; rfl

theorem readStmts_single {l : Str} (h : GoodLast l) : readStmts [l] = [l] := by
  rw [readStmts, if_neg h.nonblank, if_neg]
  · rfl
  · obtain ⟨z, h1, -, -, -, h5⟩ := h
    rw [h1]; simpa using h5

/-- The shape of the lines written for the text `cur` (`cl`: on a continuation line). -/
inductive Shape (c : Cfg) (level : Nat) : Bool → Str → List Str → Prop
  | last (cl : Bool) (cur u : Str) (tail : List Str) (hu : lstrip cur = u) (hg : GoodLast u)
      (hn : NoComment u) (ht : tail = [] ∨ tail = [[]]) :
      Shape c level cl cur ((c.indent level cl ++ u) :: tail)
  | more (cl : Bool) (cur u x y : Str) (n : Nat) (lines : List Str) (hu : lstrip cur = u)
      (hxy : u = x ++ y) (hx : x ≠ []) (hn : NoComment u) (ho : x.foldl Q.step .out = .out)
      (hb : EndsBreak x) (hl : Shape c level true y lines) :
      Shape c level cl cur
        ((c.indent level cl ++ x ++ List.replicate n ' ' ++ ['&']) :: lines)

theorem write1_class (c : Cfg) (level w : Nat) (hf : c.fill < c.max)
    (hroom : c.ind * level + c.cont + w + 2 ≤ c.max) :
    ∀ (n : Nat) (cur : Str), cur.length = n → GoodLast cur → NoComment cur → Breakable w cur →
    ∀ (fuel : Nat) (cl : Bool), cur.length + 1 ≤ fuel →
    ∃ lines t, write1 c level fuel cur cl = (lines, .ok) ∧ readStmts lines = [t] ∧
      (lstrip t).head? ≠ some '&' ∧
      (∀ sl, normFrom ⟨.out, true, sl⟩ t = normFrom ⟨.out, true, sl⟩ cur) ∧
      Shape c level cl cur lines := by
  intro n
  induction n using Nat.strongRecOn with
  | ind n IH =>
  intro cur hn hgl hnc hbr fuel cl hfuel
  -- strip
  obtain ⟨ws, hws, hwsp⟩ := dropWhile_append_ws isWs cur
  have hstrip : strip cur = lstrip cur := by
    obtain ⟨z, h1, h2, -⟩ := hgl
    rw [strip, rstrip_of_last h1 h2]
  have hne : lstrip cur ≠ [] := by
    intro h
    unfold lstrip at h
    rw [h, List.append_nil] at hws
    exact hgl.nonblank (by rw [hws]; exact hwsp)
  obtain ⟨ch, rest, hcr⟩ := List.exists_cons_of_ne_nil hne
  have hcur : cur = ws ++ (ch :: rest) := by rw [← hcr]; exact hws
  have hwso := foldl_ws hwsp
  have hchw := lstrip_head_ne hcr
  rw [hcur] at hgl hnc hbr
  have hgl' := hgl.suffix (by simp : ch :: rest ≠ [])
  have hnc' := hnc.suffix hwso
  have hbr' := hbr.suffix hwso
  obtain ⟨hbang, hamp⟩ := hnc' [] ch rest rfl rfl
  have hnc2 : ∀ a ch' b, ch :: rest = a ++ ch' :: b → a.foldl Q.step .out = .out → ch' ≠ '!' :=
    fun a ch' b h1 h2 => (hnc' a ch' b h1 h2).1
  generalize hI : c.indent level cl = I
  have hIw : ∀ x ∈ I, isWs x = true := by rw [← hI]; exact indent_ws c level cl
  have hIl : I.length ≤ c.ind * level + c.cont := by
    rw [← hI, Cfg.indent, List.length_replicate]; split <;> omega
  have hos : outStr I (ch :: rest) = I ++ ch :: rest := by simp [outStr, hamp]
  have hlen : cur.length = ws.length + (rest.length + 1) := by rw [hcur]; simp
  have hnormcur : ∀ sl x, normFrom ⟨.out, true, sl⟩ (I ++ x) = normFrom ⟨.out, true, sl⟩ x := by
    intro sl x
    obtain ⟨a1, a2⟩ := after_ws (st := ⟨.out, true, sl⟩) rfl rfl hIw
    rw [normFrom_append, a1, a2]; rfl
  have hnormws : ∀ sl x, normFrom ⟨.out, true, sl⟩ (ws ++ x) = normFrom ⟨.out, true, sl⟩ x := by
    intro sl x
    obtain ⟨a1, a2⟩ := after_ws (st := ⟨.out, true, sl⟩) rfl rfl hwsp
    rw [normFrom_append, a1, a2]; rfl
  have hhead : ∀ x, (lstrip (I ++ ch :: x)).head? ≠ some '&' := by
    intro x
    rw [lstrip_ws_append hIw, lstrip_cons_of hchw]
    simpa using hamp
  cases fuel with
  | zero => omega
  | succ fuel =>
  simp only [write1, hI, hstrip, hcr, hos]
  by_cases hlong : (I ++ ch :: rest).length > c.fill
  case neg =>
    rw [if_neg hlong]
    refine ⟨_, _, rfl, readStmts_single (hgl'.pre), hhead rest, ?_,
      by rw [← hI]; exact .last cl cur _ [] hcr hgl' hnc' (Or.inl rfl)⟩
    intro sl
    rw [hnormcur, hcur, hnormws]
  case pos =>
    rw [if_pos hlong]
    have hic : decide ((ch :: rest).head? = some '!') = false := by simpa using hbang
    have hscm := (scan_mem c (ch :: rest) I.length .out hnc2).1
    have hrej : ∀ sp, rejectEarly (I ++ ch :: rest) sp = some sp := by
      intro sp
      unfold rejectEarly
      rw [lstrip_ws_append hIw, lstrip_cons_of hchw]
      simp [hbang]
    simp only [hic, List.drop_left, hrej, hscm, Bool.or_false, Bool.false_eq_true, if_false,
      List.nil_append]
    have hss := fun x => scan_sound c (ch :: rest) I.length x hnc2
    rcases bestBreak_cases c hf (scan c false I.length .out (ch :: rest)).spaces
        (scan c false I.length .out (ch :: rest)).commas with ⟨hmem, hpos, hltm⟩ | ⟨hbest, hno⟩
    · -- a proper break
      generalize bestBreak c (scan c false I.length .out (ch :: rest)).spaces
        (scan c false I.length .out (ch :: rest)).commas = b at hmem hpos hltm ⊢
      obtain ⟨k, k1, k2, k3, k4, k5⟩ := hss b hmem
      have hk : k < (ch :: rest).length := by
        rcases Nat.lt_or_ge k (ch :: rest).length with h | h
        · exact h
        · exfalso
          rw [List.take_of_length_le h] at k4
          exact hgl'.not_break k4
      have hsplit : ch :: rest = (ch :: rest).take k ++ (ch :: rest).drop k :=
        (List.take_append_drop k _).symm
      have htake : (I ++ ch :: rest).take (b + 1) = I ++ (ch :: rest).take k := by
        rw [k3, List.take_length_add_append]
      have hdrop : (I ++ ch :: rest).drop (b + 1) = (ch :: rest).drop k := by
        rw [k3, List.drop_length_add_append]
      have hrne : (ch :: rest).drop k ≠ [] := by
        intro h; rw [List.drop_eq_nil_iff] at h; omega
      have hglr : GoodLast ((ch :: rest).drop k) := by
        rw [hsplit] at hgl'; exact hgl'.suffix hrne
      have hncr : NoComment ((ch :: rest).drop k) := by
        rw [hsplit] at hnc'; exact hnc'.suffix k5
      have hbrr : Breakable w ((ch :: rest).drop k) := by
        rw [hsplit] at hbr'; exact hbr'.suffix k5
      have hq : inQuote (I ++ (ch :: rest).take k) = false := by
        rw [inQuote, List.foldl_append, foldl_ws hIw, k5]; rfl
      -- the remainder
      have hlc : lineContinue (I ++ ch :: rest) b false = some .yes := by
        unfold lineContinue
        rw [if_pos (by rw [List.length_append]; omega), htake, hq, hdrop]
        obtain ⟨ws2, hw2, hw2p⟩ := dropWhile_append_ws isWs ((ch :: rest).drop k)
        cases hl : lstrip ((ch :: rest).drop k) with
        | nil =>
          exfalso
          unfold lstrip at hl
          rw [hl, List.append_nil] at hw2
          exact hglr.nonblank (by rw [hw2]; exact hw2p)
        | cons d ds =>
          have hl' : List.dropWhile isWs ((ch :: rest).drop k) = d :: ds := hl
          rw [hl'] at hw2
          have := (hncr ws2 d ds hw2 (foldl_ws hw2p)).1
          simp [this]
      rw [hlc]
      simp only [reduceCtorEq, false_and, if_false]
      rw [if_neg (by omega), hdrop]
      have hlr : ((ch :: rest).drop k).length < cur.length := by
        rw [List.length_drop, hlen]; simp only [List.length_cons]; omega
      obtain ⟨lines, t, e1, e2, e3, e4, e5⟩ := IH _ (by rw [← hn]; exact hlr) _ rfl hglr hncr hbrr fuel
        true (by omega)
      rw [show (Cont.yes != Cont.no) = true from rfl, e1]
      have hline : outLine c (I ++ ch :: rest) b .yes =
          I ++ (ch :: rest).take k ++ List.replicate (c.fill - b) ' ' ++ ['&'] := by
        unfold outLine
        rw [htake]
        simp only [reduceCtorEq, if_false]
        rw [rstrip_of_last (z := '&') (by simp) (by decide)]
        simp
      rw [hline]
      refine ⟨_, I ++ (ch :: rest).take k ++ List.replicate (c.fill - b) ' ' ++ t, rfl, ?_, ?_, ?_,
        by rw [← hI]; exact .more cl cur _ _ _ _ _ hcr hsplit
            (by obtain ⟨k', rfl⟩ : ∃ k', k = k' + 1 := ⟨k - 1, by omega⟩
                simp) hnc' k5 k4 e5⟩
      · rw [readStmts, if_neg, if_pos (by simp), e2]
        · simp only [List.dropLast_concat, contText, if_neg e3]
        · intro h
          have := h '&' (by simp)
          revert this; decide
      · obtain ⟨k', rfl⟩ : ∃ k', k = k' + 1 := ⟨k - 1, by omega⟩
        simp only [List.take_succ_cons, List.append_assoc, List.cons_append]
        exact hhead _
      · intro sl
        have hout : ((⟨.out, true, sl⟩ : LexSt).after ((ch :: rest).take k)).q = .out := by
          rw [after_q]; exact k5
        have hsep := after_break ⟨.out, true, sl⟩ _ k4 hout
        have hwr : ∀ x ∈ List.replicate (c.fill - b) ' ', isWs x = true := by
          intro x h; rw [(List.mem_replicate.1 h).2]; decide
        obtain ⟨a1, a2⟩ := after_ws hout hsep hwr
        rw [hcur, hnormws, List.append_assoc, List.append_assoc, hnormcur, normFrom_append,
          normFrom_append, a1, a2]
        conv => rhs; rw [hsplit, normFrom_append]
        congr 1
        rw [List.nil_append]
        generalize hst : (⟨.out, true, sl⟩ : LexSt).after ((ch :: rest).take k) = st at *
        obtain ⟨q, sp, sl2⟩ := st
        simp only at hout hsep
        subst hout; subst hsep
        exact e4 sl2
    · -- no break point: the text is short
      rw [hbest]
      have hshort : (ch :: rest).length ≤ w + 1 := by
        rcases Nat.lt_or_ge (w + 1) (ch :: rest).length with hlt | hge
        · exfalso
          obtain ⟨k, k1, k2, k3, k4⟩ := hbr' [] (ch :: rest) rfl (by omega)
          have hk : k ≤ (ch :: rest).length := by omega
          have hm := scan_complete c (ch :: rest) I.length hnc2 (a := []) (x := (ch :: rest).take k)
            (b := (ch :: rest).drop k) (by simp) k3 k4
          have hx := hno _ hm
          simp only [List.nil_append, List.length_take, Nat.min_eq_left hk] at hx
          have hz : I.length + k - 1 = 0 := by omega
          have hk1 : k = 1 := by omega
          subst hk1
          obtain ⟨k', j1, j2, j3, j4⟩ := hbr' ((ch :: rest).take 1) ((ch :: rest).drop 1)
            (List.take_append_drop 1 _).symm (by simp at hlt ⊢; omega)
          have hm := scan_complete c (ch :: rest) I.length hnc2 (a := (ch :: rest).take 1)
            (x := ((ch :: rest).drop 1).take k') (b := ((ch :: rest).drop 1).drop k')
            (by rw [List.append_assoc, List.take_append_drop, List.take_append_drop]) j3 j4
          have hx := hno _ hm
          simp at hx hlt
          omega
        · exact hge
      have hlo : (I ++ ch :: rest).length ≤ c.max - 1 := by
        rw [List.length_append]; omega
      have hlc : lineContinue (I ++ ch :: rest) (c.max - 1) false = some .no := by
        unfold lineContinue
        rw [if_neg (by omega)]; rfl
      rw [hlc]
      simp only [reduceCtorEq, false_and, if_false]
      rw [if_neg (by omega), List.drop_eq_nil_of_le (by omega)]
      have hline : outLine c (I ++ ch :: rest) (c.max - 1) .no = I ++ ch :: rest := by
        unfold outLine
        rw [List.take_of_length_le (by omega)]
        simp only [if_true, List.append_nil]
        obtain ⟨z, z1, z2, -⟩ := hgl'.pre (a := I)
        exact rstrip_of_last z1 z2
      rw [hline]
      have hrec : write1 c level fuel [] (Cont.no != Cont.no) = ([[]], .ok) := by
        cases fuel with
        | zero => omega
        | succ fuel => simp [write1, strip, lstrip, rstrip, outStr]
      rw [hrec]
      refine ⟨_, I ++ ch :: rest, rfl, ?_, hhead rest, ?_,
        by rw [← hI]; exact .last cl cur _ [[]] hcr hgl' hnc' (Or.inr rfl)⟩
      · have hb : Blank ([] : Str) := by intro x hx; cases hx
        have h1 : readStmts [[]] = [] := by rw [readStmts, if_pos hb]; rfl
        rw [readStmts, if_neg (hgl'.pre).nonblank, if_neg, h1]
        obtain ⟨z, z1, -, -, -, z5⟩ := hgl'.pre (a := I)
        rw [z1]; simpa using z5
      · intro sl
        rw [hnormcur, hcur, hnormws]

/-- More recursion depth than needed changes nothing. -/
theorem write1_mono (c : Cfg) (level : Nat) : ∀ (n m : Nat) (s : Str) (cl : Bool) (lines : List Str),
    n ≤ m → write1 c level n s cl = (lines, .ok) → write1 c level m s cl = (lines, .ok) := by
  intro n
  induction n with
  | zero => intro m s cl lines _ h; simp [write1] at h
  | succ n ih =>
    intro m s cl lines hm h
    cases m with
    | zero => omega
    | succ m =>
      simp only [write1] at h ⊢
      split at h
      · next hlong =>
        rw [if_pos hlong]
        split at h
        · simp at h
        · split at h
          · simp at h
          · split at h
            · simp at h
            · next hrej _ lc hlc hb =>
              rw [if_neg hb]
              simp only [Prod.mk.injEq] at h
              obtain ⟨h1, h2⟩ := h
              have := ih m _ _ _ (by omega) (Prod.ext rfl h2)
              simp only [hrej, hlc, if_neg hb, this]
              rw [← h1]
      · next hlong => rw [if_neg hlong]; exact h

theorem splitNL_single {s : Str} (h : '\n' ∉ s) : splitNL s = [s] := by
  induction s with
  | nil => rfl
  | cons ch s ih =>
    rw [splitNL, if_neg (by rintro rfl; exact h List.mem_cons_self),
      ih (fun hm => h (List.mem_cons_of_mem _ hm))]

/-- **C22 (partial).**  A one-line statement without comment or `&` outside quotes, not ending in a
comma, a slash, a blank or `&`, in which every stretch of `w` characters contains an unquoted blank,
comma or `//`, is written without error for every writer configuration with room for `w + 2`
characters besides the indentation; and a compiler reading the lines sees exactly one statement with
the same significant text.  Missing: longer words, trailing comments, long literals
(`C22_*_violated`). -/
theorem C22_preserved_partial (c : Cfg) (level w : Nat) (s : Str) (hf : c.fill < c.max)
    (hroom : c.ind * level + c.cont + w + 2 ≤ c.max) (hnl : '\n' ∉ s)
    (hlast : GoodLast s) (hnc : NoComment s) (hbr : Breakable w s) (fuel : Nat)
    (hfuel : s.length + 1 ≤ fuel) (cl : Bool) :
    ∃ lines, write c level fuel s cl = (lines, .ok) ∧ (readStmts lines).map norm = [norm s] := by
  obtain ⟨lines, t, h1, h2, -, h4, -⟩ := write1_class c level w hf hroom s.length s rfl hlast hnc hbr
    fuel cl hfuel
  refine ⟨lines, ?_, ?_⟩
  · simp [write, splitNL_single hnl, writeParts, h1]
  · rw [h2]; simp only [List.map_cons, List.map_nil]; unfold norm LexSt.start; rw [h4]

/-! Non-vacuity -/

instance (x : Str) : Decidable (EndsBreak x) := by unfold EndsBreak; infer_instance

theorem breakable_of_check {w : Nat} {s : Str}
    (h : ∀ i ∈ List.range (s.length + 1), w < (s.drop i).length → ∃ k ∈ List.range (w + 1), 1 ≤ k ∧
      EndsBreak ((s.drop i).take k) ∧ (s.take i ++ (s.drop i).take k).foldl Q.step .out = .out) :
    Breakable w s := by
  rintro a b rfl hl
  obtain ⟨k, h0, h1, h2, h3⟩ := h a.length (by rw [List.mem_range]; simp; omega)
    (by rw [List.drop_left]; exact hl)
  rw [List.drop_left] at h2 h3
  rw [List.take_left] at h3
  exact ⟨k, h1, by rw [List.mem_range] at h0; omega, h2, h3⟩

theorem noComment_of_check {s : Str}
    (h : ∀ i ∈ List.range s.length, (s.take i).foldl Q.step .out = .out →
      s[i]? ≠ some '!' ∧ s[i]? ≠ some '&') : NoComment s := by
  rintro a ch b rfl ha
  have := h a.length (by rw [List.mem_range]; simp) (by rw [List.take_left]; exact ha)
  simpa using this

/-- A call that needs three lines, with a literal containing a comment sign and a comma. -/
example : ∃ lines, write ⟨3, 5, 20, 30⟩ 0 99 "call foo('a! b', beta, x // gamma // delta)".toList false =
    (lines, .ok) ∧ (readStmts lines).map norm =
      [norm "call foo('a! b', beta, x // gamma // delta)".toList] :=
  C22_preserved_partial ⟨3, 5, 20, 30⟩ 0 12 _ (by decide) (by decide) (by decide)
    ⟨')', by decide, by decide, by decide, by decide, by decide⟩
    (noComment_of_check (by decide)) (breakable_of_check (by decide)) 99 (by decide) false

end Ccpp.FW
