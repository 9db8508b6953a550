import Verif.Model.FortranLines
import Verif.Spec.FortranLines
/-!
# C55: a source line is cut into statements exactly at its separators
-/
namespace Ccpp.FL
open FLS (Ctx ctxAt SepAt)

/-! ### A recursive form of the specification -/

/-- Helper: the pieces of a line that begins in context `c`. -/
def pieces : Ctx → Str → List Str
  | _, [] => [[]]
  | c, ch :: r =>
    if ch = ';' ∧ c = .code then [] :: pieces .code r
    else match pieces (c.step ch) r with
      | [] => [[ch]]
      | p :: ps => (ch :: p) :: ps

theorem pieces_ne (c : Ctx) (l : Str) : pieces c l ≠ [] := by
  cases l with
  | nil => simp [pieces]
  | cons ch r => simp only [pieces]; (split; · simp); split <;> simp

/-- Helper: put `pre` in front of the first piece. -/
def glue (pre : Str) : List Str → List Str
  | [] => [pre]
  | p :: ps => (pre ++ p) :: ps

theorem glue_cons_pieces (c : Ctx) (ch : Char) (r pre : Str) (h : ¬ (ch = ';' ∧ c = .code)) :
    glue pre (pieces c (ch :: r)) = glue (pre ++ [ch]) (pieces (c.step ch) r) := by
  simp only [pieces, if_neg h]
  cases hp : pieces (c.step ch) r with
  | nil => exact absurd hp (pieces_ne _ _)
  | cons p ps => simp [glue]

theorem pieces_comment (r : Str) : pieces .comment r = [r] := by
  induction r with
  | nil => rfl
  | cons ch r ih => simp [pieces, Ctx.step, ih]

/-- Helper: the context of a model state. -/
def Q.ctx : Q → Ctx
  | .out => .code
  | .sq => .lit '\''
  | .dq => .lit '"'

def ne (s : Str) : Bool := s ≠ []

theorem slice_succ {line : Str} {st en : Nat} {ch : Char} (h : line[en]? = some ch) (hs : st ≤ en) :
    slice line st (en + 1) = slice line st en ++ [ch] := by
  unfold slice
  have he : en + 1 - st = (en - st) + 1 := by omega
  rw [he, List.take_add_one]
  congr 1
  rw [List.getElem?_drop, show st + (en - st) = en by omega, h]; rfl

theorem slice_length {line : Str} {st en : Nat} (he : en ≤ line.length) :
    (slice line st en).length = en - st := by
  unfold slice; rw [List.length_take, List.length_drop]; omega

theorem slice_add {line : Str} {st en : Nat} (hs : st ≤ en) :
    slice line st line.length = slice line st en ++ line.drop en := by
  unfold slice
  rw [List.take_of_length_le (by rw [List.length_drop]; omega)]
  conv => lhs; rw [← List.take_append_drop (en - st) (line.drop st)]
  rw [List.drop_drop, show st + (en - st) = en by omega]

theorem cleanup (line : Str) (st en : Nat) (acc : List Str) (he : en ≤ line.length) :
    (if en > st then acc ++ [slice line st en] else acc)
      = acc ++ [slice line st en].filter ne := by
  have := slice_length (st := st) he
  by_cases h : en > st
  · rw [if_pos h, List.filter_cons_of_pos]; · simp
    simp only [ne, decide_eq_true_eq]; intro h0; rw [h0] at this; simp at this; omega
  · rw [if_neg h, List.filter_cons_of_neg]; · simp
    have : slice line st en = [] := List.length_eq_zero_iff.1 (by omega)
    simp [ne, this]

theorem stmtsLoop_eq (line : Str) : ∀ (fuel st en : Nat) (q : Q) (acc : List Str),
    st ≤ en → en ≤ line.length → line.length ≤ fuel + en →
    stmtsLoop line fuel st en q acc
      = acc ++ (glue (slice line st en) (pieces q.ctx (line.drop en))).filter ne := by
  intro fuel
  induction fuel with
  | zero =>
    intro st en q acc hs he hf
    have : line.drop en = [] := List.drop_eq_nil_of_le (by omega)
    rw [this]
    simp only [stmtsLoop, cleanup line st en acc he, pieces, glue, List.append_nil]
  | succ fuel ih =>
    intro st en q acc hs he hf
    simp only [stmtsLoop]
    cases hc : line[en]? with
    | none =>
      have hl : line.length ≤ en := List.getElem?_eq_none_iff.1 hc
      rw [List.drop_eq_nil_of_le hl]
      simp only [cleanup line st en acc he, pieces, glue, List.append_nil]
    | some ch =>
      obtain ⟨hlt, hch⟩ := List.getElem?_eq_some_iff.1 hc
      have hd : line.drop en = ch :: line.drop (en + 1) := by
        rw [List.drop_eq_getElem_cons hlt, hch]
      have hgo : ∀ (q' : Q), q'.ctx = q.ctx.step ch → ¬ (ch = ';' ∧ q.ctx = .code) →
          stmtsLoop line fuel st (en + 1) q' acc
            = acc ++ (glue (slice line st en) (pieces q.ctx (line.drop en))).filter ne := by
        intro q' hq hne
        rw [ih st (en + 1) q' acc (by omega) hlt (by omega), hd, glue_cons_pieces _ _ _ _ hne, hq,
          slice_succ hc hs]
      cases q with
      | sq =>
        refine hgo _ ?_ (by simp [Q.ctx])
        by_cases h : ch = '\'' <;> simp [h, Q.ctx, Ctx.step]
      | dq =>
        refine hgo _ ?_ (by simp [Q.ctx])
        by_cases h : ch = '"' <;> simp [h, Q.ctx, Ctx.step]
      | out =>
        simp only []
        split
        · next h => exact hgo _ (by subst h; rfl) (by subst h; decide)
        split
        · next h => exact hgo _ (by subst h; rfl) (by subst h; decide)
        split
        · next h =>
          rw [show line.length - 1 + 1 = line.length by omega,
            ih st line.length .out acc (by omega) (by omega) (by omega), List.drop_length]
          subst h
          rw [hd, glue_cons_pieces _ _ _ _ (by decide)]
          simp only [Q.ctx, Ctx.step, if_pos, pieces_comment, pieces, glue, List.append_nil]
          rw [slice_add hs, hd]; simp
        split
        · next h =>
          subst h
          rw [cleanup line st en acc he, ih (en + 1) (en + 1) .out _ (by omega) hlt (by omega), hd]
          simp only [pieces, Q.ctx, and_self, if_pos, glue, List.append_nil]
          have : slice line (en + 1) (en + 1) = [] := by simp [slice]
          rw [this]
          cases hp : pieces .code (line.drop (en + 1)) with
          | nil => exact absurd hp (pieces_ne _ _)
          | cons p ps =>
            simp only [glue, List.nil_append, List.append_assoc]
            rw [← List.filter_append]; rfl
        · next h1 h2 h3 h4 =>
          refine hgo _ ?_ (fun h => h4 h.1)
          simp [Q.ctx, Ctx.step, h1, h2, h3]

theorem lineStatements_eq (line : Str) :
    lineStatements line = (pieces .code line).filter ne := by
  unfold lineStatements
  rw [stmtsLoop_eq line line.length 0 0 .out [] (by omega) (by omega) (by omega)]
  have : slice line 0 0 = [] := by simp [slice]
  rw [this, List.drop_zero, List.nil_append]
  cases hp : pieces Q.out.ctx line with
  | nil => exact absurd hp (pieces_ne _ _)
  | cons p ps => simp only [glue, List.nil_append]; simp only [Q.ctx] at hp; rw [hp]

theorem pieces_join (c : Ctx) (l : Str) : List.intercalate [';'] (pieces c l) = l := by
  induction l generalizing c with
  | nil => simp [pieces, List.intercalate]
  | cons ch r ih =>
    simp only [pieces]
    split
    · next h =>
      have := ih .code
      cases hp : pieces .code r with
      | nil => exact absurd hp (pieces_ne _ _)
      | cons p ps =>
        rw [hp] at this
        simp only [List.intercalate, List.intersperse] at this ⊢
        simp [h.1, this]
    · have := ih (c.step ch)
      cases hp : pieces (c.step ch) r with
      | nil => exact absurd hp (pieces_ne _ _)
      | cons p ps =>
        rw [hp] at this
        cases ps with
        | nil => simp [List.intercalate] at this ⊢; exact this
        | cons p' ps =>
          simp only [List.intercalate, List.intersperse, List.flatten_cons, List.cons_append] at this ⊢
          rw [this]

theorem pieces_seps (c : Ctx) (l : Str) (i : Nat) :
    (l[i]? = some ';' ∧ (l.take i).foldl Ctx.step c = .code) ↔
      ∃ a b : List Str, pieces c l = a ++ b ∧ a ≠ [] ∧ b ≠ [] ∧
        i = (List.intercalate [';'] a).length := by
  induction l generalizing c i with
  | nil =>
    constructor
    · simp
    · rintro ⟨a, b, h, ha, hb, -⟩
      simp only [pieces] at h
      have := congrArg List.length h
      have := List.length_pos_iff.2 ha
      have := List.length_pos_iff.2 hb
      simp at *; omega
  | cons ch r ih =>
    simp only [pieces]
    split
    · next h =>
      obtain ⟨rfl, rfl⟩ := h
      cases i with
      | zero =>
        simp only [List.getElem?_cons_zero, List.take_zero, List.foldl_nil, and_self, true_iff]
        exact ⟨[[]], pieces .code r, rfl, by simp, pieces_ne _ _, by simp [List.intercalate]⟩
      | succ i =>
        have hst : Ctx.step .code ';' = .code := by decide
        simp only [List.getElem?_cons_succ, List.take_succ_cons, List.foldl_cons, hst, ih .code i]
        constructor
        · rintro ⟨a, b, h, ha, hb, hi⟩
          refine ⟨[] :: a, b, by simp [h], by simp, hb, ?_⟩
          obtain ⟨x, a, rfl⟩ := List.exists_cons_of_ne_nil ha
          simp [List.intercalate, List.intersperse] at hi ⊢; omega
        · rintro ⟨a, b, h, ha, hb, hi⟩
          obtain ⟨x, a, rfl⟩ := List.exists_cons_of_ne_nil ha
          simp only [List.cons_append, List.cons.injEq] at h
          obtain ⟨rfl, h⟩ := h
          cases a with
          | nil => simp [List.intercalate] at hi
          | cons y a =>
            refine ⟨y :: a, b, h, by simp, hb, ?_⟩
            simp [List.intercalate, List.intersperse] at hi ⊢; omega
    · next h =>
      cases hp : pieces (c.step ch) r with
      | nil => exact absurd hp (pieces_ne _ _)
      | cons p ps =>
        simp only []
        cases i with
        | zero =>
          simp only [List.getElem?_cons_zero, List.take_zero, List.foldl_nil, Option.some.injEq]
          constructor
          · intro h'; exact absurd h' h
          · rintro ⟨a, b, h, ha, hb, hi⟩
            obtain ⟨x, a, rfl⟩ := List.exists_cons_of_ne_nil ha
            simp only [List.cons_append, List.cons.injEq] at h
            obtain ⟨rfl, h⟩ := h
            cases a <;> simp [List.intercalate, List.intersperse] at hi
        | succ i =>
          simp only [List.getElem?_cons_succ, List.take_succ_cons, List.foldl_cons,
            ih (c.step ch) i, hp]
          constructor
          · rintro ⟨a, b, h, ha, hb, hi⟩
            obtain ⟨x, a, rfl⟩ := List.exists_cons_of_ne_nil ha
            simp only [List.cons_append, List.cons.injEq] at h
            obtain ⟨rfl, h⟩ := h
            refine ⟨(ch :: p) :: a, b, by simp [h], by simp, hb, ?_⟩
            cases a <;> simp [List.intercalate, List.intersperse] at hi ⊢ <;> omega
          · rintro ⟨a, b, h, ha, hb, hi⟩
            obtain ⟨x, a, rfl⟩ := List.exists_cons_of_ne_nil ha
            simp only [List.cons_append, List.cons.injEq] at h
            obtain ⟨rfl, h⟩ := h
            refine ⟨p :: a, b, by simp [h], by simp, hb, ?_⟩
            cases a <;> simp [List.intercalate, List.intersperse] at hi ⊢ <;> omega

/-- C55: for every line there are pieces which, put together with `;`, are the line, whose
boundaries are exactly the statement separators (semicolons outside character context and
comments), and whose nonempty members, in order, are the statements. -/
theorem C55_statements (line : Str) :
    ∃ ps : List Str, lineStatements line = ps.filter (fun p => decide (p ≠ [])) ∧
      List.intercalate [';'] ps = line ∧
      ∀ i : Nat, SepAt line i ↔ ∃ a b, ps = a ++ b ∧ a ≠ [] ∧ b ≠ [] ∧
        i = (List.intercalate [';'] a).length :=
  ⟨pieces .code line, lineStatements_eq line, pieces_join _ _, fun i => pieces_seps .code line i⟩

example : lineStatements "a = ';'; b = 2;; c = 3 ! d; e".toList
    = ["a = ';'".toList, " b = 2".toList, " c = 3 ! d; e".toList] := by decide
example : SepAt "a = ';'; b".toList 7 ∧ ¬ SepAt "a = ';'; b".toList 5 := by
  unfold SepAt; decide

/-- C55: no statement is empty, and a line without separators is one statement. -/
theorem C55_nonempty (line : Str) : ∀ s ∈ lineStatements line, s ≠ [] := by
  intro s h
  rw [lineStatements_eq] at h
  simpa [ne] using (List.mem_filter.1 h).2

theorem C55_single (line : Str) (hn : line ≠ []) (h : ∀ i : Nat, ¬ SepAt line i) :
    lineStatements line = [line] := by
  obtain ⟨ps, h1, h2, h3⟩ := C55_statements line
  match ps, h1, h2, h3 with
  | [], _, h2, _ => exact absurd h2.symm hn
  | [p], h1, h2, _ =>
    simp [List.intercalate] at h2
    subst h2
    rw [h1]; simp [hn]
  | p :: p' :: ps, _, _, h3 =>
    exact absurd ((h3 _).2 ⟨[p], p' :: ps, rfl, by simp, by simp, rfl⟩) (h _)

example : lineStatements "x = 'a;b' ! c;d".toList = ["x = 'a;b' ! c;d".toList] := by decide

theorem sum_zero_iff (l : Str) :
    ((lineStatements l).map List.length).sum = 0 ↔ lineStatements l = [] := by
  constructor
  · intro h
    have hn := C55_nonempty l
    cases hl : lineStatements l with
    | nil => rfl
    | cons s ss =>
      rw [hl] at h hn
      have := List.length_pos_iff.2 (hn s (by simp))
      simp at h; simp [h.1] at this
  · intro h; simp [h]

/-- C55: reading the next statements gives all statements of the next line that has any and skips
only lines without statements; the end of the file is reported only if no line has any. -/
theorem C55_read (ls : List Str) (s rest : List Str) :
    readStatements ls = some (s, rest) ↔
      ∃ pre l, ls = pre ++ l :: rest ∧ (∀ x ∈ pre, lineStatements x = []) ∧
        s = lineStatements l ∧ s ≠ [] := by
  induction ls with
  | nil => simp [readStatements]
  | cons x xs ih =>
    simp only [readStatements, sum_zero_iff]
    split
    · next h =>
      rw [ih]
      constructor
      · rintro ⟨pre, l, rfl, hp, hs, hn⟩
        exact ⟨x :: pre, l, rfl, by simpa [h] using hp, hs, hn⟩
      · rintro ⟨pre, l, he, hp, hs, hn⟩
        cases pre with
        | nil =>
          simp only [List.nil_append, List.cons.injEq] at he
          obtain ⟨rfl, rfl⟩ := he
          exact absurd (hs.trans h) hn
        | cons y pre =>
          simp only [List.cons_append, List.cons.injEq] at he
          exact ⟨pre, l, he.2, fun z hz => hp z (by simp [hz]), hs, hn⟩
    · next h =>
      constructor
      · intro he
        simp only [Option.some.injEq, Prod.mk.injEq] at he
        obtain ⟨rfl, rfl⟩ := he
        exact ⟨[], x, rfl, by simp, rfl, h⟩
      · rintro ⟨pre, l, he, hp, hs, hn⟩
        cases pre with
        | nil =>
          simp only [List.nil_append, List.cons.injEq] at he
          obtain ⟨rfl, rfl⟩ := he
          simp [hs]
        | cons y pre =>
          simp only [List.cons_append, List.cons.injEq] at he
          exact absurd (by rw [he.1]; exact hp y (by simp)) h

theorem C55_read_end (ls : List Str) :
    readStatements ls = none ↔ ∀ x ∈ ls, lineStatements x = [] := by
  induction ls with
  | nil => simp [readStatements]
  | cons x xs ih =>
    simp only [readStatements, sum_zero_iff]
    split
    · next h => simp [ih, h]
    · next h => simp [h]

example : readStatements ["".toList, ";;".toList, "a;b".toList, "c".toList]
    = some (["a".toList, "b".toList], ["c".toList]) := by decide

end Ccpp.FL
