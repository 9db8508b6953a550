import Verif.Spec.FortranFile
/-!
# C89: reading a file always ends
-/
namespace Ccpp.FFile

open Ccpp.FDecl (Str VarRec)
open Ccpp.FSub (parseScheme)

/-- What is left to read, counted. -/
def left (src : Src) : Nat := src.1.length + size src.2

/-- The same, if there is something. -/
def leftO : Option Src → Nat
  | none => 0
  | some src => left src

theorem size_cons (l : List Str) (ls : List (List Str)) : size (l :: ls) = l.length + 1 + size ls := by
  simp [size]

theorem next_left : ∀ (rest : List (List Str)) (cur : List Str) {s : Str} {src : Src}, next cur rest = some (s, src) →
    left src + 1 ≤ cur.length + size rest
  | rest, s' :: cur, s, src, h => by
    simp only [next, Option.some.injEq, Prod.mk.injEq] at h
    obtain ⟨_, rfl⟩ := h
    simp [left]; omega
  | [], [], s, src, h => by simp [next] at h
  | l :: rest, [], s, src, h => by
    rw [next] at h
    have := next_left rest l h
    rw [size_cons]
    simp; omega

theorem typeLines_left (logger : Bool) : ∀ (ls : List (List Str)) {st st' : TSt} {rest : List (List Str)},
    typeLines logger st ls = some (st', rest) → size rest ≤ size ls
  | [], st, st', rest, h => by
    simp only [typeLines, Option.some.injEq, Prod.mk.injEq] at h
    rw [← h.2]; exact Nat.le_refl _
  | l :: ls, st, st', rest, h => by
    rw [typeLines] at h
    rw [size_cons]
    split at h
    · cases h
    · split at h
      · simp only [Option.some.injEq, Prod.mk.injEq] at h
        rw [← h.2]; omega
      · have := typeLines_left logger ls h
        omega

theorem typeLines_left' (logger : Bool) {l : List Str} {ls : List (List Str)} {st st' : TSt} {rest : List (List Str)}
    (h : typeLines logger st (l :: ls) = some (st', rest)) : size rest ≤ size ls := by
  rw [typeLines] at h
  split at h
  · cases h
  · split at h
    · simp only [Option.some.injEq, Prod.mk.injEq] at h
      rw [← h.2]; omega
    · exact typeLines_left logger ls h

/-- The reading of the preamble ends, and does not read more than there is. -/
theorem preamble_ends (logger : Bool) (w spec : Str) : ∀ (n : Nat) (st : PSt) (src : Src), left src < n →
    preamble logger w spec n st src ≠ .error .fuel ∧
    ∀ t r, preamble logger w spec n st src = .ok (t, r) → leftO r ≤ left src
  | 0, st, src, h => by omega
  | n + 1, st, (cur, rest), h => by
    rw [preamble]
    cases hx : next cur rest with
    | none => exact ⟨by simp, fun t r e => by cases e; simp [leftO]⟩
    | some x =>
      obtain ⟨s, cur', rest'⟩ := x
      have hl := next_left rest cur hx
      have hl' : left (cur, rest) = cur.length + size rest := rfl
      have rec_ : ∀ st' src', left src' ≤ left (cur', rest') →
          preamble logger w spec n st' src' ≠ .error .fuel ∧
          ∀ t r, preamble logger w spec n st' src' = .ok (t, r) → leftO r ≤ left (cur, rest) := by
        intro st' src' hs
        have := preamble_ends logger w spec n st' src' (by omega)
        exact ⟨this.1, fun t r e => by have := this.2 t r e; omega⟩
      have err : ((Except.error Exc.error : Except Exc (List Tbl × Option Src)) ≠ .error .fuel) ∧
          ∀ t r, (Except.error Exc.error : Except Exc (List Tbl × Option Src)) = .ok (t, r) → leftO r ≤ left (cur, rest) :=
        ⟨by simp, fun _ _ e => by cases e⟩
      simp only
      split
      · exact err
      · split
        · exact rec_ _ _ (Nat.le_refl _)
        · split
          · refine ⟨by simp, fun t r e => ?_⟩
            simp only [Except.ok.injEq, Prod.mk.injEq] at e
            rw [← e.2]
            simp only [leftO, left, List.length_cons] at hl ⊢
            omega
          · split
            · split
              · exact err
              · rename_i ts rest'' ht
                have := typeLines_left' logger ht
                have hle : left ([], rest'') ≤ left (cur', rest') := by simp [left]; omega
                split
                · split
                  · exact err
                  · exact rec_ _ _ hle
                · exact rec_ _ _ hle
            · split
              · exact rec_ _ _ (Nat.le_refl _)
              · split
                · exact err
                · split
                  · split
                    · exact err
                    · exact rec_ _ _ (Nat.le_refl _)
                  · exact rec_ _ _ (Nat.le_refl _)

/-- The preamble consumes the announcement it begins with. -/
theorem preamble_first (logger : Bool) (w spec : Str) {n : Nat} {st : PSt} {s : Str} {cur : List Str} {rest : List (List Str)}
    {t : List Tbl} {r : Option Src} (hs : (tableName s).isSome = true) (hn : left (cur, rest) + 1 < n)
    (h : preamble logger w spec n st (s :: cur, rest) = .ok (t, r)) : leftO r ≤ left (cur, rest) := by
  cases n with
  | zero => omega
  | succ n =>
    rw [preamble] at h
    simp only [next] at h
    split at h
    · cases h
    · split at h
      · exact (preamble_ends logger w spec n _ (cur, rest) (by omega)).2 _ _ h
      · rename_i hn
        rw [hn] at hs; cases hs

theorem specification_ends (logger : Bool) (w spec : Str) (inmod : Bool) : ∀ (n : Nat) (tables : List Tbl) (src : Src),
    left src + 1 < n → specification logger w spec inmod n tables src ≠ .error .fuel ∧
    ∀ t r, specification logger w spec inmod n tables src = .ok (t, r) → leftO r ≤ left src
  | 0, _, src, h => by omega
  | n + 1, tables, (cur, rest), h => by
    rw [specification]
    cases hx : next cur rest with
    | none => exact ⟨by simp, fun t r e => by cases e; simp [leftO]⟩
    | some x =>
      obtain ⟨s, cur', rest'⟩ := x
      have hl := next_left rest cur hx
      have hl' : left (cur, rest) = cur.length + size rest := rfl
      have rec_ : ∀ st' src', left src' ≤ left (cur', rest') →
          specification logger w spec inmod n st' src' ≠ .error .fuel ∧
          ∀ t r, specification logger w spec inmod n st' src' = .ok (t, r) → leftO r ≤ left (cur, rest) := by
        intro st' src' hs
        have := specification_ends logger w spec inmod n st' src' (by omega)
        exact ⟨this.1, fun t r e => by have := this.2 t r e; omega⟩
      have err : ((Except.error Exc.error : Except Exc (List Tbl × Option Src)) ≠ .error .fuel) ∧
          ∀ t r, (Except.error Exc.error : Except Exc (List Tbl × Option Src)) = .ok (t, r) → leftO r ≤ left (cur, rest) :=
        ⟨by simp, fun _ _ e => by cases e⟩
      have fin : ∀ t, ((Except.ok (t, some (cur', rest')) : Except Exc (List Tbl × Option Src)) ≠ .error .fuel) ∧
          ∀ t' r, (Except.ok (t, some (cur', rest')) : Except Exc (List Tbl × Option Src)) = .ok (t', r) →
            leftO r ≤ left (cur, rest) :=
        fun t => ⟨by simp, fun t' r e => by cases e; simp only [leftO]; omega⟩
      simp only
      split
      · exact err
      · split
        · exact fin _
        · split
          · rename_i hm
            have hle : left (s :: cur', rest') = left (cur', rest') + 1 := by simp [left]; omega
            have hp := preamble_ends logger w spec n {} (s :: cur', rest') (by omega)
            split
            · rename_i e he
              exact ⟨by rintro ⟨⟩; exact hp.1 he, fun _ _ e => by cases e⟩
            · rename_i new src he
              have hle2 := preamble_first logger w spec hm (by omega) he
              split
              · split
                · exact err
                · exact rec_ _ _ hle2
              · exact ⟨by simp, fun t r e => by cases e; omega⟩
          · split
            · split
              · exact err
              · rename_i ts rest'' ht
                have := typeLines_left' logger ht
                exact rec_ _ _ (by simp [left]; omega)
            · split
              · exact fin _
              · exact rec_ _ _ (Nat.le_refl _)

theorem line_left (table : Str) (logger : Bool) : ∀ (l : List Str) (st : FSub.St) {st' : FSub.St} {r : List Str},
    FSub.line table logger st l = some (st', r) → r.length ≤ l.length
  | [], st, st', r, h => by
    simp only [FSub.line, Option.some.injEq, Prod.mk.injEq] at h
    rw [← h.2]; simp
  | s :: l, st, st', r, h => by
    rw [FSub.line] at h
    split at h
    · cases h
    · have := line_left table logger l _ h
      simp only [List.length_cons]; omega
    · simp only [Option.some.injEq, Prod.mk.injEq] at h
      rw [← h.2]; simp
    · simp only [Option.some.injEq, Prod.mk.injEq] at h
      rw [← h.2]; simp

theorem lines_left (table : Str) (logger : Bool) : ∀ (ls : List (List Str)) (st : FSub.St) {st' : FSub.St} {r : List Str}
    {rest : List (List Str)}, FSub.lines table logger st ls = some (st', r, rest) → r.length + size rest ≤ size ls
  | [], st, st', r, rest, h => by
    simp only [FSub.lines, Option.some.injEq, Prod.mk.injEq] at h
    rw [← h.2.1, ← h.2.2]; simp [size]
  | l :: ls, st, st', r, rest, h => by
    rw [FSub.lines] at h
    rw [size_cons]
    split at h
    · cases h
    · rename_i st1 l1 h1
      have := line_left table logger l _ h1
      split at h
      · have := lines_left table logger ls _ h
        omega
      · simp only [Option.some.injEq, Prod.mk.injEq] at h
        rw [← h.2.1, ← h.2.2]; omega

theorem lines_left' (table : Str) (logger : Bool) {l : List Str} {ls : List (List Str)} {st st' : FSub.St} {r : List Str}
    {rest : List (List Str)} (h : FSub.lines table logger st (l :: ls) = some (st', r, rest)) :
    r.length + size rest ≤ l.length + size ls := by
  rw [FSub.lines] at h
  split at h
  · cases h
  · rename_i st1 l1 h1
    have := line_left table logger l _ h1
    split at h
    · have := lines_left table logger ls _ h
      omega
    · simp only [Option.some.injEq, Prod.mk.injEq] at h
      rw [← h.2.1, ← h.2.2]; omega

theorem parseScheme_left {table : Str} {logger : Bool} {cur : List Str} {rest : List (List Str)} {name : Option Str}
    {vs : List (Str × VarRec)} {src : Src} (h : parseScheme table logger (cur :: rest) = some (name, vs, src)) :
    left src ≤ left (cur, rest) := by
  unfold parseScheme at h
  split at h
  · cases h
  · rename_i st l r hl
    split at h
    · cases h
    · simp only [Option.some.injEq, Prod.mk.injEq] at h
      rw [← h.2.2]
      exact lines_left' table logger hl

theorem moduleLoop_ends (logger : Bool) (mod : Str) (regions : Regions) : ∀ (n : Nat) (st : MSt) (src : Src),
    left src < n → moduleLoop logger mod regions n st src ≠ .error .fuel ∧
    ∀ t rs g r, moduleLoop logger mod regions n st src = .ok (t, rs, g, r) → leftO r ≤ left src
  | 0, _, src, h => by omega
  | n + 1, st, (cur, rest), h => by
    rw [moduleLoop]
    cases hx : next cur rest with
    | none => exact ⟨by simp, fun t rs g r e => by cases e; simp [leftO]⟩
    | some x =>
      obtain ⟨s, cur', rest'⟩ := x
      have hl := next_left rest cur hx
      have hl' : left (cur, rest) = cur.length + size rest := rfl
      have rec_ : ∀ st' src', left src' ≤ left (cur', rest') →
          moduleLoop logger mod regions n st' src' ≠ .error .fuel ∧
          ∀ t rs g r, moduleLoop logger mod regions n st' src' = .ok (t, rs, g, r) → leftO r ≤ left (cur, rest) := by
        intro st' src' hs
        have := moduleLoop_ends logger mod regions n st' src' (by omega)
        exact ⟨this.1, fun t rs g r e => by have := this.2 t rs g r e; omega⟩
      have err : ((Except.error Exc.error : Except Exc (List Tbl × List Str × Regions × Option Src)) ≠ .error .fuel) ∧
          ∀ t rs g r, (Except.error Exc.error : Except Exc (List Tbl × List Str × Regions × Option Src)) = .ok (t, rs, g, r) →
            leftO r ≤ left (cur, rest) :=
        ⟨by simp, fun _ _ _ _ e => by cases e⟩
      have fin : ∀ a b c src, left src ≤ left (cur', rest') →
          ((Except.ok (a, b, c, some src) : Except Exc (List Tbl × List Str × Regions × Option Src)) ≠ .error .fuel) ∧
          ∀ t rs g r, (Except.ok (a, b, c, some src) : Except Exc (List Tbl × List Str × Regions × Option Src)) =
            .ok (t, rs, g, r) → leftO r ≤ left (cur, rest) :=
        fun a b c src hs => ⟨by simp, fun t rs g r e => by cases e; simp only [leftO]; omega⟩
      simp only
      split
      · exact rec_ _ _ (Nat.le_refl _)
      · split
        · split
          · exact err
          · exact fin _ _ _ _ (Nat.le_refl _)
        · split
          · split
            · exact err
            · rename_i hp
              have hle := parseScheme_left hp
              split
              · split
                · exact err
                · exact fin _ _ _ _ hle
              · exact rec_ _ _ hle
          · split
            · exact rec_ _ _ (Nat.le_refl _)
            · split
              · split
                · exact rec_ _ _ (Nat.le_refl _)
                · exact rec_ _ _ (Nat.le_refl _)
              · exact rec_ _ _ (Nat.le_refl _)

theorem getD_left (o : Option Src) : left (o.getD ([], [])) = leftO o := by
  cases o <;> simp [left, leftO, size]

theorem module_ends (logger : Bool) (fuel : Nat) (mod : Str) (regions : Regions) (src : Src) (h : left src + 1 < fuel) :
    module logger fuel mod regions src ≠ .error .fuel ∧
    ∀ t rs g r, module logger fuel mod regions src = .ok (t, rs, g, r) → leftO r ≤ left src := by
  unfold module
  have hs := specification_ends logger "module".toList mod true fuel [] src h
  split
  · exact ⟨by simp, fun _ _ _ _ e => by cases e⟩
  · split
    · rename_i e he
      exact ⟨by rintro ⟨⟩; exact hs.1 he, fun _ _ _ _ e => by cases e⟩
    · rename_i tables src' he
      have hle := hs.2 _ _ he
      have := moduleLoop_ends logger mod (‹Regions›) fuel ⟨tables, none, [], false, false⟩ (src'.getD ([], []))
        (by rw [getD_left]; omega)
      rw [getD_left] at this
      exact ⟨this.1, fun t rs g r e => by have := this.2 _ _ _ _ e; omega⟩

theorem programLines_left : ∀ (ls : List (List Str)) (g g' : Regions) (r : Option Src),
    programLines g ls = some (g', r) → leftO r ≤ size ls
  | [], g, g', r, h => by simp only [programLines, Option.some.injEq, Prod.mk.injEq] at h; rw [← h.2]; simp [leftO]
  | l :: ls, g, g', r, h => by
    rw [programLines] at h
    rw [size_cons]
    split at h
    · cases h
    · split at h
      · simp only [Option.some.injEq, Prod.mk.injEq] at h
        rw [← h.2]; simp [leftO, left]
      · have := programLines_left ls _ _ _ h
        omega

theorem programLines_left' {l : List Str} {ls : List (List Str)} {g g' : Regions} {r : Option Src}
    (h : programLines g (l :: ls) = some (g', r)) : leftO r ≤ size ls := by
  rw [programLines] at h
  split at h
  · cases h
  · split at h
    · simp only [Option.some.injEq, Prod.mk.injEq] at h
      rw [← h.2]; simp [leftO, left]
    · exact programLines_left ls _ _ _ h

theorem program_ends (logger : Bool) (fuel : Nat) (name : Str) (regions : Regions) (src : Src) (h : left src + 1 < fuel) :
    program logger fuel name regions src ≠ .error .fuel ∧
    ∀ t g r, program logger fuel name regions src = .ok (t, g, r) → leftO r ≤ left src := by
  unfold program
  have hs := specification_ends logger "program".toList name false fuel [] src h
  split
  · exact ⟨by simp, fun _ _ _ e => by cases e⟩
  · split
    · rename_i e he
      exact ⟨by rintro ⟨⟩; exact hs.1 he, fun _ _ _ e => by cases e⟩
    · rename_i tables src' he
      have hle := hs.2 _ _ he
      have hd := getD_left src'
      split
      rename_i cur rest hcr
      rw [hcr] at hd
      split
      · exact ⟨by simp, fun _ _ _ e => by cases e⟩
      · rename_i g r hp
        have := programLines_left' hp
        refine ⟨by simp, fun t g r e => ?_⟩
        simp only [Except.ok.injEq, Prod.mk.injEq] at e
        obtain ⟨_, _, rfl⟩ := e
        simp only [left] at hd
        omega

theorem fileLoop_ends (logger : Bool) (fuel : Nat) : ∀ (n : Nat) (tables : List Tbl) (routines : Option (List Str))
    (regions : Regions) (src : Src), left src < n → left src + 1 < fuel →
    fileLoop logger fuel n tables routines regions src ≠ .error .fuel
  | 0, _, _, _, src, h, _ => by omega
  | n + 1, tables, routines, regions, (cur, rest), h, hf => by
    rw [fileLoop]
    cases hx : next cur rest with
    | none => simp
    | some x =>
      obtain ⟨s, cur', rest'⟩ := x
      have hl := next_left rest cur hx
      have hl' : left (cur, rest) = cur.length + size rest := rfl
      simp only
      split
      · have := program_ends logger fuel ‹_› regions (cur', rest') (by omega)
        split
        · rename_i e he
          rintro ⟨⟩; exact this.1 he
        · rename_i he
          have := this.2 _ _ _ he
          exact fileLoop_ends logger fuel n _ _ _ _ (by rw [getD_left]; omega) (by rw [getD_left]; omega)
      · split
        · have := module_ends logger fuel ‹_› regions (cur', rest') (by omega)
          split
          · rename_i e he
            rintro ⟨⟩; exact this.1 he
          · rename_i he
            have := this.2 _ _ _ _ he
            exact fileLoop_ends logger fuel n _ _ _ _ (by rw [getD_left]; omega) (by rw [getD_left]; omega)
        · exact fileLoop_ends logger fuel n _ _ _ _ (by omega) (by omega)

/-- **C89, end.**  Reading a file ends, whatever is in it: with tables, or with an exception. -/
theorem C89_ends (logger : Bool) (ls : List (List (List Char))) : file logger ls ≠ .error .fuel := by
  unfold file
  split
  · simp
  · have : left ([], ls) = size ls := by simp [left]
    have := fileLoop_ends logger (size ls + 2) (size ls + 2) [] none [] ([], ls) (by omega) (by omega)
    split
    · rename_i e he
      rintro ⟨⟩; exact this he
    · simp
    · simp

end Ccpp.FFile
