import Verif.Spec.FixedForm
import Verif.Props.FortranType
import Verif.Props.FortranLines
/-!
# C99: fixed source form
-/
namespace Ccpp.Fixed

open Ccpp.FLS (Ctx)
open Ccpp.FL (Q slice)
open Ccpp.FDecl (rstrip_tight)

/-- The last character is not white space. -/
def NoTrail (l : Str) : Prop := ∀ c, l.getLast? = some c → isWs c = false

/-! ## Lines -/

theorem lstrip_of {b r : Str} {c : Char} (hb : Blanks b) (hc : isWs c = false) : lstrip (b ++ c :: r) = c :: r := by
  unfold lstrip
  induction b with
  | nil => rw [List.nil_append, List.dropWhile_cons, hc]; simp
  | cons x b ih =>
    rw [List.cons_append, List.dropWhile_cons, if_pos (hb x List.mem_cons_self)]
    exact ih fun y hy => hb y (List.mem_cons_of_mem _ hy)

theorem blanks_rep (n : Nat) : Blanks (List.replicate n ' ') := by
  intro c hc; rw [List.eq_of_mem_replicate hc]; rfl

theorem strip_nil_iff (l : Str) : strip l = [] ↔ Blanks l := by
  rw [FL.strip_nil_iff, FL.lstrip_nil_iff]; rfl

theorem bang_some : ∀ (n : Nat) (l : Str) {k : Nat}, bangMatch n l = some k → ∃ m r, l = List.replicate m ' ' ++ '!' :: r
  | n, [], k, h => by cases n <;> simp [bangMatch] at h
  | n, c :: l, k, h => by
    by_cases hc : c = '!'
    · subst hc; exact ⟨0, l, rfl⟩
    · cases n with
      | zero =>
        unfold bangMatch at h
        split at h
        · next e => exact absurd (List.cons.inj e).1 hc
        · next e _ => cases e
        · cases h
      | succ n =>
        unfold bangMatch at h
        split at h
        · next e => exact absurd (List.cons.inj e).1 hc
        · next n' l' e1 e2 =>
          cases e1
          obtain ⟨rfl, rfl⟩ := List.cons.inj e2
          cases hb : bangMatch n l with
          | none => rw [hb] at h; cases h
          | some j =>
            obtain ⟨m, r, rfl⟩ := bang_some n l hb
            exact ⟨m + 1, r, rfl⟩
        · cases h

theorem text_facts {l : Str} (h : IsText l) : strip l ≠ [] ∧ commentMatch l = none ∧ (lstrip l).head? ≠ some '!' := by
  obtain ⟨hs, b, c, r, rfl, hb, hc, hx⟩ := h
  have hl := lstrip_of (r := r) hb hc
  refine ⟨?_, ?_, ?_⟩
  · rw [Ne, strip_nil_iff]
    intro hbl
    rw [hbl c (by simp)] at hc
    cases hc
  · cases he : b ++ c :: r with
    | nil => cases b <;> cases he
    | cons x s =>
      show (if x = 'C' ∨ x = 'c' ∨ x = '*' then some 1 else bangMatch 4 (x :: s)) = none
      rw [if_neg]
      · cases hb2 : bangMatch 4 (x :: s) with
        | none => rfl
        | some k =>
          obtain ⟨m, r', e⟩ := bang_some _ _ hb2
          rw [he, e, lstrip_of (blanks_rep m) (by decide)] at hl
          exact absurd (List.cons.inj hl).1.symm hx
      · intro hx2
        exact hs ⟨x, s, he, hx2⟩
  · rw [hl]
    intro e
    exact hx (Option.some.inj e)

theorem cont_text {l t : Str} (h : IsCont l t) : IsText l ∧ continueMatch l = true ∧ l.drop 6 = t ∧ slice l 6 72 = t := by
  obtain ⟨k, ⟨rfl, h1, h2, h4, h5⟩, h3⟩ := h
  refine ⟨⟨?_, _, k, t, rfl, blanks_rep 5, h4, h3⟩, ?_, rfl, ?_⟩
  · rintro ⟨c, r, e, hc⟩
    have : c = ' ' := (List.cons.inj e).1.symm
    subst this
    revert hc; decide
  · show (k != '0' && k != ' ') = true
    simp [h1, h2]
  · unfold slice
    have : (List.replicate 5 ' ' ++ k :: t).drop 6 = t := rfl
    rw [this, List.take_of_length_le]
    simp at h5
    omega

theorem initial_not_cont {l : Str} (h : IsInitial l) : continueMatch l = false := by
  unfold continueMatch
  split
  · next c r =>
    rcases h.2.1 c r rfl with rfl | rfl <;> rfl
  · rfl

/-! ## The context -/

/-- The context in the specification and in the program. -/
def Rel (c : Ctx) (q : Q) : Prop :=
  (c = .code ∧ q = .out) ∨ (c = .lit '\'' ∧ q = .sq) ∨ (c = .lit '"' ∧ q = .dq)

theorem step_comment (l : Str) : l.foldl Ctx.step .comment = .comment := by
  induction l with
  | nil => rfl
  | cons c l ih => exact ih

theorem scanLoop_spec : ∀ (l : Str) (i : Nat) (c : Ctx) (q : Q), Rel c q →
    (l.foldl Ctx.step c = .comment ∧ (scanLoop l i q).1 = .out ∧ ∃ n, (scanLoop l i q).2 = some n) ∨
    (Rel (l.foldl Ctx.step c) (scanLoop l i q).1 ∧ (scanLoop l i q).2 = none)
  | [], _, c, q, h => Or.inr ⟨h, rfl⟩
  | ch :: r, i, c, q, h => by
    rw [List.foldl_cons]
    unfold scanLoop
    have ih := fun c q h => scanLoop_spec r (i + 1) c q h
    by_cases hw : isWs ch = true
    · rw [if_pos hw]
      have h1 : ch ≠ '!' := by rintro rfl; exact absurd hw (by decide)
      have h2 : ch ≠ '\'' := by rintro rfl; exact absurd hw (by decide)
      have h3 : ch ≠ '"' := by rintro rfl; exact absurd hw (by decide)
      have : c.step ch = c := by
        rcases h with ⟨rfl, _⟩ | ⟨rfl, _⟩ | ⟨rfl, _⟩ <;> simp [Ctx.step, h1, h2, h3]
      rw [this]
      exact ih c q h
    · rw [if_neg hw]
      rcases h with ⟨rfl, rfl⟩ | ⟨rfl, rfl⟩ | ⟨rfl, rfl⟩
      · simp only
        by_cases h2 : ch = '\''
        · subst h2; rw [if_pos rfl]; exact ih _ _ (Or.inr (Or.inl ⟨by decide, rfl⟩))
        · rw [if_neg h2]
          by_cases h3 : ch = '"'
          · subst h3; rw [if_pos rfl]; exact ih _ _ (Or.inr (Or.inr ⟨by decide, rfl⟩))
          · rw [if_neg h3]
            by_cases h1 : ch = '!'
            · subst h1
              rw [if_pos rfl]
              exact Or.inl ⟨step_comment r, rfl, _, rfl⟩
            · rw [if_neg h1]
              exact ih _ _ (Or.inl ⟨by simp [Ctx.step, h1, h2, h3], rfl⟩)
      · simp only
        by_cases h2 : ch = '\''
        · subst h2; rw [if_pos rfl]; exact ih _ _ (Or.inl ⟨by decide, rfl⟩)
        · rw [if_neg h2]; exact ih _ _ (Or.inr (Or.inl ⟨by simp [Ctx.step, h2], rfl⟩))
      · simp only
        by_cases h2 : ch = '"'
        · subst h2; rw [if_pos rfl]; exact ih _ _ (Or.inl ⟨by decide, rfl⟩)
        · rw [if_neg h2]; exact ih _ _ (Or.inr (Or.inr ⟨by simp [Ctx.step, h2], rfl⟩))

theorem rel_code {c : Ctx} {q : Q} (h : Rel c q) (hc : c = .code) : q = .out := by
  rcases h with ⟨_, h⟩ | ⟨h, _⟩ | ⟨h, _⟩
  · exact h
  · rw [hc] at h; cases h
  · rw [hc] at h; cases h

/-! ## Steps -/

theorem set_mid {D E : List Str} {x y : Str} {i : Nat} (hi : i = D.length) : (D ++ x :: E).set i y = D ++ y :: E := by
  subst hi
  rw [List.set_append_right _ _ (Nat.le_refl _)]; simp

theorem step_passed {vis : Bool} {l o : Str} (h : Passed (vis, l) o) {s : RS} {D E : List Str} (hs : s.out = D ++ l :: E)
    {i : Nat} (hi : i = D.length) : readStep s i vis l = some { s with out := D ++ o :: E } := by
  have same : some s = some ({ s with out := D ++ l :: E } : RS) := by rw [← hs]
  cases h with
  | blank hb =>
    unfold readStep
    rw [if_pos ((strip_nil_iff l).2 hb)]
    exact same
  | comment hc =>
    unfold readStep
    by_cases h1 : strip l = []
    · rw [if_pos h1]; exact same
    · rw [if_neg h1]
      by_cases h2 : (commentMatch l).isSome = true
      · rw [if_pos h2]; exact same
      · rw [if_neg h2]
        rcases hc with ⟨c, r, rfl, hx⟩ | ⟨n, r, rfl, _⟩
        · have : commentMatch (c :: r) = some 1 := by
            show (if c = 'C' ∨ c = 'c' ∨ c = '*' then some 1 else bangMatch 4 (c :: r)) = some 1
            rw [if_pos hx]
          exact absurd (by rw [this]; rfl) h2
        · rw [if_pos (by rw [lstrip_of (blanks_rep n) (by decide)]; rfl)]
          exact same
  | hidden ht =>
    obtain ⟨h1, h2, h3⟩ := text_facts ht
    unfold readStep
    rw [if_neg h1, h2, if_neg (by decide), if_neg h3, if_pos rfl, hs, set_mid hi]

theorem step_initial {l : Str} (h : IsInitial l) {s : RS} (hq : s.q = .out) (i : Nat) :
    ∃ s', readStep s i true l = some s' ∧ s'.out = s.out ∧
      ((l.foldl Ctx.step .code = .comment ∧ s'.q = .out) ∨
       (Rel (l.foldl Ctx.step .code) s'.q ∧ s'.prevNum = some i ∧ s'.prev = none)) := by
  obtain ⟨h1, h2, h3⟩ := text_facts h.1
  have h4 := initial_not_cont h
  have hscan : scanFixed l s.q = some ⟨none, (scanLoop l 0 .out).1, (scanLoop l 0 .out).2⟩ := by
    unfold scanFixed
    rw [if_neg (by rw [hq]; simp), h4, h2, hq]; rfl
  unfold readStep
  rw [if_neg h1, h2, if_neg (by decide), if_neg h3, if_neg (by decide), hscan]
  rcases scanLoop_spec l 0 .code .out (Or.inl ⟨rfl, rfl⟩) with ⟨e1, e2, n, e3⟩ | ⟨e1, e2⟩
  · simp only [e3]
    exact ⟨_, rfl, rfl, Or.inl ⟨e1, e2⟩⟩
  · simp only [e2]
    exact ⟨_, rfl, rfl, Or.inr ⟨e1, rfl, rfl⟩⟩

theorem step_cont {l t cur : Str} (h : IsCont l t) {c : Ctx} {s : RS} {A B E : List Str} (hs : s.out = A ++ cur :: (B ++ l :: E))
    (hrel : Rel c s.q) (hn : s.prevNum = some A.length) (hp : s.prev = some cur ∨ (s.prev = none ∧ cur.length ≤ 72))
    (hc : NoTrail cur) (hl : NoTrail l) :
    ∃ s', readStep s (A.length + 1 + B.length) true l = some s' ∧ s'.out = A ++ (cur ++ t) :: (B ++ [] :: E) ∧ NoTrail (cur ++ t) ∧
      ((t.foldl Ctx.step c = .comment ∧ s'.q = .out) ∨
       (Rel (t.foldl Ctx.step c) s'.q ∧ s'.prevNum = some A.length ∧ s'.prev = some (cur ++ t))) := by
  obtain ⟨ht, h4, h5, h6⟩ := cont_text h
  obtain ⟨h1, h2, h3⟩ := text_facts ht
  have hnt : NoTrail (cur ++ t) := by
    intro x hx
    cases t with
    | nil => rw [List.append_nil] at hx; exact hc x hx
    | cons y t =>
      refine hl x ?_
      obtain ⟨k, ⟨rfl, _⟩, _⟩ := h
      rw [List.getLast?_append] at hx
      rw [List.getLast?_append, List.getLast?_cons_cons]
      rw [List.getLast?_eq_some_getLast (by simp)] at hx ⊢
      exact hx
  have hr : rstrip (cur ++ t) = cur ++ t := rstrip_tight hnt
  have hscan : scanFixed l s.q = some ⟨some 5, (scanLoop t 6 s.q).1, (scanLoop t 6 s.q).2⟩ := by
    unfold scanFixed
    rw [h4, if_neg (by simp), if_pos rfl, h5]
  have hprev : cur.length ≤ 72 → (((some A.length).bind fun n => s.out[n]?).map (·.take 72)) = some cur := by
    intro hle
    rw [hs]
    simp only [Option.bind_some]
    rw [List.getElem?_append_right (Nat.le_refl _), Nat.sub_self]
    simp only [List.getElem?_cons_zero, Option.map_some]
    rw [List.take_of_length_le hle]
  have hset : (s.out.set A.length (cur ++ t)).set (A.length + 1 + B.length) [] = A ++ (cur ++ t) :: (B ++ [] :: E) := by
    rw [hs, set_mid rfl]
    have : A ++ (cur ++ t) :: (B ++ l :: E) = (A ++ (cur ++ t) :: B) ++ l :: E := by simp
    rw [this, set_mid (by simp; omega)]
    simp
  unfold readStep
  rw [if_neg h1, h2, if_neg (by decide), if_neg h3, if_neg (by decide), hscan]
  rcases hp with hp | ⟨hp, hle⟩
  · simp only [reduceCtorEq, and_false, if_false, hp, hn, h6, hr, hset]
    refine ⟨_, rfl, rfl, hnt, ?_⟩
    rcases scanLoop_spec t 6 c s.q hrel with ⟨e1, e2, _⟩ | ⟨e1, _⟩
    · exact Or.inl ⟨e1, e2⟩
    · exact Or.inr ⟨e1, rfl, rfl⟩
  · simp only [reduceCtorEq, and_false, if_false, hp, hn, hprev hle, h6, hr, hset]
    refine ⟨_, rfl, rfl, hnt, ?_⟩
    rcases scanLoop_spec t 6 c s.q hrel with ⟨e1, e2, _⟩ | ⟨e1, _⟩
    · exact Or.inl ⟨e1, e2⟩
    · exact Or.inr ⟨e1, rfl, rfl⟩

/-! ## The loop -/

theorem conts_length {c : Ctx} {ls : List (Bool × Str)} {s : Str} {os : List Str} (h : Conts c ls s os) :
    os.length = ls.length := by
  induction h with
  | done => rfl
  | passed _ _ ih => simp [ih]
  | cont _ _ _ ih => simp [ih]

theorem conts_loop {c : Ctx} {ls : List (Bool × Str)} {t : Str} {os : List Str} (h : Conts c ls t os) :
    ∀ {st : RS} {A B E : List Str} {cur : Str} (tail : List (Bool × Str)), st.out = A ++ cur :: (B ++ (ls.map (·.2) ++ E)) →
    ((c = .comment ∧ st.q = .out) ∨ (Rel c st.q ∧ st.prevNum = some A.length ∧
      (st.prev = some cur ∨ (st.prev = none ∧ cur.length ≤ 72)))) → NoTrail cur → (∀ p ∈ ls, NoTrail p.2) →
    ∃ st', readLoop st (A.length + 1 + B.length) (ls ++ tail) = readLoop st' (A.length + 1 + B.length + ls.length) tail ∧
      st'.out = A ++ (cur ++ t) :: (B ++ (os ++ E)) ∧ st'.q = .out := by
  induction h with
  | @done c hc =>
    intro st A B E cur tail ho hst hcur _
    refine ⟨st, rfl, by rw [ho]; simp, ?_⟩
    rcases hst with ⟨_, h⟩ | ⟨h, _⟩
    · exact h
    · rcases hc with hc | hc
      · exact rel_code h hc
      · rcases h with ⟨e, _⟩ | ⟨e, _⟩ | ⟨e, _⟩ <;> (rw [hc] at e; cases e)
  | @passed c p o ls s os hp h ih =>
    intro st A B E cur tail ho hst hcur hl
    obtain ⟨vis, l⟩ := p
    have ho' : st.out = (A ++ cur :: B) ++ l :: (ls.map (·.2) ++ E) := by rw [ho]; simp
    have h1 := step_passed hp ho' (i := A.length + 1 + B.length) (by simp; omega)
    obtain ⟨st', e1, e2, e3⟩ := ih (st := { st with out := (A ++ cur :: B) ++ o :: (ls.map (·.2) ++ E) }) (A := A) (B := B ++ [o])
      (E := E) (cur := cur) tail (by simp) hst hcur fun q hq => hl q (List.mem_cons_of_mem _ hq)
    refine ⟨st', ?_, by rw [e2]; simp, e3⟩
    rw [List.cons_append, readLoop, h1]
    simp only
    rw [List.length_append, List.length_singleton, ← Nat.add_assoc] at e1
    rw [e1, List.length_cons]
    congr 1
    omega
  | @cont c l x ls s os hne hc h ih =>
    intro st A B E cur tail ho hst hcur hl
    rcases hst with ⟨e, _⟩ | ⟨hrel, hn, hp⟩
    · exact absurd e hne
    obtain ⟨st1, g1, g2, g3, g4⟩ := step_cont hc (B := B) (E := ls.map (·.2) ++ E) ho hrel hn hp hcur (hl _ List.mem_cons_self)
    obtain ⟨st', e1, e2, e3⟩ := ih (st := st1) (A := A) (B := B ++ [[]]) (E := E) (cur := cur ++ x) tail (by rw [g2]; simp)
      (g4.imp id fun ⟨a, b, d⟩ => ⟨a, b, Or.inl d⟩) g3 fun q hq => hl q (List.mem_cons_of_mem _ hq)
    refine ⟨st', ?_, by rw [e2]; simp, e3⟩
    rw [List.cons_append, readLoop, g1]
    simp only
    rw [List.length_append, List.length_singleton, ← Nat.add_assoc] at e1
    rw [e1, List.length_cons]
    congr 1
    omega

theorem file_loop {ls : List (Bool × Str)} {os : List Str} (h : FileIs ls os) :
    ∀ {st : RS} {A : List Str}, st.out = A ++ ls.map (·.2) → st.q = .out → (∀ p ∈ ls, NoTrail p.2) →
    ∃ st', readLoop st A.length ls = some st' ∧ st'.out = A ++ os := by
  induction h with
  | nil => intro st A ho _ _; exact ⟨st, rfl, ho⟩
  | @passed p o ls os hp _ ih =>
    intro st A ho hq hl
    obtain ⟨vis, l⟩ := p
    have h1 := step_passed hp (D := A) (E := ls.map (·.2)) ho (i := A.length) rfl
    obtain ⟨st', e1, e2⟩ := ih (st := { st with out := A ++ o :: ls.map (·.2) }) (A := A ++ [o]) (by simp) hq
      fun q hq => hl q (List.mem_cons_of_mem _ hq)
    refine ⟨st', ?_, by rw [e2]; simp⟩
    rw [readLoop, h1]
    simp only
    rw [List.length_append, List.length_singleton] at e1
    exact e1
  | @stmt l s cs co ls os hi hc _ ih =>
    intro st A ho hq hl
    obtain ⟨st1, g1, g2, g3⟩ := step_initial hi hq A.length
    obtain ⟨st2, e1, e2, e3⟩ := conts_loop hc (st := st1) (A := A) (B := []) (E := ls.map (·.2)) (cur := l) ls
      (by rw [g2, ho]; simp) (g3.imp id fun ⟨a, b, d⟩ => ⟨a, b, Or.inr ⟨d, hi.2.2⟩⟩) (hl _ List.mem_cons_self)
      fun q hq => hl q (List.mem_cons_of_mem _ (List.mem_append_left _ hq))
    obtain ⟨st', f1, f2⟩ := ih (st := st2) (A := A ++ (l ++ s) :: co) (by rw [e2]; simp) e3
      fun q hq => hl q (List.mem_cons_of_mem _ (List.mem_append_right _ hq))
    refine ⟨st', ?_, by rw [f2]; simp⟩
    rw [readLoop, g1]
    simp only
    have hlen : (A ++ (l ++ s) :: co).length = A.length + 1 + 0 + cs.length := by
      simp [conts_length hc]; omega
    rw [hlen] at f1
    rw [← f1]
    exact e1

/-- The lines of a file as they are read, without the blanks at their ends. -/
def trimmed (ls : List (Bool × Str)) : List (Bool × Str) := ls.map fun p => (p.1, rstrip p.2)

/-- **C99**. Every statement of a file in fixed form is put together in its first line: this line and the text from
column 7 on of its continuation lines, which become empty; comments and blank lines stay, hidden lines become empty. -/
theorem C99_fixed_form_partial (ls : List (Bool × Str)) (os : List Str) (h : FileIs (trimmed ls) os) :
    readFile ls = some os := by
  have hl : ∀ p ∈ trimmed ls, NoTrail p.2 := by
    intro p hp
    obtain ⟨q, _, rfl⟩ := List.mem_map.1 hp
    intro c hc
    unfold rstrip at hc
    simp only [List.getLast?_reverse] at hc
    have := List.head?_dropWhile_not isWs q.2.reverse
    rw [hc] at this
    simpa using this
  obtain ⟨st', e1, e2⟩ := file_loop h (st := ⟨(trimmed ls).map (·.2), .out, none, none⟩) (A := []) rfl rfl hl
  unfold readFile
  show (readLoop ⟨(trimmed ls).map (·.2), .out, none, none⟩ 0 (trimmed ls)).map (·.out) = some os
  rw [List.length_nil] at e1
  rw [e1, Option.map_some, e2]; rfl

/-! ## Examples and violations -/

/-- Lines that the preprocessor leaves. -/
def shown (ls : List String) : List (Bool × Str) := ls.map fun l => (true, l.toList)

/-- A file: a comment, a statement with a comment and a hidden line between its parts and a character literal that
continues, and a second statement. -/
def exFile : List (Bool × Str) :=
  shown ["C start", "      x = 'a ! b", "! between"] ++ [(false, "     1 old".toList)] ++
    shown ["     & c' // d ! last", "", "   10 y = 2"]

/-- Its lines afterwards. -/
def exOut : List Str :=
  ["C start", "      x = 'a ! b c' // d ! last", "! between", "", "", "", "   10 y = 2"].map String.toList

theorem ex_initial1 : IsInitial "      x = 'a ! b".toList := by
  refine ⟨⟨?_, "      ".toList, 'x', " = 'a ! b".toList, rfl, blanks_rep 6, by decide, by decide⟩, ?_, by decide⟩
  · rintro ⟨c, r, e, h⟩; obtain ⟨rfl, rfl⟩ := List.cons.inj e; revert h; decide
  · intro k t e
    have : k = ' ' := by
      have := congrArg (fun l => l[5]?) e
      exact (Option.some.inj this).symm
    exact Or.inl this

theorem ex_initial2 : IsInitial "   10 y = 2".toList := by
  refine ⟨⟨?_, "   ".toList, '1', "0 y = 2".toList, rfl, blanks_rep 3, by decide, by decide⟩, ?_, by decide⟩
  · rintro ⟨c, r, e, h⟩; obtain ⟨rfl, rfl⟩ := List.cons.inj e; revert h; decide
  · intro k t e
    have := congrArg (fun l => l[3]?) e
    exact absurd (Option.some.inj this) (show ('1' : Char) ≠ ' ' by decide)

/-- The hypothesis of `C99_fixed_form_partial` is met. -/
example : FileIs (trimmed exFile) exOut := by
  have e : trimmed exFile = exFile := by decide +kernel
  rw [e]
  refine .passed (.comment (Or.inl ⟨'C', _, rfl, by decide⟩)) ?_
  refine .stmt (cs := [(true, "! between".toList), (false, "     1 old".toList), (true, "     & c' // d ! last".toList),
    (true, [])]) (s := " c' // d ! last".toList) (co := ["! between".toList, [], [], []]) (ls := [(true, "   10 y = 2".toList)])
    ex_initial1 ?_ ?_
  · refine .passed (.comment (Or.inr ⟨0, _, rfl, by decide⟩)) (.passed (.hidden ⟨?_, "     ".toList, '1', _, rfl, blanks_rep 5,
      by decide, by decide⟩) (.cont (s := []) (by decide) ⟨'&', ⟨rfl, by decide, by decide, by decide, by decide⟩, by decide⟩
      (.passed (.blank (by intro c hc; cases hc)) (.done ?_))))
    · rintro ⟨c, r, e, h⟩; obtain ⟨rfl, rfl⟩ := List.cons.inj e; revert h; decide
    · right; decide
  · exact .stmt (cs := []) (co := []) (s := []) ex_initial2 (.done (by left; decide)) .nil

/-- A `!` in column 6 continues a statement, but the line is taken for a comment and its text is not part of it. -/
theorem C99_bang_violated : ContBy '!' "     ! + 2".toList " + 2".toList ∧
    readFile (shown ["      x = 1", "     ! + 2"]) = some (["      x = 1", "     ! + 2"].map String.toList) :=
  ⟨⟨rfl, by decide, by decide, by decide, by decide⟩, by decide +kernel⟩

/-- A statement with a comment on a line that is continued: the continuation is added to the statement before, and if there
is none, the run ends with an exception. -/
theorem C99_comment_violated :
    readFile (shown ["      y = 2", "      x = 1 ! one", "     & + 3"]) =
      some (["      y = 2 + 3", "      x = 1 ! one", ""].map String.toList) ∧
    readFile (shown ["      x = 1 ! one", "     & + 3"]) = none := by
  constructor <;> decide +kernel

/-- Columns after 72 are not part of a statement, but an apostrophe there makes the next line an error. -/
theorem C99_column_violated :
    readFile (shown ["      x = 1                                                                   it's", "      y = 2"]) = none ∧
    readFile (shown ["      x = 1                                                                   its", "      y = 2"]) ≠ none := by
  constructor <;> decide +kernel

end Ccpp.Fixed
