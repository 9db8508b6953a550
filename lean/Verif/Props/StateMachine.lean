import Verif.Model.StateMachine
import Verif.Spec.StateMachine
/-! # C04, C05: the state machine -/
namespace Ccpp.SM
open Spec

/-! ## C04 -/

theorem isFortranId_iff (s : List Char) : isFortranId s = true ↔ LegalId s := by
  cases s with
  | nil => simp [isFortranId, LegalId]
  | cons c r =>
    simp only [isFortranId, Bool.and_eq_true, List.all_eq_true, isLetter, isWordC,
      Bool.or_eq_true, beq_iff_eq, LegalId]
    constructor
    · rintro ⟨h1, h2⟩; exact ⟨c, r, rfl, h1, h2⟩
    · rintro ⟨c', r', h, h1, h2⟩; cases h; exact ⟨h1, h2⟩

theorem functionRe_some {words s n p suf} (h : functionRe words s n = some (p, suf)) :
    s = p ++ '_' :: suf ∧ isFortranId p = true ∧ lower suf ∈ words := by
  induction n with
  | zero => simp [functionRe] at h
  | succ n ih =>
    simp only [functionRe] at h
    split at h
    · next suf' he =>
      split at h
      · next hc =>
        simp only [Option.some.injEq, Prod.mk.injEq] at h
        obtain ⟨rfl, rfl⟩ := h
        simp only [Bool.and_eq_true, List.contains_eq_mem, decide_eq_true_eq] at hc
        refine ⟨?_, hc.1, hc.2⟩
        rw [← he, List.take_append_drop]
      · exact ih h
    · exact ih h

theorem functionRe_none {words : List (List Char)} {s n} (h : functionRe words s n = none)
    {p suf : List Char} (hs : s = p ++ '_' :: suf) (hp : isFortranId p = true)
    (hl : p.length ≤ n) : lower suf ∉ words := by
  induction n with
  | zero =>
    cases p with
    | nil => simp [isFortranId] at hp
    | cons => simp at hl
  | succ n ih =>
    simp only [functionRe] at h
    by_cases hn : p.length = n + 1
    · have hd : s.drop (n + 1) = '_' :: suf := by rw [hs, ← hn, List.drop_left]
      have ht : s.take (n + 1) = p := by rw [hs, ← hn, List.take_left]
      rw [hd] at h
      simp only [ht, hp, Bool.true_and] at h
      split at h
      · simp at h
      · next hc => simpa using hc
    · apply ih _ (by omega)
      split at h
      · split at h
        · simp at h
        · exact h
      · exact h

/-- The names and word lists of the machine, in the order they are tried. -/
def table : List (List Char × List (List Char)) :=
  ccppMachine.map (fun q => (q.1, q.2.re.words))

/-- Position of a phase in the order in which the machine tries them. -/
def rank (ph : List Char) : Nat := (table.map (·.1)).idxOf ph

theorem table_spellings : ∀ ph w, IsSpelling ph w ↔ ∃ e ∈ table, e.1 = ph ∧ w ∈ e.2 := by
  have e1 : ∀ ph w, IsSpelling ph w ↔ ∃ e ∈ (spellings.map fun e =>
      (e.1.toList, e.2.map String.toList)), e.1 = ph ∧ w ∈ e.2 := by
    intro ph w
    constructor
    · rintro ⟨e, he, rfl, v, hv, rfl⟩
      exact ⟨_, List.mem_map_of_mem he, rfl, List.mem_map_of_mem hv⟩
    · rintro ⟨e, he, rfl, hw⟩
      obtain ⟨e', he', rfl⟩ := List.mem_map.1 he
      obtain ⟨v, hv, rfl⟩ := List.mem_map.1 hw
      exact ⟨e', he', rfl, v, hv, rfl⟩
  intro ph w
  rw [e1]
  have h1 : ∀ e ∈ (spellings.map fun e => (e.1.toList, e.2.map String.toList)),
      ∀ w ∈ e.2, ∃ e' ∈ table, e'.1 = e.1 ∧ w ∈ e'.2 := by decide
  have h2 : ∀ e ∈ table, ∀ w ∈ e.2, ∃ e' ∈ (spellings.map fun e =>
      (e.1.toList, e.2.map String.toList)), e'.1 = e.1 ∧ w ∈ e'.2 := by decide
  constructor
  · rintro ⟨e, he, rfl, hw⟩; exact h1 e he w hw
  · rintro ⟨e, he, rfl, hw⟩; exact h2 e he w hw

theorem table_disjoint : ∀ e ∈ table, ∀ e' ∈ table, ∀ w ∈ e.2, w ∈ e'.2 → e = e' := by decide

theorem table_suffix : ∀ e ∈ table, ∀ e' ∈ table, ∀ w ∈ e.2, ∀ w' ∈ e'.2,
    ('_' :: w).isSuffixOf w' = true → rank e'.1 < rank e.1 := by decide

theorem table_nodup : (table.map (·.1)).Nodup := by decide

theorem lower_suffix {a b : List Char} (h : a <:+ b) : lower a <:+ lower b := by
  obtain ⟨t, rfl⟩ := h
  exact ⟨lower t, by simp [lower]⟩

theorem two_readings {s p1 f1 p2 f2 : List Char} (h1 : s = p1 ++ '_' :: f1)
    (h2 : s = p2 ++ '_' :: f2) (hl : f1.length < f2.length) : ('_' :: f1) <:+ f2 := by
  have a : ('_' :: f1) <:+ s := ⟨p1, h1.symm⟩
  have b : f2 <:+ s := ⟨p2 ++ ['_'], by simp [h2]⟩
  exact List.suffix_of_suffix_length_le a b (by simp only [List.length_cons]; omega)

theorem longer_reading_rank {s p1 f1 ph1 p2 f2 ph2 : List Char} (h1 : Reading s p1 f1 ph1)
    (h2 : Reading s p2 f2 ph2) (hl : f1.length < f2.length) : rank ph2 < rank ph1 := by
  obtain ⟨e1, he1, rfl, hw1⟩ := (table_spellings _ _).1 h1.spelled
  obtain ⟨e2, he2, rfl, hw2⟩ := (table_spellings _ _).1 h2.spelled
  refine table_suffix e1 he1 e2 he2 _ hw1 _ hw2 ?_
  have := lower_suffix (two_readings h1.split h2.split hl)
  rw [List.isSuffixOf_iff_suffix]
  exact this

theorem same_length_reading {s p1 f1 ph1 p2 f2 ph2 : List Char} (h1 : Reading s p1 f1 ph1)
    (h2 : Reading s p2 f2 ph2) (hl : f1.length = f2.length) : p1 = p2 ∧ f1 = f2 ∧ ph1 = ph2 := by
  have h := h1.split.symm.trans h2.split
  have := List.append_inj' h (by simp [hl])
  simp only [List.cons.injEq, true_and] at this
  obtain ⟨rfl, rfl⟩ := this
  obtain ⟨e1, he1, rfl, hw1⟩ := (table_spellings _ _).1 h1.spelled
  obtain ⟨e2, he2, rfl, hw2⟩ := (table_spellings _ _).1 h2.spelled
  exact ⟨rfl, rfl, by rw [table_disjoint e1 he1 e2 he2 _ hw1 hw2]⟩

theorem functionMatch_table (s : List Char) : functionMatch ccppMachine s =
    table.findSome? (fun e => (functionRe e.2 s s.length).map (fun r => (r.1, r.2, e.1))) := by
  simp [functionMatch, table, List.findSome?_map, Function.comp_def]

theorem rank_lt_mem {l1 : List (List Char × List (List Char))} {a l2 e}
    (h : table = l1 ++ a :: l2) (he : e ∈ table) (hr : rank e.1 < rank a.1) : e ∈ l1 := by
  have hnd := table_nodup
  rw [h] at he hnd
  unfold rank at hr
  rw [h] at hr
  simp only [List.map_append, List.map_cons] at hr hnd
  have ha : a.1 ∉ l1.map (·.1) := by
    intro hm
    have := (List.nodup_append.1 hnd).2.2 _ hm a.1 (by simp)
    exact this rfl
  rw [List.idxOf_append (a := a.1), if_neg ha] at hr
  simp only [List.idxOf_cons_self] at hr
  by_cases hm : e.1 ∈ l1.map (·.1)
  · rcases List.mem_append.1 he with h' | h'
    · exact h'
    · exfalso
      have : e.1 ∈ a.1 :: l2.map (·.1) := by
        rcases List.mem_cons.1 h' with rfl | h''
        · simp
        · exact List.mem_cons_of_mem _ (List.mem_map_of_mem h'')
      exact (List.nodup_append.1 hnd).2.2 _ hm e.1 this rfl
  · rw [List.idxOf_append, if_neg hm] at hr
    omega

theorem functionMatch_none_iff (s : List Char) :
    functionMatch ccppMachine s = none ↔ ∀ p f ph, ¬ Reading s p f ph := by
  rw [functionMatch_table, List.findSome?_eq_none_iff]
  constructor
  · intro h p f ph hr
    obtain ⟨e, he, rfl, hw⟩ := (table_spellings _ _).1 hr.spelled
    have := h e he
    rw [Option.map_eq_none_iff] at this
    refine functionRe_none this hr.split ((isFortranId_iff _).2 hr.legal) ?_ hw
    rw [hr.split]; simp
  · intro h e he
    rw [Option.map_eq_none_iff]
    cases hf : functionRe e.2 s s.length with
    | none => rfl
    | some r =>
      obtain ⟨p, f⟩ := r
      obtain ⟨a, b, c⟩ := functionRe_some hf
      exact absurd ⟨a, (isFortranId_iff _).1 b, (table_spellings _ _).2 ⟨e, he, rfl, c⟩⟩
        (h p f e.1)

theorem functionMatch_some {s p f ph : List Char}
    (h : functionMatch ccppMachine s = some (p, f, ph)) :
    Reading s p f ph ∧ ∀ p' f' ph', Reading s p' f' ph' → f'.length ≤ f.length := by
  rw [functionMatch_table, List.findSome?_eq_some_iff] at h
  obtain ⟨l1, e, l2, ht, hf, hn⟩ := h
  rw [Option.map_eq_some_iff] at hf
  obtain ⟨⟨p', f'⟩, hf, heq⟩ := hf
  simp only [Prod.mk.injEq] at heq
  obtain ⟨rfl, rfl, rfl⟩ := heq
  obtain ⟨a, b, c⟩ := functionRe_some hf
  have hr : Reading s p' f' e.1 :=
    ⟨a, (isFortranId_iff _).1 b, (table_spellings _ _).2 ⟨e, by simp [ht], rfl, c⟩⟩
  refine ⟨hr, ?_⟩
  intro p2 f2 ph2 h2
  apply Nat.le_of_not_lt
  intro hlt
  have hrank := longer_reading_rank hr h2 hlt
  obtain ⟨e2, he2, rfl, hw2⟩ := (table_spellings _ _).1 h2.spelled
  have hmem := rank_lt_mem ht he2 hrank
  have := hn e2 hmem
  rw [Option.map_eq_none_iff] at this
  refine functionRe_none this h2.split ((isFortranId_iff _).2 h2.legal) ?_ hw2
  rw [h2.split]; simp

/-- **C04**.  `function_match` returns `(scheme, suffix, phase)` exactly when the name can be
read that way and no reading has a longer suffix (so `x_timestep_init` is the
`timestep_initial` phase of `x`, never the `initialize` phase of `x_timestep`). -/
theorem C04_function_match (name scheme suffix phase : List Char) :
    functionMatch ccppMachine name = some (scheme, suffix, phase) ↔
      Reading name scheme suffix phase ∧
      ∀ p f ph, Reading name p f ph → f.length ≤ suffix.length := by
  constructor
  · exact functionMatch_some
  · rintro ⟨hr, hmax⟩
    cases hm : functionMatch ccppMachine name with
    | none => exact absurd hr ((functionMatch_none_iff name).1 hm _ _ _)
    | some r =>
      obtain ⟨p, f, ph⟩ := r
      obtain ⟨h1, h2⟩ := functionMatch_some hm
      obtain ⟨rfl, rfl, rfl⟩ := same_length_reading h1 hr
        (Nat.le_antisymm (hmax _ _ _ h1) (h2 _ _ _ hr))
      rfl

/-- **C04**.  No match is reported exactly when the name has no reading. -/
theorem C04_no_match (name : List Char) :
    functionMatch ccppMachine name = none ↔
      ¬ ∃ scheme suffix phase, Reading name scheme suffix phase := by
  rw [functionMatch_none_iff]
  constructor
  · rintro h ⟨p, f, ph, hr⟩; exact h p f ph hr
  · intro h p f ph hr; exact h ⟨p, f, ph, hr⟩

/-- **C04**.  For every scheme name (legal identifier) and every letter case, a subroutine
spelled with a `timestep_` suffix is that phase, of exactly that scheme. -/
theorem C04_timestep (scheme suffix phase : List Char) (h : LegalId scheme)
    (hp : phase = "timestep_initial".toList ∨ phase = "timestep_final".toList)
    (hs : IsSpelling phase (suffix.map Char.toLower)) :
    functionMatch ccppMachine (scheme ++ '_' :: suffix) = some (scheme, suffix, phase) := by
  have hr : Reading (scheme ++ '_' :: suffix) scheme suffix phase := ⟨rfl, h, hs⟩
  rw [C04_function_match]
  refine ⟨hr, ?_⟩
  intro p f ph h2
  apply Nat.le_of_not_lt
  intro hlt
  have hlt := longer_reading_rank hr h2 hlt
  obtain ⟨e, he, rfl, _⟩ := (table_spellings _ _).1 h2.spelled
  -- the two timestep phases are tried first, and neither spelling is inside the other
  have key : ∀ e ∈ table, rank e.1 < rank phase →
      phase = "timestep_final".toList ∧ e.1 = "timestep_initial".toList := by
    rcases hp with rfl | rfl <;> decide
  obtain ⟨rfl, he1⟩ := key e he hlt
  obtain ⟨e1, he1', h1', hw1⟩ := (table_spellings _ _).1 hr.spelled
  obtain ⟨e2, he2', h2', hw2⟩ := (table_spellings _ _).1 h2.spelled
  have hsuf := lower_suffix (two_readings hr.split h2.split (by assumption))
  have : ∀ e1 ∈ table, ∀ e2 ∈ table, e1.1 = "timestep_final".toList →
      e2.1 = "timestep_initial".toList → ∀ w1 ∈ e1.2, ∀ w2 ∈ e2.2,
      ('_' :: w1).isSuffixOf w2 = false := by decide
  have := this e1 he1' e2 he2' h1' (h2'.trans he1) _ hw1 _ hw2
  rw [← Bool.not_eq_true, List.isSuffixOf_iff_suffix] at this
  exact this hsuf

example : functionMatch ccppMachine "my_scheme_TimeStep_Init".toList =
    some ("my_scheme".toList, "TimeStep_Init".toList, "timestep_initial".toList) := by decide
example : functionMatch ccppMachine "my_scheme_initialise".toList = none := by decide
example : Reading "my_run_run".toList "my_run".toList "run".toList "run".toList :=
  ⟨rfl, (isFortranId_iff _).1 (by decide), (table_spellings _ _).2 (by decide)⟩

/-! ## C05 -/

theorem get?_append (m : Machine) (k k' : List Char) (t : Trans) :
    Machine.get? (m ++ [(k, t)]) k' =
      if (m.get? k').isSome then m.get? k' else if k = k' then some t else none := by
  induction m with
  | nil => by_cases hk : k = k' <;> simp [Machine.get?, hk]
  | cons a m ih =>
    by_cases h : a.1 = k'
    · simp [Machine.get?, h]
    · have hc : ∀ n : Machine, Machine.get? (a :: n) k' = Machine.get? n k' := by
        intro n; simp [Machine.get?, h]
      rw [List.cons_append, hc, hc, ih]

/-- The machines reachable by the public operations. -/
inductive Reachable : Machine → Prop
  | empty : Reachable []
  | add {m k t m'} : Reachable m → m.add k t = some m' → Reachable m'
  | del {m k m'} : Reachable m → m.del k = some m' → Reachable m'

/-- **C05**.  Adding a transition fails exactly when the name is taken; if it succeeds, the
new name has exactly the given states and expression, every other transition
answers as before, and the order of older transitions is unchanged. -/
theorem C05_add (m : Machine) (k : List Char) (t : Trans) :
    (m.add k t = none ↔ k ∈ m.transitions) ∧
    ∀ m', m.add k t = some m' →
      m'.get? k = some t ∧ (∀ k', k' ≠ k → m'.get? k' = m.get? k') ∧
      m'.transitions = m.transitions ++ [k] := by
  have hmem : (m.get? k).isSome ↔ k ∈ m.transitions := by
    simp [Machine.get?, Machine.transitions]
  constructor
  · unfold Machine.add
    rw [← hmem]
    split <;> simp_all
  · intro m' h
    unfold Machine.add at h
    split at h
    · simp at h
    · next hn =>
      simp only [Option.some.injEq] at h
      subst h
      refine ⟨?_, ?_, ?_⟩
      · rw [get?_append]; simp_all
      · intro k' hk
        rw [get?_append]
        split
        · rfl
        · next h2 =>
          rw [if_neg (fun e => hk e.symm)]
          cases hg : m.get? k' <;> simp_all
      · simp [Machine.transitions]

example : ∃ m m', Machine.add [] "ab".toList ⟨['a'], ['b'], .lit ['a']⟩ = some m ∧
    Machine.add m "cd".toList ⟨['c'], ['d'], .lit ['c']⟩ = some m' ∧
    Machine.add m' "ab".toList ⟨['c'], ['d'], .lit ['c']⟩ = none := ⟨_, _, rfl, rfl, by decide⟩

/-- **C05**.  Deleting a transition fails exactly when it is absent; otherwise exactly that
transition disappears. -/
theorem C05_del (m : Machine) (k : List Char) :
    (m.del k = none ↔ k ∉ m.transitions) ∧
    ∀ m', m.del k = some m' →
      m'.get? k = none ∧ ∀ k', k' ≠ k → m'.get? k' = m.get? k' := by
  have hmem : (m.get? k).isSome ↔ k ∈ m.transitions := by
    simp [Machine.get?, Machine.transitions]
  constructor
  · unfold Machine.del
    rw [← hmem]
    split <;> simp_all
  · intro m' h
    unfold Machine.del at h
    split at h
    · simp only [Option.some.injEq] at h
      subst h
      refine ⟨?_, ?_⟩
      · simp [Machine.get?]
      · intro k' hk
        simp only [Machine.get?, List.find?_filter]
        congr 1
        congr 1
        funext p
        by_cases hp : p.1 = k'
        · simp [hp, hk]
        · simp [hp]
    · simp at h

/-- **C05**.  In every reachable machine, transition names are distinct. -/
theorem C05_distinct {m : Machine} (h : Reachable m) : m.transitions.Nodup := by
  induction h with
  | empty => simp [Machine.transitions]
  | @add m k t m' _ ha ih =>
    obtain ⟨h1, h2⟩ := C05_add m k t
    rw [(h2 m' ha).2.2, List.nodup_append]
    refine ⟨ih, by simp, ?_⟩
    intro a hm b hb
    simp only [List.mem_singleton] at hb
    subst hb
    rintro rfl
    rw [h1.2 hm] at ha
    simp at ha
  | @del m k m' _ hd ih =>
    unfold Machine.del at hd
    split at hd
    · simp only [Option.some.injEq] at hd
      subst hd
      unfold Machine.transitions at *
      exact ih.sublist (List.Sublist.map _ List.filter_sublist)
    · simp at hd

example : Reachable [("ab".toList, (⟨['a'], ['b'], .lit ['a']⟩ : Trans))] :=
  .add .empty rfl

end Ccpp.SM
