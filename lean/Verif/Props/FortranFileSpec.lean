import Verif.Props.FortranFileStmt
/-!
# C89: the specification part of a module
-/
namespace Ccpp.FFile

open Ccpp.FDecl (Str VarRec Blank)
open Ccpp.FSub (Begins isContains)

/-! ## Statements -/

theorem Marks.facts {s n : Str} (h : Marks s n) : tableName s = some n ∧ typeStart s = some none ∧
    unitEnd "module".toList s = none ∧ ∀ i, isContains s i = false := by
  obtain ⟨h1, h2⟩ := marks_name h
  exact ⟨h1, typeStart_none fun hb => clash hb h2 (by decide) (by decide) 1 (by decide),
    unitEnd_none fun hb => clash hb h2 (by decide) (by decide) 1 (by decide),
    isContains_none fun hb => clash hb h2 (by decide) (by decide) 1 (by decide)⟩

theorem contains_facts {s : Str} (h : Begins ["contains".toList] s) : tableName s = none ∧ typeStart s = some none ∧
    unitEnd "module".toList s = none ∧ isContains s true = true :=
  ⟨tableName_word h (by decide), typeStart_none fun hb => clash hb h (by decide) (by decide) 1 (by decide),
    unitEnd_none fun hb => clash hb h (by decide) (by decide) 1 (by decide), FSub.contains_eq h⟩

theorem EndsAs.facts {s n : Str} (h : EndsAs s n) : tableName s = none ∧ typeStart s = some none ∧
    unitEnd "module".toList s = some (some n) ∧ ∀ i, isContains s i = false := by
  obtain ⟨h1, h2⟩ := endsAs_end h
  exact ⟨tableName_word h2 (by decide), typeStart_none fun hb => clash hb h2 (by decide) (by decide) 1 (by decide), h1,
    isContains_none fun hb => clash hb h2 (by decide) (by decide) 1 (by decide)⟩

/-! ## The source -/

/-- The statements left to read. -/
def Holds (src : Src) (ss : List Str) : Prop := OnePerLine (src.1 :: src.2) ss

theorem next_holds {s : Str} {ss : List Str} : ∀ {rest : List (List Str)} {cur : List Str}, Holds (cur, rest) (s :: ss) →
    ∃ rest', next cur rest = some (s, [], rest') ∧ Holds ([], rest') ss
  | rest, x :: cur, h => by
    obtain ⟨h1, h2⟩ := h
    have := h1 (x :: cur) (by simp)
    cases cur with
    | cons => simp at this
    | nil =>
      simp only [List.flatten_cons, List.singleton_append, List.cons.injEq] at h2
      obtain ⟨rfl, h2⟩ := h2
      exact ⟨rest, by simp [next], fun l hl => by
        rcases List.mem_cons.1 hl with rfl | hl
        · simp
        · exact h1 l (by simp [hl]), by simpa using h2⟩
  | [], [], h => by
    have := h.2
    simp at this
  | l :: rest, [], h => by
    rw [next]
    exact next_holds ⟨fun x hx => h.1 x (by simp only [List.mem_cons] at hx ⊢; exact .inr hx), by simpa using h.2⟩

theorem next_end : ∀ {rest : List (List Str)} {cur : List Str}, Holds (cur, rest) [] → next cur rest = none
  | rest, x :: cur, h => by
    have := h.2
    simp at this
  | [], [], h => rfl
  | l :: rest, [], h => by
    rw [next]
    exact next_end ⟨fun x hx => h.1 x (by simp only [List.mem_cons] at hx ⊢; exact .inr hx), by simpa using h.2⟩

/-- From one state to another while the statements `ss` are read. -/
def Reaches {σ R : Type} (f : Nat → σ → Src → R) (ss : List Str) (st st' : σ) : Prop :=
  ∀ (k n : Nat) (src : Src) (rest : List Str), Holds src (ss ++ rest) → (ss ++ rest).length + k ≤ n →
    ∃ n' src', rest.length + k ≤ n' ∧ Holds src' rest ∧ f n st src = f n' st' src'

theorem Reaches.refl {σ R : Type} (f : Nat → σ → Src → R) (st : σ) : Reaches f [] st st :=
  fun _ n src _ h hn => ⟨n, src, hn, h, rfl⟩

theorem Reaches.trans {σ R : Type} {f : Nat → σ → Src → R} {ss ss' : List Str} {a b c : σ} (h : Reaches f ss a b)
    (h' : Reaches f ss' b c) : Reaches f (ss ++ ss') a c := by
  intro k n src rest hs hn
  rw [List.append_assoc] at hs hn
  obtain ⟨n1, src1, h1, h2, h3⟩ := h k n src _ hs hn
  obtain ⟨n2, src2, h4, h5, h6⟩ := h' k n1 src1 rest h2 h1
  exact ⟨n2, src2, h4, h5, h3.trans h6⟩

theorem Reaches.cons {σ R : Type} {f : Nat → σ → Src → R} {s : Str} {ss' : List Str} {a b c : σ} (h : Reaches f [s] a b)
    (h' : Reaches f ss' b c) : Reaches f (s :: ss') a c := h.trans h'

/-- One statement. -/
theorem Reaches.one {σ R : Type} {f : Nat → σ → Src → R} {s : Str} {a b : σ}
    (h : ∀ n cur rest rest', next cur rest = some (s, [], rest') → f (n + 1) a (cur, rest) = f n b ([], rest')) :
    Reaches f [s] a b := by
  rintro k n ⟨cur, rest⟩ ss hs hn
  obtain ⟨rest', h1, h2⟩ := next_holds hs
  cases n with
  | zero => simp at hn
  | succ n => exact ⟨n, ([], rest'), by simp at hn; omega, h2, h n cur rest rest' h1⟩

/-- Statements without effect. -/
theorem Reaches.all {σ R : Type} {f : Nat → σ → Src → R} {a : σ} : ∀ {ss : List Str}, (∀ s ∈ ss, Reaches f [s] a a) →
    Reaches f ss a a
  | [], _ => Reaches.refl f a
  | s :: ss, h => (h s (by simp)).cons (Reaches.all fun x hx => h x (by simp [hx]))

/-! ## Variables -/

theorem addVars_some : ∀ (vs vars : List VarRec), DistinctNames (vars ++ vs) → addVars vars vs = some (vars ++ vs)
  | [], vars, _ => by simp [addVars]
  | v :: vs, vars, h => by
    rw [addVars, if_neg]
    · rw [addVars_some vs (vars ++ [v]) (by simpa using h)]
      simp
    · intro hm
      unfold DistinctNames at h
      rw [List.map_append, List.nodup_append] at h
      exact h.2.2 _ hm _ (by simp) rfl

theorem distinct_left {a b : List VarRec} (h : DistinctNames (a ++ b)) : DistinctNames a := by
  unfold DistinctNames at *
  rw [List.map_append, List.nodup_append] at h
  exact h.1

/-! ## The definition of a type -/

theorem typeLines_one (logger : Bool) {s : Str} {ss : List Str} : ∀ {ls : List (List Str)}, OnePerLine ls (s :: ss) →
    ∃ ls', OnePerLine ls' ss ∧ ∀ st : TSt, st.table = none → typeLines logger st ls =
      match typeLine logger st [s] with
      | none => none
      | some st' => if st'.table.isSome then some (st', ls') else typeLines logger st' ls'
  | [], h => by have := h.2; simp at this
  | [] :: ls, h => by
    obtain ⟨ls', h1, h2⟩ := typeLines_one logger (ls := ls) (s := s) (ss := ss)
      ⟨fun x hx => h.1 x (by simp [hx]), by simpa using h.2⟩
    refine ⟨ls', h1, fun st hst => ?_⟩
    rw [typeLines, typeLine]
    simp only [hst, Option.isSome_none, Bool.false_eq_true, if_false]
    exact h2 st hst
  | (x :: l) :: ls, h => by
    obtain ⟨h1, h2⟩ := h
    have := h1 (x :: l) (by simp)
    cases l with
    | cons => simp at this
    | nil =>
      simp only [List.flatten_cons, List.singleton_append, List.cons.injEq] at h2
      obtain ⟨rfl, h2⟩ := h2
      refine ⟨ls, ⟨fun y hy => h1 y (by simp [hy]), h2⟩, fun st hst => ?_⟩
      rw [typeLines]
      cases typeLine logger st [x] <;> rfl

theorem typeLine_skip (logger : Bool) {s : Str} {st : TSt} (h1 : endType s = false) (h2 : ∀ i, isContains s i = false)
    (h3 : st.seen = true ∨ declare logger st.vars s = some st.vars) : typeLine logger st [s] = some st := by
  rw [typeLine, h1]
  simp only [Bool.false_eq_true, if_false, h2]
  by_cases hs : st.seen = true
  · rw [if_pos hs]; rfl
  · rw [if_neg hs, h3.resolve_left hs]; rfl

/-- The members. -/
theorem typeLines_members (logger : Bool) : ∀ (members : List (Str × List VarRec)) {ls : List (List Str)} {ss : List Str} (vars : List VarRec),
    (∀ m ∈ members, DeclaresVars m.1 m.2 ∨ (Idle m.1 ∧ ¬ TypeEnds m.1 ∧ m.2 = [])) →
    DistinctNames (vars ++ members.flatMap (·.2)) → OnePerLine ls (members.map (·.1) ++ ss) →
    ∃ ls', OnePerLine ls' ss ∧ typeLines logger { vars := vars } ls =
      typeLines logger { vars := vars ++ members.flatMap (·.2) } ls'
  | [], ls, ss, vars, _, _, h => ⟨ls, h, by simp⟩
  | m :: members, ls, ss, vars, hm, hd, h => by
    obtain ⟨ls1, h1, h2⟩ := typeLines_one logger (s := m.1) (ss := members.map (·.1) ++ ss) (ls := ls) h
    rw [List.flatMap_cons, ← List.append_assoc] at hd
    obtain ⟨ls2, h3, h4⟩ := typeLines_members logger members (vars ++ m.2) (fun x hx => hm x (by simp [hx])) hd h1
    refine ⟨ls2, h3, ?_⟩
    rw [h2 _ rfl]
    have : typeLine logger { vars := vars } [m.1] = some { vars := vars ++ m.2 } := by
      rcases hm m (by simp) with hx | ⟨hx, he, e⟩
      · obtain ⟨f1, f2⟩ := hx.facts
        rw [typeLine, f1]
        simp only [Bool.false_eq_true, if_false, hx.neutral.ct]
        rw [f2, addVars_some _ _ (distinct_left hd)]
        rfl
      · rw [e, List.append_nil]
        exact typeLine_skip logger (Bool.eq_false_iff.2 fun hh => he ((endType_iff _).1 hh)) hx.neutral.ct
          (.inr (hx.declare logger vars))
    rw [this]
    simp only [Option.isSome_none, Bool.false_eq_true, if_false]
    rw [h4, List.flatMap_cons, List.append_assoc]

/-- The procedures. -/
theorem typeLines_seen (logger : Bool) (vars : List VarRec) : ∀ (ps : List Str) {ls : List (List Str)} {ss : List Str},
    (∀ s ∈ ps, ¬ TypeEnds s) → OnePerLine ls (ps ++ ss) →
    ∃ ls', OnePerLine ls' ss ∧ typeLines logger { vars := vars, seen := true } ls =
      typeLines logger { vars := vars, seen := true } ls'
  | [], ls, ss, _, h => ⟨ls, h, rfl⟩
  | p :: ps, ls, ss, hp, h => by
    obtain ⟨ls1, h1, h2⟩ := typeLines_one logger (s := p) (ss := ps ++ ss) (ls := ls) h
    obtain ⟨ls2, h3, h4⟩ := typeLines_seen logger vars ps (fun x hx => hp x (by simp [hx])) h1
    refine ⟨ls2, h3, ?_⟩
    rw [h2 _ rfl]
    have : typeLine logger { vars := vars, seen := true } [p] = some { vars := vars, seen := true } := by
      rw [typeLine, Bool.eq_false_iff.2 fun hh => hp p (by simp) ((endType_iff _).1 hh)]
      simp only [Bool.false_eq_true, if_false]
      split <;> rfl
    rw [this]
    simp only [Option.isSome_none, Bool.false_eq_true, if_false]
    exact h4

/-- A type. -/
theorem typeLines_block (logger : Bool) {mod s name e : Str} {members : List (Str × List VarRec)} {procedures : List Str}
    {rest' : List (List Str)} {ss : List Str} (hok : (Part.type s name members procedures e).Ok mod)
    (h : Holds ([], rest') (members.map (·.1) ++ procedures ++ [e] ++ ss)) :
    ∃ ts ls', typeLines logger {} ([s] :: rest') = some (ts, ls') ∧ ts.table = some (members.flatMap (·.2)) ∧
      Holds ([], ls') ss := by
  obtain ⟨h1, h2, h3, h4, h5, h6⟩ := hok
  obtain ⟨f1, f2, f3, f4, f5, f6⟩ := h1.facts
  have hol : OnePerLine rest' (members.map (·.1) ++ (procedures ++ (e :: ss))) := by
    refine ⟨fun x hx => h.1 x (by simp [hx]), ?_⟩
    have := h.2
    simpa using this
  rw [typeLines, typeLine_skip logger f5 f4 (.inr (f6 _ _))]
  simp only [Option.isSome_none, Bool.false_eq_true, if_false]
  obtain ⟨ls1, h7, h8⟩ := typeLines_members logger members [] h3 (by simpa using h6) hol
  have last : ∀ (seen : Bool) {ls : List (List Str)}, OnePerLine ls (e :: ss) → ∃ ts ls',
      typeLines logger { vars := members.flatMap (·.2), seen := seen } ls = some (ts, ls') ∧
      ts.table = some (members.flatMap (·.2)) ∧ Holds ([], ls') ss := by
    intro seen ls hl
    obtain ⟨ls2, h9, h10⟩ := typeLines_one logger hl
    refine ⟨{ vars := members.flatMap (·.2), seen := seen, table := some (members.flatMap (·.2)) }, ls2,
      (h10 _ rfl).trans ?_, ?_, ⟨fun x hx => ?_, by simpa using h9.2⟩⟩
    · rw [typeLine, (endType_iff e).2 h5]
      rfl
    · rfl
    · rcases List.mem_cons.1 hx with rfl | hx
      · simp
      · exact h9.1 x hx
  rw [List.nil_append] at h8
  rw [h8]
  rcases h4 with rfl | ⟨c, ps, rfl, hc, hp⟩
  · exact last false h7
  · obtain ⟨ls2, h9, h10⟩ := typeLines_one logger h7
    rw [h10 _ rfl]
    have : typeLine logger { vars := members.flatMap (·.2) } [c] = some { vars := members.flatMap (·.2), seen := true } := by
      rw [typeLine, Bool.eq_false_iff.2 fun hh => hp c (by simp) ((endType_iff _).1 hh)]
      simp only [Bool.false_eq_true, if_false, Option.isNone_none, FSub.contains_eq hc, if_true]
      rfl
    rw [this]
    simp only [Option.isSome_none, Bool.false_eq_true, if_false]
    obtain ⟨ls3, h11, h12⟩ := typeLines_seen logger (members.flatMap (·.2)) ps (fun x hx => hp x (by simp [hx])) h9
    rw [h12]
    exact last true h11

end Ccpp.FFile
