import Verif.Props.VariableTablesScan
/-! # C81: the variable tables of a Fortran file -/
namespace Ccpp.VT
open FDecl (Str Blank)
open ST (Words words words_iff words_of codeOf Mod Line Logical Compatible usesOf addVar)

variable {V : Type}

/-! ## Variables -/

theorem addOne_fold {compat : V → V → Bool} {mandatory : List (Str × V)} (vs : List (Str × V)) (md md' : List (Str × List V)) :
    vs.foldlM (addOne compat mandatory) md = some md' ↔ RespectsMandatory compat mandatory vs ∧ vs.foldlM (addVar compat) md = some md' := by
  induction vs generalizing md with
  | nil => simp [RespectsMandatory]
  | cons v vs ih =>
    rw [List.foldlM_cons, List.foldlM_cons]
    have hm : RespectsMandatory compat mandatory (v :: vs) ↔
        ((mandatory.lookup v.1).all (fun w => compat w v.2) = true ∧ RespectsMandatory compat mandatory vs) := by
      unfold RespectsMandatory
      cases hl : mandatory.lookup v.1 <;> simp [hl]
    unfold addOne at ih ⊢
    by_cases h : (mandatory.lookup v.1).all (fun w => compat w v.2) = true
    · rw [if_pos h, hm]
      cases ha : addVar compat md v with
      | none => simp
      | some md1 => simp only [bind, Option.bind_some]; rw [ih]; simp [h]
    · rw [if_neg h, hm]
      simp [h]

theorem VarsOf.append {read : Str → Str → Option (List (Str × V))} {a b : List (Str × Str)} {va vb : List (Str × V)} (ha : VarsOf read a va)
    (hb : VarsOf read b vb) : VarsOf read (a ++ b) (va ++ vb) := by
  induction ha with
  | nil => exact hb
  | cons h _ ih => rw [List.cons_append, List.append_assoc]; exact .cons h ih

theorem VarsOf.split {read : Str → Str → Option (List (Str × V))} {a b : List (Str × Str)} {vs : List (Str × V)} (h : VarsOf read (a ++ b) vs) :
    ∃ va vb, vs = va ++ vb ∧ VarsOf read a va ∧ VarsOf read b vb := by
  induction a generalizing vs with
  | nil => exact ⟨[], vs, rfl, .nil, h⟩
  | cons t a ih =>
    generalize he : t :: a ++ b = z at h
    cases h with
    | nil => cases he
    | @cons t' ts v1 rest h1 h2 =>
      cases he
      obtain ⟨va, vb, rfl, e2, e3⟩ := ih h2
      exact ⟨v1 ++ va, vb, by simp, .cons h1 e2, e3⟩

/-! ## One line of a table -/

section
variable {read : Str → Str → Option (List (Str × V))} {compat : V → V → Bool} {mandatory : List (Str × V)} {m : Str} {types : List Str}

theorem step_text {l : Str} (h : ∀ n, ¬Hook l n) (md : List (Str × List V)) :
    tabStep read compat mandatory m types (.out, md) l = some (.out, md) := by
  unfold tabStep; rw [(noHook_iff l).1 h]; rfl

theorem step_hook {l n : Str} (h : Hook l n) (hk : n = m ∨ n ∈ types) (md : List (Str × List V)) :
    tabStep read compat mandatory m types (.out, md) l = some (.head n, md) := by
  obtain ⟨h1, rfl⟩ := (hook_iff l n).1 h
  unfold tabStep
  rw [if_pos h1, if_pos ⟨rfl, hk⟩]

theorem step_hook_none {l n : Str} (h : Hook l n) {st : TSt} (hk : st ≠ .out ∨ ¬(n = m ∨ n ∈ types)) (md : List (Str × List V)) :
    tabStep read compat mandatory m types (st, md) l = none := by
  obtain ⟨h1, rfl⟩ := (hook_iff l n).1 h
  unfold tabStep
  rw [if_pos h1, if_neg]
  rintro ⟨a, b⟩
  rcases hk with hk | hk
  · exact hk a
  · exact hk b

theorem step_head {l n : Str} (h : ∀ n, ¬Hook l n) (md : List (Str × List V)) :
    tabStep read compat mandatory m types (.head n, md) l = headStep (read m n) compat mandatory md l := by
  unfold tabStep; rw [(noHook_iff l).1 h]; rfl

theorem step_tail (l : Str) (md : List (Str × List V)) (x : TSt × List (Str × List V)) :
    tabStep read compat mandatory m types (.tail, md) l = some x ↔ Words l ["!!".toList] ∧ x = (.out, md) := by
  by_cases h : ∀ n, ¬Hook l n
  · unfold tabStep
    rw [(noHook_iff l).1 h]
    simp only [Bool.false_eq_true, if_false]
    by_cases hb : Words l ["!!".toList]
    · rw [if_pos ((bang_iff l).1 hb)]; simp only [hb, true_and, Option.some.injEq]; exact eq_comm
    · rw [if_neg (fun hc => hb ((bang_iff l).2 hc))]; simp only [hb, false_and]; exact ⟨(fun h => nomatch h), (fun h => False.elim h)⟩
  · have ⟨n, hn⟩ : ∃ n, Hook l n := Classical.byContradiction fun hc => h fun n hn => hc ⟨n, hn⟩
    rw [step_hook_none hn (.inl (by decide))]
    constructor
    · intro hc; cases hc
    · rintro ⟨hb, _⟩; exact absurd hn (bang_noHook hb n)

theorem headStep_iff (rd : Option (List (Str × V))) (md : List (Str × List V)) (l : Str) (st : TSt) (md' : List (Str × List V)) :
    headStep rd compat mandatory md l = some (st, md') ↔
      (Include l ∧ st = .tail ∧ ∃ vs, rd = some vs ∧ vs.foldlM (addOne compat mandatory) md = some md') ∨
      (¬"htmlinclude".toList <:+: lower l ∧ '|' ∉ l ∧ st = .out ∧ md' = md) ∨
      (¬"htmlinclude".toList <:+: lower l ∧ OldHeader l ∧ st = .tail ∧ md' = md) := by
  have hi : Include l → "htmlinclude".toList <:+: lower l := fun ⟨x, hx⟩ => (PA.inText_iff _ _).1 (ST.include_text hx)
  unfold headStep
  by_cases h : "htmlinclude".toList <:+: lower l
  · rw [if_pos ((PA.inText_iff _ _).2 h)]
    simp only [h, not_true, false_and, or_false]
    constructor
    · intro hx
      split at hx
      · next a b c hw =>
        split at hx
        · next hab =>
          obtain ⟨rfl, rfl⟩ := hab
          cases hr : rd with
          | none => rw [hr] at hx; cases hx
          | some vs =>
            rw [hr, Option.bind_some] at hx
            cases hv : vs.foldlM (addOne compat mandatory) md with
            | none => rw [hv] at hx; cases hx
            | some md1 =>
              rw [hv] at hx
              cases hx
              exact ⟨⟨c, (words_iff _ _).1 hw⟩, rfl, vs, rfl, hv⟩
        · cases hx
      · cases hx
    · rintro ⟨⟨x, hx⟩, rfl, vs, rfl, hv⟩
      rw [words_of hx]
      simp [hv]
  · rw [if_neg (fun hc => h ((PA.inText_iff _ _).1 hc))]
    have hni : ¬Include l := fun hc => h (hi hc)
    simp only [hni, false_and, false_or, h, not_false_eq_true, true_and]
    by_cases hb : '|' ∈ l
    · rw [if_neg (by simpa using hb)]
      simp only [hb, not_true, false_and, false_or]
      have := oldHeader_iff l
      have hb' : l.contains '|' = true := by simpa using hb
      by_cases ho : OldHeader l
      · rw [if_pos (this.1 ho).2]
        simp [ho, eq_comm]
      · rw [if_neg (fun hc => ho (this.2 ⟨hb', hc⟩))]
        simp [ho]
    · rw [if_pos (by simpa using hb)]
      have ho : ¬OldHeader l := fun hc => hb (by simpa using ((oldHeader_iff l).1 hc).1)
      simp [hb, ho, eq_comm]

/-! ## The tables of a module -/

theorem tables_fwd {ls : List Str} {ts : List Str} (h : Tables (fun n => n = m ∨ n ∈ types) ls ts) :
    ∀ {vs : List (Str × V)} {md md' : List (Str × List V)}, VarsOf read (ts.map fun n => (m, n)) vs →
      vs.foldlM (addOne compat mandatory) md = some md' →
      ∃ st, ls.foldlM (tabStep read compat mandatory m types) (.out, md) = some (st, md') := by
  have inv : ∀ {t : Str × Str} {ts : List (Str × Str)} {vs : List (Str × V)}, VarsOf read (t :: ts) vs →
      ∃ v1 v2, vs = v1 ++ v2 ∧ read t.1 t.2 = some v1 ∧ VarsOf read ts v2 := by
    intro t ts vs h
    generalize he : t :: ts = z at h
    cases h with
    | nil => cases he
    | cons h1 h2 => cases he; exact ⟨_, _, rfl, h1, h2⟩
  have inv0 : ∀ {vs : List (Str × V)}, VarsOf read [] vs → vs = [] := by
    intro vs h
    generalize he : ([] : List (Str × Str)) = z at h
    cases h with
    | nil => rfl
    | cons _ _ => cases he
  induction h with
  | nil =>
    intro vs md md' hv hf
    rw [inv0 hv] at hf
    cases hf
    exact ⟨.out, rfl⟩
  | text h1 _ ih =>
    intro vs md md' hv hf
    rw [List.foldlM_cons, step_text h1]
    exact ih hv hf
  | @file h i e ls n ts h1 h2 h3 h4 _ ih =>
    intro vs md md' hv hf
    obtain ⟨v1, v2, rfl, e1, e2⟩ := inv hv
    rw [List.foldlM_append] at hf
    cases hm : v1.foldlM (addOne compat mandatory) md with
    | none => rw [hm] at hf; cases hf
    | some md1 =>
      rw [hm] at hf
      obtain ⟨st, hst⟩ := ih e2 hf
      refine ⟨st, ?_⟩
      rw [List.foldlM_cons, step_hook h1 h2]
      simp only [bind, Option.bind_some]
      rw [List.foldlM_cons, step_head (include_noHook h3), (headStep_iff (read m n) md i .tail md1).2 (.inl ⟨h3, rfl, v1, e1, hm⟩)]
      simp only [bind, Option.bind_some]
      rw [List.foldlM_cons, (step_tail e md1 (.out, md1)).2 ⟨h4, rfl⟩]
      exact hst
  | @blank h e ls n ts h1 h2 h3 h4 h5 _ ih =>
    intro vs md md' hv hf
    rw [List.foldlM_cons, step_hook h1 h2]
    simp only [bind, Option.bind_some]
    rw [List.foldlM_cons, step_head h3, (headStep_iff (read m n) md e .out md).2 (.inr (.inl ⟨h5, h4, rfl, rfl⟩))]
    exact ih hv hf
  | @old h i e ls n ts h1 h2 h3 h4 h5 h6 _ ih =>
    intro vs md md' hv hf
    rw [List.foldlM_cons, step_hook h1 h2]
    simp only [bind, Option.bind_some]
    rw [List.foldlM_cons, step_head h3, (headStep_iff (read m n) md i .tail md).2 (.inr (.inr ⟨h5, h4, rfl, rfl⟩))]
    simp only [bind, Option.bind_some]
    rw [List.foldlM_cons, (step_tail e md (.out, md)).2 ⟨h6, rfl⟩]
    exact ih hv hf
  | @cut1 h n h1 h2 =>
    intro vs md md' hv hf
    rw [inv0 hv] at hf
    cases hf
    rw [List.foldlM_cons, step_hook h1 h2]
    exact ⟨_, rfl⟩
  | @cut2 h i n h1 h2 h3 =>
    intro vs md md' hv hf
    obtain ⟨v1, v2, rfl, e1, e2⟩ := inv hv
    rw [inv0 e2, List.append_nil] at hf
    rw [List.foldlM_cons, step_hook h1 h2]
    simp only [bind, Option.bind_some]
    rw [List.foldlM_cons, step_head (include_noHook h3), (headStep_iff (read m n) md i .tail md').2 (.inl ⟨h3, rfl, v1, e1, hf⟩)]
    exact ⟨_, rfl⟩
  | @cut3 h i n h1 h2 h3 h4 h5 =>
    intro vs md md' hv hf
    rw [inv0 hv] at hf
    cases hf
    rw [List.foldlM_cons, step_hook h1 h2]
    simp only [bind, Option.bind_some]
    rw [List.foldlM_cons, step_head h3, (headStep_iff (read m n) md i .tail md).2 (.inr (.inr ⟨h5, h4, rfl, rfl⟩))]
    exact ⟨_, rfl⟩

theorem tables_bwd (k : Nat) : ∀ (ls : List Str), ls.length < k → ∀ (md md' : List (Str × List V)) (st : TSt),
    ls.foldlM (tabStep read compat mandatory m types) (.out, md) = some (st, md') →
      ∃ ts vs, Tables (fun n => n = m ∨ n ∈ types) ls ts ∧ VarsOf read (ts.map fun n => (m, n)) vs ∧
        vs.foldlM (addOne compat mandatory) md = some md' := by
  induction k with
  | zero => intro ls h; cases h
  | succ k ih =>
    intro ls hk md md' st hs
    cases ls with
    | nil => cases hs; exact ⟨[], [], .nil, .nil, rfl⟩
    | cons l ls =>
      by_cases hl : ∀ n, ¬Hook l n
      · rw [List.foldlM_cons, step_text hl] at hs
        obtain ⟨ts, vs, h1, h2, h3⟩ := ih ls (by simpa using hk) md md' st hs
        exact ⟨ts, vs, .text hl h1, h2, h3⟩
      · have ⟨n, hn⟩ : ∃ n, Hook l n := Classical.byContradiction fun hc => hl fun n hn => hc ⟨n, hn⟩
        by_cases hkn : n = m ∨ n ∈ types
        · rw [List.foldlM_cons, step_hook hn hkn] at hs
          simp only [bind, Option.bind_some] at hs
          cases ls with
          | nil => cases hs; exact ⟨[], [], .cut1 hn hkn, .nil, rfl⟩
          | cons i ls =>
            by_cases hi : ∀ n, ¬Hook i n
            · rw [List.foldlM_cons, step_head hi] at hs
              cases hx : headStep (read m n) compat mandatory md i with
              | none => rw [hx] at hs; cases hs
              | some r =>
                obtain ⟨st1, md1⟩ := r
                rw [hx] at hs
                simp only [bind, Option.bind_some] at hs
                have tail : ∀ {md1 : List (Str × List V)} {e : Str} {ls' : List Str}, ls = e :: ls' →
                    List.foldlM (tabStep read compat mandatory m types) (.tail, md1) ls = some (st, md') →
                    Words e ["!!".toList] ∧ List.foldlM (tabStep read compat mandatory m types) (.out, md1) ls' = some (st, md') := by
                  intro md1 e ls' he h
                  rw [he, List.foldlM_cons] at h
                  cases hy : tabStep read compat mandatory m types (.tail, md1) e with
                  | none => rw [hy] at h; cases h
                  | some r =>
                    obtain ⟨h1, rfl⟩ := (step_tail e md1 r).1 hy
                    rw [hy] at h
                    exact ⟨h1, h⟩
                rcases (headStep_iff (read m n) md i st1 md1).1 hx with ⟨h1, rfl, v1, h2, h3⟩ | ⟨h1, h2, rfl, rfl⟩ | ⟨h1, h2, rfl, rfl⟩
                · cases ls with
                  | nil =>
                    cases hs
                    exact ⟨[n], v1, .cut2 hn hkn h1, by simpa using VarsOf.cons (t := (m, n)) h2 .nil, h3⟩
                  | cons e ls =>
                    obtain ⟨hb, hs⟩ := tail rfl hs
                    obtain ⟨ts, vs, g1, g2, g3⟩ := ih ls (by simp at hk; omega) md1 md' st hs
                    refine ⟨n :: ts, v1 ++ vs, .file hn hkn h1 hb g1, VarsOf.cons (t := (m, n)) h2 g2, ?_⟩
                    rw [List.foldlM_append, h3]
                    exact g3
                · obtain ⟨ts, vs, g1, g2, g3⟩ := ih ls (by simp at hk; omega) md1 md' st hs
                  exact ⟨ts, vs, .blank hn hkn hi h2 h1 g1, g2, g3⟩
                · cases ls with
                  | nil => cases hs; exact ⟨[], [], .cut3 hn hkn hi h2 h1, .nil, rfl⟩
                  | cons e ls =>
                    obtain ⟨hb, hs⟩ := tail rfl hs
                    obtain ⟨ts, vs, g1, g2, g3⟩ := ih ls (by simp at hk; omega) md1 md' st hs
                    exact ⟨ts, vs, .old hn hkn hi h2 h1 hb g1, g2, g3⟩
            · have ⟨n', hn'⟩ : ∃ n, Hook i n := Classical.byContradiction fun hc => hi fun n hn => hc ⟨n, hn⟩
              rw [List.foldlM_cons, step_hook_none hn' (.inl (by simp))] at hs
              cases hs
        · rw [List.foldlM_cons, step_hook_none hn (.inr hkn)] at hs
          cases hs

end

theorem hook_unique {l n n' : Str} (h : Hook l n) (h' : Hook l n') : n = n' := by
  rw [← ((hook_iff l n).1 h).2, ← ((hook_iff l n').1 h').2]

theorem include_text {l : Str} (h : Include l) : "htmlinclude".toList <:+: lower l :=
  have ⟨_, hx⟩ := h
  (PA.inText_iff _ _).1 (ST.include_text hx)

theorem old_bar {l : Str} (h : OldHeader l) : '|' ∈ l := by simpa using ((oldHeader_iff l).1 h).1

/-- The tables of a module are determined by its lines. -/
theorem Tables.unique {k : Name → Prop} {ls : List Line} {ts : List Name} (h : Tables k ls ts) : ∀ {ts'}, Tables k ls ts' → ts = ts' := by
  induction h with
  | nil => intro ts' h'; cases h'; rfl
  | text h1 _ ih =>
    intro ts' h'
    cases h' with
    | text _ h => exact ih h
    | file h _ _ _ _ | blank h _ _ _ _ _ | old h _ _ _ _ _ _ | cut1 h _ | cut2 h _ _ | cut3 h _ _ _ _ => exact absurd h (h1 _)
  | file h1 h2 h3 h4 h5 ih =>
    intro ts' h'
    cases h' with
    | text h _ => exact absurd h1 (h _)
    | file g _ _ _ h => rw [hook_unique h1 g, ih h]
    | blank _ _ _ _ h _ => exact absurd (include_text h3) h
    | old _ _ _ _ h _ _ => exact absurd (include_text h3) h
  | blank h1 h2 h3 h4 h5 h6 ih =>
    intro ts' h'
    cases h' with
    | text h _ => exact absurd h1 (h _)
    | file _ _ h _ _ => exact absurd (include_text h) h5
    | blank _ _ _ _ _ h => exact ih h
    | old _ _ _ h _ _ _ => exact absurd (old_bar h) h4
    | cut2 _ _ h => exact absurd (include_text h) h5
    | cut3 _ _ _ h _ => exact absurd (old_bar h) h4
  | old h1 h2 h3 h4 h5 h6 h7 ih =>
    intro ts' h'
    cases h' with
    | text h _ => exact absurd h1 (h _)
    | file _ _ h _ _ => exact absurd (include_text h) h5
    | blank _ _ _ h _ _ => exact absurd (old_bar h4) h
    | old _ _ _ _ _ _ h => exact ih h
  | cut1 h1 h2 =>
    intro ts' h'
    cases h' with
    | text h _ => exact absurd h1 (h _)
    | cut1 _ _ => rfl
  | cut2 h1 h2 h3 =>
    intro ts' h'
    cases h' with
    | text h _ => exact absurd h1 (h _)
    | blank _ _ _ _ h _ => exact absurd (include_text h3) h
    | cut2 g _ _ => rw [hook_unique h1 g]
    | cut3 _ _ _ _ h => exact absurd (include_text h3) h
  | cut3 h1 h2 h3 h4 h5 =>
    intro ts' h'
    cases h' with
    | text h _ => exact absurd h1 (h _)
    | blank _ _ _ h _ _ => exact absurd (old_bar h4) h
    | cut2 _ _ h => exact absurd (include_text h) h5
    | cut3 _ _ _ _ _ => rfl

/-- **C81**: the tables of a file are determined by its lines, and with them the variables. -/
theorem C81_unique {read : Str → Str → Option (List (Str × V))} {ps : List (List Line × HMod)} {ts ts' : List (Name × Name)} {vs vs' : List (Name × V)}
    (h : FileTables ps ts) (h' : FileTables ps ts') (hv : VarsOf read ts vs) (hv' : VarsOf read ts' vs') : ts = ts' ∧ vs = vs' := by
  have e : ts = ts' := by
    clear hv hv'
    induction h generalizing ts' with
    | nil => cases h'; rfl
    | cons a _ ih =>
      cases h' with
      | cons a' b' => rw [a.unique a', ih b']
  subst e
  refine ⟨rfl, ?_⟩
  clear h h'
  induction hv generalizing vs' with
  | nil => cases hv'; rfl
  | cons a _ ih =>
    cases hv' with
    | cons a' b' =>
      rw [a] at a'
      cases a'
      rw [ih b']

/-! ## The file -/

theorem module_noHook {l n : Str} (h : ModuleLine l n) : ∀ x, ¬Hook l x := by
  obtain ⟨w, ws, hw, h1, _⟩ := h
  rintro x ⟨w0, w1, w2, ws', hw', h2, _⟩
  have := (words_of hw).symm.trans (words_of hw')
  simp only [List.cons.injEq] at this
  rw [this.1] at h1
  rcases h2 with rfl | rfl <;> exact absurd h1 (by decide)

theorem doMod_iff {read : Str → Str → Option (List (Str × V))} {compat : V → V → Bool} {mandatory : List (Str × V)} {lines pre post : List Str} {m : HMod}
    (hm : m.Ok) (he : lines = pre ++ (m.lines ++ post)) (md md' : List (Str × List V)) :
    doMod read compat mandatory lines md ⟨m.name, pre.length, some (pre.length + m.lines.length - 1)⟩ = some md' ↔
      ∃ ts vs, Tables (fun n => n = m.name ∨ n ∈ m.types) m.inside ts ∧ VarsOf read (ts.map fun n => (m.name, n)) vs ∧
        vs.foldlM (addOne compat mandatory) md = some md' := by
  have hsl : (lines.take (pre.length + m.lines.length - 1)).drop pre.length = m.opening :: m.inside := by
    have hl : lines = pre ++ ((m.opening :: m.inside) ++ (m.closing :: post)) := by rw [he]; simp [HMod.lines]
    rw [hl, show pre.length + m.lines.length - 1 = pre.length + (m.opening :: m.inside).length by simp [HMod.lines],
      List.take_length_add_append, List.take_left', List.drop_left]
    rfl
  unfold doMod
  simp only [Option.bind_some]
  rw [hsl, typeScan_module hm, Option.bind_some, List.foldlM_cons, step_text (module_noHook hm.1.1)]
  simp only [bind, Option.bind_some]
  constructor
  · intro h
    obtain ⟨⟨st, x⟩, h1, rfl⟩ := Option.map_eq_some_iff.1 h
    exact tables_bwd _ m.inside (Nat.lt_succ_self _) md x st h1
  · rintro ⟨ts, vs, h1, h2, h3⟩
    obtain ⟨st, h4⟩ := tables_fwd h1 h2 h3
    rw [h4]; rfl

theorem doMods_iff {read : Str → Str → Option (List (Str × V))} {compat : V → V → Bool} {mandatory : List (Str × V)} {lines : List Str}
    (ps : List (List Line × HMod)) (hok : ∀ p ∈ ps, p.2.Ok) (pre tail : List Str) (he : lines = pre ++ (ps.flatMap (fun p => p.1 ++ p.2.lines) ++ tail))
    (md md' : List (Str × List V)) :
    (modsOf pre.length ps).foldlM (doMod read compat mandatory lines) md = some md' ↔
      ∃ ts vs, FileTables ps ts ∧ VarsOf read ts vs ∧ vs.foldlM (addOne compat mandatory) md = some md' := by
  induction ps generalizing pre md with
  | nil =>
    constructor
    · intro h; cases h; exact ⟨[], [], .nil, .nil, rfl⟩
    · rintro ⟨ts, vs, h1, h2, h3⟩
      cases h1
      cases h2
      cases h3
      rfl
  | cons p ps ih =>
    rw [modsOf, List.foldlM_cons]
    have e1 : lines = (pre ++ p.1) ++ (p.2.lines ++ (ps.flatMap (fun p => p.1 ++ p.2.lines) ++ tail)) := by rw [he]; simp
    have e2 : lines = (pre ++ p.1 ++ p.2.lines) ++ (ps.flatMap (fun p => p.1 ++ p.2.lines) ++ tail) := by rw [he]; simp
    have hd := fun md1 => doMod_iff (read := read) (compat := compat) (mandatory := mandatory) (hok p (by simp)) e1 md md1
    have hi := fun md1 => ih (fun q hq => hok q (by simp [hq])) (pre ++ p.1 ++ p.2.lines) e2 md1
    simp only [List.length_append] at hd hi
    constructor
    · intro h
      cases h1 : doMod read compat mandatory lines md ⟨p.2.name, pre.length + p.1.length, some (pre.length + p.1.length + p.2.lines.length - 1)⟩ with
      | none => rw [h1] at h; cases h
      | some md1 =>
        rw [h1] at h
        simp only [bind, Option.bind_some] at h
        obtain ⟨ts, vs, a1, a2, a3⟩ := (hd md1).1 h1
        obtain ⟨ts', vs', b1, b2, b3⟩ := (hi md1).1 h
        refine ⟨_, vs ++ vs', .cons a1 b1, a2.append b2, ?_⟩
        rw [List.foldlM_append, a3]
        exact b3
    · rintro ⟨ts, vs, h1, h2, h3⟩
      generalize hz : p :: ps = z at h1
      cases h1 with
      | nil => cases hz
      | @cons p' ps' ts rest a b =>
        cases hz
        obtain ⟨va, vb, rfl, c1, c2⟩ := h2.split
        rw [List.foldlM_append] at h3
        cases hm : va.foldlM (addOne compat mandatory) md with
        | none => rw [hm] at h3; cases h3
        | some md1 =>
          rw [hm] at h3
          rw [(hd md1).2 ⟨ts, va, a, c1, hm⟩]
          exact (hi md1).2 ⟨rest, vb, b, c2, h3⟩

theorem parse_iff {read : Str → Str → Option (List (Str × V))} {compat : V → V → Bool} {mandatory : List (Str × V)} {file : List Str} {f : HFile} (hf : f.Ok)
    (hl : Logical file f.lines) (md : List (Str × List V)) : parse read compat mandatory file = some md ↔
      ∃ ts vs, FileTables f.mods ts ∧ VarsOf read ts vs ∧ RespectsMandatory compat mandatory vs ∧ vs.foldlM (addVar compat) [] = some md := by
  unfold parse
  rw [ST.joinLines_logical hl]
  have : modScan 0 none [] f.lines = some (modsOf 0 f.mods) := by
    unfold HFile.lines
    rw [modScan_mods hf.1.1 hf.1.2.2 hf.1.2.1 0 none [] (by simp)]
    simp
  rw [this, Option.bind_some]
  have := doMods_iff (read := read) (compat := compat) (mandatory := mandatory) f.mods hf.2 [] f.tail (lines := f.lines) (by simp [HFile.lines]) [] md
  simp only [addOne_fold] at this
  exact this

/-- **C81, which files are accepted**: a well-formed file of modules is accepted exactly if the lines of its modules are text and tables, each table is called like its module
or a type of the module, the metadata of each can be read, no variable contradicts a mandatory variable, and all entries of a variable are compatible. -/
theorem C81_accept_partial {read : Str → Str → Option (List (Str × V))} {compat : V → V → Bool} {mandatory : List (Str × V)} {file : List Str} {f : HFile}
    (hf : f.Ok) (hl : Logical file f.lines) : (parse read compat mandatory file).isSome = true ↔
      ∃ ts vs, FileTables f.mods ts ∧ VarsOf read ts vs ∧ RespectsMandatory compat mandatory vs ∧ Compatible compat vs := by
  have hrep : ST.Rep ([] : List (Str × List V)) [] := fun n => by simp [usesOf]
  rw [Option.isSome_iff_exists]
  constructor
  · rintro ⟨md, h⟩
    obtain ⟨ts, vs, h1, h2, h3, h4⟩ := (parse_iff hf hl md).1 h
    have := (ST.addVars_rep (compat := compat) vs hrep List.Pairwise.nil).2 md h4
    exact ⟨ts, vs, h1, h2, h3, by simpa using this⟩
  · rintro ⟨ts, vs, h1, h2, h3, h4⟩
    obtain ⟨md, h5, _⟩ := (ST.addVars_rep (compat := compat) vs hrep List.Pairwise.nil).1 (by simpa using h4)
    exact ⟨md, (parse_iff hf hl md).2 ⟨ts, vs, h1, h2, h3, h5⟩⟩

/-- **C81, the result**: the metadata of a variable are its entries in the tables, in the order of the file; a variable without entry has none. -/
theorem C81_result {read : Str → Str → Option (List (Str × V))} {compat : V → V → Bool} {mandatory : List (Str × V)} {file : List Str} {f : HFile} (hf : f.Ok)
    (hl : Logical file f.lines) {md : List (Str × List V)} (h : parse read compat mandatory file = some md) :
    ∃ ts vs, FileTables f.mods ts ∧ VarsOf read ts vs ∧ ∀ n, md.lookup n = if usesOf vs n = [] then none else some (usesOf vs n) := by
  obtain ⟨ts, vs, h1, h2, _, h4⟩ := (parse_iff hf hl md).1 h
  have hrep : ST.Rep ([] : List (Str × List V)) [] := fun n => by simp [usesOf]
  have hc := (ST.addVars_rep (compat := compat) vs hrep List.Pairwise.nil).2 md h4
  obtain ⟨md', e1, e2⟩ := (ST.addVars_rep (compat := compat) vs hrep List.Pairwise.nil).1 hc
  rw [h4] at e1
  cases e1
  exact ⟨ts, vs, h1, h2, by simpa [ST.Rep] using e2⟩

end Ccpp.VT
