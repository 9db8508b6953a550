import Verif.Spec.HostCall
import Mathlib.Data.List.Forall2
/-!
# C101: the physics routines of the host cap
-/
namespace Ccpp.HCall

theorem isConst_iff (s : Str) : isConst s = true ↔ Constant s := by
  simp only [isConst, Constant, decide_eq_true_eq]

theorem isLoop_iff (s : Str) : isLoop s = true ↔ LoopVar s := by
  simp only [isLoop, LoopVar, decide_eq_true_eq, List.mem_cons, List.not_mem_nil, or_false]

theorem const_not_loop {s : Str} (h : Constant s) : isLoop s = false := by
  unfold Constant at h; subst h; decide +kernel

theorem isProps_iff (a : PVar) : a.type = propsType ↔ IsProps a := Iff.rfl

theorem not_const1 : ¬ Constant "unused_count".toList :=
  show ¬ ("unused_count".toList = "ccpp_constant_one".toList) by decide

theorem not_const2 : ¬ Constant "unused_index".toList :=
  show ¬ ("unused_index".toList = "ccpp_constant_one".toList) by decide

/-! ## Variables -/

theorem findSrc_some {h : Host} {cs : List Str} {s : Str} (hc : ¬ Constant s) (src : Src) :
    findSrc h cs s = some src → Denotes h cs s src := by
  have hc' : isConst s = false := by rw [← Bool.not_eq_true, isConst_iff]; exact hc
  unfold findSrc
  intro hs
  split at hs
  · next hh =>
    cases hs
    unfold hostHas at hh
    rw [hc', Bool.false_or, Bool.or_eq_true, List.any_eq_true] at hh
    rcases hh with ⟨v, hv, he⟩ | hf
    · exact .var hv (by simpa using he)
    · exact .field (List.contains_iff_mem.1 hf)
  · next hh =>
    split at hs
    · next hcs =>
      cases hs
      unfold hostHas at hh
      simp only [hc', Bool.false_or, Bool.not_eq_true, Bool.or_eq_false_iff, List.any_eq_false] at hh hcs
      refine .const ?_ ?_ (List.contains_iff_mem.1 hcs)
      · intro v hv e; exact of_decide_eq_false (hh.1 v hv) e
      · intro hm
        rw [List.contains_iff_mem.2 hm] at hh
        exact absurd hh.2 (by decide)
    · cases hs

theorem findSrc_isSome (h : Host) (cs : List Str) (s : Str) :
    (findSrc h cs s).isSome = true ↔ Constant s ∨ ∃ src, Denotes h cs s src := by
  by_cases hc : Constant s
  · have : isConst s = true := (isConst_iff s).2 hc
    simp [findSrc, hostHas, this, hc]
  · constructor
    · intro hs
      obtain ⟨src, e⟩ := Option.isSome_iff_exists.1 hs
      exact Or.inr ⟨src, findSrc_some hc src e⟩
    · rintro (hcc | ⟨src, hd⟩)
      · exact absurd hcc hc
      · unfold findSrc
        split
        · rfl
        · next hh =>
          have hh' : hostHas h s = false := by simpa using hh
          unfold hostHas at hh'
          simp only [Bool.or_eq_false_iff, List.any_eq_false] at hh'
          cases hd with
          | var hv e => exact absurd (by simpa using e) (hh'.1.2 _ hv)
          | field hf => rw [List.contains_iff_mem.2 hf] at hh'; exact absurd hh'.2 (by decide)
          | const _ _ hm => rw [if_pos (by rw [List.contains_iff_mem.2 hm]; simp)]; rfl

/-! ## Local variables -/

theorem addLocal_some {ls ls' : List PVar} {v : PVar} : addLocal ls v = some ls' ↔
    (∀ w ∈ ls, Apart w v) ∧ ¬ Constant v.std ∧ ls' = ls ++ [v] := by
  unfold addLocal
  constructor
  · intro h
    split at h
    · cases h
    · next h1 =>
      split at h
      · cases h
      · next h2 =>
        split at h
        · cases h
        · next h3 =>
          cases h
          simp only [List.any_eq_true, not_exists, not_and, decide_eq_true_eq] at h1 h3
          exact ⟨fun w hw => ⟨h1 w hw, h3 w hw⟩, by rwa [isConst_iff] at h2, rfl⟩
  · rintro ⟨h1, h2, rfl⟩
    rw [if_neg, if_neg, if_neg]
    · simp only [List.any_eq_true, not_exists, not_and, decide_eq_true_eq]; exact fun w hw => (h1 w hw).2
    · rwa [isConst_iff]
    · simp only [List.any_eq_true, not_exists, not_and, decide_eq_true_eq]; exact fun w hw => (h1 w hw).1

/-- The arrays of run-time constituents. -/
def props (as : List PVar) : List PVar := as.filter fun a => a.type = propsType

theorem propsOf_iff {ls as : List PVar} : PropsOf ls as ↔ ls = props as := by
  constructor
  · rintro ⟨f, hf, rfl⟩
    apply List.filter_congr
    intro a _
    rw [Bool.eq_iff_iff, hf, decide_eq_true_eq]; rfl
  · rintro rfl
    exact ⟨_, fun a => by rw [decide_eq_true_eq]; rfl, rfl⟩

theorem pairwise_snoc {ls : List PVar} {v : PVar} : (ls ++ [v]).Pairwise Apart ↔ ls.Pairwise Apart ∧ ∀ w ∈ ls, Apart w v := by
  rw [List.pairwise_append]; simp

theorem checkArgs_some {h : Host} {cs : List Str} {register : Bool} : ∀ {as ls ls' : List PVar}, ls.Pairwise Apart →
    (checkArgs h cs register as ls = some ls' ↔
      (∀ a ∈ as, ¬ IsProps a → Constant a.std ∨ ∃ src, Denotes h cs a.std src) ∧ (∀ a ∈ as, IsProps a → register = true) ∧
      (∀ v ∈ props as, ¬ Constant v.std) ∧ (ls ++ props as).Pairwise Apart ∧ ls' = ls ++ props as)
  | [], ls, ls', hp => by simp [checkArgs, props, hp, eq_comm]
  | a :: as, ls, ls', hp => by
    unfold checkArgs
    by_cases ha : a.type = propsType
    · rw [if_pos ha]
      have hpr : props (a :: as) = a :: props as := by unfold props; rw [List.filter_cons_of_pos (by simpa using ha)]
      rw [hpr]
      cases register with
      | false =>
        rw [if_neg (by decide)]
        constructor
        · intro e; cases e
        · rintro ⟨_, h2, _⟩; exact absurd (h2 a List.mem_cons_self ha) (by decide)
      | true =>
        rw [if_pos rfl]
        cases hadd : addLocal ls a with
        | none =>
          simp only
          constructor
          · intro e; cases e
          · rintro ⟨_, _, h3, h4, _⟩
            have : addLocal ls a = some (ls ++ [a]) := by
              rw [addLocal_some]
              refine ⟨?_, h3 a List.mem_cons_self, rfl⟩
              intro w hw
              exact (List.pairwise_append.1 h4).2.2 w hw a List.mem_cons_self
            rw [hadd] at this; cases this
        | some l1 =>
          obtain ⟨h1, h2, rfl⟩ := addLocal_some.1 hadd
          have hp1 : (ls ++ [a]).Pairwise Apart := pairwise_snoc.2 ⟨hp, h1⟩
          simp only
          rw [checkArgs_some hp1, List.append_assoc, List.singleton_append]
          constructor
          · rintro ⟨g1, g2, g3, g4, g5⟩
            refine ⟨?_, ?_, ?_, g4, g5⟩
            · intro b hb hn
              rcases List.mem_cons.1 hb with rfl | hb
              · exact absurd ha hn
              · exact g1 b hb hn
            · intro _ _ _; trivial
            · intro v hv
              rcases List.mem_cons.1 hv with rfl | hv
              · exact h2
              · exact g3 v hv
          · rintro ⟨g1, g2, g3, g4, g5⟩
            exact ⟨fun b hb => g1 b (List.mem_cons_of_mem _ hb), fun _ _ _ => rfl,
              fun v hv => g3 v (List.mem_cons_of_mem _ hv), g4, g5⟩
    · rw [if_neg ha]
      have hpr : props (a :: as) = props as := by unfold props; rw [List.filter_cons_of_neg (by simpa using ha)]
      rw [hpr]
      by_cases hf : (findSrc h cs a.std).isSome = true
      · rw [if_pos hf, checkArgs_some hp]
        rw [findSrc_isSome] at hf
        constructor
        · rintro ⟨g1, g2, g3⟩
          refine ⟨?_, ?_, g3⟩
          · intro b hb hn
            rcases List.mem_cons.1 hb with rfl | hb
            · exact hf
            · exact g1 b hb hn
          · intro b hb hn
            rcases List.mem_cons.1 hb with rfl | hb
            · exact absurd hn ha
            · exact g2 b hb hn
        · rintro ⟨g1, g2, g3⟩
          exact ⟨fun b hb => g1 b (List.mem_cons_of_mem _ hb), fun b hb => g2 b (List.mem_cons_of_mem _ hb), g3⟩
      · rw [if_neg hf]
        constructor
        · intro e; cases e
        · rintro ⟨g1, _⟩
          exact absurd ((findSrc_isSome h cs a.std).2 (g1 a List.mem_cons_self ha)) hf

theorem props_append (as bs : List PVar) : props (as ++ bs) = props as ++ props bs := List.filter_append ..

theorem checkParts_some {h : Host} {cs : List Str} {register : Bool} : ∀ {ps : List Part} {ls ls' : List PVar},
    ls.Pairwise Apart → (checkParts h cs register ps ls = some ls' ↔
      (∀ a ∈ ps.flatMap (·.args), ¬ IsProps a → Constant a.std ∨ ∃ src, Denotes h cs a.std src) ∧
      (∀ a ∈ ps.flatMap (·.args), IsProps a → register = true) ∧
      (∀ v ∈ props (ps.flatMap (·.args)), ¬ Constant v.std) ∧ (ls ++ props (ps.flatMap (·.args))).Pairwise Apart ∧
      ls' = ls ++ props (ps.flatMap (·.args)))
  | [], ls, ls', hp => by simp [checkParts, props, hp, eq_comm]
  | p :: ps, ls, ls', hp => by
    unfold checkParts
    rw [List.flatMap_cons, props_append, ← List.append_assoc]
    simp only [List.mem_append]
    cases hc : checkArgs h cs register p.args ls with
    | none =>
      simp only
      constructor
      · intro e; cases e
      · rintro ⟨g1, g2, g3, g4, g5⟩
        have := (checkArgs_some (h := h) (cs := cs) (register := register) (as := p.args) (ls' := ls ++ props p.args) hp).2
          ⟨fun a ha => g1 a (Or.inl ha), fun a ha => g2 a (Or.inl ha), fun a ha => g3 a (Or.inl ha),
            (List.pairwise_append.1 g4).1, rfl⟩
        rw [hc] at this; cases this
    | some l1 =>
      obtain ⟨f1, f2, f3, f4, rfl⟩ := (checkArgs_some hp).1 hc
      simp only
      rw [checkParts_some f4]
      constructor
      · rintro ⟨g1, g2, g3, g4, g5⟩
        exact ⟨fun a ha => ha.elim (f1 a) (g1 a), fun a ha => ha.elim (f2 a) (g2 a), fun a ha => ha.elim (f3 a) (g3 a), g4, g5⟩
      · rintro ⟨g1, g2, g3, g4, g5⟩
        exact ⟨fun a ha => g1 a (Or.inr ha), fun a ha => g2 a (Or.inr ha), fun a ha => g3 a (Or.inr ha), g4, g5⟩

theorem stageLocals_some {h : Host} {cs : List Str} {register : Bool} {ps : List Part} {ls : List PVar} :
    stageLocals h cs register ps = some ls ↔
      (∀ a ∈ ps.flatMap (·.args), ¬ IsProps a → Constant a.std ∨ ∃ src, Denotes h cs a.std src) ∧
      (∀ a ∈ ps.flatMap (·.args), IsProps a → register = true) ∧
      (∀ v ∈ props (ps.flatMap (·.args)), ¬ Constant v.std) ∧ ls.Pairwise Apart ∧
      ls = props (ps.flatMap (·.args)) ++ if props (ps.flatMap (·.args)) = [] then [] else counters := by
  unfold stageLocals
  cases hc : checkParts h cs register ps [] with
  | none =>
    simp only
    constructor
    · intro e; cases e
    · rintro ⟨g1, g2, g3, g4, rfl⟩
      have := (checkParts_some (h := h) (cs := cs) (register := register) (ps := ps) (ls := []) (ls' := props (ps.flatMap (·.args)))
        .nil).2 ⟨g1, g2, g3, (List.pairwise_append.1 g4).1, rfl⟩
      rw [hc] at this; cases this
  | some l1 =>
    obtain ⟨f1, f2, f3, f4, f5⟩ := (checkParts_some .nil).1 hc
    rw [List.nil_append] at f4 f5
    subst f5
    generalize hq : props (ps.flatMap (·.args)) = q at *
    cases q with
    | nil =>
      simp only
      constructor
      · intro e; cases e; exact ⟨f1, f2, f3, .nil, by simp⟩
      · rintro ⟨_, _, _, _, rfl⟩; simp
    | cons x q =>
      simp only [reduceCtorEq, if_false]
      cases h1 : addLocal (x :: q) ⟨"unused_count".toList, "num_dyn_consts".toList, "integer".toList⟩ with
      | none =>
        simp only
        constructor
        · intro e; cases e
        · rintro ⟨_, _, _, g4, rfl⟩
          have := addLocal_some.2 (show _ ∧ _ ∧ _ = _ from ⟨fun w hw => (List.pairwise_append.1 g4).2.2 w hw _
            (show _ ∈ counters from List.mem_cons_self), not_const1, rfl⟩)
          rw [h1] at this; cases this
      | some l1 =>
        obtain ⟨k1, _, rfl⟩ := addLocal_some.1 h1
        simp only
        rw [addLocal_some]
        have e : (x :: q ++ [⟨"unused_count".toList, "num_dyn_consts".toList, "integer".toList⟩]) ++
            [⟨"unused_index".toList, "const_index".toList, "integer".toList⟩] = x :: q ++ counters := by
          rw [List.append_assoc]; rfl
        rw [e]
        constructor
        · rintro ⟨g1, _, rfl⟩
          refine ⟨f1, f2, f3, ?_, rfl⟩
          rw [← e]
          exact pairwise_snoc.2 ⟨pairwise_snoc.2 ⟨f4, k1⟩, g1⟩
        · rintro ⟨_, _, _, g4, rfl⟩
          rw [← e] at g4
          exact ⟨(pairwise_snoc.1 g4).2, not_const2, rfl⟩

/-! ## Calls -/

theorem callArgs_none {ref : Src → Str → Bool → Str} {h : Host} {cs : List Str} {run dyn : Bool} : ∀ {as : List PVar},
    (∀ a ∈ as, ¬ IsProps a → Constant a.std ∨ ∃ src, Denotes h cs a.std src) → (callArgs ref h cs run dyn as).isSome = true
  | [], _ => rfl
  | a :: as, hk => by
    have ih := callArgs_none (ref := ref) (run := run) (dyn := dyn) fun b hb => hk b (List.mem_cons_of_mem a hb)
    unfold callArgs
    by_cases ha : a.type = propsType
    · rw [if_pos ha, Option.isSome_map]; exact ih
    · rw [if_neg ha]
      have := (findSrc_isSome h cs a.std).2 (hk a List.mem_cons_self ha)
      cases hf : findSrc h cs a.std with
      | none => rw [hf] at this; cases this
      | some src => simp only; rw [Option.isSome_map]; exact ih

theorem callArgs_some {ref : Src → Str → Bool → Str} {h : Host} {cs : List Str} {run dyn : Bool} {locals : List Str} :
    ∀ {as : List PVar} {r : List Str}, (∀ a ∈ as, IsProps a → dyn = true ∧ a.lname ∈ locals ∧ ¬ Constant a.std) →
    callArgs ref h cs run dyn as = some r → List.Forall₂ (ArgFor ref h cs locals run) (as.filter fun a => !isConst a.std) r
  | [], r, _, e => by cases e; exact .nil
  | a :: as, r, hp, e => by
    have ih := fun r' => callArgs_some (ref := ref) (h := h) (cs := cs) (run := run) (dyn := dyn) (locals := locals) (as := as)
      (r := r') fun b hb => hp b (List.mem_cons_of_mem a hb)
    unfold callArgs at e
    by_cases ha : a.type = propsType
    · rw [if_pos ha] at e
      obtain ⟨r', e1, rfl⟩ := Option.map_eq_some_iff.1 e
      obtain ⟨hd, hl, hc⟩ := hp a List.mem_cons_self ha
      rw [hd, if_pos rfl]
      have hc' : isConst a.std = false := by rw [← Bool.not_eq_true, isConst_iff]; exact hc
      rw [List.filter_cons_of_pos (by rw [hc']; rfl)]
      refine .cons ?_ (ih r' e1)
      have := ArgFor.props (ref := ref) (h := h) (cs := cs) (run := run) (show IsProps a from ha) hl
      rw [List.append_assoc] at this
      exact this
    · rw [if_neg ha] at e
      cases hf : findSrc h cs a.std with
      | none => rw [hf] at e; cases e
      | some src =>
        rw [hf] at e
        obtain ⟨r', e1, rfl⟩ := Option.map_eq_some_iff.1 e
        by_cases hc : isConst a.std = true
        · rw [if_pos hc, List.filter_cons_of_neg (by rw [hc]; decide)]
          exact ih r' e1
        · rw [if_neg hc, List.filter_cons_of_pos (by simpa using hc)]
          refine .cons ?_ (ih r' e1)
          have := ArgFor.var (ref := ref) (locals := locals) (run := run) (show ¬ IsProps a from ha)
            (findSrc_some (by rwa [isConst_iff] at hc) src hf)
          rw [List.append_assoc] at this
          exact this

theorem stageCalls_none {ref : Src → Str → Bool → Str} {h : Host} {cs : List Str} {run dyn : Bool} : ∀ {ps : List Part},
    (∀ p ∈ ps, ∀ a ∈ p.args, ¬ IsProps a → Constant a.std ∨ ∃ src, Denotes h cs a.std src) →
    (stageCalls ref h cs run dyn ps).isSome = true
  | [], _ => rfl
  | p :: ps, hk => by
    have ih := stageCalls_none (ref := ref) (run := run) (dyn := dyn) fun q hq => hk q (List.mem_cons_of_mem p hq)
    have h1 : (suitePartCallList ref h cs p run dyn).isSome = true :=
      callArgs_none fun a ha => hk p List.mem_cons_self a (List.mem_filter.1 ha).1
    unfold stageCalls
    cases hc : suitePartCallList ref h cs p run dyn with
    | none => rw [hc] at h1; cases h1
    | some as => simp only; rw [Option.isSome_map]; exact ih

theorem stageCalls_some {ref : Src → Str → Bool → Str} {h : Host} {cs : List Str} {run dyn : Bool} :
    ∀ {ps : List Part} {r : List (Str × List Str)}, stageCalls ref h cs run dyn ps = some r →
    List.Forall₂ (fun (p : Part) (c : Str × List Str) => c.1 = p.name ∧ suitePartCallList ref h cs p run dyn = some c.2) ps r
  | [], r, e => by cases e; exact .nil
  | p :: ps, r, e => by
    unfold stageCalls at e
    cases hc : suitePartCallList ref h cs p run dyn with
    | none => rw [hc] at e; cases e
    | some as =>
      rw [hc] at e
      obtain ⟨r', e1, rfl⟩ := Option.map_eq_some_iff.1 e
      exact .cons ⟨rfl, hc⟩ (stageCalls_some e1)

theorem includeVar_all {s : Str} {run : Bool} (h : run = true ∨ ¬ LoopVar s) : includeVar s true run true = true := by
  unfold includeVar
  rcases h with rfl | h
  · cases hc : isConst s <;> cases hl : isLoop s <;> rfl
  · have : isLoop s = false := by rw [← Bool.not_eq_true, isLoop_iff]; exact h
    rw [this]; cases hc : isConst s <;> rfl

theorem includeVar_host {s : Str} {run : Bool} : includeVar s true run false = true ↔
    ¬ Constant s ∧ (run = true ∨ ¬ LoopVar s) := by
  unfold includeVar
  rw [← isConst_iff, ← isLoop_iff]
  cases hc : isConst s <;> cases hl : isLoop s <;> cases run <;> simp
  exact absurd hl (by rw [const_not_loop ((isConst_iff s).1 hc)]; decide)

/-! ## The routine -/

theorem runStage_iff (stage : Str) : runStage stage = true ↔ stage = "run".toList := by
  simp only [runStage, decide_eq_true_eq]

theorem registerStage_iff (stage : Str) : registerStage stage = true ↔ stage = "register".toList := by
  simp only [registerStage, decide_eq_true_eq]

/-- **C101, acceptance**. The physics routine of a stage is written exactly if its parts can be called. -/
theorem C101_accept (ref : Src → Str → Bool → Str) (h : Host) (cs : List Str) (stage : Str) (suites : List Suite) :
    (stageRoutine ref h cs stage suites).isSome = true ↔ Callable h cs stage (suites.flatMap (·.parts)) := by
  generalize hps : suites.flatMap (·.parts) = ps
  have key : (∃ ls, stageLocals h cs (registerStage stage) ps = some ls) ↔ Callable h cs stage ps := by
    constructor
    · rintro ⟨ls, e⟩
      obtain ⟨g1, g2, g3, g4, rfl⟩ := stageLocals_some.1 e
      refine ⟨fun p hp a ha => g1 a (List.mem_flatMap.2 ⟨p, hp, ha⟩), fun p hp a ha hi => ?_,
        _, propsOf_iff.2 rfl, g3, g4⟩
      exact (registerStage_iff _).1 (g2 a (List.mem_flatMap.2 ⟨p, hp, ha⟩) hi)
    · rintro ⟨g1, g2, ls, hpr, g3, g4⟩
      rw [propsOf_iff] at hpr
      subst hpr
      refine ⟨_, stageLocals_some.2 ⟨?_, ?_, g3, g4, rfl⟩⟩
      · intro a ha
        obtain ⟨p, hp, ha⟩ := List.mem_flatMap.1 ha
        exact g1 p hp a ha
      · intro a ha hi
        obtain ⟨p, hp, ha⟩ := List.mem_flatMap.1 ha
        exact (registerStage_iff _).2 (g2 p hp a ha hi)
  rw [← key]
  unfold stageRoutine
  simp only [hps]
  cases hl : stageLocals h cs (registerStage stage) ps with
  | none => simp
  | some ls =>
    have hk := (stageLocals_some.1 hl).1
    have := stageCalls_none (ref := ref) (run := runStage stage) (dyn := registerStage stage)
      (ps := ps) fun p hp a ha => hk a (List.mem_flatMap.2 ⟨p, hp, ha⟩)
    simp only
    cases hc : stageCalls ref h cs (runStage stage) (registerStage stage) ps with
    | none => rw [hc] at this; cases this
    | some cl => simp

theorem routine_some {ref : Src → Str → Bool → Str} {h : Host} {cs : List Str} {stage : Str} {suites : List Suite} {r : Routine}
    (hr : stageRoutine ref h cs stage suites = some r) : ∃ ls cl,
      stageLocals h cs (registerStage stage) (suites.flatMap (·.parts)) = some ls ∧
      stageCalls ref h cs (runStage stage) (registerStage stage) (suites.flatMap (·.parts)) = some cl ∧
      r = ⟨stageDummies h (runStage stage), ls.map (·.lname), cl, if (registerStage stage) = true then
        suites.map fun s => (s.name, (ls.filter fun v => v.type = propsType).map (·.lname)) else []⟩ := by
  unfold stageRoutine at hr
  simp only at hr
  split at hr
  · cases hr
  · next ls hl =>
    split at hr
    · cases hr
    · next cl hc => exact ⟨ls, cl, hl, hc, (Option.some.inj hr).symm⟩

/-- **C101, calls**. The routine calls the parts of all suites in their order. In the run phase, and in other phases for a
part without loop variables (suite_objects.py:434 refuses others), the call gives every dummy argument of the subroutine, in
order and by keyword, the variable with the same standard name. -/
theorem C101_calls (ref : Src → Str → Bool → Str) (h : Host) (cs : List Str) (stage : Str) (suites : List Suite) (r : Routine)
    (hr : stageRoutine ref h cs stage suites = some r) :
    List.Forall₂ (fun (p : Part) (c : Str × List Str) => c.1 = p.name ∧ ((stage = "run".toList ∨ ∀ a ∈ p.args, ¬ LoopVar a.std) →
      List.Forall₂ (ArgFor ref h cs r.locals (runStage stage)) (partHeader p) c.2)) (suites.flatMap (·.parts)) r.calls := by
  obtain ⟨ls, cl, hl, hc, rfl⟩ := routine_some hr
  obtain ⟨g1, g2, g3, g4, rfl⟩ := stageLocals_some.1 hl
  simp only
  have h0 := stageCalls_some hc
  revert h0
  generalize hP : suites.flatMap (·.parts) = ps at *
  intro h0
  have sub : ∀ p ∈ ps, ∀ a ∈ p.args, a ∈ ps.flatMap (·.args) := fun p hp a ha => List.mem_flatMap.2 ⟨p, hp, ha⟩
  have main : ∀ p : Part, p ∈ ps → ∀ c : Str × List Str, suitePartCallList ref h cs p (runStage stage) (registerStage stage) = some c.2 →
      (stage = "run".toList ∨ ∀ a ∈ p.args, ¬ LoopVar a.std) →
      List.Forall₂ (ArgFor ref h cs ((props (ps.flatMap (·.args)) ++
        if props (ps.flatMap (·.args)) = [] then [] else counters).map (·.lname)) (runStage stage)) (partHeader p) c.2 := by
    intro p hp c e hrun
    unfold suitePartCallList at e
    rw [List.filter_eq_self.2] at e
    · refine callArgs_some ?_ e
      intro a ha hi
      refine ⟨g2 a (sub p hp a ha) hi, ?_, ?_⟩
      · refine List.mem_map.2 ⟨a, List.mem_append_left _ ?_, rfl⟩
        exact List.mem_filter.2 ⟨sub p hp a ha, decide_eq_true hi⟩
      · exact g3 a (List.mem_filter.2 ⟨sub p hp a ha, decide_eq_true hi⟩)
    · intro a ha
      refine includeVar_all ?_
      rcases hrun with hrun | hrun
      · exact Or.inl ((runStage_iff _).2 hrun)
      · exact Or.inr (hrun a ha)
  clear hc hl hr g1 g2 g3 g4 hP
  have : ∀ (qs : List Part), (∀ q ∈ qs, q ∈ ps) → ∀ {cl}, List.Forall₂ (fun (p : Part) (c : Str × List Str) => c.1 = p.name ∧
      suitePartCallList ref h cs p (runStage stage) (registerStage stage) = some c.2) qs cl →
      List.Forall₂ (fun (p : Part) (c : Str × List Str) => c.1 = p.name ∧ ((stage = "run".toList ∨ ∀ a ∈ p.args, ¬ LoopVar a.std) →
      List.Forall₂ (ArgFor ref h cs ((props (ps.flatMap (·.args)) ++
        if props (ps.flatMap (·.args)) = [] then [] else counters).map (·.lname)) (runStage stage)) (partHeader p) c.2)) qs cl := by
    intro qs hq cl hf
    induction hf with
    | nil => exact .nil
    | cons hx _ ih =>
      exact .cons ⟨hx.1, main _ (hq _ List.mem_cons_self) _ hx.2⟩ (ih fun q hm => hq q (List.mem_cons_of_mem _ hm))
  exact this ps (fun _ h => h) h0

theorem in_ne : "inout".toList ≠ "in".toList := by decide

/-- **C101, dummy arguments**. After the name of the suite and, in the run phase, of the part, the dummy arguments are
exactly the host variables that are in no module, loop variables in the run phase only, in the order of the host model; the
intent is in for protected variables and loop variables, else inout. -/
theorem C101_dummies (ref : Src → Str → Bool → Str) (h : Host) (cs : List Str) (stage : Str) (suites : List Suite) (r : Routine)
    (hr : stageRoutine ref h cs stage suites = some r) : ∃ f : HVar → Bool,
    (∀ v, f v = true ↔ v.module = none ∧ ¬ Constant v.std ∧ (LoopVar v.std → stage = "run".toList)) ∧
    r.dummies.map (·.name) = ["suite_name".toList] ++ (if stage = "run".toList then ["suite_part".toList] else []) ++
      (h.vars.filter f).map (·.lname) ∧
    (∀ v ∈ h.vars, f v = true → ∃ i, (i = "in".toList ↔ v.prot = true ∨ LoopVar v.std) ∧ (i = "in".toList ∨ i = "inout".toList) ∧
      ⟨v.lname, i⟩ ∈ r.dummies) := by
  obtain ⟨ls, cl, hl, hc, rfl⟩ := routine_some hr
  refine ⟨fun v => includeVar v.std true (runStage stage) false && decide (v.module = none), ?_, ?_, ?_⟩
  · intro v
    rw [Bool.and_eq_true, includeVar_host, decide_eq_true_eq]
    rw [runStage_iff]
    constructor
    · rintro ⟨⟨h1, h2⟩, h3⟩; exact ⟨h3, h1, fun h4 => h2.resolve_right fun h5 => h5 h4⟩
    · rintro ⟨h1, h2, h3⟩
      refine ⟨⟨h2, ?_⟩, h1⟩
      by_cases h4 : LoopVar v.std
      · exact Or.inl (h3 h4)
      · exact Or.inr h4
  · simp only [stageDummies, hostCallList, List.map_append, List.map_map, List.filter_filter]
    congr 1
    · by_cases hs : stage = "run".toList
      · rw [if_pos ((runStage_iff _).2 hs), if_pos hs]; rfl
      · rw [if_neg (by rwa [runStage_iff]), if_neg hs]; rfl
    · congr 1
      apply List.filter_congr
      intro v _
      exact Bool.and_comm _ _
  · intro v hv hf
    rw [Bool.and_eq_true, decide_eq_true_eq] at hf
    refine ⟨if v.prot || isLoop v.std then "in".toList else "inout".toList, ?_, ?_, ?_⟩
    · rw [← isLoop_iff]
      cases hp : v.prot <;> cases hq : isLoop v.std <;> simp [in_ne]
    · cases v.prot <;> cases isLoop v.std <;> simp [in_ne]
    · refine List.mem_append_right _ (List.mem_map.2 ⟨v, ?_, rfl⟩)
      exact List.mem_filter.2 ⟨List.mem_filter.2 ⟨hv, hf.1⟩, by simpa using hf.2⟩

/-- **C101, access**. A host variable that a call may refer to - by an argument, as the variable that holds a component, or,
in the run phase, in the bounds - is in a module or a dummy argument. -/
theorem C101_access (ref : Src → Str → Bool → Str) (h : Host) (cs : List Str) (stage : Str) (suites : List Suite) (r : Routine)
    (hr : stageRoutine ref h cs stage suites = some r) (v : HVar) (hv : v ∈ h.vars) (hc : ¬ Constant v.std)
    (hl : LoopVar v.std → stage = "run".toList) : v.module ≠ none ∨ v.lname ∈ r.dummies.map (·.name) := by
  obtain ⟨f, hf, hd, _⟩ := C101_dummies ref h cs stage suites r hr
  by_cases hm : v.module = none
  · right
    rw [hd]
    exact List.mem_append_right _ (List.mem_map.2 ⟨v, List.mem_filter.2 ⟨hv, (hf v).2 ⟨hm, hc, hl⟩⟩, rfl⟩)
  · exact Or.inl hm

/-- **C101, sizes**. If one suite only returns run-time constituents, the register routine takes, for this suite, the sizes of
exactly the arrays that the call of its part allocates. -/
theorem C101_sizes_partial (ref : Src → Str → Bool → Str) (h : Host) (cs : List Str) (suites : List Suite) (r : Routine)
    (hr : stageRoutine ref h cs "register".toList suites = some r) (A B : List Suite) (s : Suite) (hs : suites = A ++ s :: B)
    (hone : ∀ t ∈ A ++ B, ∀ p ∈ t.parts, ∀ a ∈ p.args, ¬ IsProps a) : ∃ ls,
    PropsOf ls (s.parts.flatMap (·.args)) ∧ (s.name, ls.map (·.lname)) ∈ r.sizes := by
  obtain ⟨ls, cl, hl, hc, rfl⟩ := routine_some hr
  obtain ⟨g1, g2, g3, g4, rfl⟩ := stageLocals_some.1 hl
  refine ⟨_, propsOf_iff.2 rfl, ?_⟩
  rw [if_pos ((registerStage_iff _).2 rfl)]
  refine List.mem_map.2 ⟨s, by rw [hs]; simp, ?_⟩
  have e1 : ∀ (l : List Suite), (∀ t ∈ l, ∀ p ∈ t.parts, ∀ a ∈ p.args, ¬ IsProps a) →
      props ((l.flatMap (·.parts)).flatMap (·.args)) = [] := by
    intro l hl
    refine List.filter_eq_nil_iff.2 fun a ha => ?_
    obtain ⟨p, hp, ha⟩ := List.mem_flatMap.1 ha
    obtain ⟨t, ht, hp⟩ := List.mem_flatMap.1 hp
    simp only [decide_eq_true_eq]; exact hl t ht p hp a ha
  have e2 : props ((suites.flatMap (·.parts)).flatMap (·.args)) = props (s.parts.flatMap (·.args)) := by
    rw [hs, List.flatMap_append, List.flatMap_cons, List.flatMap_append, List.flatMap_append, props_append, props_append,
      e1 A fun t ht => hone t (List.mem_append_left _ ht), e1 B fun t ht => hone t (List.mem_append_right _ ht)]
    simp
  rw [e2]
  congr 2
  show props (_ ++ _) = _
  rw [props_append]
  have : props (if props (s.parts.flatMap (·.args)) = [] then [] else counters) = [] := by
    split
    · rfl
    · decide +kernel
  rw [this, List.append_nil]
  unfold props
  rw [List.filter_filter]
  simp

/-! ## Examples and violations -/

/-- A host model: a module variable, a dummy argument, loop bounds. -/
def exHost : Host :=
  ⟨[⟨"temperature".toList, "t".toList, some "phys".toList, false⟩, ⟨"time_step".toList, "dt".toList, none, true⟩,
    ⟨"horizontal_loop_begin".toList, "cs".toList, none, false⟩, ⟨"horizontal_loop_end".toList, "ce".toList, none, false⟩,
    ⟨"ccpp_error_code".toList, "ierr".toList, none, false⟩], ["pressure".toList]⟩

/-- References. -/
def exRef : Src → Str → Bool → Str
  | .host, s, run => "h_".toList ++ s ++ if run then "(cs:ce)".toList else []
  | .const, s, _ => "c_".toList ++ s

/-- An argument. -/
def arg (s l : String) : PVar := ⟨s.toList, l.toList, "real".toList⟩

/-- An array of run-time constituents. -/
def dynArg (s l : String) : PVar := ⟨s.toList, l.toList, propsType⟩

/-- A suite with one part in the run phase. -/
def exRun : List Suite := [⟨"s".toList, [⟨"s_p".toList, [arg "horizontal_loop_begin" "col_start", arg "temperature" "temp",
  arg "ccpp_constant_one" "one", arg "pressure" "p", arg "ozone" "o3"]⟩]⟩]

/-- The routine for it. -/
theorem C101_example : ((stageRoutine exRef exHost ["ozone".toList] "run".toList exRun).map
    fun r => (r.dummies, r.calls)) = some ([⟨"suite_name".toList, "in".toList⟩, ⟨"suite_part".toList, "in".toList⟩,
      ⟨"dt".toList, "in".toList⟩, ⟨"cs".toList, "in".toList⟩, ⟨"ce".toList, "in".toList⟩, ⟨"ierr".toList, "inout".toList⟩],
      [("s_p".toList, ["col_start=h_horizontal_loop_begin(cs:ce)".toList, "temp=h_temperature(cs:ce)".toList,
        "p=h_pressure(cs:ce)".toList, "o3=c_ozone".toList])]) := by
  decide +kernel

/-- Two suites that return run-time constituents. -/
def twoDyn (s1 l1 s2 l2 : String) : List Suite :=
  [⟨"a".toList, [⟨"a_register".toList, [dynArg s1 l1]⟩]⟩, ⟨"b".toList, [⟨"b_register".toList, [dynArg s2 l2]⟩]⟩]

/-- With two suites, the register routine takes, for the first, the size of an array that the first does not allocate. -/
theorem C101_sizes_violated : ((stageRoutine exRef exHost [] "register".toList (twoDyn "x" "dx" "y" "dy")).map
    fun r => (r.calls, r.sizes)) = some ([("a_register".toList, ["dx=dx".toList]), ("b_register".toList, ["dy=dy".toList])],
      [("a".toList, ["dx".toList, "dy".toList]), ("b".toList, ["dx".toList, "dy".toList])]) := by
  decide +kernel

/-- Two suites cannot use the same scheme with run-time constituents. -/
theorem C101_shared_violated : (stageRoutine exRef exHost [] "register".toList (twoDyn "x" "dx" "x" "dx")).isNone = true := by
  decide +kernel

/-- A host variable that is called suite_name gives two dummy arguments of the same name. -/
theorem C101_names_violated : ((stageRoutine exRef ⟨[⟨"title".toList, "suite_name".toList, none, false⟩], []⟩ [] "init".toList
    []).map fun r => r.dummies.map (·.name)) = some ["suite_name".toList, "suite_name".toList] := by
  decide +kernel

end Ccpp.HCall
