import Verif.Spec.HostConst
import Verif.Props.PrebuildArgs
import Verif.Props.Checkers
import Verif.Props.DataTable
/-! # C82: the variables of the host cap -/
namespace Ccpp.HC
open Const Hash

variable {R : Type}

/-! ## Texts -/

theorem cutAt_none {sep : Str} (hs : sep ≠ []) : ∀ {s : Str}, cutAt sep s = none ↔ ¬ sep <:+: s := by
  intro s
  induction s with
  | nil =>
    have : sep.isEmpty = false := by simpa using hs
    simp [cutAt, this, hs]
  | cons c s ih =>
    simp only [cutAt]
    rw [List.infix_cons_iff]
    by_cases h : sep.isPrefixOf (c :: s) = true
    · rw [if_pos h]
      have := List.isPrefixOf_iff_prefix.1 h
      simp [this]
    · rw [if_neg h, Option.map_eq_none_iff, ih]
      have : ¬ sep <+: c :: s := fun hc => h (List.isPrefixOf_iff_prefix.2 hc)
      simp [this]

theorem cutAt_iff {sep : Str} (hs : sep ≠ []) : ∀ {s a r : Str}, cutAt sep s = some (a, r) ↔ FirstCut sep s a r := by
  intro s
  induction s with
  | nil =>
    intro a r
    have : sep.isEmpty = false := by simpa using hs
    simp only [cutAt, this, Bool.false_eq_true, if_false]
    unfold FirstCut
    constructor
    · intro h; simp at h
    · intro h
      have := h.1
      simp [hs] at this
  | cons c s ih =>
    intro a r
    simp only [cutAt]
    have hlen : 0 < sep.length := List.length_pos_iff.2 hs
    by_cases h : sep.isPrefixOf (c :: s) = true
    · rw [if_pos h]
      have hp := List.isPrefixOf_iff_prefix.1 h
      constructor
      · intro he
        simp only [Option.some.injEq, Prod.mk.injEq] at he
        obtain ⟨rfl, rfl⟩ := he
        obtain ⟨r, hr⟩ := hp
        refine ⟨?_, ?_⟩
        · rw [← hr]; simp
        · intro hc
          have := hc.length_le
          simp at this
          omega
      · rintro ⟨h1, h2⟩
        cases a with
        | nil =>
          rw [h1]
          simp
        | cons d a =>
          exfalso
          apply h2
          have hq : (d :: a) ++ sep.dropLast <+: c :: s := by
            rw [h1]
            conv => rhs; rw [← List.dropLast_append_getLast hs]
            exact ⟨[sep.getLast hs] ++ r, by simp⟩
          refine (List.prefix_of_prefix_length_le hp hq ?_).isInfix
          simp
          omega
    · rw [if_neg h]
      have hnp : ¬ sep <+: c :: s := fun hc => h (List.isPrefixOf_iff_prefix.2 hc)
      constructor
      · intro he
        rw [Option.map_eq_some_iff] at he
        obtain ⟨⟨a', r'⟩, h1, h2⟩ := he
        simp only [Prod.mk.injEq] at h2
        obtain ⟨rfl, rfl⟩ := h2
        obtain ⟨h3, h4⟩ := ih.1 h1
        refine ⟨by rw [h3]; simp, ?_⟩
        rw [List.cons_append, List.infix_cons_iff]
        rintro (hc | hc)
        · apply hnp
          refine hc.trans ?_
          rw [h3]
          conv => rhs; rw [← List.dropLast_append_getLast hs]
          exact ⟨[sep.getLast hs] ++ r', by simp⟩
        · exact h4 hc
      · rintro ⟨h1, h2⟩
        cases a with
        | nil =>
          exfalso
          apply hnp
          rw [h1]
          simp
        | cons d a =>
          simp only [List.cons_append, List.cons.injEq] at h1
          obtain ⟨rfl, h1⟩ := h1
          rw [Option.map_eq_some_iff]
          refine ⟨(a, r), ih.2 ⟨h1, fun hc => h2 ?_⟩, rfl⟩
          exact hc.trans ⟨[c], [], by simp⟩

theorem tend_ne : "tendency_of_".toList ≠ ([] : Str) := by decide

theorem second_iff {n x : Str} : second "tendency_of_".toList n = some x ↔ TendOf n x := by
  generalize hs : "tendency_of_".toList = sep
  have hne : sep ≠ [] := by rw [← hs]; exact tend_ne
  unfold second TendOf
  rw [hs, Option.map_eq_some_iff]
  constructor
  · rintro ⟨⟨a, r⟩, h1, h2⟩
    refine ⟨a, r, (cutAt_iff hne).1 h1, ?_⟩
    simp only at h2
    cases hc : cutAt sep r with
    | none =>
      rw [hc] at h2
      exact .inl ⟨(cutAt_none hne).1 hc, h2.symm⟩
    | some q =>
      rw [hc] at h2
      simp only at h2
      subst h2
      exact .inr ⟨q.2, (cutAt_iff hne).1 hc⟩
  · rintro ⟨a, r, h1, h2⟩
    refine ⟨(a, r), (cutAt_iff hne).2 h1, ?_⟩
    simp only
    rcases h2 with ⟨h2, rfl⟩ | ⟨b, h2⟩
    · rw [(cutAt_none hne).2 h2]
    · rw [(cutAt_iff hne).2 h2]

theorem isTend_iff (n : Str) : isTend n = true ↔ Tend n := PA.inText_iff _ _

theorem checkDims_iff (ds : List Str) : checkDims ds = .ok () ↔ GoodDims ds := by
  have hl : ∀ (d x : Str), lastPart d = x ↔ (Chk.splitOn ':' d).getLast? = some x := by
    intro d x
    unfold lastPart
    cases h : (Chk.splitOn ':' d).getLast? with
    | none => exact absurd (List.getLast?_eq_none_iff.1 h) (Chk.splitOn_ne_nil _ _)
    | some y => simp
  unfold GoodDims
  match ds with
  | [] => simp [checkDims]
  | [h] =>
    simp only [checkDims]
    split <;> simp
  | [h, z] =>
    simp only [checkDims, hl]
    split
    · rename_i h1
      split
      · rename_i h2
        simp [h1, h2]
      · rename_i h2
        constructor
        · intro hc; cases hc
        · rintro ⟨h', z', he, -, h4⟩
          simp only [List.cons.injEq, and_true] at he
          obtain ⟨rfl, rfl⟩ := he
          exact absurd h4 h2
    · rename_i h1
      constructor
      · intro hc; cases hc
      · rintro ⟨h', z', he, h4, -⟩
        simp only [List.cons.injEq, and_true] at he
        obtain ⟨rfl, rfl⟩ := he
        exact absurd h4 h1
  | _ :: _ :: _ :: _ => simp [checkDims]

/-! ## The loop -/

/-- The variables whose name was not seen yet. -/
def nub : List Str → List (CVar R) → List (CVar R)
  | _, [] => []
  | S, v :: vs => if v.name ∈ S then nub S vs else v :: nub (v.name :: S) vs

theorem nub_eq (S : List Str) (vs : List (CVar R)) : nub S vs = (uniq vs).filter fun w => decide (w.name ∉ S) := by
  induction vs generalizing S with
  | nil => rfl
  | cons v vs ih =>
    rw [nub, uniq]
    by_cases h : v.name ∈ S
    · rw [if_pos h, ih, List.filter_cons_of_neg (by simpa using h), List.filter_filter]
      apply List.filter_congr
      intro w _
      by_cases hw : w.name ∈ S
      · simp [hw]
      · have : w.name ≠ v.name := fun he => hw (he ▸ h)
        simp [hw, this]
    · rw [if_neg h, ih, List.filter_cons_of_pos (by simpa using h), List.filter_filter]
      congr 1
      apply List.filter_congr
      intro w _
      simp only [List.mem_cons, not_or]
      by_cases h1 : w.name = v.name <;> by_cases h2 : w.name ∈ S <;> simp [h1, h2]

theorem nub_nil (vs : List (CVar R)) : nub [] vs = uniq vs := by
  rw [nub_eq]
  simp

theorem uniq_pairwise (vs : List (CVar R)) : (uniq vs).Pairwise fun v w => v.name ≠ w.name := by
  induction vs with
  | nil => exact List.Pairwise.nil
  | cons v vs ih =>
    rw [uniq, List.pairwise_cons]
    refine ⟨?_, ih.filter _⟩
    intro w hw
    have := (List.mem_filter.1 hw).2
    simp only [decide_eq_true_eq] at this
    exact fun he => this he.symm

theorem uniq_inj {vs : List (CVar R)} {v w : CVar R} (hv : v ∈ uniq vs) (hw : w ∈ uniq vs) (h : v.name = w.name) : v = w := by
  have hp := uniq_pairwise vs
  generalize uniq vs = l at *
  induction l with
  | nil => simp at hv
  | cons u l ih =>
    rw [List.pairwise_cons] at hp
    rcases List.mem_cons.1 hv with hv' | hv' <;> rcases List.mem_cons.1 hw with hw' | hw'
    · rw [hv', hw']
    · exact absurd (hv' ▸ h) (hp.1 w hw')
    · exact absurd (hw' ▸ h.symm) (hp.1 v hv')
    · exact ih hv' hw' hp.2

theorem mem_uniq {vs : List (CVar R)} {v : CVar R} (h : v ∈ vs) : ∃ w ∈ uniq vs, w.name = v.name := by
  induction vs with
  | nil => simp at h
  | cons u vs ih =>
    rw [uniq]
    rcases List.mem_cons.1 h with rfl | h
    · exact ⟨v, by simp, rfl⟩
    · obtain ⟨w, hw, he⟩ := ih h
      by_cases hu : w.name = u.name
      · exact ⟨u, by simp, by rw [← hu, he]⟩
      · exact ⟨w, by simp [hw, hu], he⟩

theorem uniq_subset {vs : List (CVar R)} {v : CVar R} (h : v ∈ uniq vs) : v ∈ vs := by
  induction vs with
  | nil => simp [uniq] at h
  | cons u vs ih =>
    rw [uniq] at h
    rcases List.mem_cons.1 h with rfl | h
    · simp
    · simp [ih (List.mem_filter.1 h).1]

/-- The entry made for a variable. -/
def mkEntry (v : CVar R) : Entry := ⟨slotRef (arrayName v.name) ((stateName v.name).getD []), v.name, v.units, v.dims⟩

theorem addConsts_spec : ∀ (vs : List (CVar R)) (a : Acc R) (S : List Str),
    (∀ n, n ∈ S ↔ n ∈ a.consts.map (·.name) ∨ n ∈ a.tends.map (·.name)) → ∀ a',
    (addConsts a vs = .ok a' ↔ (∀ v ∈ nub S vs, checkDims v.dims = .ok () ∧ (stateName v.name).isSome = true) ∧
      a' = ⟨a.entries ++ (nub S vs).map mkEntry, a.consts ++ (nub S vs).filter (fun v => !isTend v.name),
        a.tends ++ (nub S vs).filter (fun v => isTend v.name)⟩) := by
  intro vs
  induction vs with
  | nil =>
    intro a S _ a'
    simp only [addConsts, nub, Except.ok.injEq]
    constructor
    · rintro rfl
      exact ⟨by simp, by simp⟩
    · rintro ⟨-, h⟩
      rw [h]; simp
  | cons v vs ih =>
    intro a S hS a'
    simp only [addConsts, nub, addConst]
    by_cases hin : v.name ∈ S
    · rw [if_pos ((hS _).1 hin), if_pos hin]
      exact ih a S hS a'
    · rw [if_neg (fun hc => hin ((hS _).2 hc)), if_neg hin]
      cases hc : checkDims v.dims with
      | error e =>
        simp only
        constructor
        · intro h; cases h
        · rintro ⟨h, -⟩
          have := (h v (by simp)).1
          rw [hc] at this
          cases this
      | ok u =>
        simp only
        cases hst : stateName v.name with
        | none =>
          simp only
          constructor
          · intro h; cases h
          · rintro ⟨h, -⟩
            have := (h v (by simp)).2
            rw [hst] at this
            cases this
        | some x =>
          simp only
          have hE : (⟨arrayName v.name ++ "(:,:,index_of_".toList ++ x ++ ")".toList, v.name, v.units, v.dims⟩ : Entry) = mkEntry v := by
            unfold mkEntry slotRef
            rw [hst]
            rfl
          rw [hE]
          by_cases ht : isTend v.name = true
          · rw [if_pos ht]
            simp only
            rw [ih _ (v.name :: S) (by
              intro n
              simp only [List.mem_cons, hS n, List.map_append, List.map_cons, List.map_nil, List.mem_append, List.not_mem_nil, or_false]
              tauto)]
            simp only [List.mem_cons, forall_eq_or_imp, List.map_cons, List.append_assoc, List.cons_append, List.nil_append]
            rw [List.filter_cons_of_neg (by simp [ht]), List.filter_cons_of_pos (by simp [ht])]
            constructor
            · rintro ⟨h1, h2⟩
              exact ⟨⟨⟨hc, by simp [hst]⟩, h1⟩, h2⟩
            · rintro ⟨⟨-, h1⟩, h2⟩
              exact ⟨h1, h2⟩
          · rw [if_neg ht]
            simp only
            rw [ih _ (v.name :: S) (by
              intro n
              simp only [List.mem_cons, hS n, List.map_append, List.map_cons, List.map_nil, List.mem_append, List.not_mem_nil, or_false]
              tauto)]
            simp only [List.mem_cons, forall_eq_or_imp, List.map_cons, List.append_assoc, List.cons_append, List.nil_append]
            rw [List.filter_cons_of_pos (by simp [ht]), List.filter_cons_of_neg (by simp [ht])]
            constructor
            · rintro ⟨h1, h2⟩
              exact ⟨⟨⟨hc, by simp [hst]⟩, h1⟩, h2⟩
            · rintro ⟨⟨-, h1⟩, h2⟩
              exact ⟨h1, h2⟩

theorem checkTend_iff (compat : CVar R → CVar R → Bool) (consts : List (CVar R)) (t : CVar R) :
    checkTend compat consts t = .ok () ↔ ∃ x, TendOf t.name x ∧ (∃ c ∈ consts, c.name = x) ∧ ∀ c ∈ consts, c.name = x → compat t c = true := by
  unfold checkTend
  cases hs : second "tendency_of_".toList t.name with
  | none =>
    simp only
    constructor
    · intro h; cases h
    · rintro ⟨x, hx, -⟩
      rw [second_iff.2 hx] at hs
      cases hs
  | some x =>
    simp only
    have hx := second_iff.1 hs
    have huniq : ∀ y, TendOf t.name y → y = x := by
      intro y hy
      have := second_iff.2 hy
      rw [hs] at this
      simpa using this.symm
    by_cases h1 : (consts.filter fun c => c.name == x).any (fun c => !compat t c) = true
    · rw [if_pos h1]
      constructor
      · intro h; cases h
      · rintro ⟨y, hy, -, hall⟩
        rw [huniq y hy] at hall
        obtain ⟨c, hc, hcc⟩ := List.any_eq_true.1 h1
        obtain ⟨hc1, hc2⟩ := List.mem_filter.1 hc
        have := hall c hc1 (by simpa using hc2)
        rw [this] at hcc
        simp at hcc
    · rw [if_neg h1]
      by_cases h2 : (consts.filter fun c => c.name == x).isEmpty = true
      · rw [if_pos h2]
        constructor
        · intro h; cases h
        · rintro ⟨y, hy, ⟨c, hc, hce⟩, -⟩
          rw [huniq y hy] at hce
          have : c ∈ consts.filter fun c => c.name == x := List.mem_filter.2 ⟨hc, by simpa using hce⟩
          rw [List.isEmpty_iff.1 h2] at this
          simp at this
      · rw [if_neg h2]
        simp only [true_iff]
        refine ⟨x, hx, ?_, ?_⟩
        · cases hf : consts.filter fun c => c.name == x with
          | nil => rw [hf] at h2; simp at h2
          | cons c l =>
            have : c ∈ consts.filter fun c => c.name == x := by rw [hf]; simp
            obtain ⟨hc1, hc2⟩ := List.mem_filter.1 this
            exact ⟨c, hc1, by simpa using hc2⟩
        · intro c hc he
          by_contra hcc
          exact h1 (List.any_eq_true.2 ⟨c, List.mem_filter.2 ⟨hc, by simpa using he⟩, by simpa using hcc⟩)

theorem checkTends_iff (compat : CVar R → CVar R → Bool) (consts : List (CVar R)) (ts : List (CVar R)) :
    checkTends compat consts ts = .ok () ↔ ∀ t ∈ ts, checkTend compat consts t = .ok () := by
  induction ts with
  | nil => simp [checkTends]
  | cons t ts ih =>
    simp only [checkTends, List.mem_cons, forall_eq_or_imp]
    cases h : checkTend compat consts t with
    | error e =>
      simp only
      constructor
      · intro h; cases h
      · rintro ⟨h, -⟩; cases h
    | ok u => simp [ih]

/-- A summary of add_constituent_vars. -/
theorem capVars_iff (compat : CVar R → CVar R → Bool) (suites : List (List (CVar R))) (c : CapVars) :
    capVars compat suites = .ok c ↔
      (∀ v ∈ uniq suites.flatten, GoodDims v.dims ∧ (stateName v.name).isSome = true) ∧
      (∀ t ∈ uniq suites.flatten, Tend t.name → ∃ s ∈ uniq suites.flatten, ¬ Tend s.name ∧ TendOf t.name s.name ∧ compat t s = true) ∧
      c = ⟨(uniq suites.flatten).map mkEntry, RV.sorted (((uniq suites.flatten).filter fun v => !isTend v.name).map (·.name))⟩ := by
  have h0 := addConsts_spec (R := R) suites.flatten ⟨[], [], []⟩ [] (by simp)
  simp only [nub_nil, List.nil_append, checkDims_iff] at h0
  unfold capVars
  cases ha : addConsts ⟨[], [], []⟩ suites.flatten with
  | error e =>
    simp only
    constructor
    · intro h; cases h
    · rintro ⟨h1, -, -⟩
      have := (h0 _).2 ⟨h1, rfl⟩
      rw [ha] at this
      cases this
  | ok a =>
    obtain ⟨h1, h2⟩ := (h0 a).1 ha
    subst h2
    simp only
    have hT : checkTends compat ((uniq suites.flatten).filter fun v => !isTend v.name) ((uniq suites.flatten).filter fun v => isTend v.name) = .ok () ↔
        ∀ t ∈ uniq suites.flatten, Tend t.name → ∃ s ∈ uniq suites.flatten, ¬ Tend s.name ∧ TendOf t.name s.name ∧ compat t s = true := by
      rw [checkTends_iff]
      constructor
      · intro h t ht htt
        obtain ⟨x, h3, ⟨s, hs, hse⟩, h4⟩ := (checkTend_iff _ _ _).1 (h t (List.mem_filter.2 ⟨ht, (isTend_iff _).2 htt⟩))
        obtain ⟨hs1, hs2⟩ := List.mem_filter.1 hs
        refine ⟨s, hs1, ?_, by rw [hse]; exact h3, h4 s hs hse⟩
        rw [← isTend_iff]
        simpa using hs2
      · intro h t ht
        obtain ⟨ht1, ht2⟩ := List.mem_filter.1 ht
        obtain ⟨s, hs, hsn, hst, hsc⟩ := h t ht1 ((isTend_iff _).1 ht2)
        have hsf : s ∈ (uniq suites.flatten).filter fun v => !isTend v.name := by
          refine List.mem_filter.2 ⟨hs, ?_⟩
          rw [← isTend_iff] at hsn
          simpa using hsn
        refine (checkTend_iff _ _ _).2 ⟨s.name, hst, ⟨s, hsf, rfl⟩, ?_⟩
        intro c hc hce
        rw [uniq_inj (List.mem_filter.1 hc).1 hs hce]
        exact hsc
    cases hc : checkTends compat ((uniq suites.flatten).filter fun v => !isTend v.name) ((uniq suites.flatten).filter fun v => isTend v.name) with
    | error e =>
      simp only
      constructor
      · intro h; cases h
      · rintro ⟨-, h3, -⟩
        have := hT.2 h3
        rw [hc] at this
        cases this
    | ok u =>
      simp only [Except.ok.injEq]
      constructor
      · rintro rfl
        exact ⟨h1, hT.1 hc, rfl⟩
      · rintro ⟨-, -, h3⟩
        exact h3.symm

end Ccpp.HC
