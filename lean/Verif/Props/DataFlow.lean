import Verif.Spec.DataFlow
/-! # C54: the data-flow analysis of a suite is sound and complete -/
namespace Ccpp.DF

/-! ## Lemmas on the dictionaries -/

theorem hasVar_append (l l' : List Var) (n : Name) :
    hasVar (l ++ l') n = (hasVar l n || hasVar l' n) := by simp [hasVar]

theorem hasVar_iff (l : List Var) (n : Name) : hasVar l n = true ↔ ∃ v ∈ l, v.std = n := by
  simp [hasVar]

theorem hasVar_filter_self (l : List Var) (n : Name) :
    hasVar (l.filter fun w => w.std != n) n = false := by
  simp [hasVar]

theorem hasVar_filter_ne (l : List Var) (n m : Name) (h : m ≠ n) :
    hasVar (l.filter fun w => w.std != n) m = hasVar l m := by
  rw [Bool.eq_iff_iff, hasVar_iff, hasVar_iff]
  constructor
  · rintro ⟨v, hv, rfl⟩
    exact ⟨v, (List.mem_filter.1 hv).1, rfl⟩
  · rintro ⟨v, hv, rfl⟩
    exact ⟨v, List.mem_filter.2 ⟨hv, by simpa using h⟩, rfl⟩

/-- What find_variable can see. -/
def Found (host : Name → Bool) (g : Nat) (st : St) (n : Name) : Prop :=
  hasVar (st.dict g) n = true ∨ hasVar st.suite n = true ∨ host n = true ∨
    (n ∉ loopNames ∧ ∃ p ∈ st.gvars, p.1 = n)

/-- **C54**: which variables can be computed from others, and from which. -/
theorem derived_variables (n : Name) (req : List Name) (act : Bool) :
    subst? n = some (req, act) ↔ Computed n req act := by
  constructor
  · intro h
    unfold subst? substs at h
    simp only [List.find?_cons, List.find?_nil] at h
    repeat' split at h
    all_goals simp only [Option.map_some, Option.map_none, Option.some.injEq, Prod.mk.injEq,
      reduceCtorEq] at h
    all_goals
      rename_i hn
      simp only [beq_iff_eq] at hn
      obtain ⟨rfl, rfl⟩ := h
      subst hn
      constructor
  · intro h
    cases h <;> decide

theorem subst_req {n : Name} {req : List Name} {act : Bool} (h : subst? n = some (req, act)) :
    (∀ r ∈ req, r ∈ loopNames ∨ r = "ccpp_constant_one") ∧ (act = true → n ∈ loopNames) := by
  unfold subst? substs at h
  simp only [List.find?_cons, List.find?_nil] at h
  repeat' split at h
  all_goals simp only [Option.map_some, Option.map_none, Option.some.injEq, Prod.mk.injEq,
    reduceCtorEq] at h
  all_goals
    rename_i hn
    simp only [beq_iff_eq] at hn
    obtain ⟨rfl, rfl⟩ := h
    subst hn
    decide

/-! ## The invariant -/

/-- What holds while the arguments of group `g` are analysed; `prev` are the uses processed so far. -/
structure Inv (host : Name → Bool) (prev : List Use) (g : Nat) (st : St) : Prop where
  found : ∀ n, Found host g st n ↔ Avail host prev g n
  gv : ∀ p ∈ st.gvars, p.2 < g ∧ hasVar (st.dict p.2) p.1 = true
  gvAll : ∀ k n, k < g → hasVar (st.dict k) n = true → ∃ p ∈ st.gvars, p.1 = n
  later : ∀ k, g < k → st.dict k = []
  uniq : ∀ k k' n, n ∉ loopNames → hasVar (st.dict k) n = true → hasVar (st.dict k') n = true → k = k'
  nohost : ∀ k n, hasVar (st.dict k) n = true → host n = false
  nohostS : ∀ n, hasVar st.suite n = true → host n = false
  noloop : ∀ n, hasVar st.suite n = true → n ∉ loopNames
  disj : ∀ n k, hasVar st.suite n = true → hasVar (st.dict k) n = false
  ment : ∀ u ∈ prev, host u.2.2.std = false →
    hasVar (st.dict u.1) u.2.2.std = true ∨ hasVar st.suite u.2.2.std = true
  le : ∀ u ∈ prev, u.1 ≤ g
  loopOk : ∀ k, ∀ p ∈ st.loops k, subst? p.1 = some (p.2, true)
  prov : ∀ v, v.std ∉ loopNames → (v ∈ st.suite ∨ ∃ k, v ∈ st.dict k) → ∃ u, FirstUse prev u ∧ u.2.2.std = v.std ∧
    (v.array = true → u.2.2.array = true ∧ v.timestep = u.2.1.timestep)
  dictUse : ∀ k n, hasVar (st.dict k) n = true → ∃ u ∈ prev, u.1 = k ∧ u.2.2.std = n
  prom : ∀ n, hasVar st.suite n = true →
    ∃ u ∈ prev, ∃ w ∈ prev, u.2.2.std = n ∧ w.2.2.std = n ∧ u.1 < w.1
  loops : ∀ pre u post req, prev = pre ++ u :: post → ¬ Avail host pre u.1 u.2.2.std →
    u.2.1 = .run → u.2.2.array = false → subst? u.2.2.std = some (req, true) →
    (∀ r ∈ req, Avail host pre u.1 r) → (u.2.2.std, req) ∈ st.loops u.1

theorem FirstUse.append {prev : List Use} {u : Use} (h : FirstUse prev u) (q : List Use) :
    FirstUse (prev ++ q) u := by
  obtain ⟨pre, post, rfl, hp⟩ := h
  exact ⟨pre, post ++ q, by simp, hp⟩

/-! ### find_variable -/

theorem find_cases {host : Name → Bool} {prev : List Use} {g : Nat} {st : St} (I : Inv host prev g st)
    (n : Name) :
    ((hasVar (st.dict g) n = true ∨ hasVar st.suite n = true ∨ host n = true) ∧
      find host g st n = (true, st)) ∨
    (¬ Found host g st n ∧ find host g st n = (false, st)) ∨
    (∃ k v, k < g ∧ n ∉ loopNames ∧ v ∈ st.dict k ∧ v.std = n ∧ (∃ p ∈ st.gvars, p.1 = n) ∧
      hasVar (st.dict g) n = false ∧ hasVar st.suite n = false ∧ host n = false ∧
      find host g st n = (true, { st with
        suite := st.suite ++ [v]
        gvars := st.gvars.filter fun q => q.1 != n
        dict := fun j => if j = k then (st.dict j).filter fun w => w.std != n else st.dict j })) := by
  unfold find
  by_cases h1 : hasVar (st.dict g) n = true
  · exact Or.inl ⟨Or.inl h1, by rw [if_pos h1]⟩
  rw [if_neg h1]
  by_cases h2 : hasVar st.suite n = true
  · exact Or.inl ⟨Or.inr (Or.inl h2), by rw [if_pos h2]⟩
  rw [if_neg h2]
  by_cases h3 : host n = true
  · exact Or.inl ⟨Or.inr (Or.inr h3), by rw [if_pos h3]⟩
  rw [if_neg h3]
  cases hp : st.gvars.find? (fun p => p.1 == n) with
  | none =>
    refine Or.inr (Or.inl ⟨?_, rfl⟩)
    rintro (h | h | h | ⟨_, p, hpm, hpn⟩)
    · exact h1 h
    · exact h2 h
    · exact h3 h
    · have := List.find?_eq_none.1 hp p hpm
      simp [hpn] at this
  | some p =>
    have hpm := List.mem_of_find?_eq_some hp
    have hpn : p.1 = n := by simpa using List.find?_some hp
    simp only
    by_cases h4 : n ∈ loopNames
    · refine Or.inr (Or.inl ⟨?_, by rw [if_pos (by simpa using h4)]⟩)
      rintro (h | h | h | ⟨h, _⟩)
      · exact h1 h
      · exact h2 h
      · exact h3 h
      · exact h h4
    · rw [if_neg (by simpa using h4)]
      obtain ⟨hlt, hhas⟩ := I.gv p hpm
      rw [hpn] at hhas
      cases hv : (st.dict p.2).find? (fun v => v.std == n) with
      | none =>
        obtain ⟨w, hw, hwn⟩ := (hasVar_iff _ _).1 hhas
        have := List.find?_eq_none.1 hv w hw
        simp [hwn] at this
      | some v =>
        refine Or.inr (Or.inr ⟨p.2, v, hlt, h4, List.mem_of_find?_eq_some hv,
          by simpa using List.find?_some hv, ⟨p, hpm, hpn⟩, by simpa using h1, by simpa using h2,
          by simpa using h3, rfl⟩)

theorem find_loop {host : Name → Bool} {prev : List Use} {g : Nat} {st : St} (I : Inv host prev g st)
    (n : Name) (h : n ∈ loopNames ∨ host n = true) :
    (find host g st n).2 = st ∧ ((find host g st n).1 = true ↔ Found host g st n) := by
  rcases find_cases I n with ⟨h1, h2⟩ | ⟨h1, h2⟩ | ⟨k, v, _, h4, _, _, _, _, _, h3, _⟩
  · rw [h2]
    exact ⟨rfl, fun _ => by
      rcases h1 with h1 | h1 | h1
      · exact Or.inl h1
      · exact Or.inr (Or.inl h1)
      · exact Or.inr (Or.inr (Or.inl h1)), fun _ => rfl⟩
  · rw [h2]; simp [h1]
  · rcases h with h | h
    · exact absurd h h4
    · rw [h] at h3; exact absurd h3 (by decide)

theorem findAll_loop {host : Name → Bool} {prev : List Use} {g : Nat} {st : St}
    (I : Inv host prev g st) (req : List Name) (h : ∀ r ∈ req, r ∈ loopNames ∨ host r = true) :
    (findAll host g st req).2 = st ∧
      ((findAll host g st req).1 = true ↔ ∀ r ∈ req, Found host g st r) := by
  induction req with
  | nil => simp [findAll]
  | cons r req ih =>
    obtain ⟨h1, h2⟩ := find_loop I r (h r (by simp))
    obtain ⟨h3, h4⟩ := ih (fun r hr => h r (by simp [hr]))
    unfold findAll
    cases hf : find host g st r with
    | mk b s =>
      rw [hf] at h1 h2
      simp only at h1 h2
      subst h1
      cases b with
      | true => simp only [h3, h4, List.forall_mem_cons, true_and, h2.1 rfl]
      | false =>
        simp only [true_and, List.forall_mem_cons, Bool.false_eq_true, false_iff, not_and]
        intro hh
        exact absurd (h2.2 hh) (by decide)

/-! ### One argument -/

/-- The outcome of the analysis of one argument. -/
theorem analyzeArg_cases {host : Name → Bool} (hone : host "ccpp_constant_one" = true)
    {prev : List Use} {g : Nat} {st : St} (I : Inv host prev g st) (ph : Phase) (a : Arg) :
    (Found host g st a.std ∧ analyzeArg host g ph st a = some (find host g st a.std).2) ∨
    (¬ Found host g st a.std ∧ ph = .run ∧ a.array = false ∧ (∃ req act, subst? a.std = some (req, act) ∧
        (∀ r ∈ req, Found host g st r) ∧
        analyzeArg host g ph st a = some (registerLoop g st a.std req act))) ∨
    (¬ Found host g st a.std ∧
      ¬ (ph = .run ∧ a.array = false ∧ ∃ req act, subst? a.std = some (req, act) ∧
        ∀ r ∈ req, Found host g st r) ∧
      analyzeArg host g ph st a =
        if a.intent = .out ∨ a.default = true then some (manage g ph st a) else none) := by
  have tail : ¬ Found host g st a.std → find host g st a.std = (false, st) →
      analyzeArg host g ph st a =
      (match (if a.array then none else if ph = .run then subst? a.std else none :
          Option (List Name × Bool)) with
        | none => (if a.intent = .out ∨ a.default = true then some (manage g ph st a) else none)
        | some (req, act) =>
          if (findAll host g st req).1 then some (registerLoop g st a.std req act)
          else (if a.intent = .out ∨ a.default = true then some (manage g ph st a) else none)) := by
    intro _ hf
    unfold analyzeArg
    rw [hf]
    simp only
    split
    · rename_i st2 hst2
      split at hst2
      · exact absurd hst2 (by simp)
      · rename_i req act hv
        rw [hv]
        simp only
        split at hst2
        · rename_i st3 hfa
          rw [hfa]
          simp only [if_true]
          have hs : st3 = st := by
            obtain ⟨hh, _⟩ := findAll_loop I req (by
              have hsub : subst? a.std = some (req, act) := by
                split at hv
                · exact absurd hv (by simp)
                · split at hv
                  · exact hv
                  · exact absurd hv (by simp)
              intro r hr
              rcases (subst_req hsub).1 r hr with h | h
              · exact Or.inl h
              · exact Or.inr (h ▸ hone))
            rw [hfa] at hh
            exact hh
          rw [← hst2, hs]
        · exact absurd hst2 (by simp)
    · rename_i hst2
      split at hst2
      · rename_i hv
        rw [hv]
        simp only
        by_cases h1 : a.intent = .out
        · simp [h1]
        · by_cases h2 : a.default = true <;> simp [h1, h2]
      · rename_i req act hv
        rw [hv]
        simp only
        split at hst2
        · exact absurd hst2 (by simp)
        · rename_i st3 hfa
          have hs : st3 = st := by
            obtain ⟨hh, _⟩ := findAll_loop I req (by
              have hsub : subst? a.std = some (req, act) := by
                split at hv
                · exact absurd hv (by simp)
                · split at hv
                  · exact hv
                  · exact absurd hv (by simp)
              intro r hr
              rcases (subst_req hsub).1 r hr with h | h
              · exact Or.inl h
              · exact Or.inr (h ▸ hone))
            rw [hfa] at hh
            exact hh
          rw [hfa]
          simp only [hs]
          by_cases h1 : a.intent = .out
          · simp [h1]
          · by_cases h2 : a.default = true <;> simp [h1, h2]
  by_cases hF : Found host g st a.std
  · refine Or.inl ⟨hF, ?_⟩
    unfold analyzeArg
    rcases find_cases I a.std with ⟨_, h2⟩ | ⟨h1, _⟩ | ⟨k, v, _, _, _, _, _, _, _, _, h2⟩
    · rw [h2]
    · exact absurd hF h1
    · rw [h2]
  · have hf : find host g st a.std = (false, st) := by
      rcases find_cases I a.std with ⟨h1, _⟩ | ⟨_, h2⟩ | ⟨k, v, _, h4, _, _, h5, _⟩
      · exfalso
        rcases h1 with h1 | h1 | h1
        · exact hF (Or.inl h1)
        · exact hF (Or.inr (Or.inl h1))
        · exact hF (Or.inr (Or.inr (Or.inl h1)))
      · exact h2
      · exact absurd (Or.inr (Or.inr (Or.inr ⟨h4, h5⟩))) hF
    have ht := tail hF hf
    by_cases hD : ph = .run ∧ a.array = false ∧ ∃ req act, subst? a.std = some (req, act) ∧
        ∀ r ∈ req, Found host g st r
    · obtain ⟨h1, h2, req, act, h3, h4⟩ := hD
      refine Or.inr (Or.inl ⟨hF, h1, h2, req, act, h3, h4, ?_⟩)
      rw [ht]
      have h5 := (findAll_loop I req (fun r hr => by
        rcases (subst_req h3).1 r hr with h | h
        · exact Or.inl h
        · exact Or.inr (h ▸ hone))).2.2 h4
      simp only [h1, h2, h3, if_true, Bool.false_eq_true, if_false, h5]
    · refine Or.inr (Or.inr ⟨hF, hD, ?_⟩)
      rw [ht]
      split
      · rfl
      · rename_i req act hv
        have hsub : ph = .run ∧ a.array = false ∧ subst? a.std = some (req, act) := by
          split at hv
          · exact absurd hv (by simp)
          · rename_i ha
            split at hv
            · rename_i hr
              exact ⟨hr, by simpa using ha, hv⟩
            · exact absurd hv (by simp)
        rw [if_neg]
        intro h5
        have := (findAll_loop I req (fun r hr => by
          rcases (subst_req hsub.2.2).1 r hr with h | h
          · exact Or.inl h
          · exact Or.inr (h ▸ hone))).2.1 h5
        exact hD ⟨hsub.1, hsub.2.1, req, act, hsub.2.2, this⟩

/-! ### The invariant is preserved -/

theorem avail_snoc (host : Name → Bool) (prev : List Use) (g : Nat) (ph : Phase) (a : Arg) (n : Name) :
    Avail host (prev ++ [(g, ph, a)]) g n ↔ Avail host prev g n ∨ a.std = n := by
  unfold Avail
  constructor
  · rintro (h | ⟨u, hu, h1, h2⟩)
    · exact Or.inl (Or.inl h)
    · rcases List.mem_append.1 hu with hu | hu
      · exact Or.inl (Or.inr ⟨u, hu, h1, h2⟩)
      · simp only [List.mem_singleton] at hu
        subst hu
        exact Or.inr h1
  · rintro ((h | ⟨u, hu, h1, h2⟩) | h)
    · exact Or.inl h
    · exact Or.inr ⟨u, by simp [hu], h1, h2⟩
    · exact Or.inr ⟨(g, ph, a), by simp, h, Or.inl rfl⟩

theorem split_snoc {α : Type} {prev pre post : List α} {x u : α} (h : prev ++ [x] = pre ++ u :: post) :
    (pre = prev ∧ u = x ∧ post = []) ∨ ∃ post', post = post' ++ [x] ∧ prev = pre ++ u :: post' := by
  rcases List.eq_nil_or_concat post with rfl | ⟨post', y, rfl⟩
  · have := List.append_inj' h rfl
    simp only [List.cons.injEq, and_true] at this
    exact Or.inl ⟨this.1.symm, this.2.symm, rfl⟩
  · have h' : prev ++ [x] = (pre ++ u :: post') ++ [y] := by simpa using h
    have := List.append_inj' h' rfl
    simp only [List.cons.injEq, and_true] at this
    exact Or.inr ⟨post', by simp [this.2], this.1⟩

theorem inv_same {host : Name → Bool} {prev : List Use} {g : Nat} {st : St} (I : Inv host prev g st)
    (ph : Phase) (a : Arg)
    (h : hasVar (st.dict g) a.std = true ∨ hasVar st.suite a.std = true ∨ host a.std = true) :
    Inv host (prev ++ [(g, ph, a)]) g st := by
  have hF : Found host g st a.std := by
    rcases h with h | h | h
    · exact Or.inl h
    · exact Or.inr (Or.inl h)
    · exact Or.inr (Or.inr (Or.inl h))
  refine ⟨?_, I.gv, I.gvAll, I.later, I.uniq, I.nohost, I.nohostS, I.noloop, I.disj, ?_, ?_, I.loopOk,
    ?_, ?_, ?_, ?_⟩
  · intro n
    rw [avail_snoc, ← I.found n]
    constructor
    · exact Or.inl
    · rintro (h | rfl)
      · exact h
      · exact hF
  · intro u hu hh
    rcases List.mem_append.1 hu with hu | hu
    · exact I.ment u hu hh
    · simp only [List.mem_singleton] at hu
      subst hu
      rcases h with h | h | h
      · exact Or.inl h
      · exact Or.inr h
      · rw [hh] at h; exact absurd h (by decide)
  · intro u hu
    rcases List.mem_append.1 hu with hu | hu
    · exact I.le u hu
    · simp only [List.mem_singleton] at hu
      subst hu
      exact Nat.le_refl _
  · intro v hl hv
    obtain ⟨u, h1, h2⟩ := I.prov v hl hv
    exact ⟨u, h1.append _, h2⟩
  · intro k n hk
    obtain ⟨u, h1, h2⟩ := I.dictUse k n hk
    exact ⟨u, by simp [h1], h2⟩
  · intro n hn
    obtain ⟨u, h1, w, h2, h3⟩ := I.prom n hn
    exact ⟨u, by simp [h1], w, by simp [h2], h3⟩
  · intro pre u post req hs hA hr ha hsub hreq
    rcases split_snoc hs with ⟨rfl, rfl, rfl⟩ | ⟨post', rfl, hs'⟩
    · exact absurd ((I.found _).1 hF) hA
    · exact I.loops pre u post' req hs' hA hr ha hsub hreq

theorem inv_promote {host : Name → Bool} {prev : List Use} {g : Nat} {st : St} (I : Inv host prev g st)
    (ph : Phase) (a : Arg) (k : Nat) (v : Var) (hk : k < g) (hl : a.std ∉ loopNames)
    (hv : v ∈ st.dict k) (hvn : v.std = a.std) (hgv : ∃ p ∈ st.gvars, p.1 = a.std) :
    Inv host (prev ++ [(g, ph, a)]) g { st with
        suite := st.suite ++ [v]
        gvars := st.gvars.filter fun q => q.1 != a.std
        dict := fun j => if j = k then (st.dict j).filter fun w => w.std != a.std else st.dict j } := by
  have hkv : hasVar (st.dict k) a.std = true := (hasVar_iff _ _).2 ⟨v, hv, hvn⟩
  -- the new dictionaries
  have hd : ∀ j m, hasVar (if j = k then (st.dict j).filter fun w => w.std != a.std else st.dict j) m
      = (hasVar (st.dict j) m && decide (m ≠ a.std)) := by
    intro j m
    by_cases hm : m = a.std
    · subst hm
      by_cases hj : j = k
      · rw [if_pos hj, hasVar_filter_self]; simp
      · rw [if_neg hj]
        simp only [ne_eq, not_true_eq_false, decide_false, Bool.and_false]
        cases hh : hasVar (st.dict j) a.std
        · rfl
        · exact absurd (I.uniq j k _ hl hh hkv) hj
    · by_cases hj : j = k
      · rw [if_pos hj, hasVar_filter_ne _ _ _ hm]; simp [hm]
      · rw [if_neg hj]; simp [hm]
  have hs : ∀ m, hasVar (st.suite ++ [v]) m = (hasVar st.suite m || decide (m = a.std)) := by
    intro m
    rw [hasVar_append]
    congr 1
    rw [Bool.eq_iff_iff, hasVar_iff]
    simp only [List.mem_singleton, exists_eq_left, hvn, decide_eq_true_eq]
    exact eq_comm
  have hF : Found host g st a.std := Or.inr (Or.inr (Or.inr ⟨hl, hgv⟩))
  refine ⟨?_, ?_, ?_, ?_, ?_, ?_, ?_, ?_, ?_, ?_, ?_, I.loopOk, ?_, ?_, ?_, ?_⟩
  · intro m
    rw [avail_snoc, ← I.found m]
    unfold Found
    simp only [hd, hs]
    by_cases hm : m = a.std
    · simp [hm]
    · have e : ∀ q : Name × Nat, (q ∈ st.gvars.filter (fun q => q.1 != a.std) ∧ q.1 = m) ↔
          (q ∈ st.gvars ∧ q.1 = m) := by
        intro q
        simp only [List.mem_filter]
        constructor
        · rintro ⟨⟨h1, _⟩, h2⟩; exact ⟨h1, h2⟩
        · rintro ⟨h1, h2⟩; exact ⟨⟨h1, by simp [h2, hm]⟩, h2⟩
      simp only [ne_eq, hm, not_false_eq_true, decide_true, Bool.and_true, decide_false, Bool.or_false,
        Ne.symm hm, or_false, e]
  · intro q hq
    obtain ⟨h1, h2⟩ := List.mem_filter.1 hq
    obtain ⟨h3, h4⟩ := I.gv q h1
    refine ⟨h3, ?_⟩
    simp only [hd, h4, Bool.true_and, decide_eq_true_eq]
    simpa using h2
  · intro j m hj hm
    simp only [hd, Bool.and_eq_true, decide_eq_true_eq] at hm
    obtain ⟨q, h1, h2⟩ := I.gvAll j m hj hm.1
    exact ⟨q, List.mem_filter.2 ⟨h1, by simpa [h2] using hm.2⟩, h2⟩
  · intro j hj
    have : j ≠ k := by omega
    simp only [this, if_false]
    exact I.later j hj
  · intro j j' m h0 h1 h2
    simp only [hd, Bool.and_eq_true, decide_eq_true_eq] at h1 h2
    exact I.uniq j j' m h0 h1.1 h2.1
  · intro j m h1
    simp only [hd, Bool.and_eq_true, decide_eq_true_eq] at h1
    exact I.nohost j m h1.1
  · intro m h1
    simp only [hs, Bool.or_eq_true, decide_eq_true_eq] at h1
    rcases h1 with h1 | rfl
    · exact I.nohostS m h1
    · exact I.nohost k _ hkv
  · intro m h1
    simp only [hs, Bool.or_eq_true, decide_eq_true_eq] at h1
    rcases h1 with h1 | rfl
    · exact I.noloop m h1
    · exact hl
  · intro m j h1
    simp only [hs, Bool.or_eq_true, decide_eq_true_eq] at h1
    simp only [hd]
    rcases h1 with h1 | rfl
    · rw [I.disj m j h1]; rfl
    · simp
  · intro u hu hh
    simp only [hd, hs]
    by_cases hm : u.2.2.std = a.std
    · right; simp [hm]
    · rcases List.mem_append.1 hu with hu | hu
      · rcases I.ment u hu hh with h | h
        · left; simp [h, hm]
        · right; simp [h]
      · simp only [List.mem_singleton] at hu
        subst hu
        exact absurd rfl hm
  · intro u hu
    rcases List.mem_append.1 hu with hu | hu
    · exact I.le u hu
    · simp only [List.mem_singleton] at hu
      subst hu
      exact Nat.le_refl _
  · intro w hw hm
    have : w ∈ st.suite ∨ ∃ j, w ∈ st.dict j := by
      rcases hm with hm | ⟨j, hm⟩
      · rcases List.mem_append.1 hm with hm | hm
        · exact Or.inl hm
        · simp only [List.mem_singleton] at hm
          subst hm
          exact Or.inr ⟨k, hv⟩
      · by_cases hj : j = k
        · simp only [hj, if_true] at hm
          exact Or.inr ⟨k, (List.mem_filter.1 hm).1⟩
        · simp only [hj, if_false] at hm
          exact Or.inr ⟨j, hm⟩
    obtain ⟨u, h1, h2⟩ := I.prov w hw this
    exact ⟨u, h1.append _, h2⟩
  · intro j m h1
    simp only [hd, Bool.and_eq_true, decide_eq_true_eq] at h1
    obtain ⟨u, h1, h2⟩ := I.dictUse j m h1.1
    exact ⟨u, by simp [h1], h2⟩
  · intro m h1
    simp only [hs, Bool.or_eq_true, decide_eq_true_eq] at h1
    rcases h1 with h1 | rfl
    · obtain ⟨u, h1, w, h2, h3⟩ := I.prom m h1
      exact ⟨u, by simp [h1], w, by simp [h2], h3⟩
    · obtain ⟨u, h1, h2, h3⟩ := I.dictUse k _ hkv
      exact ⟨u, by simp [h1], (g, ph, a), by simp, h3, rfl, by rw [h2]; exact hk⟩
  · intro pre u post req hsp hA hr ha hsub hreq
    rcases split_snoc hsp with ⟨rfl, rfl, rfl⟩ | ⟨post', rfl, hs'⟩
    · exact absurd ((I.found _).1 hF) hA
    · exact I.loops pre u post' req hs' hA hr ha hsub hreq

theorem inv_create {host : Name → Bool} {prev : List Use} {g : Nat} {st : St} (I : Inv host prev g st)
    (ph : Phase) (a : Arg) (v : Var) (L : Nat → List (Name × List Name)) (hvn : v.std = a.std)
    (hF : ¬ Found host g st a.std)
    (hva : v.array = true → a.array = true ∧ v.timestep = ph.timestep)
    (hL : ∀ k, ∀ p ∈ L k, subst? p.1 = some (p.2, true))
    (hsubL : ∀ k, ∀ p ∈ st.loops k, p ∈ L k)
    (hnew : ∀ req, ph = .run → a.array = false → subst? a.std = some (req, true) →
      (∀ r ∈ req, Found host g st r) → (a.std, req) ∈ L g) :
    Inv host (prev ++ [(g, ph, a)]) g { st.create g v with loops := L } := by
  have hn1 : hasVar (st.dict g) v.std = false := by
    cases h : hasVar (st.dict g) v.std
    · rfl
    · exact absurd (Or.inl (hvn ▸ h)) hF
  have hn2 : hasVar st.suite a.std = false := by
    cases h : hasVar st.suite a.std
    · rfl
    · exact absurd (Or.inr (Or.inl h)) hF
  have hn3 : host a.std = false := by
    cases h : host a.std
    · rfl
    · exact absurd (Or.inr (Or.inr (Or.inl h))) hF
  have hd : ∀ j m, hasVar ((st.create g v).dict j) m
      = (hasVar (st.dict j) m || (decide (j = g) && decide (m = a.std))) := by
    intro j m
    unfold St.create
    simp only [hn1, Bool.false_eq_true, if_false]
    by_cases hj : j = g
    · subst hj
      simp only [if_true, hasVar_append, decide_true, Bool.true_and]
      congr 1
      rw [Bool.eq_iff_iff, hasVar_iff]
      simp only [List.mem_singleton, exists_eq_left, hvn, decide_eq_true_eq]
      exact eq_comm
    · simp [hj]
  have hsuite : (st.create g v).suite = st.suite := rfl
  have hgvars : (st.create g v).gvars = st.gvars := rfl
  refine ⟨?_, ?_, ?_, ?_, ?_, ?_, ?_, ?_, ?_, ?_, ?_, hL, ?_, ?_, ?_, ?_⟩
  · intro m
    rw [avail_snoc, ← I.found m]
    unfold Found
    simp only [hd, hsuite, hgvars, decide_true, Bool.true_and, Bool.or_eq_true, decide_eq_true_eq]
    by_cases hm : m = a.std
    · simp [hm]
    · simp [hm, Ne.symm hm]
  · intro q hq
    obtain ⟨h3, h4⟩ := I.gv q hq
    exact ⟨h3, by simp only [hd, h4, Bool.true_or]⟩
  · intro j m hj hm
    simp only [hd, Bool.or_eq_true, Bool.and_eq_true, decide_eq_true_eq] at hm
    rcases hm with hm | ⟨rfl, _⟩
    · exact I.gvAll j m hj hm
    · omega
  · intro j hj
    have : j ≠ g := by omega
    simp only [St.create, this, if_false]
    exact I.later j hj
  · have key : ∀ j, a.std ∉ loopNames → hasVar (st.dict j) a.std = true → j = g := by
      intro j h0 h1
      by_cases hlt : j < g
      · obtain ⟨p, hp1, hp2⟩ := I.gvAll j _ hlt h1
        exact absurd (Or.inr (Or.inr (Or.inr ⟨h0, p, hp1, hp2⟩))) hF
      · by_cases hgt : g < j
        · rw [I.later j hgt] at h1
          exact absurd h1 (by simp [hasVar])
        · omega
    intro j j' m h0 h1 h2
    simp only [hd, Bool.or_eq_true, Bool.and_eq_true, decide_eq_true_eq] at h1 h2
    rcases h1 with h1 | ⟨h1, h1'⟩
    · rcases h2 with h2 | ⟨h2, h2'⟩
      · exact I.uniq j j' m h0 h1 h2
      · subst h2'
        rw [h2]; exact key j h0 h1
    · subst h1'
      rcases h2 with h2 | ⟨h2, _⟩
      · rw [h1]; exact (key j' h0 h2).symm
      · rw [h1, h2]
  · intro j m h1
    simp only [hd, Bool.or_eq_true, Bool.and_eq_true, decide_eq_true_eq] at h1
    rcases h1 with h1 | ⟨_, rfl⟩
    · exact I.nohost j m h1
    · exact hn3
  · exact I.nohostS
  · exact I.noloop
  · intro m j h1
    simp only [hd, I.disj m j h1, Bool.false_or]
    by_cases hm : m = a.std
    · subst hm
      have h1' : hasVar st.suite a.std = true := h1
      rw [hn2] at h1'
      exact absurd h1' (by decide)
    · simp [hm]
  · intro u hu hh
    rcases List.mem_append.1 hu with hu | hu
    · rcases I.ment u hu hh with h | h
      · left; simp only [hd, h, Bool.true_or]
      · right; exact h
    · simp only [List.mem_singleton] at hu
      subst hu
      left; simp [hd]
  · intro u hu
    rcases List.mem_append.1 hu with hu | hu
    · exact I.le u hu
    · simp only [List.mem_singleton] at hu
      subst hu
      exact Nat.le_refl _
  · intro w hw hm
    have : (w ∈ st.suite ∨ ∃ j, w ∈ st.dict j) ∨ w = v := by
      rcases hm with hm | ⟨j, hm⟩
      · exact Or.inl (Or.inl hm)
      · simp only [St.create, hn1, Bool.false_eq_true, if_false] at hm
        split at hm
        · rename_i hj
          rcases List.mem_append.1 hm with hm | hm
          · exact Or.inl (Or.inr ⟨g, hm⟩)
          · exact Or.inr (by simpa using hm)
        · exact Or.inl (Or.inr ⟨j, hm⟩)
    rcases this with this | rfl
    · obtain ⟨u, h1, h2⟩ := I.prov w hw this
      exact ⟨u, h1.append _, h2⟩
    · refine ⟨(g, ph, a), ⟨prev, [], rfl, ?_⟩, hvn.symm, hva⟩
      intro x hx hxs
      refine hF ((I.found _).2 (Or.inr ⟨x, hx, hxs, Or.inr ?_⟩))
      rw [← hvn]; exact hw
  · intro j m h1
    simp only [hd, Bool.or_eq_true, Bool.and_eq_true, decide_eq_true_eq] at h1
    rcases h1 with h1 | ⟨rfl, rfl⟩
    · obtain ⟨u, h1, h2⟩ := I.dictUse j m h1
      exact ⟨u, by simp [h1], h2⟩
    · exact ⟨(j, ph, a), by simp, rfl, rfl⟩
  · intro m h1
    obtain ⟨u, h1, w, h2, h3⟩ := I.prom m h1
    exact ⟨u, by simp [h1], w, by simp [h2], h3⟩
  · intro pre u post req hsp hA hr ha hsub hreq
    rcases split_snoc hsp with ⟨rfl, rfl, rfl⟩ | ⟨post', rfl, hs'⟩
    · exact hnew req hr ha hsub (fun r hr => (I.found r).2 (hreq r hr))
    · exact hsubL _ _ (I.loops pre u post' req hs' hA hr ha hsub hreq)

theorem inv_step {host : Name → Bool} (hone : host "ccpp_constant_one" = true)
    {prev : List Use} {g : Nat} {st st' : St} (I : Inv host prev g st) (ph : Phase) (a : Arg)
    (h : analyzeArg host g ph st a = some st') : Inv host (prev ++ [(g, ph, a)]) g st' := by
  rcases analyzeArg_cases hone I ph a with ⟨hF, h1⟩ | ⟨hF, hr, ha, req, act, hs, hreq, h1⟩ | ⟨hF, hD, h1⟩
  · rw [h1] at h
    simp only [Option.some.injEq] at h
    subst h
    rcases find_cases I a.std with ⟨h1, h2⟩ | ⟨h1, _⟩ | ⟨k, v, hk, hl, hv, hvn, hgv, _, _, _, h2⟩
    · rw [h2]; exact inv_same I ph a h1
    · exact absurd hF h1
    · rw [h2]; exact inv_promote I ph a k v hk hl hv hvn hgv
  · rw [h1] at h
    simp only [Option.some.injEq] at h
    subst h
    unfold registerLoop
    simp only
    have hva : (⟨a.std, false, false⟩ : Var).array = true →
        a.array = true ∧ (⟨a.std, false, false⟩ : Var).timestep = ph.timestep := by
      intro h; exact absurd h (by simp)
    split
    · rename_i hc
      simp only [Bool.and_eq_true] at hc
      refine inv_create I ph a _ _ rfl hF hva ?_ ?_ ?_
      · intro k p hp
        split at hp
        · rcases List.mem_append.1 hp with hp | hp
          · exact I.loopOk _ p hp
          · simp only [List.mem_singleton] at hp
            subst hp
            rw [hs, hc.1]
        · exact I.loopOk _ p hp
      · intro k p hp
        split
        · rename_i hk
          subst hk
          exact List.mem_append_left _ hp
        · exact hp
      · intro req' _ _ hs' _
        rw [hs] at hs'
        simp only [Option.some.injEq, Prod.mk.injEq] at hs'
        rw [if_pos rfl, hs'.1]
        exact List.mem_append_right _ (by simp)
    · rename_i hc
      refine inv_create I ph a _ st.loops rfl hF hva I.loopOk (fun _ _ h => h) ?_
      intro req' _ _ hs' _
      rw [hs] at hs'
      simp only [Option.some.injEq, Prod.mk.injEq] at hs'
      have hc' : (st.loops g).any (fun p => p.1 == a.std) = true := by
        simp only [hs'.2, Bool.true_and, Bool.not_eq_true, Bool.not_eq_false'] at hc
        exact hc
      obtain ⟨p, hp, hpn⟩ := List.any_eq_true.1 hc'
      have := I.loopOk g p hp
      rw [show p.1 = a.std by simpa using hpn, hs] at this
      simp only [Option.some.injEq, Prod.mk.injEq] at this
      have e : p = (a.std, req') := by
        rw [← hs'.1, this.1, ← (show p.1 = a.std by simpa using hpn)]
      exact e ▸ hp
  · rw [h1] at h
    split at h
    · simp only [Option.some.injEq] at h
      subst h
      exact inv_create I ph a _ st.loops rfl hF (fun h => ⟨h, rfl⟩) I.loopOk (fun _ _ h => h)
        (fun req hr ha hs hreq => absurd ⟨hr, ha, req, true, hs, hreq⟩ hD)
    · exact absurd h (by simp)

/-! ### The groups -/

theorem record_mem (g : Nat) (vs : List Var) (l : List (Name × Nat)) :
    (∀ n, (∃ p ∈ vs.foldl (fun (l : List (Name × Nat)) (v : Var) =>
        if l.any (fun p => p.1 == v.std) then l else l ++ [(v.std, g)]) l, p.1 = n) ↔
      (∃ p ∈ l, p.1 = n) ∨ hasVar vs n = true) ∧
    (∀ p ∈ vs.foldl (fun (l : List (Name × Nat)) (v : Var) =>
        if l.any (fun p => p.1 == v.std) then l else l ++ [(v.std, g)]) l,
      p ∈ l ∨ (p.2 = g ∧ hasVar vs p.1 = true)) := by
  induction vs generalizing l with
  | nil => simp [hasVar]
  | cons v vs ih =>
    simp only [List.foldl_cons]
    obtain ⟨h1, h2⟩ := ih (if l.any (fun p => p.1 == v.std) then l else l ++ [(v.std, g)])
    have hc : ∀ n, hasVar (v :: vs) n = (v.std == n || hasVar vs n) := by simp [hasVar]
    constructor
    · intro n
      rw [h1, hc]
      split
      · rename_i h
        simp only [Bool.or_eq_true, beq_iff_eq]
        constructor
        · rintro (h | h)
          · exact Or.inl h
          · exact Or.inr (Or.inr h)
        · rintro (h' | h' | h')
          · exact Or.inl h'
          · subst h'
            left
            simpa using h
          · exact Or.inr h'
      · simp only [Bool.or_eq_true, beq_iff_eq, List.mem_append, List.mem_singleton]
        constructor
        · rintro (⟨p, hp | hp, h⟩ | h)
          · exact Or.inl ⟨p, hp, h⟩
          · subst hp; exact Or.inr (Or.inl h)
          · exact Or.inr (Or.inr h)
        · rintro (⟨p, hp, h⟩ | h | h)
          · exact Or.inl ⟨p, Or.inl hp, h⟩
          · exact Or.inl ⟨(v.std, g), Or.inr rfl, h⟩
          · exact Or.inr h
    · intro p hp
      rcases h2 p hp with h | ⟨h, h'⟩
      · split at h
        · exact Or.inl h
        · rcases List.mem_append.1 h with h | h
          · exact Or.inl h
          · simp only [List.mem_singleton] at h
            subst h
            exact Or.inr ⟨rfl, by rw [hc]; simp⟩
      · exact Or.inr ⟨h, by rw [hc, h']; simp⟩

theorem inv_record {host : Name → Bool} {prev : List Use} {g : Nat} {st : St} (I : Inv host prev g st) :
    Inv host prev (g + 1) (recordVars g st) := by
  obtain ⟨r1, r2⟩ := record_mem g (st.dict g) st.gvars
  have e : (recordVars g st).gvars = (st.dict g).foldl (fun (l : List (Name × Nat)) (v : Var) =>
        if l.any (fun p => p.1 == v.std) then l else l ++ [(v.std, g)]) st.gvars := rfl
  rw [← e] at r1 r2
  have hd : (recordVars g st).dict = st.dict := rfl
  have hs : (recordVars g st).suite = st.suite := rfl
  have hL : (recordVars g st).loops = st.loops := rfl
  refine ⟨?_, ?_, ?_, ?_, ?_, ?_, ?_, ?_, ?_, ?_, ?_, ?_, ?_, ?_, ?_, ?_⟩
  · intro n
    unfold Found
    rw [hd, hs, I.later (g + 1) (by omega), r1]
    constructor
    · rintro (h | h | h | ⟨hl, ⟨p, hp, h⟩ | h⟩)
      · simp [hasVar] at h
      · rcases (I.found n).1 (Or.inr (Or.inl h)) with h' | ⟨u, hu, h1, _⟩
        · exact Or.inl h'
        · exact Or.inr ⟨u, hu, h1, Or.inr (I.noloop n h)⟩
      · exact Or.inl h
      · rcases (I.found n).1 (Or.inr (Or.inr (Or.inr ⟨hl, p, hp, h⟩))) with h' | ⟨u, hu, h1, _⟩
        · exact Or.inl h'
        · exact Or.inr ⟨u, hu, h1, Or.inr hl⟩
      · obtain ⟨u, hu, _, h1⟩ := I.dictUse g n h
        exact Or.inr ⟨u, hu, h1, Or.inr hl⟩
    · rintro (h | ⟨u, hu, h1, h2⟩)
      · exact Or.inr (Or.inr (Or.inl h))
      · have hle := I.le u hu
        have hl : n ∉ loopNames := by
          rcases h2 with h2 | h2
          · omega
          · exact h2
        cases hh : host n with
        | true => exact Or.inr (Or.inr (Or.inl rfl))
        | false =>
          rcases I.ment u hu (by rw [h1]; exact hh) with h | h
          · rw [h1] at h
            by_cases hg : u.1 = g
            · rw [hg] at h
              exact Or.inr (Or.inr (Or.inr ⟨hl, Or.inr h⟩))
            · obtain ⟨p, hp, hpn⟩ := I.gvAll u.1 n (by omega) h
              exact Or.inr (Or.inr (Or.inr ⟨hl, Or.inl ⟨p, hp, hpn⟩⟩))
          · rw [h1] at h; exact Or.inr (Or.inl h)
  · intro p hp
    rw [hd]
    rcases r2 p hp with h | ⟨h, h'⟩
    · obtain ⟨h1, h2⟩ := I.gv p h
      exact ⟨by omega, h2⟩
    · exact ⟨by omega, by rw [h]; exact h'⟩
  · intro k n hk h
    rw [hd] at h
    rw [r1]
    by_cases hg : k = g
    · rw [hg] at h; exact Or.inr h
    · exact Or.inl (I.gvAll k n (by omega) h)
  · intro k hk
    rw [hd]
    exact I.later k (by omega)
  · rw [hd]; exact I.uniq
  · rw [hd]; exact I.nohost
  · rw [hs]; exact I.nohostS
  · rw [hs]; exact I.noloop
  · rw [hs, hd]; exact I.disj
  · rw [hs, hd]; exact I.ment
  · intro u hu
    have := I.le u hu
    omega
  · rw [hL]; exact I.loopOk
  · rw [hs, hd]; exact I.prov
  · rw [hd]; exact I.dictUse
  · rw [hs]; exact I.prom
  · rw [hL]; exact I.loops

theorem inv_init (host : Name → Bool) : Inv host [] 0 St.init := by
  refine ⟨?_, ?_, ?_, ?_, ?_, ?_, ?_, ?_, ?_, ?_, ?_, ?_, ?_, ?_, ?_, ?_⟩ <;>
    simp [St.init, hasVar, Found, Avail]

/-- `Complete` for the uses `us` that follow `prev`. -/
def CompleteAfter (host : Name → Bool) (prev us : List Use) : Prop :=
  ∀ pre u post, us = pre ++ u :: post →
    u.2.2.intent = .out ∨ u.2.2.default = true ∨ Avail host (prev ++ pre) u.1 u.2.2.std ∨
      Derivable host (prev ++ pre) u

theorem completeAfter_nil (host : Name → Bool) (prev : List Use) : CompleteAfter host prev [] := by
  intro pre u post h
  simp at h

theorem completeAfter_append (host : Name → Bool) (prev us vs : List Use) :
    CompleteAfter host prev (us ++ vs) ↔
      CompleteAfter host prev us ∧ CompleteAfter host (prev ++ us) vs := by
  constructor
  · intro h
    constructor
    · intro pre u post e
      exact h pre u (post ++ vs) (by rw [e]; simp)
    · intro pre u post e
      have := h (us ++ pre) u post (by rw [e]; simp)
      rwa [← List.append_assoc] at this
  · rintro ⟨h1, h2⟩ pre u post e
    rcases List.append_eq_append_iff.1 e with ⟨a', ha, hb⟩ | ⟨c', hc, hd⟩
    · have := h2 a' u post hb
      rwa [List.append_assoc, ← ha] at this
    · cases c' with
      | nil =>
        simp only [List.nil_append] at hd
        have := h2 [] u post hd.symm
        simp only [List.append_nil] at hc this
        rwa [hc] at this
      | cons x c' =>
        simp only [List.cons_append, List.cons.injEq] at hd
        obtain ⟨rfl, rfl⟩ := hd
        exact h1 pre u c' hc

theorem analyzeArg_isSome {host : Name → Bool} (hone : host "ccpp_constant_one" = true)
    {prev : List Use} {g : Nat} {st : St} (I : Inv host prev g st) (ph : Phase) (a : Arg) :
    (analyzeArg host g ph st a).isSome ↔ CompleteAfter host prev [(g, ph, a)] := by
  have hC : CompleteAfter host prev [(g, ph, a)] ↔
      (a.intent = .out ∨ a.default = true ∨ Found host g st a.std ∨
        (ph = .run ∧ a.array = false ∧ ∃ req act, subst? a.std = some (req, act) ∧
        ∀ r ∈ req, Found host g st r)) := by
    simp only [I.found]
    constructor
    · intro h
      have := h [] (g, ph, a) [] rfl
      simpa only [List.append_nil, Derivable] using this
    · intro h pre u post e
      obtain ⟨rfl, rfl, rfl⟩ : pre = [] ∧ u = (g, ph, a) ∧ post = [] := by
        cases pre with
        | nil => simp at e; exact ⟨rfl, e.1.symm, e.2⟩
        | cons x pre => simp at e
      simpa only [List.append_nil, Derivable] using h
  rw [hC]
  rcases analyzeArg_cases hone I ph a with ⟨hF, h1⟩ | ⟨hF, hr, ha, req, act, hs, hreq, h1⟩ | ⟨hF, hD, h1⟩
  · simp [h1, hF]
  · simp only [h1, Option.isSome_some, true_iff]
    exact Or.inr (Or.inr (Or.inr ⟨hr, ha, req, act, hs, hreq⟩))
  · rw [h1]
    simp only [hF, hD, or_false]
    split <;> simp [*]

theorem analyzeArgs_spec {host : Name → Bool} (hone : host "ccpp_constant_one" = true) (g : Nat)
    (ph : Phase) (as : List Arg) {prev : List Use} {st : St} (I : Inv host prev g st) :
    ((analyzeArgs host g ph st as).isSome ↔
      CompleteAfter host prev (as.map fun a => (g, ph, a))) ∧
    ∀ st', analyzeArgs host g ph st as = some st' →
      Inv host (prev ++ as.map fun a => (g, ph, a)) g st' := by
  induction as generalizing prev st with
  | nil =>
    simp only [analyzeArgs, Option.isSome_some, List.map_nil, true_iff, List.append_nil]
    refine ⟨completeAfter_nil _ _, ?_⟩
    rintro st' ⟨⟩
    exact I
  | cons a as ih =>
    have h1 := analyzeArg_isSome hone I ph a
    have hc : (List.map (fun a => ((g, ph, a) : Use)) (a :: as)) =
      [(g, ph, a)] ++ List.map (fun a => (g, ph, a)) as := rfl
    rw [hc, completeAfter_append, ← h1]
    unfold analyzeArgs
    cases ha : analyzeArg host g ph st a with
    | none => simp
    | some s =>
      have I' := inv_step hone I ph a ha
      obtain ⟨h2, h3⟩ := ih I'
      refine ⟨?_, ?_⟩
      · simp only [Option.isSome_some, true_and]
        exact h2
      · intro st' hst
        rw [← List.append_assoc]
        exact h3 st' hst

theorem analyzeFrom_spec {host : Name → Bool} (hone : host "ccpp_constant_one" = true)
    (gs : List Group) {g : Nat} {prev : List Use} {st : St} (I : Inv host prev g st) :
    ((analyzeFrom host g st gs).isSome ↔ CompleteAfter host prev (usesFrom g gs)) ∧
    ∀ st', analyzeFrom host g st gs = some st' →
      Inv host (prev ++ usesFrom g gs) (g + gs.length) st' := by
  induction gs generalizing g prev st with
  | nil =>
    simp only [analyzeFrom, Option.isSome_some, usesFrom, true_iff, List.append_nil]
    refine ⟨completeAfter_nil _ _, ?_⟩
    rintro st' ⟨⟩
    exact I
  | cons grp gs ih =>
    obtain ⟨h1, h2⟩ := analyzeArgs_spec hone g grp.phase grp.body.flat.flatten I
    unfold analyzeFrom usesFrom
    rw [completeAfter_append, ← h1]
    cases ha : analyzeArgs host g grp.phase st grp.body.flat.flatten with
    | none => simp
    | some s =>
      obtain ⟨h3, h4⟩ := ih (inv_record (h2 s ha))
      refine ⟨?_, ?_⟩
      · simp only [Option.isSome_some, true_and]
        exact h3
      · intro st' hst
        rw [← List.append_assoc, List.length_cons, ← Nat.add_assoc, Nat.add_right_comm]
        exact h4 st' hst

/-- **C54.** The analysis accepts a suite exactly if every argument that is read has a source. -/
theorem C54_accepts_iff (host : Name → Bool) (hone : host "ccpp_constant_one" = true) (s : Suite) :
    (analyze host s).isSome ↔ Complete host s.uses := by
  have h := (analyzeFrom_spec hone s.groups (inv_init host)).1
  unfold analyze Complete Suite.uses
  simpa only [CompleteAfter, List.nil_append] using h

theorem analyze_inv {host : Name → Bool} (hone : host "ccpp_constant_one" = true) {s : Suite} {st : St}
    (h : analyze host s = some st) : Inv host s.uses (5 + s.runs.length) st := by
  have := (analyzeFrom_spec hone s.groups (inv_init host)).2 st h
  have e : 0 + s.groups.length = 5 + s.runs.length := by
    simp [Suite.groups]; omega
  rw [e] at this
  unfold Suite.uses
  simpa only [List.nil_append] using this

end Ccpp.DF
