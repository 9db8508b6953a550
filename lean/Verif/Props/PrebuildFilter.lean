import Verif.Props.PrebuildSuite
/-!
# C70: what prebuild keeps of the schemes
-/
namespace Ccpp.PB

/-! ## `str.replace` and `str.find` -/

theorem prefix_split {c : Char} {s u p t : Str} (h : s ++ c :: u = p ++ t) :
    (∃ c', s = p ++ c') ∨ ∃ q, p = s ++ c :: q ∧ u = q ++ t := by
  rcases List.append_eq_append_iff.1 h with ⟨a, h1, h2⟩ | ⟨a, h1, h2⟩
  · cases a with
    | nil => left; exact ⟨[], by simpa using h1.symm⟩
    | cons d a =>
      simp only [List.cons_append, List.cons.injEq] at h2
      right
      exact ⟨a, by rw [h1, h2.1], h2.2⟩
  · exact Or.inl ⟨a, h1⟩

/-- Nothing is replaced in a part in which no occurrence begins. -/
theorem replace_skip {p r u : Str} (m : Nat) : ∀ {s : Str}, (∀ a b t, s = a ++ b → b ≠ [] → b ++ u ≠ p ++ t) →
    replaceFuel (m + s.length) p r (s ++ u) = s ++ replaceFuel m p r u
  | [], _ => rfl
  | c :: s, h => by
    have ih := replace_skip (p := p) (r := r) (u := u) m (s := s) (by
      intro a b t hs hb
      exact h (c :: a) b t (by rw [hs]; rfl) hb)
    rw [List.length_cons, ← Nat.add_assoc, List.cons_append, replaceFuel]
    cases hd : dropPrefix? p (c :: (s ++ u)) with
    | some t => exact absurd (dropPrefix?_eq_some.1 hd) (h [] (c :: s) t rfl (by simp))
    | none => simp only; rw [ih]; rfl

theorem replace_id {p : Str} : ∀ (n : Nat) (s : Str), replaceFuel n p p s = s
  | 0, s => rfl
  | n + 1, [] => rfl
  | n + 1, c :: s => by
    rw [replaceFuel]
    cases hd : dropPrefix? p (c :: s) with
    | some t => simp only; rw [replace_id n t]; exact (dropPrefix?_eq_some.1 hd).symm
    | none => simp only; rw [replace_id n s]

theorem replace_scheme {p r n u : Str} (h1 : ¬ Occurs p n) (h2 : ∀ s q, p = s ++ '_' :: q → ∀ a, n ≠ a ++ s) :
    replace p r (n ++ '_' :: u) = n ++ '_' :: replace p r u := by
  unfold replace
  have e : (n ++ '_' :: u).length + 1 = (u.length + 1) + (n ++ ['_']).length := by simp; omega
  rw [e, show n ++ '_' :: u = (n ++ ['_']) ++ u by simp, replace_skip]
  · simp
  · intro a b t hs hb heq
    rcases List.append_eq_append_iff.1 hs with ⟨x, hx1, hx2⟩ | ⟨x, hx1, hx2⟩
    · -- a = n ++ x, ['_'] = x ++ b
      cases x with
      | nil =>
        rw [List.nil_append] at hx2
        rw [← hx2] at heq
        rcases prefix_split (c := '_') (s := []) heq with ⟨c', hc⟩ | ⟨q, hq, _⟩
        · have : p = [] := by
            have := congrArg List.length hc
            simp at this
            exact List.eq_nil_of_length_eq_zero (by omega)
          exact h1 ⟨[], n, by rw [this]; rfl⟩
        · exact h2 [] q hq n (by simp)
      | cons y x =>
        have := congrArg List.length hx2
        simp at this
        exact hb this.2
    · -- n = a ++ x, b = x ++ ['_']
      rw [hx2, List.append_assoc] at heq
      rcases prefix_split (c := '_') heq with ⟨c', hc⟩ | ⟨q, hq, _⟩
      · exact h1 ⟨a, c', by rw [hx1, hc, List.append_assoc]⟩
      · exact h2 x q hq a hx1

/-- The name of a stage of a scheme with a clean name is abbreviated. -/
theorem abbreviate_clean {n st ab : Str} (hc : Clean n) (hs : (st, ab) ∈ stages) :
    abbreviate (n ++ '_' :: st) = n ++ '_' :: ab := by
  obtain ⟨c1, c2, c3, c4, _, _⟩ := hc
  have u1 : ∀ s q, "timestep_init".toList = s ++ '_' :: q → s = "timestep".toList := by
    intro s q h
    have := (before_append (p := "timestep".toList) (m := "init".toList) (by decide)).1
    have e : "timestep".toList ++ '_' :: "init".toList = s ++ '_' :: q := h
    by_cases hs : '_' ∈ s
    · exfalso
      have hcnt := congrArg (List.count '_') h
      rw [List.count_append, List.count_cons_self] at hcnt
      have h3 : List.count '_' "timestep_init".toList = 1 := by decide
      have h4 : 0 < List.count '_' s := List.count_pos_iff.2 hs
      omega
    · rw [e] at this
      rw [(before_append hs).1] at this
      exact this
  have u2 : ∀ s q, "timestep_finalize".toList = s ++ '_' :: q → s = "timestep".toList := by
    intro s q h
    have := (before_append (p := "timestep".toList) (m := "finalize".toList) (by decide)).1
    have e : "timestep".toList ++ '_' :: "finalize".toList = s ++ '_' :: q := h
    by_cases hs : '_' ∈ s
    · exfalso
      have hcnt := congrArg (List.count '_') h
      rw [List.count_append, List.count_cons_self] at hcnt
      have h3 : List.count '_' "timestep_finalize".toList = 1 := by decide
      have h4 : 0 < List.count '_' s := List.count_pos_iff.2 hs
      omega
    · rw [e] at this
      rw [(before_append hs).1] at this
      exact this
  have u3 : ∀ s q, "finalize".toList ≠ s ++ '_' :: q := by
    intro s q h
    have h3 : '_' ∉ "finalize".toList := by decide
    rw [h] at h3
    exact h3 (by simp)
  have r1 : ∀ u, replace "timestep_init".toList "tsinit".toList (n ++ '_' :: u) =
      n ++ '_' :: replace "timestep_init".toList "tsinit".toList u := fun u =>
    replace_scheme c1 (fun s q h a hn => c4 a (by rw [← u1 s q h]; exact hn))
  have r2 : ∀ u, replace "timestep_finalize".toList "tsfinal".toList (n ++ '_' :: u) =
      n ++ '_' :: replace "timestep_finalize".toList "tsfinal".toList u := fun u =>
    replace_scheme c2 (fun s q h a hn => c4 a (by rw [← u2 s q h]; exact hn))
  have r3 : ∀ u, replace "finalize".toList "final".toList (n ++ '_' :: u) =
      n ++ '_' :: replace "finalize".toList "final".toList u := fun u =>
    replace_scheme c3 (fun s q h => absurd h (u3 s q))
  have r4 : ∀ p s, replace p p s = s := fun p s => replace_id _ _
  have ha : ∀ s, abbreviate s = replace "finalize".toList "final".toList (replace "timestep_finalize".toList "tsfinal".toList
      (replace "timestep_init".toList "tsinit".toList s)) := by
    intro s
    change replace "finalize".toList "final".toList (replace "run".toList "run".toList (replace "init".toList "init".toList
      (replace "timestep_finalize".toList "tsfinal".toList (replace "timestep_init".toList "tsinit".toList s)))) = _
    rw [r4, r4]
  rw [ha, r1, r2, r3, ← ha]
  have : ∀ g ∈ stages, abbreviate g.1 = g.2 := by decide
  rw [this (st, ab) hs]

theorem find_word {p w u : Str} (hp : p ≠ []) (hs : ' ' ∉ p) : ¬ Occurs p w →
    find p (w ++ ' ' :: u) = (find p u).map (· + (w.length + 1)) := by
  induction w with
  | nil =>
    intro _
    rw [List.nil_append, find, if_neg]
    · rfl
    · rw [startsWith_iff]
      rintro ⟨r, hr⟩
      cases p with
      | nil => exact hp rfl
      | cons c p =>
        simp only [List.cons_append, List.cons.injEq] at hr
        exact hs (by rw [hr.1]; simp)
  | cons c w ih =>
    intro ho
    rw [List.cons_append, find, if_neg, ih]
    · cases find p u with
      | none => rfl
      | some i => simp [Nat.add_assoc]
    · rintro ⟨a, b, h⟩; exact ho ⟨c :: a, b, by rw [h]; rfl⟩
    · rw [startsWith_iff]
      rintro ⟨r, hr⟩
      rcases prefix_split (c := ' ') (s := c :: w) hr with ⟨c', hc⟩ | ⟨q, hq, _⟩
      · exact ho ⟨[], c', by rw [hc]; rfl⟩
      · exact hs (by rw [hq]; simp)

theorem find_here (p t : Str) (hp : p ≠ []) : find p (p ++ t) = some 0 := by
  cases p with
  | nil => exact absurd rfl hp
  | cons c p =>
    rw [List.cons_append, find, if_pos]
    exact startsWith_iff.2 ⟨t, rfl⟩

theorem drop_len (x y : Str) (k : Nat) (h : k = x.length) : (x ++ y).drop k = y := by
  subst h; simp

theorem not_occ_of_length {p s : Str} (h : s.length < p.length) : ¬ Occurs p s := by
  rintro ⟨a, b, e⟩
  have := congrArg List.length e
  simp at this
  omega

/-- The subroutine in the container of a variable of a scheme. -/
theorem container_sub {m n st : Str} (hm : ' ' ∉ m) (hn : ' ' ∉ n) (hst : ' ' ∉ st) (om : ¬ Occurs "SUBROUTINE".toList m)
    (on : ¬ Occurs "SUBROUTINE".toList n) :
    ∃ c, decodeContainer ("MODULE_".toList ++ m ++ " SCHEME_".toList ++ n ++ " SUBROUTINE_".toList ++ n ++ "_".toList ++ st) = some c ∧
      subroutineOf c = n ++ '_' :: st := by
  have e : "MODULE_".toList ++ m ++ " SCHEME_".toList ++ n ++ " SUBROUTINE_".toList ++ n ++ "_".toList ++ st =
      ("MODULE".toList ++ '_' :: m) ++ ' ' :: (("SCHEME".toList ++ '_' :: n) ++ ' ' :: ("SUBROUTINE".toList ++ '_' :: (n ++ '_' :: st))) := by
    rw [show "MODULE_".toList = "MODULE".toList ++ ['_'] from rfl, show " SCHEME_".toList = ' ' :: ("SCHEME".toList ++ ['_']) from rfl,
      show " SUBROUTINE_".toList = ' ' :: ("SUBROUTINE".toList ++ ['_']) from rfl, show "_".toList = ['_'] from rfl]
    generalize "MODULE".toList = A
    generalize "SCHEME".toList = B
    generalize "SUBROUTINE".toList = C
    simp [List.append_assoc]
  rw [e]
  have sp : ∀ {a b : Str}, ' ' ∉ a → ' ' ∉ b → ' ' ∉ a ++ '_' :: b := by
    intro a b h1 h2
    rw [List.mem_append, List.mem_cons, not_or, not_or]
    exact ⟨h1, by decide, h2⟩
  have s1 : ' ' ∉ "MODULE".toList ++ '_' :: m := sp (by decide) hm
  have s2 : ' ' ∉ "SCHEME".toList ++ '_' :: n := sp (by decide) hn
  have s3 : ' ' ∉ "SUBROUTINE".toList ++ '_' :: (n ++ '_' :: st) := sp (by decide) (sp hn hst)
  have d : ∀ {p m : Str}, '_' ∉ p → decodeItem (p ++ '_' :: m) = p ++ ' ' :: m := by
    intro p m h
    unfold decodeItem
    rw [if_pos (by simp), (before_append h).1, (before_append h).2]
  unfold decodeContainer
  simp only [splitOn_append s1, splitOn_append s2, splitOn_none s3]
  refine ⟨_, rfl, ?_⟩
  simp only [List.map_cons, List.map_nil, joinSp]
  rw [d (by decide), d (by decide), d (by decide)]
  unfold subroutineOf
  have hp : "SUBROUTINE".toList ≠ [] := by decide
  have hps : ' ' ∉ "SUBROUTINE".toList := by decide
  have o1 : ¬ Occurs "SUBROUTINE".toList "MODULE".toList := not_occ_of_length (by decide)
  have o2 : ¬ Occurs "SUBROUTINE".toList "SCHEME".toList := not_occ_of_length (by decide)
  have hf : find "SUBROUTINE".toList ("MODULE".toList ++ ' ' :: m ++ ' ' :: ("SCHEME".toList ++ ' ' :: n ++
      ' ' :: ("SUBROUTINE".toList ++ ' ' :: (n ++ '_' :: st)))) =
      some (0 + (n.length + 1) + ("SCHEME".toList.length + 1) + (m.length + 1) + ("MODULE".toList.length + 1)) := by
    rw [List.append_assoc, List.cons_append, find_word hp hps o1, find_word hp hps om, List.append_assoc, List.cons_append,
      find_word hp hps o2, find_word hp hps on, find_here _ _ hp]
    rfl
  rw [hf]
  simp only
  have l3 : "SUBROUTINE".toList.length = 10 := by decide
  generalize "MODULE".toList = A
  generalize "SCHEME".toList = B
  generalize "SUBROUTINE".toList = C at l3
  rw [show A ++ ' ' :: m ++ ' ' :: (B ++ ' ' :: n ++ ' ' :: (C ++ ' ' :: (n ++ '_' :: st))) =
    (A ++ ' ' :: m ++ ' ' :: (B ++ ' ' :: n ++ ' ' :: (C ++ [' ']))) ++ (n ++ '_' :: st) by simp [List.append_assoc]]
  apply drop_len
  simp [l3]
  omega

/-! ## Called variables -/

theorem isStage_iff {st : Str} : IsStage st ↔ ∃ ab, (st, ab) ∈ stages := by
  unfold IsStage stages
  generalize "timestep_init".toList = a
  generalize "timestep_finalize".toList = b
  generalize "init".toList = c
  generalize "run".toList = d
  generalize "finalize".toList = e
  generalize "tsinit".toList = a'
  generalize "tsfinal".toList = b'
  generalize "final".toList = e'
  constructor
  · rintro (rfl | rfl | rfl | rfl | rfl)
    · exact ⟨a', by simp⟩
    · exact ⟨b', by simp⟩
    · exact ⟨st, by simp⟩
    · exact ⟨st, by simp⟩
    · exact ⟨e', by simp⟩
  · rintro ⟨ab, h⟩
    simp only [List.mem_cons, Prod.mk.injEq, List.not_mem_nil, or_false] at h
    rcases h with h | h | h | h | h
    · exact Or.inl h.1
    · exact Or.inr (Or.inl h.1)
    · exact Or.inr (Or.inr (Or.inl h.1))
    · exact Or.inr (Or.inr (Or.inr (Or.inl h.1)))
    · exact Or.inr (Or.inr (Or.inr (Or.inr h.1)))

theorem stage_facts : ∀ g ∈ stages, ' ' ∉ g.1 ∧ '_' ∉ g.2 ∧ g.2 ≠ "finalize".toList ∧ (g.2 = "init".toList ↔ g.1 = "init".toList) := by
  decide

theorem forall2_any {α β : Type} {P : α → β → Prop} {f : β → Bool} {Q : α → Prop} (h : ∀ a b, P a b → (f b = true ↔ Q a)) :
    ∀ {l : List α} {m : List β}, List.Forall₂ P l m → (m.any f = true ↔ ∃ a ∈ l, Q a)
  | _, _, .nil => by simp
  | _, _, .cons h1 t => by
    rw [List.any_cons, Bool.or_eq_true, h _ _ h1, forall2_any h t]
    simp

theorem forall2_imp' {α β : Type} {P Q : α → β → Prop} (h : ∀ a b, P a b → Q a b) : ∀ {l : List α} {m : List β},
    List.Forall₂ P l m → List.Forall₂ Q l m
  | _, _, .nil => .nil
  | _, _, .cons h1 t => .cons (h _ _ h1) (forall2_imp' h t)

theorem forall2_with_mem {α β : Type} {P : α → β → Prop} : ∀ {l : List α} {m : List β},
    List.Forall₂ P l m → List.Forall₂ (fun a b => a ∈ l ∧ P a b) l m
  | _, _, .nil => .nil
  | _, _, .cons h1 t => .cons ⟨by simp, h1⟩ (forall2_imp' (fun _ _ h => ⟨List.mem_cons_of_mem _ h.1, h.2⟩) (forall2_with_mem t))

/-- Whether a variable of a clean scheme is called. -/
theorem called_clean {xs : List SuiteXml} {ss : List Suite} (hp : Parsed xs ss) (hr : ∀ x ∈ xs, Regular x) {v : Var} {n st : Str}
    (hc : Clean n) (hs : IsStage st) (hf : From v n st) : ∃ b, called ss v = some b ∧
      (b = true ↔ ∃ x ∈ xs, (InGroup x n ∨ (IsInit x n ∧ st = "init".toList))) := by
  obtain ⟨ab, hab⟩ := isStage_iff.1 hs
  obtain ⟨f1, f2, f3, f4⟩ := stage_facts _ hab
  obtain ⟨m, m1, m2, m3⟩ := hf
  obtain ⟨c, c1, c2⟩ := container_sub m1 hc.2.2.2.2.1 f1 m2 hc.2.2.2.2.2
  refine ⟨_, by unfold called; rw [m3, Option.bind_some, c1]; rfl, ?_⟩
  beta_reduce
  rw [c2, abbreviate_clean hc hab]
  have hp' := forall2_with_mem hp
  refine forall2_any ?_ hp'
  rintro x s ⟨hx, hxs⟩
  have hn : NameOk x := by
    apply Classical.byContradiction
    intro hn
    rw [(C70_parse_partial (hr x hx) false).1 hn] at hxs
    cases hxs
  rw [parse_spec (hr x hx) hn] at hxs
  have e := Option.some.inj (Option.some.inj hxs)
  rw [← e]
  simp only [List.contains_iff_mem, List.mem_eraseDups]
  rw [show n ++ '_' :: ab = n ++ "_".toList ++ ab by rw [show "_".toList = ['_'] from rfl]; simp, mem_subroutines f2]
  constructor
  · rintro (⟨h, _⟩ | ⟨h, h'⟩ | ⟨_, h⟩)
    · exact Or.inl h
    · exact Or.inr ⟨h, f4.1 h'⟩
    · exact absurd h f3
  · rintro (h | ⟨h, h'⟩)
    · exact Or.inl ⟨h, (st, ab), hab, rfl⟩
    · exact Or.inr (Or.inl ⟨h, f4.2 h'⟩)

theorem called_iff {xs : List SuiteXml} {ss : List Suite} (hp : Parsed xs ss) (hr : ∀ x ∈ xs, Regular x) (hn : NoFinalize xs)
    {v : Var} (hv : CleanVar v) : ∃ b, called ss v = some b ∧ (b = true ↔ CalledVar xs v) := by
  have key : ∀ x ∈ xs, ∀ {n st : Str}, IsStage st → ((InGroup x n ∨ (IsInit x n ∧ st = "init".toList)) ↔ CallsAt x n st) := by
    intro x hx n st hs
    unfold CallsAt
    constructor
    · rintro (h | h)
      · exact Or.inl ⟨h, hs⟩
      · exact Or.inr (Or.inl h)
    · rintro (h | h | ⟨⟨c, hc, ht, _⟩, _⟩)
      · exact Or.inl h.1
      · exact Or.inr h
      · exact absurd ht (hn x hx c hc)
  obtain ⟨n, st, h1, h2, h3⟩ := hv
  obtain ⟨b, hb, hb'⟩ := called_clean hp hr h1 h2 h3
  refine ⟨b, hb, ?_⟩
  constructor
  · intro h
    obtain ⟨x, hx, h⟩ := hb'.1 h
    exact ⟨n, st, h1, h2, h3, x, hx, (key x hx h2).1 h⟩
  · rintro ⟨n', st', g1, g2, g3, x, hx, g4⟩
    obtain ⟨b', e1, e2⟩ := called_clean hp hr g1 g2 g3
    rw [hb] at e1; cases e1
    exact e2.2 ⟨x, hx, (key x hx g2).2 g4⟩

theorem keepVar_spec {ss : List Suite} {P : Var → Prop} : ∀ {l : List Var},
    (∀ v ∈ l, ∃ b, called ss v = some b ∧ (b = true ↔ P v)) → ∃ b, keepVar ss l = some b ∧ (b = true ↔ ∃ v ∈ l, P v)
  | [], _ => ⟨false, rfl, by simp⟩
  | v :: l, h => by
    obtain ⟨b, h1, h2⟩ := h v (by simp)
    obtain ⟨b', h3, h4⟩ := keepVar_spec (l := l) (fun w hw => h w (by simp [hw]))
    rw [keepVar, h1, Option.bind_some]
    cases b with
    | true => exact ⟨true, rfl, by simp [h2.1 rfl]⟩
    | false =>
      refine ⟨b', h3, ?_⟩
      rw [h4]
      have : ¬ P v := fun h => by cases h2.2 h
      simp [this]

theorem filterNames_spec {ss : List Suite} {P : Var → Prop} {d : Dict} : ∀ {ks : List Str}, ks.Nodup →
    (∀ k ∈ ks, ∃ l, get d k = some l ∧ ∀ v ∈ l, ∃ b, called ss v = some b ∧ (b = true ↔ P v)) →
    ∃ f, filterNames ss d ks = some f ∧ (keys f).Sublist ks ∧
      ∀ k l, get f k = some l ↔ k ∈ ks ∧ get d k = some l ∧ ∃ v ∈ l, P v
  | [], _, _ => ⟨[], rfl, List.Sublist.refl _, fun k l => by simp [get]⟩
  | k :: ks, hn, h => by
    rw [List.nodup_cons] at hn
    obtain ⟨l, h1, h2⟩ := h k (by simp)
    obtain ⟨b, h3, h4⟩ := keepVar_spec h2
    obtain ⟨f, f1, f2, f3⟩ := filterNames_spec hn.2 (fun j hj => h j (by simp [hj]))
    refine ⟨if b then (k, l) :: f else f, ?_, ?_, ?_⟩
    · rw [filterNames, h1]
      simp only [h3, Option.bind_some, f1, Option.map_some]
    · cases b with
      | true => exact f2.cons_cons k
      | false => exact List.Sublist.cons k f2
    · intro j m
      cases b with
      | true =>
        simp only [if_true, get]
        by_cases hj : k = j
        · subst hj
          simp only [if_true, List.mem_cons, true_or, true_and]
          rw [h1]
          constructor
          · intro e; cases e; exact ⟨rfl, h4.1 rfl⟩
          · rintro ⟨e, _⟩; exact e
        · rw [if_neg hj, f3 j m, List.mem_cons]
          constructor
          · rintro ⟨a, b⟩; exact ⟨Or.inr a, b⟩
          · rintro ⟨a | a, b⟩
            · exact absurd a.symm hj
            · exact ⟨a, b⟩
      | false =>
        simp only [Bool.false_eq_true, if_false]
        rw [f3 j m, List.mem_cons]
        constructor
        · rintro ⟨a, b⟩; exact ⟨Or.inr a, b⟩
        · rintro ⟨a | a, b, c⟩
          · subst a
            rw [h1] at b; cases b
            exact absurd (h4.2 c) (by simp)
          · exact ⟨a, b, c⟩

/-- The variables that are kept. -/
theorem filterDict_spec {xs : List SuiteXml} {ss : List Suite} (hp : Parsed xs ss) (hr : ∀ x ∈ xs, Regular x) (hn : NoFinalize xs)
    {files : List (List (List Var))} {d : Dict} (hd : collect [] files = some d) (hv : ∀ v ∈ files.flatten.flatten, CleanVar v) :
    ∃ f, filterDict ss d = some f ∧ (keys f).Nodup ∧
      ∀ k l, get f k = some l ↔ l = reqs files.flatten.flatten k ∧ ∃ v ∈ l, CalledVar xs v := by
  have hrep : Rep d files.flatten.flatten := (collect_spec rep_nil).2 d hd
  have hs : (RV.sorted (keys d)).Nodup := RV.nodup_sorted.2 hrep.1
  obtain ⟨f, f1, f2, f3⟩ := filterNames_spec (ss := ss) (d := d) (P := CalledVar xs) hs (by
    intro k hk
    obtain ⟨l, hl⟩ := mem_keys.1 (RV.mem_sorted.1 hk)
    refine ⟨l, hl, fun v hvl => called_iff hp hr hn (hv v ?_)⟩
    have := hrep.2 k
    rw [hl] at this
    split at this
    · cases this
    · cases this; exact (mem_reqs.1 hvl).1)
  refine ⟨f, f1, hs.sublist f2, ?_⟩
  intro k l
  rw [f3 k l, hrep.2 k]
  constructor
  · rintro ⟨_, h1, h2⟩
    split at h1
    · cases h1
    · cases h1; exact ⟨rfl, h2⟩
  · rintro ⟨rfl, h2⟩
    have hne : reqs files.flatten.flatten k ≠ [] := by
      rintro h0; rw [h0] at h2; obtain ⟨v, hv, _⟩ := h2; cases hv
    have hg : get d k = some (reqs files.flatten.flatten k) := by rw [hrep.2 k, if_neg hne]
    exact ⟨RV.mem_sorted.2 (mem_keys.2 ⟨_, hg⟩), if_neg hne, h2⟩

/-- **C70**, partial: of the variables of the schemes those remain that a suite calls (with all requests of the same name), for
regular suite definitions without a scheme for the finalization of the whole suite, and schemes with clean names. -/
theorem C70_filter_partial {xs : List SuiteXml} {ss : List Suite} (hp : Parsed xs ss) (hr : ∀ x ∈ xs, Regular x)
    (hn : NoFinalize xs) {files : List (List (List Var))} {d : Dict} (hd : collect [] files = some d)
    (hv : ∀ v ∈ files.flatten.flatten, CleanVar v) :
    ∃ f, filterDict ss d = some f ∧ (keys f).Nodup ∧
      ∀ k l, get f k = some l ↔ l = reqs files.flatten.flatten k ∧ ∃ v ∈ files.flatten.flatten, v.std = k ∧ CalledVar xs v := by
  obtain ⟨f, f1, f2, f3⟩ := filterDict_spec hp hr hn hd hv
  refine ⟨f, f1, f2, fun k l => ?_⟩
  rw [f3]
  constructor
  · rintro ⟨rfl, v, hv, hc⟩
    rw [mem_reqs] at hv
    exact ⟨rfl, v, hv.1, hv.2, hc⟩
  · rintro ⟨rfl, v, hv, hk, hc⟩
    exact ⟨rfl, v, mem_reqs.2 ⟨hv, hk⟩, hc⟩

theorem reqs_filtered {xs : List SuiteXml} {ss : List Suite} (hp : Parsed xs ss) (hr : ∀ x ∈ xs, Regular x)
    (hn : NoFinalize xs) {files : List (List (List Var))} {d : Dict} (hd : collect [] files = some d)
    (hv : ∀ v ∈ files.flatten.flatten, CleanVar v) {R : Str → List Var} (hR : Counts xs files R) :
    ∃ f, filterDict ss d = some f ∧ Reqs (addSuiteFrom f suiteVars) R := by
  obtain ⟨f, f1, f2, f3⟩ := filterDict_spec hp hr hn hd hv
  obtain ⟨a1, a2⟩ := addSuite_spec suite_nodup f2
  obtain ⟨h1, h2⟩ := (collect_spec rep_nil).1.1 ⟨d, hd⟩
  refine ⟨f, f1, a1, ?_, ?_⟩
  · intro k
    rw [a2 k]
    by_cases hc : ∃ v ∈ reqs files.flatten.flatten k, CalledVar xs v
    · have hg := (f3 k _).2 ⟨rfl, hc⟩
      rw [hg, (hR k).1 hc]
      simp only
      rw [if_neg]
      intro h0; rw [h0] at hc; obtain ⟨v, hv, _⟩ := hc; cases hv
    · have hg : get f k = none := by
        cases hg : get f k with
        | none => rfl
        | some l =>
          obtain ⟨rfl, h⟩ := (f3 k l).1 hg
          exact absurd h hc
      rw [hg, (hR k).2 hc]
      rfl
  · intro k r l hr' v hv'
    by_cases hc : ∃ v ∈ reqs files.flatten.flatten k, CalledVar xs v
    · rw [(hR k).1 hc] at hr'
      have ha : allReqs files k = r :: l := by
        unfold allReqs
        rw [if_neg (by rw [hr']; simp)]; exact hr'
      exact (same_type h1 (firsts_iff.1 h2) ha v hv').2.1
    · rw [(hR k).2 hc] at hr'
      have hr1 : r ∈ suiteReq k := by rw [hr']; simp
      have hv1 : v ∈ suiteReq k := by rw [hr']; exact hv'
      unfold suiteReq at hr1 hv1
      rw [mem_reqs] at hr1 hv1
      rw [suiteVars_typed k v hv1.1 r hr1.1 hv1.2 hr1.2]

/-- **C70**, partial: success of the matching with the suites; only the requests that count are compared with the host (see
`C70_filter_partial` for the conditions). -/
theorem C70_accepted_partial {host : Dict} (hh : HostOk host) {xs : List SuiteXml} {ss : List Suite} (hp : Parsed xs ss)
    (hr : ∀ x ∈ xs, Regular x) (hn : NoFinalize xs) {files : List (List (List Var))} (hv : ∀ v ∈ files.flatten.flatten, CleanVar v)
    {R : Str → List Var} (hR : Counts xs files R) :
    (∃ ms md, matchSuites host ss files = some (true, ms, md)) ↔ AcceptableFor host R files := by
  constructor
  · rintro ⟨ms, md, h⟩
    unfold matchSuites at h
    cases hc : collect [] files with
    | none => rw [hc] at h; cases h
    | some d =>
      obtain ⟨f, f1, f2⟩ := reqs_filtered hp hr hn hc hv hR
      rw [hc, Option.bind_some, f1, Option.bind_some] at h
      obtain ⟨h1, h2⟩ := (collect_spec rep_nil).1.1 ⟨d, hc⟩
      obtain ⟨h3, h4⟩ := (compare_iff hh f2).1 ⟨ms, md, h⟩
      exact ⟨h1, firsts_iff.1 h2, h3, h4⟩
  · rintro ⟨h1, h2, h3, h4⟩
    obtain ⟨d, hc⟩ := (collect_spec rep_nil).1.2 ⟨h1, firsts_iff.2 h2⟩
    obtain ⟨f, f1, f2⟩ := reqs_filtered hp hr hn hc hv hR
    unfold matchSuites
    rw [hc, Option.bind_some, f1, Option.bind_some]
    exact (compare_iff hh f2).2 ⟨h3, h4⟩

/-- **C70**, partial: the result of the matching with the suites. -/
theorem C70_result_partial {host : Dict} (hh : HostOk host) {xs : List SuiteXml} {ss : List Suite} (hp : Parsed xs ss)
    (hr : ∀ x ∈ xs, Regular x) (hn : NoFinalize xs) {files : List (List (List Var))} (hv : ∀ v ∈ files.flatten.flatten, CleanVar v)
    {R : Str → List Var} (hR : Counts xs files R) {ms : List Str} {md : Dict}
    (h : matchSuites host ss files = some (true, ms, md)) : Result host R ms md := by
  unfold matchSuites at h
  cases hc : collect [] files with
  | none => rw [hc] at h; cases h
  | some d =>
    obtain ⟨f, f1, f2⟩ := reqs_filtered hp hr hn hc hv hR
    rw [hc, Option.bind_some, f1, Option.bind_some] at h
    exact compare_result hh f2 h

/-! ## Schemes, files and dependencies -/

theorem parsed_mem {xs : List SuiteXml} {ss : List Suite} (hp : Parsed xs ss) (hr : ∀ x ∈ xs, Regular x) :
    List.Forall₂ (fun x s => s.groups = x.children.map groupOf ∧ ∀ n, n ∈ s.schemes ↔ InSuite x n) xs ss := by
  unfold Parsed at hp
  induction hp with
  | nil => exact .nil
  | @cons x s xs ss h t ih =>
    refine .cons ?_ (ih fun y hy => hr y (by simp [hy]))
    have hx := hr x (by simp)
    by_cases hn : NameOk x
    · obtain ⟨s', h1, h2, h3, h4, h5, h6⟩ := (C70_parse_partial hx false).2 hn
      rw [h] at h1; cases h1
      exact ⟨h3, h5⟩
    · rw [(C70_parse_partial hx false).1 hn] at h; cases h

/-- **C70**: the suites are accepted exactly if all their schemes have argument lists. -/
theorem C70_schemes_iff {xs : List SuiteXml} {ss : List Suite} (hp : Parsed xs ss) (hr : ∀ x ∈ xs, Regular x) (arguments : List Str) :
    checkSchemes arguments ss = true ↔ ∀ x ∈ xs, ∀ n, InSuite x n → n ∈ arguments := by
  unfold checkSchemes
  rw [List.all_eq_true]
  have hg : ∀ x : SuiteXml, (∀ g ∈ x.children.map groupOf, ∀ sub ∈ g.subs, ∀ n ∈ sub.2, n ∈ arguments) ↔
      ∀ n, InSuite x n → n ∈ arguments := by
    intro x
    constructor
    · intro h n hn
      rw [← mem_schemes, List.mem_flatMap] at hn
      obtain ⟨c, hc, hn⟩ := hn
      have hh := h (groupOf c) (List.mem_map.2 ⟨c, hc, rfl⟩)
      rcases mem_childSchemes.1 hn with ⟨ht, sx, hsx, hn⟩ | ⟨ht, rfl⟩ | ⟨ht, rfl⟩
      · unfold groupOf at hh; rw [ht] at hh
        exact hh (sx.loop.getD 0, sx.schemes) (List.mem_map.2 ⟨sx, hsx, rfl⟩) n hn
      · unfold groupOf at hh; rw [ht] at hh
        exact hh (1, [c.text]) (List.mem_singleton.2 rfl) c.text (List.mem_singleton.2 rfl)
      · unfold groupOf at hh; rw [ht] at hh
        exact hh (1, [c.text]) (List.mem_singleton.2 rfl) c.text (List.mem_singleton.2 rfl)
    · intro h g hgm sub hsub n hn
      obtain ⟨c, hc, rfl⟩ := List.mem_map.1 hgm
      apply h
      rw [← mem_schemes, List.mem_flatMap]
      refine ⟨c, hc, mem_childSchemes.2 ?_⟩
      unfold groupOf at hsub
      cases ht : c.tag with
      | group =>
        rw [ht] at hsub
        obtain ⟨sx, hsx, rfl⟩ := List.mem_map.1 hsub
        exact Or.inl ⟨rfl, sx, hsx, hn⟩
      | init =>
        rw [ht] at hsub
        have e := List.mem_singleton.1 hsub
        rw [e] at hn
        exact Or.inr (Or.inl ⟨rfl, (List.mem_singleton.1 hn).symm⟩)
      | finalize =>
        rw [ht] at hsub
        have e := List.mem_singleton.1 hsub
        rw [e] at hn
        exact Or.inr (Or.inr ⟨rfl, (List.mem_singleton.1 hn).symm⟩)
  have hm := parsed_mem hp hr
  clear hp hr
  induction hm with
  | nil => simp
  | cons h t ih =>
    simp only [List.mem_cons, forall_eq_or_imp]
    refine and_congr ?_ ih
    rw [← hg, h.1]
    simp only [List.all_eq_true, List.contains_iff_mem]

theorem in_suites {xs : List SuiteXml} {ss : List Suite} (hp : Parsed xs ss) (hr : ∀ x ∈ xs, Regular x) (n : Str) :
    (ss.any fun s => s.schemes.contains n) = true ↔ ∃ x ∈ xs, InSuite x n :=
  forall2_any (fun x s h => by rw [List.contains_iff_mem]; exact h.2 n) (parsed_mem hp hr)

/-- **C70**: of the argument lists, files and dependencies of the schemes exactly those of the schemes in the suites are kept,
in the same order. -/
theorem C70_kept_schemes {xs : List SuiteXml} {ss : List Suite} (hp : Parsed xs ss) (hr : ∀ x ∈ xs, Regular x)
    (d : List (Str × α)) : (filterBy ss d).Sublist d ∧ ∀ e, e ∈ filterBy ss d ↔ e ∈ d ∧ ∃ x ∈ xs, InSuite x e.1 := by
  refine ⟨List.filter_sublist, fun e => ?_⟩
  unfold filterBy
  rw [List.mem_filter, in_suites hp hr]

/-- **C70**: what has to be compiled: the files of the schemes in the suites, their dependencies, and those of the host; every
one once. -/
theorem C70_compile {xs : List SuiteXml} {ss : List Suite} (hp : Parsed xs ss) (hr : ∀ x ∈ xs, Regular x)
    (files : List (Str × Str)) (deps host : List (Str × List Str)) :
    (toCompile (filterBy ss files) (filterBy ss deps) host).Nodup ∧
    ∀ f, f ∈ toCompile (filterBy ss files) (filterBy ss deps) host ↔
      (∃ n, (n, f) ∈ files ∧ ∃ x ∈ xs, InSuite x n) ∨ (∃ n l, (n, l) ∈ deps ∧ f ∈ l ∧ ∃ x ∈ xs, InSuite x n) ∨
      ∃ n l, (n, l) ∈ host ∧ f ∈ l := by
  unfold toCompile
  refine ⟨DT.nodup_eraseDups _ _ (Nat.le_refl _), fun f => ?_⟩
  rw [List.mem_eraseDups, List.mem_append, List.mem_append, List.mem_map, List.mem_flatMap, List.mem_flatMap]
  constructor
  · rintro ((⟨e, he, rfl⟩ | ⟨e, he, hf⟩) | ⟨e, he, hf⟩)
    · obtain ⟨h1, h2⟩ := ((C70_kept_schemes hp hr files).2 e).1 he
      exact Or.inl ⟨e.1, h1, h2⟩
    · obtain ⟨h1, h2⟩ := ((C70_kept_schemes hp hr deps).2 e).1 he
      exact Or.inr (Or.inl ⟨e.1, e.2, h1, hf, h2⟩)
    · exact Or.inr (Or.inr ⟨e.1, e.2, he, hf⟩)
  · rintro (⟨n, h1, h2⟩ | ⟨n, l, h1, hf, h2⟩ | ⟨n, l, h1, hf⟩)
    · exact Or.inl (Or.inl ⟨(n, f), ((C70_kept_schemes hp hr files).2 _).2 ⟨h1, h2⟩, rfl⟩)
    · exact Or.inl (Or.inr ⟨(n, l), ((C70_kept_schemes hp hr deps).2 _).2 ⟨h1, h2⟩, hf⟩)
    · exact Or.inr ⟨(n, l), h1, hf⟩

end Ccpp.PB
