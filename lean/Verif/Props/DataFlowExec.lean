import Verif.Props.DataFlow
/-! # C54: accepted suites do not read undefined values -/
namespace Ccpp.DF

/-! ## The order of the uses -/

theorem usesFrom_append (k : Nat) (gs gs' : List Group) :
    usesFrom k (gs ++ gs') = usesFrom k gs ++ usesFrom (k + gs.length) gs' := by
  induction gs generalizing k with
  | nil => simp [usesFrom]
  | cons g gs ih =>
    simp only [List.cons_append, usesFrom, ih, List.append_assoc, List.length_cons]
    rw [show k + 1 + gs.length = k + (gs.length + 1) by omega]

theorem usesFrom_phase (k : Nat) (gs : List Group) (x : Use) (h : x ∈ usesFrom k gs) :
    ∃ (i : Nat) (grp : Group), gs[i]? = some grp ∧ x.1 = k + i ∧ x.2.1 = grp.phase := by
  induction gs generalizing k with
  | nil => simp [usesFrom] at h
  | cons g gs ih =>
    simp only [usesFrom, List.mem_append, List.mem_map] at h
    rcases h with ⟨a, _, rfl⟩ | h
    · exact ⟨0, g, rfl, rfl, rfl⟩
    · obtain ⟨i, grp, h1, h2, h3⟩ := ih (k + 1) h
      exact ⟨i + 1, grp, by simpa using h1, by omega, h3⟩

theorem usesFrom_range (k : Nat) (gs : List Group) (x : Use) (h : x ∈ usesFrom k gs) :
    k ≤ x.1 ∧ x.1 < k + gs.length := by
  obtain ⟨i, grp, h1, h2, _⟩ := usesFrom_phase k gs x h
  have := (List.getElem?_eq_some_iff.1 h1).1
  omega

theorem usesFrom_sorted (k : Nat) (gs : List Group) :
    (usesFrom k gs).Pairwise fun a b => a.1 ≤ b.1 := by
  induction gs generalizing k with
  | nil => simp [usesFrom]
  | cons g gs ih =>
    simp only [usesFrom, List.pairwise_append]
    refine ⟨?_, ih _, ?_⟩
    · rw [List.pairwise_map]
      exact List.pairwise_iff_forall_sublist.2 (fun _ => Nat.le_refl _)
    · intro a ha b hb
      obtain ⟨_, _, rfl⟩ := List.mem_map.1 ha
      have := (usesFrom_range _ _ _ hb).1
      simp only
      omega

theorem firstUse_le {s : Suite} {u w : Use} (h : FirstUse s.uses u) (hw : w ∈ s.uses)
    (e : w.2.2.std = u.2.2.std) : u.1 ≤ w.1 := by
  obtain ⟨pre, post, hu, hp⟩ := h
  have hs := usesFrom_sorted 0 s.groups
  rw [show usesFrom 0 s.groups = s.uses from rfl, hu] at hs
  rw [hu] at hw
  rcases List.mem_append.1 hw with hw | hw
  · exact absurd e (hp w hw)
  · rcases List.mem_cons.1 hw with rfl | hw
    · exact Nat.le_refl _
    · exact (List.pairwise_cons.1 (List.pairwise_append.1 hs).2.1).1 w hw

theorem FirstUse.mem {uses : List Use} {u : Use} (h : FirstUse uses u) : u ∈ uses := by
  obtain ⟨pre, post, rfl, _⟩ := h
  simp

/-- The phase of a use determines, and is determined by, the number of its group. -/
theorem phase_cases {s : Suite} {x : Use} (h : x ∈ s.uses) :
    (x.1 = 0 ∧ x.2.1 = .register) ∨ (x.1 = 1 ∧ x.2.1 = .initialize) ∨ (x.1 = 2 ∧ x.2.1 = .tsInitial) ∨
    (3 ≤ x.1 ∧ x.1 < 3 + s.runs.length ∧ x.2.1 = .run) ∨
    (x.1 = 3 + s.runs.length ∧ x.2.1 = .tsFinal) ∨ (x.1 = 4 + s.runs.length ∧ x.2.1 = .finalize) := by
  have e : s.groups = ⟨.register, s.reg⟩ :: ⟨.initialize, s.ini⟩ :: ⟨.tsInitial, s.tsi⟩ ::
    (s.runs.map (fun b => (⟨.run, b⟩ : Group)) ++ [⟨.tsFinal, s.tsf⟩, ⟨.finalize, s.fin⟩]) := rfl
  unfold Suite.uses at h
  rw [e] at h
  simp only [usesFrom, usesFrom_append, List.mem_append, List.mem_map, List.length_map,
    List.not_mem_nil, or_false] at h
  rcases h with ⟨a, _, rfl⟩ | ⟨a, _, rfl⟩ | ⟨a, _, rfl⟩ | h | ⟨a, _, rfl⟩ | ⟨a, _, rfl⟩
  · exact Or.inl ⟨rfl, rfl⟩
  · exact Or.inr (Or.inl ⟨rfl, rfl⟩)
  · exact Or.inr (Or.inr (Or.inl ⟨rfl, rfl⟩))
  · obtain ⟨i, grp, h1, h2, h3⟩ := usesFrom_phase _ _ _ h
    have hr := usesFrom_range _ _ _ h
    rw [List.getElem?_map] at h1
    cases hb : s.runs[i]? with
    | none => rw [hb] at h1; simp at h1
    | some b =>
      rw [hb] at h1
      simp only [Option.map_some, Option.some.injEq] at h1
      subst h1
      simp only [List.length_map] at hr
      exact Or.inr (Or.inr (Or.inr (Or.inl ⟨by omega, by omega, h3⟩)))
  · exact Or.inr (Or.inr (Or.inr (Or.inr (Or.inl ⟨by simp only, rfl⟩))))
  · exact Or.inr (Or.inr (Or.inr (Or.inr (Or.inr ⟨by simp only; omega, rfl⟩))))

/-! ## The order of the calls -/

/-- Before a scheme is called, every scheme that precedes it in the body was called. -/
theorem runs_order {b : Body} {t : List Call} (h : Runs 1 b t) :
    (∀ t1 c t2, t = t1 ++ c :: t2 → ∃ f1 f2, b.flat = f1 ++ c :: f2 ∧ ∀ x ∈ f1, x ∈ t1) ∧
    ∀ c ∈ b.flat, c ∈ t := by
  induction h with
  | empty => simp [Body.flat]
  | call c =>
    simp only [Body.flat]
    refine ⟨?_, fun c h => h⟩
    intro t1 c' t2 e
    exact ⟨t1, t2, e, fun x h => h⟩
  | @seq a b ta tb ha hb iha ihb =>
    refine ⟨?_, ?_⟩
    · intro t1 c t2 e
      rcases List.append_eq_append_iff.1 e with ⟨q, h1, h2⟩ | ⟨q, h1, h2⟩
      · obtain ⟨f1, f2, h3, h4⟩ := ihb.1 q c t2 h2
        refine ⟨a.flat ++ f1, f2, by simp [Body.flat, h3], ?_⟩
        intro x hx
        rw [h1]
        rcases List.mem_append.1 hx with hx | hx
        · exact List.mem_append_left _ (iha.2 x hx)
        · exact List.mem_append_right _ (h4 x hx)
      · cases q with
        | nil =>
          simp only [List.nil_append, List.append_nil] at h1 h2
          obtain ⟨f1, f2, h3, h4⟩ := ihb.1 [] c t2 h2.symm
          refine ⟨a.flat ++ f1, f2, by simp [Body.flat, h3], ?_⟩
          intro x hx
          rcases List.mem_append.1 hx with hx | hx
          · exact h1 ▸ iha.2 x hx
          · exact absurd (h4 x hx) (by simp)
        | cons y q =>
          simp only [List.cons_append, List.cons.injEq] at h2
          obtain ⟨rfl, _⟩ := h2
          obtain ⟨f1, f2, h3, h4⟩ := iha.1 t1 c q h1
          exact ⟨f1, f2 ++ b.flat, by simp [Body.flat, h3], h4⟩
    · intro c hc
      simp only [Body.flat, List.mem_append] at hc ⊢
      exact hc.imp (iha.2 c) (ihb.2 c)
  | @loop b ts hk hts ih =>
    simp only [Body.flat]
    refine ⟨?_, ?_⟩
    · intro t1 c t2 e
      clear hk
      induction ts generalizing t1 with
      | nil => simp at e
      | cons t ts iht =>
        simp only [List.flatten_cons] at e
        rcases List.append_eq_append_iff.1 e with ⟨q, h1, h2⟩ | ⟨q, h1, h2⟩
        · obtain ⟨f1, f2, h3, h4⟩ := iht (fun t h => hts t (by simp [h])) (fun t h => ih t (by simp [h])) q h2
          exact ⟨f1, f2, h3, fun x hx => by rw [h1]; exact List.mem_append_right _ (h4 x hx)⟩
        · cases q with
          | nil =>
            simp only [List.nil_append, List.append_nil] at h1 h2
            obtain ⟨f1, f2, h3, h4⟩ := iht (fun t h => hts t (by simp [h])) (fun t h => ih t (by simp [h])) []
              h2.symm
            exact ⟨f1, f2, h3, fun x hx => absurd (h4 x hx) (by simp)⟩
          | cons y q =>
            simp only [List.cons_append, List.cons.injEq] at h2
            obtain ⟨rfl, _⟩ := h2
            exact (ih t (by simp)).1 t1 c q h1
    · intro c hc
      cases ts with
      | nil => simp at hk
      | cons t ts =>
        simp only [List.flatten_cons, List.mem_append]
        exact Or.inl ((ih t (by simp)).2 c hc)

/-! ## Calls define their arguments -/

theorem Mem.set_le (m : Mem) (l x : Loc) (h : m x = true) : m.set l x = true := by
  unfold Mem.set; split <;> simp [h]

theorem Mem.set_self (m : Mem) (l : Loc) : m.set l l = true := by simp [Mem.set]

theorem foldl_set (st : St) (g : Nat) (c : Call) (m : Mem) :
    (∀ x, m x = true → (c.foldl (fun m a => if a.intent = .in then m else m.set (loc st g a.std)) m) x
      = true) ∧
    ∀ a ∈ c, (a.intent = .out ∨ m (loc st g a.std) = true) →
      (c.foldl (fun m a => if a.intent = .in then m else m.set (loc st g a.std)) m) (loc st g a.std)
      = true := by
  induction c generalizing m with
  | nil => simp
  | cons b c ih =>
    simp only [List.foldl_cons]
    obtain ⟨h1, h2⟩ := ih (if b.intent = .in then m else m.set (loc st g b.std))
    have hle : ∀ x, m x = true → (if b.intent = .in then m else m.set (loc st g b.std)) x = true := by
      intro x hx
      split
      · exact hx
      · exact Mem.set_le _ _ _ hx
    refine ⟨fun x hx => h1 x (hle x hx), ?_⟩
    intro a ha hd
    rcases List.mem_cons.1 ha with rfl | ha
    · apply h1
      split
      · rename_i hi
        rcases hd with hd | hd
        · rw [hi] at hd; exact absurd hd (by decide)
        · exact hd
      · exact Mem.set_self _ _
    · exact h2 a ha (hd.imp_right (hle _))

theorem execCall_ok {st : St} {g : Nat} {m : Mem} {c : Call}
    (h : ∀ a ∈ c, a.intent = .out ∨ m (loc st g a.std) = true) :
    ∃ m', execCall st g m c = some m' ∧ (∀ x, m x = true → m' x = true) ∧
      ∀ a ∈ c, m' (loc st g a.std) = true := by
  have hall : (c.all fun a => decide (a.intent = .out) || m (loc st g a.std)) = true := by
    rw [List.all_eq_true]
    intro a ha
    rcases h a ha with h | h <;> simp [h]
  obtain ⟨h1, h2⟩ := foldl_set st g c m
  exact ⟨_, by unfold execCall; rw [if_pos hall], h1, fun a ha => h2 a ha (h a ha)⟩

/-- If every call finds its arguments defined when the preceding calls have defined theirs, all calls
can be executed. -/
theorem execCalls_ok {st : St} {g : Nat} (t : List Call) (m : Mem)
    (h : ∀ t1 c t2, t = t1 ++ c :: t2 → ∀ m' : Mem, (∀ x, m x = true → m' x = true) →
      (∀ c' ∈ t1, ∀ a ∈ c', m' (loc st g a.std) = true) →
      ∀ a ∈ c, a.intent = .out ∨ m' (loc st g a.std) = true) :
    ∃ m', execCalls st g m t = some m' ∧ (∀ x, m x = true → m' x = true) ∧
      ∀ c ∈ t, ∀ a ∈ c, m' (loc st g a.std) = true := by
  induction t generalizing m with
  | nil => exact ⟨m, rfl, fun _ h => h, by simp⟩
  | cons c t ih =>
    obtain ⟨m1, e1, l1, d1⟩ := execCall_ok (h [] c t rfl m (fun _ h => h) (by simp))
    obtain ⟨m2, e2, l2, d2⟩ := ih m1 (by
      intro t1 c' t2 e m' hm hc
      refine h (c :: t1) c' t2 (by rw [e]; rfl) m' (fun x hx => hm x (l1 x hx)) ?_
      intro c'' hc''
      rcases List.mem_cons.1 hc'' with rfl | hc''
      · exact fun a ha => hm _ (d1 a ha)
      · exact hc c'' hc'')
    refine ⟨m2, by simp only [execCalls, e1, e2], fun x hx => l2 x (l1 x hx), ?_⟩
    intro c' hc'
    rcases List.mem_cons.1 hc' with rfl | hc'
    · exact fun a ha => l2 _ (d1 a ha)
    · exact d2 c' hc'

/-! ## One group -/

/-- Host variables are defined, and the suite variables that satisfy `P`. -/
def Def (host : Name → Bool) (st : St) (P : Name → Prop) (m : Mem) : Prop :=
  (∀ n, host n = true → m (.host n) = true) ∧
    ∀ n, hasVar st.suite n = true → P n → m (.suite n) = true

/-- `n` is used by a group before `g`. -/
def Below (s : Suite) (g : Nat) (n : Name) : Prop := ∃ u ∈ s.uses, u.1 < g ∧ u.2.2.std = n

/-- `n` is used by group `g`. -/
def At (s : Suite) (g : Nat) (n : Name) : Prop := ∃ u ∈ s.uses, u.1 = g ∧ u.2.2.std = n

theorem loc_host {host : Name → Bool} {prev : List Use} {G : Nat} {st : St} (I : Inv host prev G st)
    (g : Nat) {n : Name} (h : host n = true) : loc st g n = .host n := by
  unfold loc
  rw [if_neg, if_neg]
  · intro h'; rw [I.nohostS n h'] at h; exact absurd h (by decide)
  · intro h'; rw [I.nohost g n h'] at h; exact absurd h (by decide)

theorem loc_suite {host : Name → Bool} {prev : List Use} {G : Nat} {st : St} (I : Inv host prev G st)
    (g : Nat) {n : Name} (h : hasVar st.suite n = true) : loc st g n = .suite n := by
  unfold loc
  rw [if_neg, if_pos h]
  rw [I.disj n g h]; decide

theorem execLoops_le (ls : List (Name × List Name)) (st : St) (g : Nat) (m : Mem) (x : Loc)
    (h : m x = true) :
    (ls.foldl (fun m p => if p.2.all fun r => m (loc st g r) then m.set (loc st g p.1) else m) m) x
      = true := by
  induction ls generalizing m with
  | nil => exact h
  | cons p ls ih =>
    simp only [List.foldl_cons]
    apply ih
    split
    · exact Mem.set_le _ _ _ h
    · exact h

theorem execLoops_def (ls : List (Name × List Name)) (st : St) (g : Nat) (m : Mem)
    (p : Name × List Name) (hp : p ∈ ls) (h : ∀ r ∈ p.2, m (loc st g r) = true) :
    (ls.foldl (fun m p => if p.2.all fun r => m (loc st g r) then m.set (loc st g p.1) else m) m)
      (loc st g p.1) = true := by
  induction ls generalizing m with
  | nil => simp at hp
  | cons q ls ih =>
    simp only [List.foldl_cons]
    rcases List.mem_cons.1 hp with rfl | hp
    · apply execLoops_le
      rw [if_pos (by simpa using h)]
      exact Mem.set_self _ _
    · apply ih _ hp
      intro r hr
      split
      · exact Mem.set_le _ _ _ (h r hr)
      · exact h r hr

/-- The calls of group `g` can be executed. -/
theorem calls_ok {host : Name → Bool} {s : Suite} {st : St} {G : Nat} (I : Inv host s.uses G st)
    (P : Provided host s.uses) (D : Distinct s) {gs1 gs2 : List Group} {grp : Group}
    (hs : s.groups = gs1 ++ grp :: gs2) {t : List Call} (ht : Runs 1 grp.body t) (m : Mem)
    (Q : Name → Prop) (hm : Def host st Q m)
    (hQ : ∀ n, hasVar st.suite n = true → Below s gs1.length n → At s gs1.length n → Q n)
    (hL : grp.phase = .run → ∀ p ∈ st.loops gs1.length, (∀ r ∈ p.2, host r = true) →
      m (loc st gs1.length p.1) = true) :
    ∃ m', execCalls st gs1.length m t = some m' ∧
      Def host st (fun n => Q n ∨ At s gs1.length n) m' := by
  obtain ⟨o1, o2⟩ := runs_order ht
  have hu : s.uses = usesFrom 0 gs1 ++ (grp.body.flat.flatten.map (fun a => (gs1.length, grp.phase, a)) ++
      usesFrom (gs1.length + 1) gs2) := by
    unfold Suite.uses
    rw [hs, usesFrom_append, Nat.zero_add]
    rfl
  obtain ⟨m', e, l, d⟩ := execCalls_ok (st := st) (g := gs1.length) t m (by
    intro t1 c t2 e m' hle hdone a ha
    obtain ⟨f1, f2, hf, hft⟩ := o1 t1 c t2 e
    obtain ⟨c1, c2, hc⟩ := List.append_of_mem ha
    have hsplit : s.uses = (usesFrom 0 gs1 ++ (f1.flatten ++ c1).map (fun a => (gs1.length, grp.phase, a)))
        ++ (gs1.length, grp.phase, a) :: ((c2 ++ f2.flatten).map (fun a => (gs1.length, grp.phase, a)) ++
        usesFrom (gs1.length + 1) gs2) := by
      rw [hu, hf, hc]
      simp
    have hmem : (gs1.length, grp.phase, a) ∈ s.uses := by rw [hsplit]; simp
    have hgood : Avail host (usesFrom 0 gs1 ++
        (f1.flatten ++ c1).map (fun a => (gs1.length, grp.phase, a))) gs1.length a.std →
        m' (loc st gs1.length a.std) = true := by
      intro hav
      cases hh : host a.std with
      | true =>
        rw [loc_host I _ hh]
        exact hle _ (hm.1 _ hh)
      | false =>
        rcases hav with hav | ⟨u, hu', hn, hor⟩
        · rw [hav] at hh; exact absurd hh (by decide)
        · rcases List.mem_append.1 hu' with hu' | hu'
          · have hlt := (usesFrom_range _ _ _ hu').2
            rw [Nat.zero_add] at hlt
            have hnl : a.std ∉ loopNames := by
              rcases hor with h | h
              · omega
              · exact h
            have hum : u ∈ s.uses := by rw [hu]; exact List.mem_append_left _ hu'
            have hsu : hasVar st.suite a.std = true := by
              rcases I.ment _ hmem hh with h1 | h1
              · rcases I.ment u hum (by rw [hn]; exact hh) with h2 | h2
                · rw [hn] at h2
                  have := I.uniq _ _ _ hnl h1 h2
                  simp only at this
                  omega
                · rw [hn] at h2; exact h2
              · exact h1
            rw [loc_suite I _ hsu]
            exact hle _ (hm.2 _ hsu (hQ _ hsu ⟨u, hum, hlt, hn⟩ ⟨_, hmem, rfl, rfl⟩))
          · obtain ⟨b, hb, rfl⟩ := List.mem_map.1 hu'
            simp only at hn
            rcases List.mem_append.1 hb with hb | hb
            · obtain ⟨c', hc', hb⟩ := List.mem_flatten.1 hb
              have := hdone c' (hft c' hc') b hb
              rwa [hn] at this
            · have hcm : c ∈ grp.body.flat := by rw [hf]; simp
              have hnd := D grp (by rw [hs]; simp) c hcm
              rw [hc] at hnd
              simp only [List.map_append, List.map_cons] at hnd
              have := (List.nodup_append.1 hnd).2.2 b.std (List.mem_map.2 ⟨b, hb, rfl⟩) a.std (by simp)
              exact absurd hn this
    rcases P _ _ _ hsplit with h | h | ⟨hr, har, req, hsub, hreq⟩
    · exact Or.inl h
    · exact Or.inr (hgood h)
    · right
      by_cases hav : Avail host (usesFrom 0 gs1 ++
        (f1.flatten ++ c1).map (fun a => (gs1.length, grp.phase, a))) gs1.length a.std
      · exact hgood hav
      · have := I.loops _ _ _ req hsplit hav hr har hsub (fun r hr' => Or.inl (hreq r hr'))
        exact hle _ (hL hr _ this hreq))
  refine ⟨m', e, fun n hn => l _ (hm.1 n hn), ?_⟩
  rintro n hn (hq | ⟨u, hum, h1, h2⟩)
  · exact l _ (hm.2 n hn hq)
  · have : u ∈ grp.body.flat.flatten.map (fun a => ((gs1.length, grp.phase, a) : Use)) := by
      rw [hu] at hum
      rcases List.mem_append.1 hum with h | h
      · have := (usesFrom_range _ _ _ h).2
        omega
      · rcases List.mem_append.1 h with h | h
        · exact h
        · have := (usesFrom_range _ _ _ h).1
          omega
    obtain ⟨a, ha, rfl⟩ := List.mem_map.1 this
    obtain ⟨c, hc, ha⟩ := List.mem_flatten.1 ha
    have := d c (o2 c hc) a ha
    simp only at h2
    rwa [h2, loc_suite I _ hn] at this

/-- The suite variable `n` is an array of the given persistence. -/
def Arr (st : St) (timestep : Bool) (n : Name) : Prop :=
  ∃ v ∈ st.suite, v.std = n ∧ v.array = true ∧ v.timestep = timestep

theorem forget_def {host : Name → Bool} {st : St} {Q : Name → Prop} {m : Mem} {b : Bool}
    (h : Def host st Q m) : Def host st (fun n => Q n ∧ ¬ Arr st b n) (forget st b m) := by
  refine ⟨fun n hn => h.1 n hn, ?_⟩
  rintro n hn ⟨hq, ha⟩
  simp only [forget]
  rw [if_neg]
  · exact h.2 n hn hq
  · intro hany
    obtain ⟨v, hv, hc⟩ := List.any_eq_true.1 hany
    simp only [Bool.and_eq_true, beq_iff_eq] at hc
    exact ha ⟨v, hv, hc.1.1, hc.1.2, hc.2⟩

theorem Def.mono {host : Name → Bool} {st : St} {Q R : Name → Prop} {m : Mem} (h : Def host st Q m)
    (hr : ∀ n, hasVar st.suite n = true → R n → Q n) : Def host st R m :=
  ⟨h.1, fun n hn hq => h.2 n hn (hr n hn hq)⟩

/-- What is forgotten at the beginning and at the end of a group. -/
def gone (st : St) (n : Name) : Phase → Bool → Prop
  | .initialize, true => Arr st false n
  | .tsInitial, true => Arr st true n
  | .tsFinal, false => Arr st true n
  | .finalize, false => Arr st false n
  | _, _ => False

theorem group_ok {host : Name → Bool} {s : Suite} {st : St} {G : Nat} (I : Inv host s.uses G st)
    (P : Provided host s.uses) (D : Distinct s) {gs1 gs2 : List Group} {grp : Group}
    (hs : s.groups = gs1 ++ grp :: gs2) {t : List Call} (ht : Runs 1 grp.body t) (m : Mem)
    (Q : Name → Prop) (hm : Def host st Q m)
    (hQ : ∀ n, hasVar st.suite n = true → Below s gs1.length n → At s gs1.length n →
      Q n ∧ ¬ gone st n grp.phase true) :
    ∃ m', execGroup st gs1.length grp.phase t m = some m' ∧
      Def host st (fun n => ((Q n ∧ ¬ gone st n grp.phase true) ∨ At s gs1.length n) ∧
        ¬ gone st n grp.phase false) m' := by
  unfold execGroup
  have h1 : Def host st Q (forgetLocal gs1.length m) :=
    ⟨fun n hn => hm.1 n hn, fun n hn hq => hm.2 n hn hq⟩
  generalize forgetLocal gs1.length m = m1 at h1
  have h2 : Def host st Q (execLoops st gs1.length m1) :=
    ⟨fun n hn => execLoops_le _ _ _ _ _ (h1.1 n hn), fun n hn hq => execLoops_le _ _ _ _ _ (h1.2 n hn hq)⟩
  have h2L : ∀ p ∈ st.loops gs1.length, (∀ r ∈ p.2, host r = true) →
      (execLoops st gs1.length m1) (loc st gs1.length p.1) = true := by
    intro p hp hr
    refine execLoops_def _ _ _ _ p hp ?_
    intro r hrm
    rw [loc_host I _ (hr r hrm)]
    exact h1.1 r (hr r hrm)
  generalize execLoops st gs1.length m1 = m2 at h2 h2L
  have h3 : Def host st (fun n => Q n ∧ ¬ gone st n grp.phase true) (forgetIn st grp.phase m2) := by
    cases hp : grp.phase
    all_goals first
      | exact forget_def h2
      | exact h2.mono (fun n _ h => h.1)
  obtain ⟨m4, e4, h4⟩ := calls_ok I P D hs ht (forgetIn st grp.phase m2) _ h3 hQ (by
    intro hr p hp hreq
    rw [hr]
    exact h2L p hp hreq)
  rw [e4]
  refine ⟨_, rfl, ?_⟩
  generalize grp.phase = ph at h4 ⊢
  cases ph
  all_goals first
    | exact forget_def h4
    | exact h4.mono (fun n _ h => h.1)

/-! ## Which arrays can be forgotten -/

/-- Suite arrays of the run persistence are not used in the register phase. -/
theorem not_arr_register {host : Name → Bool} {s : Suite} {st : St} {G : Nat} (I : Inv host s.uses G st)
    (L : Lasting host s.uses) {n : Name} (hb : Below s 1 n) : ¬ Arr st false n := by
  rintro ⟨v, hv, hvn, ha, ht⟩
  have hsu : hasVar st.suite n = true := (hasVar_iff _ _).2 ⟨v, hv, hvn⟩
  obtain ⟨w, hw, hw1, hwn⟩ := hb
  obtain ⟨u, hu, hun, hua⟩ := I.prov v (hvn ▸ I.noloop n hsu) (Or.inl hv)
  have hle := firstUse_le hu hw (by rw [hwn, hun, hvn])
  have hreg : u.2.1 = .register := by
    rcases phase_cases hu.mem with ⟨_, h⟩ | ⟨h, _⟩ | ⟨h, _⟩ | ⟨h, _⟩ | ⟨h, _⟩ | ⟨h, _⟩
    · exact h
    all_goals omega
  obtain ⟨x, hx, y, hy, hxn, hyn, hlt⟩ := I.prom n hsu
  have := (L u y hu hy (by rw [hyn, hun, hvn]) (by rw [hun, hvn]; exact I.nohostS n hsu) (hua ha).1).1 hreg
  rcases phase_cases hy with ⟨h, _⟩ | ⟨_, h⟩ | ⟨_, h⟩ | ⟨_, _, h⟩ | ⟨_, h⟩ | ⟨_, h⟩
  · omega
  all_goals rw [h] at this; exact absurd this (by decide)

/-- Suite arrays of the timestep persistence are not used before the timesteps. -/
theorem not_arr_init {host : Name → Bool} {s : Suite} {st : St} {G : Nat} (I : Inv host s.uses G st)
    {n : Name} (hb : Below s 2 n) : ¬ Arr st true n := by
  rintro ⟨v, hv, hvn, ha, ht⟩
  have hsu : hasVar st.suite n = true := (hasVar_iff _ _).2 ⟨v, hv, hvn⟩
  obtain ⟨w, hw, hw1, hwn⟩ := hb
  obtain ⟨u, hu, hun, hua⟩ := I.prov v (hvn ▸ I.noloop n hsu) (Or.inl hv)
  have hle := firstUse_le hu hw (by rw [hwn, hun, hvn])
  have h2 := (hua ha).2
  rw [ht] at h2
  rcases phase_cases hu.mem with ⟨_, h⟩ | ⟨_, h⟩ | ⟨h, _⟩ | ⟨h, _⟩ | ⟨h, _⟩ | ⟨h, _⟩
  · rw [h] at h2; exact absurd h2 (by decide)
  · rw [h] at h2; exact absurd h2 (by decide)
  all_goals omega

/-- Suite arrays of the timestep persistence are not used in the finalize phase. -/
theorem not_arr_final {host : Name → Bool} {s : Suite} {st : St} {G : Nat} (I : Inv host s.uses G st)
    (L : Lasting host s.uses) {n : Name} (ha : At s (4 + s.runs.length) n) : ¬ Arr st true n := by
  rintro ⟨v, hv, hvn, ha', ht⟩
  have hsu : hasVar st.suite n = true := (hasVar_iff _ _).2 ⟨v, hv, hvn⟩
  obtain ⟨w, hw, hw1, hwn⟩ := ha
  obtain ⟨u, hu, hun, hua⟩ := I.prov v (hvn ▸ I.noloop n hsu) (Or.inl hv)
  have h2 := (hua ha').2
  rw [ht] at h2
  have := (L u w hu hw (by rw [hwn, hun, hvn]) (by rw [hun, hvn]; exact I.nohostS n hsu) (hua ha').1).2
    (by cases hp : u.2.1 <;> rw [hp] at h2 <;> first | (cases h2; done) | simp)
  rcases phase_cases hw with ⟨h, _⟩ | ⟨h, _⟩ | ⟨h, _⟩ | ⟨_, h, _⟩ | ⟨h, _⟩ | ⟨_, h⟩
  all_goals first
    | omega
    | exact this h

theorem below_succ (s : Suite) (g : Nat) (n : Name) : Below s (g + 1) n ↔ Below s g n ∨ At s g n := by
  unfold Below At
  constructor
  · rintro ⟨u, hu, h1, h2⟩
    by_cases h : u.1 = g
    · exact Or.inr ⟨u, hu, h, h2⟩
    · exact Or.inl ⟨u, hu, by omega, h2⟩
  · rintro (⟨u, hu, h1, h2⟩ | ⟨u, hu, h1, h2⟩)
    · exact ⟨u, hu, by omega, h2⟩
    · exact ⟨u, hu, by omega, h2⟩

theorem Below.mono {s : Suite} {g g' : Nat} {n : Name} (h : Below s g n) (hg : g ≤ g') : Below s g' n := by
  obtain ⟨u, hu, h1, h2⟩ := h
  exact ⟨u, hu, by omega, h2⟩

/-! ## Histories -/

theorem execAll_append (st : St) (m m' : Mem) (es fs : List Event) (h : execAll st m es = some m') :
    execAll st m (es ++ fs) = execAll st m' fs := by
  induction es generalizing m with
  | nil => simp only [execAll, Option.some.injEq] at h; rw [h]; rfl
  | cons e es ih =>
    obtain ⟨g, ph, t⟩ := e
    simp only [execAll, List.cons_append] at h ⊢
    cases hg : execGroup st g ph t m with
    | none => rw [hg] at h; simp at h
    | some m1 => rw [hg] at h; exact ih m1 h

theorem execAll_cons {st : St} {m m' : Mem} {g : Nat} {ph : Phase} {t : List Call} (fs : List Event)
    (h : execGroup st g ph t m = some m') :
    execAll st m ((g, ph, t) :: fs) = execAll st m' fs := by
  simp only [execAll, h]

theorem runGroups_ok {host : Name → Bool} {s : Suite} {st : St} {G : Nat} (I : Inv host s.uses G st)
    (P : Provided host s.uses) (D : Distinct s) {j : Nat} {bs : List Body} {ev : List Event}
    (h : RunGroups 1 j bs ev) : ∀ pre : List Body, s.runs = pre ++ bs → j = 3 + pre.length → ∀ m,
      Def host st (Below s j) m →
      ∃ m', execAll st m ev = some m' ∧ Def host st (Below s (j + bs.length)) m' := by
  induction h with
  | nil j => intro pre _ _ m hm; exact ⟨m, rfl, hm⟩
  | @cons j b bs t ev hr hrest ih =>
    intro pre hpre hj m hm
    obtain ⟨m1, e1, d1⟩ := group_ok I P D
      (gs1 := [⟨.register, s.reg⟩, ⟨.initialize, s.ini⟩, ⟨.tsInitial, s.tsi⟩] ++
        pre.map (fun b => (⟨.run, b⟩ : Group))) (grp := ⟨.run, b⟩)
      (gs2 := bs.map (fun b => (⟨.run, b⟩ : Group)) ++ [⟨.tsFinal, s.tsf⟩, ⟨.finalize, s.fin⟩])
      (by simp [Suite.groups, hpre]) hr m (Below s j) hm
      (by
        intro n _ hb _
        refine ⟨?_, fun h => h⟩
        have : ([(⟨.register, s.reg⟩ : Group), ⟨.initialize, s.ini⟩, ⟨.tsInitial, s.tsi⟩] ++
          pre.map (fun b => (⟨.run, b⟩ : Group))).length = j := by simp; omega
        rwa [this] at hb)
    have hlen : ([(⟨.register, s.reg⟩ : Group), ⟨.initialize, s.ini⟩, ⟨.tsInitial, s.tsi⟩] ++
          pre.map (fun b => (⟨.run, b⟩ : Group))).length = j := by simp; omega
    rw [hlen] at e1 d1
    obtain ⟨m2, e2, d2⟩ := ih (pre ++ [b]) (by simp [hpre]) (by simp; omega) m1 (d1.mono (by
      intro n _ hb
      rw [below_succ] at hb
      refine ⟨?_, fun h => h⟩
      rcases hb with hb | hb
      · exact Or.inl ⟨hb, fun h => h⟩
      · exact Or.inr hb))
    refine ⟨m2, by rw [execAll_cons _ e1, e2], ?_⟩
    rw [List.length_cons, ← Nat.add_assoc, Nat.add_right_comm]
    exact d2

theorem timesteps_ok {host : Name → Bool} {s : Suite} {st : St} {G : Nat} (I : Inv host s.uses G st)
    (P : Provided host s.uses) (D : Distinct s) {k : Nat} {ev : List Event}
    (h : Timesteps 1 s k ev) : ∀ m, Def host st (Below s 2) m →
      ∃ m', execAll st m ev = some m' ∧ Def host st (Below s 2) m' ∧
        (1 ≤ k → Def host st (fun n => Below s (4 + s.runs.length) n ∧ ¬ Arr st true n) m') := by
  induction h with
  | nil => intro m hm; exact ⟨m, rfl, hm, by omega⟩
  | @cons ti ev tf rest k h1 h2 h3 hrest ih =>
    intro m hm
    obtain ⟨m1, e1, d1⟩ := group_ok I P D
      (gs1 := [⟨.register, s.reg⟩, ⟨.initialize, s.ini⟩]) (grp := ⟨.tsInitial, s.tsi⟩)
      (gs2 := s.runs.map (fun b => (⟨.run, b⟩ : Group)) ++ [⟨.tsFinal, s.tsf⟩, ⟨.finalize, s.fin⟩])
      rfl h1 m (Below s 2) hm (fun n _ hb _ => ⟨hb, not_arr_init I hb⟩)
    obtain ⟨m2, e2, d2⟩ := runGroups_ok I P D h2 [] rfl rfl m1 (d1.mono (by
      intro n _ hb
      rw [show 3 = 2 + 1 from rfl, below_succ] at hb
      refine ⟨?_, fun h => h⟩
      rcases hb with hb | hb
      · exact Or.inl ⟨hb, not_arr_init I hb⟩
      · exact Or.inr hb))
    have hlen : ([(⟨.register, s.reg⟩ : Group), ⟨.initialize, s.ini⟩, ⟨.tsInitial, s.tsi⟩] ++
        s.runs.map (fun b => (⟨.run, b⟩ : Group))).length = 3 + s.runs.length := by simp; omega
    obtain ⟨m3, e3, d3⟩ := group_ok I P D
      (gs1 := [⟨.register, s.reg⟩, ⟨.initialize, s.ini⟩, ⟨.tsInitial, s.tsi⟩] ++
        s.runs.map (fun b => (⟨.run, b⟩ : Group))) (grp := ⟨.tsFinal, s.tsf⟩)
      (gs2 := [⟨.finalize, s.fin⟩]) (by simp [Suite.groups]) h3 m2 _ d2
      (by rw [hlen]; exact fun n _ hb _ => ⟨hb, fun h => h⟩)
    rw [hlen] at e3 d3
    have d3' : Def host st (fun n => Below s (4 + s.runs.length) n ∧ ¬ Arr st true n) m3 :=
      d3.mono (by
        rintro n _ ⟨hb, ha⟩
        rw [show 4 + s.runs.length = 3 + s.runs.length + 1 by omega, below_succ] at hb
        refine ⟨?_, ha⟩
        rcases hb with hb | hb
        · exact Or.inl ⟨hb, fun h => h⟩
        · exact Or.inr hb)
    obtain ⟨m4, e4, d4, d5⟩ := ih m3 (d3'.mono fun n _ hb => ⟨hb.mono (by omega), not_arr_init I hb⟩)
    refine ⟨m4, ?_, d4, ?_⟩
    · have e1' : execGroup st 2 .tsInitial ti m = some m1 := e1
      rw [List.cons_append, execAll_cons _ e1', execAll_append _ _ _ _ _ e2, execAll_cons _ e3, e4]
    · intro _
      by_cases hk : 1 ≤ k
      · exact d5 hk
      · have : k = 0 := by omega
        subst this
        have hr : rest = [] := by cases hrest; rfl
        subst hr
        have : m3 = m4 := by simpa [execAll] using e4
        exact this ▸ d3'

theorem cycles_ok {host : Name → Bool} {s : Suite} {st : St} {G : Nat} (I : Inv host s.uses G st)
    (P : Provided host s.uses) (D : Distinct s) (L : Lasting host s.uses) {ev : List Event}
    (h : Cycles 1 1 s ev) : ∀ m, Def host st (Below s 1) m → (execAll st m ev).isSome := by
  induction h with
  | nil => intro m _; rfl
  | @cons i ev f rest n h1 h2 hn h3 _ ih =>
    intro m hm
    obtain ⟨m1, e1, d1⟩ := group_ok I P D
      (gs1 := [⟨.register, s.reg⟩]) (grp := ⟨.initialize, s.ini⟩)
      (gs2 := ⟨.tsInitial, s.tsi⟩ :: s.runs.map (fun b => (⟨.run, b⟩ : Group)) ++
        [⟨.tsFinal, s.tsf⟩, ⟨.finalize, s.fin⟩])
      rfl h1 m (Below s 1) hm (fun n _ hb _ => ⟨hb, not_arr_register I L hb⟩)
    obtain ⟨m2, e2, _, d2⟩ := timesteps_ok I P D h2 m1 (d1.mono (by
      intro n _ hb
      rw [show 2 = 1 + 1 from rfl, below_succ] at hb
      refine ⟨?_, fun h => h⟩
      rcases hb with hb | hb
      · exact Or.inl ⟨hb, not_arr_register I L hb⟩
      · exact Or.inr hb))
    have hlen : ([(⟨.register, s.reg⟩ : Group), ⟨.initialize, s.ini⟩, ⟨.tsInitial, s.tsi⟩] ++
        s.runs.map (fun b => (⟨.run, b⟩ : Group)) ++ [(⟨.tsFinal, s.tsf⟩ : Group)]).length = 4 + s.runs.length := by
      simp; omega
    obtain ⟨m3, e3, d3⟩ := group_ok I P D
      (gs1 := [⟨.register, s.reg⟩, ⟨.initialize, s.ini⟩, ⟨.tsInitial, s.tsi⟩] ++
        s.runs.map (fun b => (⟨.run, b⟩ : Group)) ++ [⟨.tsFinal, s.tsf⟩]) (grp := ⟨.finalize, s.fin⟩)
      (gs2 := []) (by simp [Suite.groups]) h3 m2 _ (d2 hn)
      (by rw [hlen]; exact fun n _ hb ha => ⟨⟨hb, not_arr_final I L ha⟩, fun h => h⟩)
    rw [hlen] at e3 d3
    have e1' : execGroup st 1 .initialize i m = some m1 := e1
    rw [List.cons_append, execAll_cons _ e1', execAll_append _ _ _ _ _ e2, execAll_cons _ e3]
    exact ih m3 (d3.mono fun n _ hb =>
      ⟨Or.inl ⟨⟨hb.mono (by omega), not_arr_init I (hb.mono (by omega))⟩, fun h => h⟩,
        not_arr_register I L hb⟩)

/-- **C54 (partial).** If every argument that is read has a source that assigns it (so default values
do not count), a suite is accepted, and no execution in which every subcycle and every cycle makes at
least one iteration or timestep reads an undefined value. -/
theorem C54_defined_before_use_partial (host : Name → Bool) (hone : host "ccpp_constant_one" = true)
    (s : Suite) (P : Provided host s.uses) (L : Lasting host s.uses) (D : Distinct s) :
    ∃ st, analyze host s = some st ∧
      ∀ h, History 1 1 s h → (execAll st (hostMem host) h).isSome := by
  have hc : Complete host s.uses := by
    intro pre u post e
    rcases P pre u post e with h | h | ⟨h1, h2, req, h3, h4⟩
    · exact Or.inl h
    · exact Or.inr (Or.inr (Or.inl h))
    · exact Or.inr (Or.inr (Or.inr ⟨h1, h2, req, true, h3, fun r hr => Or.inl (h4 r hr)⟩))
  obtain ⟨st, hst⟩ := Option.isSome_iff_exists.1 ((C54_accepts_iff host hone s).2 hc)
  refine ⟨st, hst, ?_⟩
  have I := analyze_inv hone hst
  rintro h ⟨hr, hcy⟩
  obtain ⟨m1, e1, d1⟩ := group_ok I P D (gs1 := []) (grp := ⟨.register, s.reg⟩)
      (gs2 := ⟨.initialize, s.ini⟩ :: ⟨.tsInitial, s.tsi⟩ :: s.runs.map (fun b => (⟨.run, b⟩ : Group)) ++
        [⟨.tsFinal, s.tsf⟩, ⟨.finalize, s.fin⟩])
      rfl hr (hostMem host) (fun _ => False) ⟨fun n h => h, fun _ _ h => h.elim⟩
      (by rintro n _ ⟨u, _, h, _⟩; simp at h)
  have e1' : execGroup st 0 .register _ (hostMem host) = some m1 := e1
  rw [execAll_cons _ e1']
  exact cycles_ok I P D L hcy m1 (d1.mono (by
    intro n _ hb
    rw [show 1 = 0 + 1 from rfl, below_succ] at hb
    refine ⟨?_, fun h => h⟩
    rcases hb with ⟨u, _, h, _⟩ | hb
    · omega
    · exact Or.inr hb))

end Ccpp.DF
