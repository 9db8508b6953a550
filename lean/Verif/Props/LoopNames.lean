import Verif.Props.LoopActions
import Verif.Props.VarDictionary
/-!
# C96: the names of the variables a group computes
-/
namespace Ccpp.LoopAct
open VD (cand dec nameLoop nameLoop_succ dec_pos dec_len_mono hasSub_append)

theorem dec_digit {n : Nat} : ∀ c ∈ dec n, isWordC c = true ∧ c.toLower = c := by
  have key : ∀ k < 10, isWordC (Nat.digitChar k) = true ∧ (Nat.digitChar k).toLower = Nat.digitChar k := by decide
  intro c hc
  rcases Nat.eq_zero_or_pos n with rfl | hn
  · have : c = '0' := by simpa [dec] using hc
    subst this; decide
  · rw [dec_pos (by omega), List.mem_reverse] at hc
    obtain ⟨k, hk, rfl⟩ := List.mem_map.1 hc
    exact key k (Nat.digits_lt_base (by decide) hk)

/-- If no candidate is too long, the result is a candidate that is not taken. -/
theorem nameLoop_cand {taken : List Str} {maxLen : Nat} {p : Str} : ∀ f i n, (∀ j, i ≤ j → j < i + f → (cand p j).length ≤ maxLen) →
    nameLoop taken maxLen f p i = some n → ∃ j, n = cand p j ∧ n ∉ taken := by
  intro f
  induction f with
  | zero => intro i n _ h; cases h
  | succ f ih =>
    intro i n hl h
    rw [nameLoop_succ, if_neg (by have := hl i (by omega) (by omega); omega)] at h
    split at h
    · exact ih (i + 1) n (fun j h1 h2 => hl j (by omega) (by omega)) h
    · next ht => cases h; exact ⟨i, rfl, ht⟩

/-- A prefix for new names. -/
structure Pre (p : Str) : Prop where
  short : p.length ≤ 20
  low : ∀ c ∈ p, c.toLower = c
  name : IsName p

theorem newName_ok {g : Grp} {p l : Str} (hp : Pre p) (hg : g.own.length ≤ 800) (h : newName g p = some l) :
    IsName l ∧ lower l = l ∧ lower l ∉ g.own.map fun q => lower q.2 := by
  unfold newName at h
  obtain ⟨j, e, ht⟩ := nameLoop_cand _ _ _ (by
    intro j _ hj
    unfold cand
    split
    · have := hp.short; omega
    · next h0 =>
      have h1 := dec_len_mono (a := j) (b := 999) (by omega) h0
      have h2 : (dec 999).length = 3 := by decide +kernel
      have := hp.short
      rw [List.length_append]; omega) h
  have hpre : ∃ t, l = p ++ t ∧ ∀ c ∈ t, isWordC c = true ∧ c.toLower = c := by
    rw [e]; unfold cand
    split
    · exact ⟨[], by simp, by simp⟩
    · exact ⟨_, rfl, dec_digit⟩
  obtain ⟨t, rfl, htc⟩ := hpre
  have hlow : lower (p ++ t) = p ++ t := by
    unfold lower
    rw [List.map_congr_left (g := id), List.map_id]
    intro c hc
    rcases List.mem_append.1 hc with hc | hc
    · exact hp.low c hc
    · exact (htc c hc).2
  refine ⟨⟨?_, ?_⟩, hlow, ?_⟩
  · obtain ⟨c, hc, hl⟩ := hp.name.1
    refine ⟨c, ?_, hl⟩
    cases p with
    | nil => cases hc
    | cons a p => exact hc
  · intro c hc
    rcases List.mem_append.1 hc with hc | hc
    · exact hp.name.2 c hc
    · exact (htc c hc).1
  · intro hm
    apply ht
    rw [List.mem_filter]
    rw [hlow] at hm
    exact ⟨hm, hasSub_append p t⟩

theorem pre_of_table : ∀ s ∈ table, Pre s.pre := by
  have key : ∀ s ∈ table, s.pre.length ≤ 20 ∧ (∀ c ∈ s.pre, c.toLower = c) ∧
      ((match s.pre.head? with | some c => isLetter c | none => false) = true ∧ ∀ c ∈ s.pre, isWordC c = true) := by decide +kernel
  intro s hs
  obtain ⟨h1, h2, h3, h4⟩ := key s hs
  refine ⟨h1, h2, ?_, h4⟩
  cases hx : s.pre.head? with
  | none => rw [hx] at h3; cases h3
  | some c => rw [hx] at h3; exact ⟨c, rfl, h3⟩

theorem own_short {outer : Str → Option Str} {g : Grp} (h : Inv outer g) : g.own.length ≤ 5 := by
  have e := congrArg List.length h.own
  rw [List.length_map] at e
  rw [e]
  have hsub : (g.loops.map (·.missing)) ⊆ table.map (·.missing) := by
    intro x hx
    obtain ⟨s, hs, rfl⟩ := List.mem_map.1 hx
    exact List.mem_map.2 ⟨s, h.tab s hs, rfl⟩
  exact (List.Nodup.subperm h.nodup hsub).length_le

/-- The names of the group's own variables. -/
structure Names (g : Grp) : Prop where
  nodup : (g.own.map fun q => lower q.2).Nodup
  low : ∀ q ∈ g.own, lower q.2 = q.2
  name : ∀ q ∈ g.own, IsName q.2

theorem step_names {outer : Str → Option Str} {g g' : Grp} (h : Inv outer g) (hN : Names g) {std : Str}
    (hs : step outer g (.need std) = some g') : Names g' := by
  unfold step at hs
  simp only at hs
  split at hs
  · next l hf =>
    cases hs
    have e := (addArg_own g std l).1
    exact ⟨by rw [e]; exact hN.nodup, by rw [e]; exact hN.low, by rw [e]; exact hN.name⟩
  · next hf =>
    split at hs
    · cases hs
    · next s hm =>
      split at hs
      · cases hs
      · next svars hv =>
        obtain ⟨htab, hmiss⟩ := loopVarMatch_some hm
        unfold hasSubst at hv
        have hfs : ∀ p ∈ svars, find outer g p.1 = some p.2 := by
          intro p hp
          obtain ⟨r, _, hr⟩ := mapM_all hv p hp
          obtain ⟨l, hl, e⟩ := Option.map_eq_some_iff.1 hr
          rw [← e]; exact hl
        obtain ⟨i1, i2, i3, i4, i5⟩ := foldArgs svars h hfs
        generalize hG : svars.foldl (fun g p => addArg g p.1 p.2) g = G at *
        have hNG : Names G := ⟨by rw [i2]; exact hN.nodup, by rw [i2]; exact hN.low, by rw [i2]; exact hN.name⟩
        unfold register at hs
        simp only at hs
        split at hs
        · cases hs; exact ⟨hNG.nodup, hNG.low, hNG.name⟩
        · split at hs
          · cases hs
          · next l hl =>
            cases hs
            obtain ⟨h1, h2, h3⟩ := newName_ok (pre_of_table s htab) (by have := own_short i1; omega) hl
            refine ⟨?_, ?_, ?_⟩
            · simp only [List.map_append, List.map_cons, List.map_nil]
              rw [List.nodup_append]
              refine ⟨hNG.nodup, by simp, ?_⟩
              intro a ha b hb e
              rw [List.mem_singleton.1 hb] at e
              exact h3 (e ▸ ha)
            · intro q hq
              rcases List.mem_append.1 hq with hq | hq
              · exact hNG.low q hq
              · rw [List.mem_singleton.1 hq]; exact h2
            · intro q hq
              rcases List.mem_append.1 hq with hq | hq
              · exact hNG.name q hq
              · rw [List.mem_singleton.1 hq]; exact h1

theorem analyze_names {outer : Str → Option Str} : ∀ (es : List Event) {g g' : Grp}, Inv outer g → Names g → (∀ e ∈ es, IsNeed e) →
    analyze outer g es = some g' → Names g'
  | [], g, g', _, h, _, ha => by cases ha; exact h
  | e :: es, g, g', h, hN, hn, ha => by
    unfold analyze at ha
    split at ha
    · cases ha
    · next g1 hs =>
      have := hn e List.mem_cons_self
      cases e with
      | create s l => exact this.elim
      | need std => exact analyze_names es (step_inv h hs) (step_names h hN hs) (fun e he => hn e (List.mem_cons_of_mem _ he)) ha

/-- C96: the variables that a group computes have Fortran names, which differ from each other, also if case is ignored. -/
theorem C96_names (outer : Str → Option Str) (events : List Event) (g : Grp) (he : ∀ e ∈ events, IsNeed e)
    (ha : analyze outer ⟨[], [], []⟩ events = some g) :
    (g.own.map fun q => lower q.2).Nodup ∧ ∀ q ∈ g.own, IsName q.2 := by
  have := analyze_names events (inv_empty outer) ⟨by simp, by simp, by simp⟩ he ha
  exact ⟨this.nodup, this.name⟩

/-- C96: the calculations can be written, and executing them leaves the arguments of the group as they are and gives
every loop variable of the group its value, if no argument has the name of a variable of the group. -/
theorem C96_partial (outer : Str → Option Str) (events : List Event) (g : Grp) (he : ∀ e ∈ events, IsNeed e)
    (ha : analyze outer ⟨[], [], []⟩ events = some g) (hn : (g.args.map (·.2)).Nodup)
    (hd : ∀ p ∈ g.own, ∀ q ∈ g.args, p.2 ≠ q.2) (hl : ∀ p ∈ g.args, IsName p.2) :
    ∃ texts, writeLoops g g.loops = some texts ∧ ∀ env, ∃ env', Runs texts env env' ∧
      (∀ p ∈ g.args, env' p.2 = env p.2) ∧ ∀ p ∈ g.own, Right g env' p.1 p.2 := by
  obtain ⟨h1, h2⟩ := C96_names outer events g he ha
  refine loops_right outer events g he ha ?_ ?_
  · rw [List.map_append, List.nodup_append]
    refine ⟨?_, hn, ?_⟩
    · have : (g.own.map fun q => lower q.2) = (g.own.map (·.2)).map lower := by simp
      rw [this] at h1
      exact List.Nodup.of_map _ h1
    · intro a ha' b hb e
      obtain ⟨p, hp, rfl⟩ := List.mem_map.1 ha'
      obtain ⟨q, hq, rfl⟩ := List.mem_map.1 hb
      exact hd p hp q hq e
  · intro p hp
    rcases List.mem_append.1 hp with hp | hp
    · exact h2 p hp
    · exact hl p hp

end Ccpp.LoopAct
