import Verif.Props.PrebuildCompare
/-!
# C69: matching of requested and provided variables by prebuild: the theorems
-/
namespace Ccpp.PB

/-- The requests and the host agree on a name. -/
def Good (host req : Dict) (k : Str) : Prop :=
  ∃ r l h, get req k = some (r :: l) ∧ get host k = some [h] ∧ Compat r h ∧ ∀ v ∈ r :: l, Convertible h.units v

/-- All requests of a name have the same type. -/
def Typed (req : Dict) : Prop := ∀ k r l, get req k = some (r :: l) → ∀ v ∈ r :: l, v.type = r.type

theorem inModule {host : Dict} (hh : HostOk host) {k : Str} {l : List Var} {h : Var} (hg : get host k = some l) (hm : h ∈ l) :
    ∃ m, InModule h m := by
  obtain ⟨m, h1, h2⟩ := hh.containers k l hg h hm
  exact ⟨m, h1, h2⟩

/-- What the iteration of a good name adds. -/
def Added (host req : Dict) (k : Str) (s s' : Cmp) : Prop :=
  ∃ r l h m w, get req k = some (r :: l) ∧ get host k = some [h] ∧ InModule h m ∧ List.Forall₂ (Matched h) (r :: l) w ∧
    s'.ok = s.ok ∧ s'.modules = s.modules ++ [m] ∧ s'.out = s.out ++ [(k, w)]

theorem step_good {host req : Dict} (hh : HostOk host) (ht : Typed req) {s : Cmp} {k : Str} (h : Good host req k) :
    ∃ s', cmpStep host req s k = some s' ∧ Added host req k s s' := by
  obtain ⟨r, l, h, h1, h2, h3, h4⟩ := h
  obtain ⟨m, hm⟩ := inModule hh h2 (List.mem_singleton.2 rfl)
  have hty : ∀ v ∈ r :: l, v.type = h.type := fun v hv => (ht k r l h1 v hv).trans h3.2.1
  obtain ⟨s', hs⟩ := (cmpMatched_spec (s := s) (k := k) hm hty).1.2 h4
  obtain ⟨e1, e2, w, e3, e4⟩ := (cmpMatched_spec hm hty).2 s' hs
  refine ⟨s', ?_, r, l, h, m, w, h1, h2, hm, e4, e1, e2, e3⟩
  unfold cmpStep
  rw [h1, h2]
  simp only [compatible_iff.2 h3, if_true]
  exact hs

theorem step_bad {host req : Dict} (hh : HostOk host) (ht : Typed req) {s s' : Cmp} {k : Str}
    (hs : cmpStep host req s k = some s') (hb : ¬ Good host req k) : s'.ok = false := by
  unfold cmpStep at hs
  split at hs
  · split at hs
    · cases hs; rfl
    · cases hs
  · rename_i r l h h1 h2
    split at hs
    · rename_i hc
      exfalso
      obtain ⟨m, hm⟩ := inModule hh h2 (List.mem_singleton.2 rfl)
      have hty : ∀ v ∈ r :: l, v.type = h.type := fun v hv => (ht k r l h1 v hv).trans (compatible_iff.1 hc).2.1
      exact hb ⟨r, l, h, h1, h2, compatible_iff.1 hc, (cmpMatched_spec hm hty).1.1 ⟨s', hs⟩⟩
    · cases hs; rfl
  · split at hs
    · cases hs; rfl
    · cases hs
  · cases hs

theorem step_false {host req : Dict} (hh : HostOk host) (ht : Typed req) {s s' : Cmp} {k : Str}
    (hs : cmpStep host req s k = some s') (hb : s.ok = false) : s'.ok = false := by
  by_cases hg : Good host req k
  · obtain ⟨s1, h1, r, l, h, m, w, _, _, _, _, e, _⟩ := step_good (s := s) hh ht hg
    rw [hs] at h1; cases h1
    rw [e]; exact hb
  · exact step_bad hh ht hs hg

theorem loop_false {host req : Dict} (hh : HostOk host) (ht : Typed req) : ∀ {ks : List Str} {s s' : Cmp},
    cmpLoop host req s ks = some s' → s.ok = false → s'.ok = false
  | [], s, s', h, hb => by rw [cmpLoop] at h; cases h; exact hb
  | k :: ks, s, s', h, hb => by
    rw [cmpLoop] at h
    cases h1 : cmpStep host req s k with
    | none => rw [h1] at h; cases h
    | some s1 =>
      rw [h1] at h
      exact loop_false hh ht h (step_false hh ht h1 hb)

theorem loop_good {host req : Dict} (hh : HostOk host) (ht : Typed req) : ∀ {ks : List Str} {s : Cmp},
    (∀ k ∈ ks, Good host req k) → ∃ s', cmpLoop host req s ks = some s' ∧ s'.ok = s.ok
  | [], s, _ => ⟨s, rfl, rfl⟩
  | k :: ks, s, h => by
    obtain ⟨s1, h1, r, l, h', m, w, _, _, _, _, e, _⟩ := step_good (s := s) hh ht (h k (by simp))
    obtain ⟨s2, h2, e2⟩ := loop_good (ks := ks) (s := s1) hh ht (fun j hj => h j (by simp [hj]))
    exact ⟨s2, by rw [cmpLoop, h1, Option.bind_some, h2], e2.trans e⟩

theorem loop_inv {host req : Dict} (hh : HostOk host) (ht : Typed req) : ∀ {ks : List Str} {s s' : Cmp},
    cmpLoop host req s ks = some s' → s'.ok = true → (∀ k ∈ ks, Good host req k) ∧
      (∀ m, m ∈ s'.modules ↔ m ∈ s.modules ∨ ∃ k ∈ ks, ∃ h, get host k = some [h] ∧ InModule h m) ∧
      ∃ o, s'.out = s.out ++ o ∧ keys o = ks ∧
        List.Forall₂ (fun k (e : Str × List Var) => ∃ l h, get req k = some l ∧ get host k = some [h] ∧
          List.Forall₂ (Matched h) l e.2) ks o
  | [], s, s', h, _ => by
    rw [cmpLoop] at h; cases h
    exact ⟨fun _ h => by (cases h), fun m => by simp, [], by simp, rfl, .nil⟩
  | k :: ks, s, s', h, hok => by
    rw [cmpLoop] at h
    cases h1 : cmpStep host req s k with
    | none => rw [h1] at h; cases h
    | some s1 =>
      rw [h1] at h
      have h' : cmpLoop host req s1 ks = some s' := h
      have hg : Good host req k := by
        apply Classical.byContradiction
        intro hn
        rw [loop_false hh ht h' (step_bad hh ht h1 hn)] at hok; cases hok
      obtain ⟨s2, h2, r, l, hv, m, w, g1, g2, g3, g4, _, e2, e3⟩ := step_good (s := s) hh ht hg
      rw [h1] at h2; cases h2
      obtain ⟨i1, i2, o, i3, i4, i5⟩ := loop_inv hh ht h' hok
      refine ⟨?_, ?_, (k, w) :: o, ?_, ?_, ?_⟩
      · intro j hj
        rcases List.mem_cons.1 hj with rfl | hj
        · exact hg
        · exact i1 j hj
      · intro n
        rw [i2 n, e2, List.mem_append, List.mem_singleton]
        constructor
        · rintro ((hn | rfl) | ⟨j, hj, hh⟩)
          · exact Or.inl hn
          · exact Or.inr ⟨k, by simp, hv, g2, g3⟩
          · exact Or.inr ⟨j, by simp [hj], hh⟩
        · rintro (hn | ⟨j, hj, x, hx, hxm⟩)
          · exact Or.inl (Or.inl hn)
          · rcases List.mem_cons.1 hj with rfl | hj
            · rw [g2] at hx; cases hx
              exact Or.inl (Or.inr (module_unique g3 hxm))
            · exact Or.inr ⟨j, hj, x, hx, hxm⟩
      · rw [i3, e3, List.append_assoc]; rfl
      · simp only [keys, List.map_cons]; rw [show List.map (·.1) o = ks from i4]
      · exact .cons ⟨r :: l, hv, g1, g2, g4⟩ i5

theorem get_of_forall2 {P : Str → List Var → Prop} : ∀ {ks : List Str} {d : Dict}, keys d = ks →
    List.Forall₂ (fun k (e : Str × List Var) => P k e.2) ks d → ∀ k ∈ ks, ∃ l, get d k = some l ∧ P k l
  | [], _, _, .nil, _, h => by cases h
  | k :: ks, e :: d, hk, .cons h1 t, j, hj => by
    simp only [keys, List.map_cons, List.cons.injEq] at hk
    rw [get]
    by_cases h : e.1 = j
    · rw [if_pos h]
      have : k = j := hk.1.symm.trans h
      exact ⟨e.2, rfl, this ▸ h1⟩
    · rw [if_neg h]
      rcases List.mem_cons.1 hj with hj | hj
      · exact absurd (hk.1.trans hj.symm) h
      · exact get_of_forall2 hk.2 t j hj

/-! ## Types -/

theorem suiteVars_typed (k : Str) : ∀ a ∈ suiteVars, ∀ b ∈ suiteVars, a.std = k → b.std = k → a = b := by
  intro a ha b hb h1 h2
  have : ∀ a ∈ suiteVars, ∀ b ∈ suiteVars, a.std = b.std → a = b := by decide
  exact this a ha b hb (h1.trans h2.symm)

theorem split_reqs {files : List (List (List Var))} {k : Str} {v : Var} (h : v ∈ reqs files.flatten.flatten k) :
    ∃ f ∈ files, v ∈ reqs f.flatten k := by
  rw [mem_reqs, List.mem_flatten] at h
  obtain ⟨⟨t, ht, hv⟩, hk⟩ := h
  rw [List.mem_flatten] at ht
  obtain ⟨f, hf, ht⟩ := ht
  exact ⟨f, hf, mem_reqs.2 ⟨List.mem_flatten.2 ⟨t, ht, hv⟩, hk⟩⟩

/-- All requests of a name have the standard name, type and rank of the first. -/
theorem same_type {files : List (List (List Var))} (h1 : ∀ f ∈ files, LegalFile f) (h2 : FirstsAgree files) {k : Str} {r : Var}
    {l : List Var} (h : allReqs files k = r :: l) : ∀ v ∈ r :: l, v.std = r.std ∧ v.type = r.type ∧ v.dims.length = r.dims.length := by
  intro v hv
  unfold allReqs at h
  split at h
  · unfold suiteReq at h
    have hr : r ∈ reqs suiteVars k := by rw [h]; simp
    have hv' : v ∈ reqs suiteVars k := by rw [h]; exact hv
    rw [mem_reqs] at hr hv'
    rw [suiteVars_typed k v hv'.1 r hr.1 hv'.2 hr.2]
    exact ⟨rfl, rfl, rfl⟩
  · obtain ⟨f, hf, hvf⟩ := split_reqs (h ▸ hv)
    cases hb : reqs f.flatten k with
    | nil => rw [hb] at hvf; cases hvf
    | cons b m =>
      have hrb := h2 k r l f b m h hf hb
      rw [hb] at hvf
      rcases List.mem_cons.1 hvf with rfl | hvm
      · exact ⟨hrb.1.symm, hrb.2.1.symm, hrb.2.2.1.symm⟩
      · have hp : (reqs f.flatten k).Pairwise SameAgree := ((h1 f hf).2).sublist List.filter_sublist
        rw [hb, List.pairwise_cons] at hp
        have hbk : b.std = k := (mem_reqs.1 (hb ▸ List.mem_cons_self : b ∈ reqs f.flatten k)).2
        have hvk : v.std = k := (mem_reqs.1 (hb ▸ List.mem_cons_of_mem _ hvm : v ∈ reqs f.flatten k)).2
        have hbv := hp.1 v hvm (hbk.trans hvk.symm)
        exact ⟨hbv.1.symm.trans hrb.1.symm, hbv.2.1.symm.trans hrb.2.1.symm, hbv.2.2.1.symm.trans hrb.2.2.1.symm⟩

theorem firsts_iff {files : List (List (List Var))} : FirstsFrom [] files ↔ FirstsAgree files := by
  unfold FirstsFrom FirstsAgree
  simp only [List.nil_append]

/-- A dictionary of requests. -/
structure Reqs (req : Dict) (R : Str → List Var) : Prop where
  nodup : (keys req).Nodup
  eq : ∀ k, get req k = if R k = [] then none else some (R k)
  typed : ∀ k r l, R k = r :: l → ∀ v ∈ r :: l, v.type = r.type

theorem Reqs.mem {req : Dict} {R : Str → List Var} (h : Reqs req R) (k : Str) : k ∈ keys req ↔ R k ≠ [] := by
  rw [mem_keys, h.eq k]
  by_cases h0 : R k = []
  · simp [h0]
  · simp [h0]

theorem Reqs.typed' {req : Dict} {R : Str → List Var} (h : Reqs req R) : Typed req := by
  intro k r l hg v hv
  rw [h.eq k] at hg
  split at hg
  · cases hg
  · exact h.typed k r l (Option.some.inj hg) v hv

theorem compare_iff {host req : Dict} {R : Str → List Var} (hh : HostOk host) (hR : Reqs req R) :
    (∃ ms md, compare host req = some (true, ms, md)) ↔
      (∀ k r l, R k = r :: l → ∃ h, get host k = some [h] ∧ Compat r h) ∧
      ∀ k r h, r ∈ R k → get host k = some [h] → Convertible h.units r := by
  constructor
  · rintro ⟨ms, md, h⟩
    unfold compare at h
    obtain ⟨s, hs, he⟩ := Option.map_eq_some_iff.1 h
    have hok : s.ok = true := congrArg (·.1) he
    have hi := loop_inv hh hR.typed' hs hok
    have hgood : ∀ k, R k ≠ [] → ∃ r l h, R k = r :: l ∧ get host k = some [h] ∧ Compat r h ∧
        ∀ v ∈ r :: l, Convertible h.units v := by
      intro k hk
      obtain ⟨r, l, h, e1, e2⟩ := hi.1 k (RV.mem_sorted.2 ((hR.mem k).2 hk))
      rw [hR.eq k, if_neg hk] at e1
      exact ⟨r, l, h, Option.some.inj e1, e2⟩
    constructor
    · intro k r l hr
      obtain ⟨r', l', h, e1, e2, e3, _⟩ := hgood k (by rw [hr]; simp)
      rw [hr] at e1; cases e1
      exact ⟨h, e2, e3⟩
    · intro k r h hr hg
      obtain ⟨r', l', h', e1, e2, e3, e4⟩ := hgood k (by intro h0; rw [h0] at hr; cases hr)
      rw [hg] at e2; cases e2
      rw [e1] at hr
      exact e4 r hr
  · rintro ⟨h3, h4⟩
    obtain ⟨s, hs, hok⟩ := loop_good (s := ⟨true, [], [], none⟩) (ks := RV.sorted (keys req)) hh hR.typed' (by
      intro k hk
      have hw := (hR.mem k).1 (RV.mem_sorted.1 hk)
      cases hr : R k with
      | nil => exact absurd hr hw
      | cons r l =>
        obtain ⟨h, e1, e2⟩ := h3 k r l hr
        exact ⟨r, l, h, by rw [hR.eq k, if_neg hw, hr], e1, e2, fun v hv => h4 k v h (hr ▸ hv) e1⟩)
    refine ⟨sortedSet s.modules, s.out, ?_⟩
    unfold compare
    rw [hs]
    simp [hok]

theorem compare_result {host req : Dict} {R : Str → List Var} (hh : HostOk host) (hR : Reqs req R) {ms : List Str} {md : Dict}
    (h : compare host req = some (true, ms, md)) : Result host R ms md := by
  unfold compare at h
  obtain ⟨s, hs, he⟩ := Option.map_eq_some_iff.1 h
  have hok : s.ok = true := congrArg (·.1) he
  have hms : sortedSet s.modules = ms := congrArg (·.2.1) he
  have hmd : s.out = md := congrArg (·.2.2) he
  obtain ⟨i1, i2, o, i3, i4, i5⟩ := loop_inv hh hR.typed' hs hok
  rw [List.nil_append] at i3
  rw [hmd] at i3
  subst i3
  have hmem : ∀ k, k ∈ RV.sorted (keys req) ↔ R k ≠ [] := fun k => by
    rw [RV.mem_sorted, hR.mem]
  refine ⟨?_, ?_, ?_⟩
  · rw [← hms]
    refine DT.sortedSet_spec ?_
    intro m
    rw [i2 m]
    constructor
    · rintro (h | ⟨k, hk, x, hx, hm⟩)
      · cases h
      · exact ⟨k, x, (hmem k).1 hk, hx, hm⟩
    · rintro ⟨k, x, hk, hx, hm⟩
      exact Or.inr ⟨k, (hmem k).2 hk, x, hx, hm⟩
  · rw [i4]
    exact ⟨DT.sorted_ordered _, RV.nodup_sorted.2 hR.nodup, hmem⟩
  · intro k x hk hx
    obtain ⟨l, hl, m, y, g1, g2, g3⟩ := get_of_forall2 (P := fun k e => ∃ l h, get req k = some l ∧
      get host k = some [h] ∧ List.Forall₂ (Matched h) l e) i4 i5 k ((hmem k).2 hk)
    rw [hx] at g2; cases g2
    rw [hR.eq k, if_neg hk] at g1; cases g1
    exact ⟨l, hl, g3⟩

theorem reqs_all {files : List (List (List Var))} {d : Dict} (h : collect [] files = some d) :
    Reqs (addSuiteFrom d suiteVars) (allReqs files) := by
  obtain ⟨h1, h2⟩ := (collect_spec rep_nil).1.1 ⟨d, h⟩
  exact ⟨(request_spec h).1, (request_spec h).2, fun k r l hr v hv => (same_type h1 (firsts_iff.1 h2) hr v hv).2.1⟩

/-- **C69**: prebuild succeeds exactly if the tables are legal, the first requests of the files agree, every wanted name is
provided exactly once by the host with a variable that agrees with the first request, and the unit conversions exist. -/
theorem C69_accepted_iff {host : Dict} (hh : HostOk host) (files : List (List (List Var))) :
    (∃ ms md, matchVars host files = some (true, ms, md)) ↔ Acceptable host files := by
  constructor
  · rintro ⟨ms, md, h⟩
    unfold matchVars at h
    cases hc : collect [] files with
    | none => rw [hc] at h; cases h
    | some d =>
      rw [hc, Option.bind_some] at h
      obtain ⟨h1, h2⟩ := (collect_spec rep_nil).1.1 ⟨d, hc⟩
      obtain ⟨h3, h4⟩ := (compare_iff hh (reqs_all hc)).1 ⟨ms, md, h⟩
      exact ⟨h1, firsts_iff.1 h2, h3, h4⟩
  · rintro ⟨h1, h2, h3, h4⟩
    obtain ⟨d, hc⟩ := (collect_spec rep_nil).1.2 ⟨h1, firsts_iff.2 h2⟩
    unfold matchVars
    rw [hc, Option.bind_some]
    exact (compare_iff hh (reqs_all hc)).2 ⟨h3, h4⟩

/-- **C69**: what a successful prebuild records: the modules of the variables of the host, and for every wanted name all its
requests, in order, with target, conversions and kind. -/
theorem C69_result {host : Dict} (hh : HostOk host) {files : List (List (List Var))} {ms : List Str} {md : Dict}
    (h : matchVars host files = some (true, ms, md)) : Result host (allReqs files) ms md := by
  unfold matchVars at h
  cases hc : collect [] files with
  | none => rw [hc] at h; cases h
  | some d =>
    rw [hc, Option.bind_some] at h
    exact compare_result hh (reqs_all hc) h

/-- **C69**, partial: after a successful prebuild every request has the type and the rank of the variable of the host, and its
kind as well if no request of this name and not the host has an assumed length (the property also wants this when there are). -/
theorem C69_agree_partial {host : Dict} (hh : HostOk host) {files : List (List (List Var))} {ms : List Str} {md : Dict}
    (h : matchVars host files = some (true, ms, md)) {k : Str} {h' v : Var} (hk : get host k = some [h']) (hv : v ∈ allReqs files k) :
    v.type = h'.type ∧ v.dims.length = h'.dims.length ∧
    ((h'.kind ≠ "len=*".toList ∧ ∀ w ∈ allReqs files k, w.kind ≠ "len=*".toList) → v.kind = h'.kind) := by
  obtain ⟨h1, h2, h3, _⟩ := (C69_accepted_iff hh files).1 ⟨ms, md, h⟩
  cases hr : allReqs files k with
  | nil => rw [hr] at hv; cases hv
  | cons r l =>
    obtain ⟨h'', e1, e2⟩ := h3 k r l hr
    rw [hk] at e1; cases e1
    have hs := same_type h1 h2 hr v (hr ▸ hv)
    refine ⟨hs.2.1.trans e2.2.1, hs.2.2.trans e2.2.2.1, ?_⟩
    rintro ⟨n1, n2⟩
    have kind_eq : ∀ {a b : Var}, Compat a b → a.kind ≠ "len=*".toList → b.kind ≠ "len=*".toList → a.kind = b.kind := by
      intro a b hc ha hb
      rcases hc.2.2.2 with h | ⟨_, h | h⟩
      · exact h
      · exact absurd h.1 ha
      · exact absurd h.1 hb
    have hrk : r.kind = h'.kind := kind_eq e2 (n2 r (by simp)) n1
    rw [← hrk]
    unfold allReqs at hr
    split at hr
    · unfold suiteReq at hr
      rename_i h0
      have hr' : r ∈ reqs suiteVars k := by rw [hr]; simp
      have hv' : v ∈ reqs suiteVars k := by unfold allReqs suiteReq at hv; rw [if_pos h0] at hv; exact hv
      rw [mem_reqs] at hr' hv'
      rw [suiteVars_typed k v hv'.1 r hr'.1 hv'.2 hr'.2]
    · rename_i h0
      have hv' : v ∈ reqs files.flatten.flatten k := by unfold allReqs at hv; rw [if_neg h0] at hv; exact hv
      have hin : ∀ w ∈ reqs files.flatten.flatten k, w.kind ≠ "len=*".toList := fun w hw => n2 w (hr ▸ hw)
      obtain ⟨f, hf, hvf⟩ := split_reqs hv'
      have up : ∀ w, w ∈ reqs f.flatten k → w ∈ reqs files.flatten.flatten k := by
        intro w hw
        rw [mem_reqs] at hw ⊢
        refine ⟨?_, hw.2⟩
        obtain ⟨t, ht, hwt⟩ := List.mem_flatten.1 hw.1
        exact List.mem_flatten.2 ⟨t, List.mem_flatten.2 ⟨f, hf, ht⟩, hwt⟩
      cases hb : reqs f.flatten k with
      | nil => rw [hb] at hvf; cases hvf
      | cons b m =>
        have hbm : b ∈ reqs f.flatten k := by rw [hb]; simp
        have hrb := kind_eq (h2 k r l f b m hr hf hb) (n2 r (by simp)) (hin b (up b hbm))
        rw [hrb]
        have hvf' := hvf
        rw [hb] at hvf
        rcases List.mem_cons.1 hvf with rfl | hvm
        · rfl
        · have hp : (reqs f.flatten k).Pairwise SameAgree := ((h1 f hf).2).sublist List.filter_sublist
          rw [hb, List.pairwise_cons] at hp
          have hbv := hp.1 v hvm ((mem_reqs.1 hbm).2.trans (mem_reqs.1 hvf').2.symm)
          exact (kind_eq hbv (hin b (up b hbm)) (hin v hv')).symm

end Ccpp.PB
