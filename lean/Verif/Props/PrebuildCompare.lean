import Verif.Props.PrebuildMatch
/-!
# C69: matching of requested and provided variables by prebuild
-/
namespace Ccpp.PB

/-! ## The variables of the suites -/

theorem reqs_cons (v : Var) (l : List Var) (k : Str) : reqs (v :: l) k = if v.std = k then v :: reqs l k else reqs l k := by
  unfold reqs
  by_cases h : v.std = k <;> simp [h]

theorem addSuite_spec : ∀ {vs : List Var} {d : Dict}, (vs.map (·.std)).Nodup → (keys d).Nodup →
    (keys (addSuiteFrom d vs)).Nodup ∧
    ∀ k, get (addSuiteFrom d vs) k = match get d k with
      | some l => some l
      | none => if reqs vs k = [] then none else some (reqs vs k)
  | [], d, _, hd => by
    refine ⟨hd, ?_⟩
    intro k
    rw [addSuiteFrom]
    cases get d k <;> rfl
  | v :: vs, d, hn, hd => by
    rw [List.map_cons, List.nodup_cons] at hn
    rw [addSuiteFrom]
    have hv : reqs vs v.std = [] := by
      apply List.eq_nil_iff_forall_not_mem.2
      intro w hw
      rw [mem_reqs] at hw
      exact hn.1 (List.mem_map.2 ⟨w, hw.1, hw.2⟩)
    cases hg : get d v.std with
    | some l =>
      obtain ⟨h1, h2⟩ := addSuite_spec hn.2 hd
      refine ⟨h1, ?_⟩
      intro k
      rw [h2 k]
      cases hk : get d k with
      | some m => rfl
      | none =>
        have : ¬ v.std = k := fun h => by rw [h] at hg; rw [hg] at hk; cases hk
        rw [reqs_cons, if_neg this]
    | none =>
      have hd' : (keys (d ++ [(v.std, [v])])).Nodup := by
        rw [keys_append, List.nodup_append]
        refine ⟨hd, by simp [keys], ?_⟩
        intro a ha b hb
        have hb' : b = v.std := by simpa [keys] using hb
        subst hb'
        rintro rfl
        exact (get_none.1 hg) ha
      obtain ⟨h1, h2⟩ := addSuite_spec hn.2 hd'
      refine ⟨h1, ?_⟩
      intro k
      rw [h2 k, get_append]
      by_cases hk : v.std = k
      · subst hk
        rw [hg, reqs_cons, if_pos rfl, hv]
        simp [get]
      · rw [reqs_cons, if_neg hk]
        cases get d k with
        | some m => rfl
        | none => simp [get, hk]

theorem suite_nodup : (suiteVars.map (·.std)).Nodup := by decide

/-- The dictionary of the requests. -/
theorem request_spec {files : List (List (List Var))} {d : Dict} (h : collect [] files = some d) :
    (keys (addSuiteFrom d suiteVars)).Nodup ∧
    ∀ k, get (addSuiteFrom d suiteVars) k = if allReqs files k = [] then none else some (allReqs files k) := by
  have hr := (collect_spec rep_nil).2 d h
  rw [List.nil_append] at hr
  obtain ⟨h1, h2⟩ := addSuite_spec suite_nodup hr.1
  refine ⟨h1, ?_⟩
  intro k
  rw [h2 k, hr.2 k]
  unfold allReqs suiteReq
  by_cases h0 : reqs files.flatten.flatten k = []
  · rw [if_pos h0, if_pos h0]
  · rw [if_neg h0, if_neg h0, if_neg h0]

/-! ## Containers -/

theorem splitOn_none {c : Char} : ∀ {s : Str}, c ∉ s → splitOn c s = [s]
  | [], _ => rfl
  | d :: s, h => by
    rw [List.mem_cons, not_or] at h
    rw [splitOn, if_neg (fun h' => h.1 h'.symm), splitOn_none h.2]

theorem splitOn_append {c : Char} : ∀ {s t : Str}, c ∉ s → splitOn c (s ++ c :: t) = s :: splitOn c t
  | [], t, _ => by rw [List.nil_append, splitOn, if_pos rfl]
  | d :: s, t, h => by
    rw [List.mem_cons, not_or] at h
    rw [List.cons_append, splitOn, if_neg (fun h' => h.1 h'.symm), splitOn_append h.2]

theorem before_append {p m : Str} (h : '_' ∉ p) : beforeUnderscore (p ++ '_' :: m) = p ∧ afterUnderscore (p ++ '_' :: m) = m := by
  unfold beforeUnderscore afterUnderscore
  have hp : ∀ x ∈ p, (x != '_') = true := fun x hx => by
    simp; rintro rfl; exact h hx
  rw [List.takeWhile_append_of_pos hp, List.dropWhile_append_of_pos hp]
  simp

theorem scan_module {i : Str} (h : beforeUnderscore i = "MODULE".toList) (ok : Bool) (ms is : List Str) :
    scanItems ok ms (i :: is) = scanItems ok (ms ++ [afterUnderscore i]) is := by rw [scanItems, if_pos h]

theorem scan_type {i : Str} (h : beforeUnderscore i = "TYPE".toList) (ok : Bool) (ms is : List Str) :
    scanItems ok ms (i :: is) = scanItems ok ms is := by
  rw [scanItems, if_neg (by rw [h]; decide), if_pos h]

theorem scan_of_module {h : Var} {m : Str} (hm : InModule h m) : ∃ items, itemsOf h = some items ∧
    ∀ ok ms, scanItems ok ms items = (ok, ms ++ [m]) := by
  obtain ⟨h1, h2⟩ := hm
  have u1 : '_' ∉ "MODULE".toList := by decide
  have u2 : '_' ∉ "TYPE".toList := by decide
  have s1 : ' ' ∉ "MODULE".toList := by decide
  have s2 : ' ' ∉ "TYPE".toList := by decide
  have hsp : ' ' ∉ "MODULE".toList ++ '_' :: m := by
    rw [List.mem_append, List.mem_cons, not_or, not_or]; exact ⟨s1, by decide, h1⟩
  have b1 := before_append (m := m) u1
  rcases h2 with h2 | ⟨t, ht, h2⟩
  · refine ⟨_, by unfold itemsOf; rw [h2]; rfl, ?_⟩
    intro ok ms
    rw [show "MODULE_".toList ++ m = "MODULE".toList ++ '_' :: m from rfl, splitOn_none hsp, scan_module b1.1, b1.2]
    rfl
  · refine ⟨_, by unfold itemsOf; rw [h2]; rfl, ?_⟩
    intro ok ms
    have hst : ' ' ∉ "TYPE".toList ++ '_' :: t := by
      rw [List.mem_append, List.mem_cons, not_or, not_or]; exact ⟨s2, by decide, ht⟩
    have b2 := before_append (m := t) u2
    rw [show "MODULE_".toList ++ m ++ " TYPE_".toList ++ t = ("MODULE".toList ++ '_' :: m) ++ ' ' :: ("TYPE".toList ++ '_' :: t) by
      rw [List.append_assoc]; rfl]
    rw [splitOn_append hsp, splitOn_none hst, scan_module b1.1, b1.2, scan_type b2.1]
    rfl

theorem module_unique {h : Var} {m m' : Str} (h1 : InModule h m) (h2 : InModule h m') : m' = m := by
  obtain ⟨i, hi, hs⟩ := scan_of_module h1
  obtain ⟨i', hi', hs'⟩ := scan_of_module h2
  rw [hi] at hi'; cases hi'
  have := hs true []
  rw [hs' true []] at this
  simpa using this

/-! ## One request -/

theorem register_spec {u : Str} {v : Var} : ((∃ w, register u v = some w) ↔ Convertible u v) ∧
    ∀ w, register u v = some w → w = { v with
      actIn := (if v.units ≠ u ∧ (v.intent = "in".toList ∨ v.intent = "inout".toList) then conversion u v.units else v.actIn)
      actOut := (if v.units ≠ u ∧ (v.intent = "out".toList ∨ v.intent = "inout".toList) then conversion v.units u
        else v.actOut) } := by
  unfold register Convertible
  have n1 : "inout".toList ≠ "in".toList := by decide
  have n2 : "inout".toList ≠ "out".toList := by decide
  have n3 : "in".toList ≠ "out".toList := by decide
  generalize "inout".toList = A at *
  generalize "in".toList = B at *
  generalize "out".toList = C at *
  by_cases h0 : v.units = u
  · subst h0; simp
  · rw [if_neg h0]
    simp only [h0, not_false_eq_true, ne_eq, true_and, forall_const]
    by_cases h1 : v.intent = A
    · rw [if_pos h1]
      have hB : ¬ v.intent = B := fun h => n1 (h1.symm.trans h)
      have hC : ¬ v.intent = C := fun h => n2 (h1.symm.trans h)
      simp only [convertFrom, convertTo, h1]
      cases hf : conversion u v.units with
      | none => simp
      | some f =>
        cases hg : conversion v.units u with
        | none => simp [hg]
        | some g => simp [hg]
    · rw [if_neg h1]
      by_cases h2 : v.intent = B
      · rw [if_pos h2]
        have hC : ¬ B = C := n3
        have hA : ¬ B = A := fun h => n1 h.symm
        simp only [convertFrom, h2]
        cases hf : conversion u v.units with
        | none => simp
        | some f => simp [hC, hA]
      · rw [if_neg h2]
        by_cases h3 : v.intent = C
        · rw [if_pos h3]
          have hB : ¬ C = B := fun h => n3 h.symm
          have hA : ¬ C = A := fun h => n2 h.symm
          simp only [convertTo, h3]
          cases hf : conversion v.units u with
          | none => simp
          | some f => simp [hB, hA]
        · rw [if_neg h3]; simp [h1, h2, h3]

/-- `Matched` for the result of the two steps. -/
theorem matched_of {h v v' w : Var} {ms : List Str} {kind : Option Str} (h1 : register h.units v = some v')
    (h2 : setTarget ms kind h.loc v' = some w) (hk : v.type = characterT → kind = some h.kind) : Matched h v w := by
  have hv := register_spec.2 v' h1
  unfold setTarget at h2
  have ht : v'.type = v.type := by rw [hv]
  have hkd : v'.kind = v.kind := by rw [hv]
  rw [ht, hkd] at h2
  unfold Matched
  change _ ∧ _ ∧ _ ∧ w.kind = (if v.type = characterT ∧ v.kind = lenStar then h.kind else v.kind) ∧ _
  split at h2
  · cases h2
  · split at h2
    · rename_i hc
      rw [hk hc.1] at h2
      simp only [Option.map_some, Option.some.injEq] at h2
      subst h2
      rw [if_pos hc, hv]
      exact ⟨rfl, rfl, rfl, rfl, rfl, rfl, rfl, rfl, rfl, rfl, rfl, rfl⟩
    · rename_i hc
      cases h2
      rw [if_neg hc, hv]
      exact ⟨rfl, rfl, rfl, rfl, rfl, rfl, rfl, rfl, rfl, rfl, rfl, rfl⟩

theorem forall2_comp {α β γ : Type} {P : α → β → Prop} {Q : β → γ → Prop} {R : α → γ → Prop} :
    ∀ {l : List α} {m : List β} {n : List γ}, List.Forall₂ P l m → List.Forall₂ Q m n → (∀ a ∈ l, ∀ b c, P a b → Q b c → R a c) →
    List.Forall₂ R l n
  | [], _, _, .nil, .nil, _ => .nil
  | _ :: _, _, _, .cons h1 t1, .cons h2 t2, h =>
    .cons (h _ (by simp) _ _ h1 h2) (forall2_comp t1 t2 (fun a ha b c => h a (by simp [ha]) b c))

theorem forall2_mem {α β : Type} {P : α → β → Prop} : ∀ {l : List α} {m : List β}, List.Forall₂ P l m → ∀ {b : β}, b ∈ m →
    ∃ a ∈ l, P a b
  | [], _, .nil, _, h => by cases h
  | a :: _, _, .cons h1 t, b, h => by
    rcases List.mem_cons.1 h with rfl | h
    · exact ⟨a, by simp, h1⟩
    · obtain ⟨x, hx, hp⟩ := forall2_mem t h
      exact ⟨x, by simp [hx], hp⟩

theorem setTarget_some {ms : List Str} {kind : Option Str} {t : Str} {v : Var} (h1 : ms ≠ []) (h2 : v.type = characterT → kind ≠ none) :
    ∃ w, setTarget ms kind t v = some w := by
  unfold setTarget
  rw [if_neg h1]
  split
  · rename_i hc
    cases kind with
    | none => exact absurd rfl (h2 hc.1)
    | some k => exact ⟨_, rfl⟩
  · exact ⟨_, rfl⟩

/-- A matched name. -/
theorem cmpMatched_spec {s : Cmp} {k m : Str} {h : Var} {req : List Var} (hm : InModule h m)
    (ht : ∀ v ∈ req, v.type = h.type) :
    ((∃ s', cmpMatched s k h req = some s') ↔ ∀ v ∈ req, Convertible h.units v) ∧
    ∀ s', cmpMatched s k h req = some s' → s'.ok = s.ok ∧ s'.modules = s.modules ++ [m] ∧
      ∃ l, s'.out = s.out ++ [(k, l)] ∧ List.Forall₂ (Matched h) req l := by
  obtain ⟨items, hi, hs⟩ := scan_of_module hm
  have hreg := mapAll_spec (f := register h.units) (l := req)
  have hms : s.modules ++ [m] ≠ [] := by simp
  have hkind : ∀ v ∈ req, v.type = characterT → (if h.type = characterT then some h.kind else s.kind) = some h.kind := by
    intro v hv hc
    rw [if_pos (by rw [← ht v hv]; exact hc)]
  constructor
  · constructor
    · rintro ⟨s', hs'⟩
      unfold cmpMatched at hs'
      cases h1 : mapAll (register h.units) req with
      | none => rw [h1] at hs'; cases hs'
      | some r => intro v hv; exact register_spec.1.1 (hreg.1.1 ⟨r, h1⟩ v hv)
    · intro hc
      obtain ⟨r, hr⟩ := hreg.1.2 (fun v hv => register_spec.1.2 (hc v hv))
      unfold cmpMatched
      simp only [hr, hi, Option.bind_some, hs]
      obtain ⟨r2, hr2⟩ := (mapAll_spec (f := setTarget (s.modules ++ [m]) (if h.type = characterT then some h.kind else s.kind) h.loc)
        (l := r)).1.2 (by
        intro w hw
        refine setTarget_some hms ?_
        intro hwt
        obtain ⟨v, hv, hvw⟩ := forall2_mem (hreg.2 r hr) hw
        have : w.type = v.type := by rw [register_spec.2 w hvw]
        rw [hkind v hv (this ▸ hwt)]
        simp)
      exact ⟨_, by rw [hr2]; rfl⟩
  · intro s' hs'
    unfold cmpMatched at hs'
    cases h1 : mapAll (register h.units) req with
    | none => rw [h1] at hs'; cases hs'
    | some r =>
      simp only [h1, hi, Option.bind_some, hs] at hs'
      cases h2 : mapAll (setTarget (s.modules ++ [m]) (if h.type = characterT then some h.kind else s.kind) h.loc) r with
      | none => rw [h2] at hs'; cases hs'
      | some r2 =>
        rw [h2] at hs'
        cases hs'
        exact ⟨rfl, rfl, r2, rfl, forall2_comp (hreg.2 r h1) (mapAll_spec.2 r2 h2)
          (fun a ha b c p q => matched_of p q (hkind a ha))⟩

end Ccpp.PB
