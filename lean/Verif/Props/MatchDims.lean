import Verif.Model.MatchDims
import Verif.Spec.MatchDims
import Mathlib.Tactic.ByContra
import Mathlib.Data.List.Perm.Subperm
import Mathlib.Data.List.Nodup
/-!
# C38: matching of dimensions
-/
namespace Ccpp.MD

open Ccpp.VC (Str isHoriz isVert)

/-- **C38**: which variables replace a loop dimension. -/
theorem loop_dimensions (d : Str) (req : List Str) : loopVarMatch d = some req ↔ Replaces d req := by
  have base : ∀ d', (loopSubsts.find? fun p => p.1 == d').map (·.2) = some req →
      Replaces d' req ∧ ¬ "ccpp_constant_one:".toList <+: d' := by
    intro d' h
    unfold loopSubsts at h
    simp only [List.find?_cons, List.find?_nil] at h
    repeat' split at h
    · next hn =>
      rw [beq_iff_eq] at hn; subst hn; injection h with h; subst h
      exact ⟨Replaces.extent, by decide⟩
    · next hn =>
      rw [beq_iff_eq] at hn; subst hn; injection h with h; subst h
      exact ⟨Replaces.first, by decide⟩
    · next hn =>
      rw [beq_iff_eq] at hn; subst hn; injection h with h; subst h
      exact ⟨Replaces.last, by decide⟩
    · next hn =>
      rw [beq_iff_eq] at hn; subst hn; injection h with h; subst h
      exact ⟨Replaces.layer, by decide⟩
    · next hn =>
      rw [beq_iff_eq] at hn; subst hn; injection h with h; subst h
      exact ⟨Replaces.interface, by decide⟩
    · cases h
  constructor
  · intro h
    unfold loopVarMatch at h
    split at h
    · next hp =>
      obtain ⟨h1, h2⟩ := base _ h
      have := Replaces.lower h1 h2
      rwa [← hp, List.take_append_drop] at this
    · exact (base _ h).1
  · intro h
    cases h with
    | lower h' hp =>
      rename_i d'
      have e1 : ("ccpp_constant_one:".toList ++ d').take 18 = "ccpp_constant_one:".toList :=
        List.take_left' (by decide)
      have e2 : ("ccpp_constant_one:".toList ++ d').drop 18 = d' := List.drop_left' (by decide)
      unfold loopVarMatch
      simp only
      rw [if_pos e1, e2]
      cases h' with
      | lower h'' _ => exact absurd (List.prefix_append _ _) hp
      | _ => decide
    | _ => decide

theorem horizDimMatch_ok {e : Env} {n h m : Str}
    (hm : horizDimMatch e n h (loopVarMatch n) = some m) : DimOk e n h m := by
  unfold horizDimMatch at hm
  split at hm
  · rename_i hh
    rw [Bool.and_eq_true] at hh
    split at hm
    · rename_i he; injection hm with hm; exact Or.inl ⟨he, hm.symm⟩
    · refine Or.inr ⟨hh.1, hh.2, ?_⟩
      split at hm
      · rename_i hr
        split at hm
        · cases hm
        · rename_i req hreq
          split at hm
          · rename_i hall
            injection hm with hm
            exact Or.inl ⟨hr, req, hreq, fun r hr => List.all_eq_true.1 hall r hr, hm.symm⟩
          · cases hm
      · rename_i hr
        have hr : e.run = false := by simpa using hr
        split at hm
        · rename_i h2; injection hm with hm; exact Or.inr ⟨hr, h2.1, hm.symm, Or.inl h2.2⟩
        · split at hm
          · rename_i h2; injection hm with hm; exact Or.inr ⟨hr, h2.1, hm.symm, Or.inr h2.2⟩
          · cases hm
  · cases hm

theorem horiz_not_vert {d : Str} (h : isHoriz d = true) : isVert d = false := by
  have : ∀ d ∈ VC.horizontalDims, isVert d = false := by decide +kernel
  exact this d (by simpa [isHoriz] using h)

theorem findIdx?_spec {p : Str → Bool} {l : List Str} {i : Nat} (h : l.findIdx? p = some i) :
    (∃ d, l[i]? = some d ∧ p d = true) ∧ ∀ j < i, ∀ d, l[j]? = some d → p d = false := by
  rw [List.findIdx?_eq_some_iff_getElem] at h
  obtain ⟨hi, hp, hlt⟩ := h
  refine ⟨⟨l[i], by simp [hi], hp⟩, ?_⟩
  intro j hj d hd
  have := hlt j hj
  rw [List.getElem?_eq_getElem (by omega)] at hd
  injection hd with hd
  rw [hd] at this
  simpa using this

/-- The state after the first `k` dimensions. -/
structure Inv (e : Env) (need have' : List Str) (k : Nat) (s : St) : Prop where
  m : Matching e (need.take k) have' s.perm s.newNeed s.newHave
  gen : ∀ i j, s.perm[i]? = some j → (some i = findHoriz need → some j = findHoriz have') ∧
    (some i ≠ findHoriz need → need[i]? = have'[j]?)
  nov : findVert need = none → ∀ v, findVert have' = some v → v ∉ s.perm
  lt : ∀ j ∈ s.perm, j < have'.length

theorem inv_snoc {e need have' k s n j m h} (hinv : Inv e need have' k s) (hk : need[k]? = some n)
    (hj : have'[j]? = some h) (hnot : j ∉ s.perm) (hok : DimOk e n h m)
    (hg : (some k = findHoriz need → some j = findHoriz have') ∧
      (some k ≠ findHoriz need → need[k]? = have'[j]?))
    (hv : findVert need = none → ∀ v, findVert have' = some v → v ≠ j) :
    Inv e need have' (k + 1) ⟨s.perm ++ [j], s.newNeed ++ [m], s.newHave.set j m⟩ := by
  have hkl : k < need.length := by
    rw [List.getElem?_eq_some_iff] at hk; exact hk.1
  have hjl : j < have'.length := by
    rw [List.getElem?_eq_some_iff] at hj; exact hj.1
  have hlen := hinv.m.len
  rw [List.length_take, Nat.min_eq_left (by omega)] at hlen
  have hlenN := hinv.m.lenNeed
  rw [List.length_take, Nat.min_eq_left (by omega)] at hlenN
  have hlenH := hinv.m.lenHave
  constructor
  · constructor
    · simp; omega
    · rw [List.nodup_append]
      exact ⟨hinv.m.nodup, by simp, fun a ha b hb hab => hnot (by simp at hb; rw [← hb, ← hab]; exact ha)⟩
    · simp; omega
    · simp; exact hlenH
    · intro i n' hi
      rw [List.getElem?_take] at hi
      split at hi
      · rename_i hlt
        by_cases hik : i = k
        · subst hik
          rw [hk] at hi; injection hi with hi; subst hi
          refine ⟨j, h, m, ?_, hj, hok, ?_, ?_⟩
          · show (s.perm ++ [j])[i]? = some j
            rw [List.getElem?_append_right (by omega), hlen]; simp
          · show (s.newNeed ++ [m])[i]? = some m
            rw [List.getElem?_append_right (by omega), hlenN]; simp
          · show (s.newHave.set j m)[j]? = some m
            rw [List.getElem?_set_self (by omega)]
        · obtain ⟨j', h', m', h1, h2, h3, h4, h5⟩ := hinv.m.ok i n' (by
            rw [List.getElem?_take, if_pos (by omega)]; exact hi)
          refine ⟨j', h', m', ?_, h2, h3, ?_, ?_⟩
          · show (s.perm ++ [j])[i]? = some j'
            rw [List.getElem?_append_left (by omega)]; exact h1
          · show (s.newNeed ++ [m])[i]? = some m'
            rw [List.getElem?_append_left (by omega)]; exact h4
          · show (s.newHave.set j m)[j']? = some m'
            have : j ≠ j' := by
              rintro rfl; exact hnot (List.mem_of_getElem? h1)
            rw [List.getElem?_set_ne this]; exact h5
      · cases hi
    · intro j' hj'
      show (s.newHave.set j m)[j']? = _
      rw [List.mem_append, not_or] at hj'
      rw [List.getElem?_set_ne (by rintro rfl; simp at hj')]
      exact hinv.m.other j' hj'.1
  · intro i j' hij
    change (s.perm ++ [j])[i]? = some j' at hij
    by_cases hik : i < s.perm.length
    · rw [List.getElem?_append_left hik] at hij; exact hinv.gen i j' hij
    · rw [List.getElem?_append_right (by omega)] at hij
      have hi0 : i - s.perm.length = 0 := by
        by_contra h0
        rw [List.getElem?_eq_none (by simp; omega)] at hij; cases hij
      rw [hi0] at hij
      simp at hij
      subst hij
      have : i = k := by omega
      subst this
      exact hg
  · intro hn v hv' hmem
    rcases List.mem_append.1 hmem with hm' | hm'
    · exact hinv.nov hn v hv' hm'
    · exact hv hn v hv' (by simpa using hm')
  · intro j' hj'
    rcases List.mem_append.1 hj' with hm' | hm'
    · exact hinv.lt j' hm'
    · simp at hm'; omega

theorem findHoriz_spec {dims : List Str} {i : Nat} (h : findHoriz dims = some i) :
    ∃ d, dims[i]? = some d ∧ isHoriz d = true := (findIdx?_spec h).1

theorem findVert_spec {dims : List Str} {i : Nat} (h : findVert dims = some i) :
    ∃ d, dims[i]? = some d ∧ isVert d = true := (findIdx?_spec h).1

theorem getD_of {l : List Str} {i : Nat} {d : Str} (h : l[i]? = some d) : l.getD i [] = d := by
  rw [List.getD_eq_getElem?_getD, h]; rfl

theorem step_inv {e need have' k s s' n} (hinv : Inv e need have' k s) (hk : need[k]? = some n)
    (hs : step e have' (findHoriz need) (findHoriz have') (findVert need) (findVert have') k n s =
      some s') : Inv e need have' (k + 1) s' := by
  unfold step at hs
  split at hs
  · rename_i hkh
    split at hs
    · cases hs
    · rename_i h hhh
      obtain ⟨d, hd, hdh⟩ := findHoriz_spec hhh
      rw [getD_of hd] at hs
      split at hs
      · cases hs
      · rename_i m hm
        injection hs with hs
        subst hs
        refine inv_snoc hinv hk hd ?_ (horizDimMatch_ok hm) ⟨fun _ => hhh.symm, fun h => absurd hkh h⟩ ?_
        · intro hmem
          obtain ⟨i, hi⟩ := List.getElem?_of_mem hmem
          have hil : i < s.perm.length := by rw [List.getElem?_eq_some_iff] at hi; exact hi.1
          have hlen := hinv.m.len
          rw [List.length_take] at hlen
          have hne : some i ≠ findHoriz need := by
            rw [← hkh]; simp; omega
          have := (hinv.gen i h hi).2 hne
          rw [hd] at this
          have hfalse := (findIdx?_spec hkh.symm).2 i (by omega) d this
          rw [hdh] at hfalse; cases hfalse
        · intro _ v hv hvh
          subst hvh
          obtain ⟨d', hd', hdv⟩ := findVert_spec hv
          rw [hd] at hd'; injection hd' with hd'; subst hd'
          rw [horiz_not_vert hdh] at hdv; cases hdv
  · rename_i hkh
    simp only at hs
    split at hs
    · cases hs
    · rename_i h hf
      injection hs with hs
      subst hs
      have h1 := List.mem_of_find?_eq_some hf
      have h2 := List.find?_some hf
      rw [List.mem_filter] at h1
      obtain ⟨hlt, hcond⟩ := h1
      rw [List.mem_range] at hlt
      rw [Bool.and_eq_true, decide_eq_true_eq, decide_eq_true_eq] at hcond
      rw [Bool.and_eq_true] at h2
      have hd : have'[h]? = some (have'[h]'hlt) := by simp [hlt]
      rw [getD_of hd] at h2
      have heq : n = have'[h] := by
        have := h2.2
        unfold dimMatch at this
        split at this
        · assumption
        · cases this
      refine inv_snoc hinv hk hd hcond.1 (Or.inl ⟨heq, rfl⟩) ⟨fun h => absurd h hkh, fun _ => ?_⟩ ?_
      · rw [hk, hd, heq]
      · intro hnv v hv hvh
        rw [hnv, hv, hvh] at hcond
        simp at hcond

theorem loop_inv {e need have'} : ∀ ds k s s', need.drop k = ds → k ≤ need.length →
    Inv e need have' k s →
    loop e have' (findHoriz need) (findHoriz have') (findVert need) (findVert have') k ds s = (s', true) →
    Inv e need have' need.length s' := by
  intro ds
  induction ds with
  | nil =>
    intro k s s' hd hk hinv hl
    rw [loop] at hl
    injection hl with hl _
    subst hl
    have : k = need.length := by
      have := congrArg List.length hd
      rw [List.length_drop] at this
      simp at this; omega
    subst this; exact hinv
  | cons d ds ih =>
    intro k s s' hd hk hinv hl
    have hkl : k < need.length := by
      have := congrArg List.length hd
      rw [List.length_drop] at this
      simp at this; omega
    rw [List.drop_eq_getElem_cons hkl] at hd
    injection hd with hd1 hd2
    rw [loop] at hl
    split at hl
    · injection hl with _ hl; cases hl
    · rename_i s1 hs1
      have hkd : need[k]? = some d := by rw [← hd1]; simp [hkl]
      exact ih (k + 1) s1 s' hd2 (by omega) (step_inv hinv hkd hs1) hl

theorem inv_init (e : Env) (need have' : List Str) : Inv e need have' 0 ⟨[], [], have'⟩ := by
  constructor
  · constructor <;> simp
  · intro i j h; simp at h
  · intro _ _ _ h; cases h
  · intro _ h; cases h

/-- What match_dimensions returns when all needed dimensions were found. -/
theorem matchDims_found {e : Env} {need have' : List Str} {r : Res} (h : matchDims e need have' = .ok r)
    (hok : r.ok = true) :
    ∃ p nn, Matching e need have' p nn r.newHave ∧
      (findVert need = none → ∀ v, findVert have' = some v → v ∉ p) ∧ (∀ j ∈ p, j < have'.length) ∧
      ((¬ (findVert need = none ∧ (findVert have').isSome) ∧ r.newNeed = nn ∧
          r.perm.getD (List.range have'.length) = p) ∨
       (findVert need = none ∧ ∃ v d req, findVert have' = some v ∧ have'[v]? = some d ∧
          loopVarMatch d = some req ∧ (∀ q ∈ req, e.finds q = true) ∧
          r.newNeed = insertAt nn v (joinColon req) ∧
          r.perm.getD (List.range have'.length) = insertAt p v v)) ∧ r.missing = none := by
  unfold matchDims at h
  simp only at h
  have hfin : ∀ (p q : List Nat), q = p → (if q = List.range have'.length then none else some q).getD
      (List.range have'.length) = p := by
    intro p q hq; subst hq
    split
    · rename_i h; rw [h]; rfl
    · rfl
  by_cases hno : ((findHoriz have').isNone && (findHoriz need).isSome) = true
  · simp only [hno, if_true] at h
    exfalso
    split at h
    · split at h
      · cases h
      · injection h with h; rw [← h] at hok; simp at hok
    · injection h with h; rw [← h] at hok; simp at hok
  · rw [Bool.not_eq_true] at hno
    simp only [hno, Bool.false_eq_true, if_false] at h
    generalize hl : loop e have' (findHoriz need) (findHoriz have') (findVert need) (findVert have') 0 need
      ⟨[], [], have'⟩ = lp at h
    obtain ⟨s, found⟩ := lp
    simp only at h
    have hfound : found = true := by
      split at h
      · split at h
        · cases h
        · injection h with h; rw [← h] at hok; simp only [Bool.and_eq_true] at hok; exact hok.1
      · injection h with h; rw [← h] at hok; exact hok
    subst hfound
    have hinv := loop_inv need 0 _ s (by simp) (by omega) (inv_init e need have') hl
    have hM := hinv.m
    rw [List.take_length] at hM
    split at h
    · rename_i v hnv hhv
      split at h
      · cases h
      · rename_i req hreq
        injection h with h
        subst h
        simp only [Bool.true_and] at hok
        have hall : (req.all e.finds) = true := by
          by_contra hc
          rw [if_neg hc] at hok; simp at hok
        obtain ⟨d, hd, hdv⟩ := findVert_spec hhv
        rw [getD_of hd] at hreq
        refine ⟨s.perm, s.newNeed, hM, hinv.nov, hinv.lt, Or.inr ⟨hnv, v, d, req, hhv, hd, hreq,
          fun q hq => List.all_eq_true.1 hall q hq, ?_, ?_⟩, ?_⟩
        · simp only [insertAt]
          split
          · simp
          · rename_i hlt
            rw [List.take_of_length_le (by omega), List.drop_of_length_le (by omega)]
        · simp only [hall, if_true, Option.isNone_none, Bool.not_true, Bool.true_and,
            Bool.false_and, Bool.false_eq_true, if_false]
          apply hfin
          simp only [insertAt]
          have hpl : s.perm.length = s.newNeed.length := by rw [hM.len, hM.lenNeed]
          split
          · simp
          · rename_i hlt
            rw [List.take_of_length_le (by omega), List.drop_of_length_le (by omega)]
        · simp [hall]
    · rename_i hx
      injection h with h
      subst h
      refine ⟨s.perm, s.newNeed, hM, hinv.nov, hinv.lt, Or.inl ⟨?_, rfl, ?_⟩, rfl⟩
      · rintro ⟨h1, h2⟩
        obtain ⟨v, hv⟩ := Option.isSome_iff_exists.1 h2
        exact hx v h1 hv
      · simp only [Bool.not_true, Bool.false_and, Bool.false_eq_true, if_false]
        exact hfin _ _ rfl

/-- C38, soundness: if the available variable has no vertical dimension that the needed one lacks, a
reported match comes with an injective map (the identity, if no permutation is returned) of the needed
dimensions to available dimensions that meet them, and the returned dimension lists are changed
consistently. -/
theorem match_sound (e : Env) (need have' : List Str) (r : Res) (h : matchDims e need have' = .ok r)
    (hok : r.ok = true) (hv : (∃ d ∈ need, isVert d = true) ∨ ∀ d ∈ have', isVert d = false) :
    Matching e need have' (r.perm.getD (List.range have'.length)) r.newNeed r.newHave := by
  obtain ⟨p, nn, hM, -, -, h2, -⟩ := matchDims_found h hok
  rcases h2 with ⟨-, h3, h4⟩ | ⟨hn, v, d, req, hhv, hd, -⟩
  · rw [h3, h4]; exact hM
  · exfalso
    rcases hv with ⟨d, hd, hv⟩ | hv
    · unfold findVert at hn
      rw [List.findIdx?_eq_none_iff] at hn
      rw [hn d hd] at hv; cases hv
    · obtain ⟨d', hd', hdv⟩ := findVert_spec hhv
      rw [hv d' (List.mem_of_getElem? hd')] at hdv; cases hdv

/-- C38, soundness with a missing vertical dimension: the index variable exists, it is inserted into
the dimensions of the call at the place of the vertical dimension of the available variable, and the
other dimensions are matched as in `match_sound`, none of them with the vertical dimension. -/
theorem match_sound_vertical (e : Env) (need have' : List Str) (r : Res)
    (h : matchDims e need have' = .ok r) (hok : r.ok = true) (hn : ∀ d ∈ need, isVert d = false)
    (v : Nat) (d : Str) (hv : findVert have' = some v) (hd : have'[v]? = some d) :
    ∃ p nn req, Matching e need have' p nn r.newHave ∧ v ∉ p ∧ loopVarMatch d = some req ∧
      (∀ q ∈ req, e.finds q = true) ∧ r.newNeed = insertAt nn v (joinColon req) ∧
      r.perm.getD (List.range have'.length) = insertAt p v v := by
  obtain ⟨p, nn, hM, hnov, -, h2, -⟩ := matchDims_found h hok
  have hnn : findVert need = none := by
    unfold findVert; rw [List.findIdx?_eq_none_iff]; exact hn
  rcases h2 with ⟨h1, -⟩ | ⟨-, v', d', req, hv', hd', hreq, hall, h3, h4⟩
  · exact absurd ⟨hnn, by rw [hv]; rfl⟩ h1
  · rw [hv] at hv'; injection hv' with hv'; subst hv'
    rw [hd] at hd'; injection hd' with hd'; subst hd'
    exact ⟨p, nn, req, hM, hnov hnn _ hv, hreq, hall, h3, h4⟩

/-- C38 for equal ranks: the returned permutation is one of all available dimensions. -/
theorem match_permutation (e : Env) (need have' : List Str) (r : Res)
    (h : matchDims e need have' = .ok r) (hok : r.ok = true)
    (hv : (∃ d ∈ need, isVert d = true) ∨ ∀ d ∈ have', isVert d = false)
    (hrank : need.length = have'.length) :
    (r.perm.getD (List.range have'.length)).Perm (List.range have'.length) := by
  have hM := match_sound e need have' r h hok hv
  obtain ⟨p, nn, _, _, hlt, h2, _⟩ := matchDims_found h hok
  have hlt' : ∀ j ∈ r.perm.getD (List.range have'.length), j < have'.length := by
    intro j hj
    obtain ⟨i, hi⟩ := List.getElem?_of_mem hj
    have hil : i < need.length := by
      rw [← hM.len]; rw [List.getElem?_eq_some_iff] at hi; exact hi.1
    obtain ⟨j', h', m, h1, h2, -⟩ := hM.ok i (need[i]) (by simp [hil])
    rw [hi] at h1; injection h1 with h1; subst h1
    rw [List.getElem?_eq_some_iff] at h2; exact h2.1
  have hsub := hM.nodup.subperm (l₂ := List.range have'.length)
    (fun j hj => List.mem_range.2 (hlt' j hj))
  exact hsub.perm_of_length_le (by rw [hM.len, hrank]; simp)

/-- C38 for match_variable (which refuses permutations): an accepted array argument has the rank of the
host variable, or one less with the vertical index supplied, and its dimensions match in order. -/
theorem matchVariable_in_order (e : Env) (vdims dictDims : List Str) (hne : vdims ≠ [])
    (call : List Str) (mv : Option Str) (h : matchVariable e vdims dictDims = some (true, call, mv)) :
    mv = none ∧ call.length = dictDims.length ∧
    ∃ p, (p = vdims ∨ ∃ v d req, vdims = p.eraseIdx v ∧ p[v]? = some d ∧ dictDims[v]? = some d ∧
        isVert d = true ∧ (∀ d ∈ vdims, isVert d = false) ∧ loopVarMatch d = some req ∧
        call[v]? = some (joinColon req) ∧ ∀ q ∈ req, e.finds q = true) ∧
      p.length = dictDims.length ∧
      ∀ (i : Nat) n d, p[i]? = some n → dictDims[i]? = some d → isVert d = false →
        ∃ m, DimOk e n d m ∧ call[i]? = some m := by
  unfold matchVariable at h
  rw [if_neg hne] at h
  split at h
  · cases h
  · rename_i r hr
    split at h
    · cases h
    · rename_i hp
      split at h
      · rename_i hok
        injection h with h
        injection h with _ h
        injection h with h1 h2
        obtain ⟨p, nn, hM, hnov, hlt, h3, hmiss⟩ := matchDims_found hr hok
        subst h1; subst h2
        refine ⟨hmiss, ?_⟩
        rcases h3 with ⟨hnv, h4, h5⟩ | ⟨hnv, v, d, req, hhv, hd, hreq, hall, h4, h5⟩
        · rw [hp] at h5
          simp only [Option.getD_none] at h5
          have hlen : vdims.length = dictDims.length := by
            rw [← hM.len, ← h5]; simp
          refine ⟨by rw [h4, hM.lenNeed, hlen], vdims, Or.inl rfl, hlen, ?_⟩
          intro i n d hn hd _
          obtain ⟨j, h', m, q1, q2, q3, q4, q5⟩ := hM.ok i n hn
          have hil : i < dictDims.length := by rw [List.getElem?_eq_some_iff] at hd; exact hd.1
          rw [← h5, List.getElem?_range hil] at q1
          injection q1 with q1; subst q1
          rw [hd] at q2; injection q2 with q2; subst q2
          exact ⟨m, q3, h4 ▸ q4⟩
        · rw [hp] at h5
          simp only [Option.getD_none] at h5
          have hplen : p.length + 1 = dictDims.length := by
            have := congrArg List.length h5
            simp [insertAt] at this; omega
          have hnlen : vdims.length + 1 = dictDims.length := by rw [← hM.len]; exact hplen
          have hvl : v < dictDims.length := by rw [List.getElem?_eq_some_iff] at hd; exact hd.1
          have hcl : r.newNeed.length = dictDims.length := by
            rw [h4]; have := hM.lenNeed; simp [insertAt]; omega
          refine ⟨hcl, insertAt vdims v d, Or.inr ⟨v, d, req, ?_, ?_, hd, ?_, ?_, hreq, ?_, hall⟩, ?_, ?_⟩
          · have hl : (vdims.take v).length = v := by rw [List.length_take]; omega
            unfold insertAt
            rw [List.eraseIdx_append_of_length_le (by omega), hl, Nat.sub_self]
            simp
          · have hl : (vdims.take v).length = v := by rw [List.length_take]; omega
            unfold insertAt
            rw [List.getElem?_append_right (by omega), hl]; simp
          · obtain ⟨d', hd', hdv⟩ := findVert_spec hhv
            rw [hd] at hd'; injection hd' with hd'; rw [hd']; exact hdv
          · unfold findVert at hnv
            rw [List.findIdx?_eq_none_iff] at hnv
            exact hnv
          · have hl : (nn.take v).length = v := by rw [List.length_take, hM.lenNeed]; omega
            rw [h4]; unfold insertAt
            rw [List.getElem?_append_right (by omega), hl]; simp
          · simp [insertAt]; omega
          · intro i n h' hn hh hnvert
            have hil : i < dictDims.length := by rw [List.getElem?_eq_some_iff] at hh; exact hh.1
            have hiv : i ≠ v := by
              rintro rfl
              obtain ⟨d', hd', hdv⟩ := findVert_spec hhv
              rw [hh] at hd'; injection hd' with hd'; rw [← hd', hnvert] at hdv; cases hdv
            have hpi : (insertAt p v v)[i]? = some i := by rw [← h5]; exact List.getElem?_range hil
            -- position of i in the list without the inserted element
            have hpos : ∀ {α} (l : List α) (x : α), l.length = vdims.length →
                (insertAt l v x)[i]? = l[if i < v then i else i - 1]? := by
              intro α l x hll
              unfold insertAt
              have hl : (l.take v).length = v := by rw [List.length_take]; omega
              split
              · rw [List.getElem?_append_left (by omega), List.getElem?_take, if_pos (by omega)]
              · rw [List.getElem?_append_right (by omega), hl,
                  show i - v = (i - v - 1) + 1 by omega, List.getElem?_cons_succ, List.getElem?_drop]
                congr 1; omega
            rw [hpos p v hM.len] at hpi
            rw [hpos vdims d rfl] at hn
            obtain ⟨j, h2, m, q1, q2, q3, q4, q5⟩ := hM.ok _ n hn
            rw [hpi] at q1; injection q1 with q1; subst q1
            rw [hh] at q2; injection q2 with q2; subst q2
            refine ⟨m, q3, ?_⟩
            rw [h4, hpos nn _ hM.lenNeed]; exact q4
      · split at h
        · injection h with h; injection h with h _; cases h
        · cases h

/-! ## Completeness -/

/-- If all matched dimensions are equal to what they are matched with, a needed dimension that occurs
often enough in the available ones has an unused partner. -/
theorem exists_unused {have' done : List Str} {p : List Nat} {n : Str}
    (hdone : p.map (fun j => have'.getD j []) = done) (hcount : done.count n < have'.count n) :
    ∃ j, j < have'.length ∧ j ∉ p ∧ have'[j]? = some n := by
  by_contra hno
  have hall : ∀ j, j < have'.length → have'[j]? = some n → j ∈ p := by
    intro j hj hn
    by_contra hp
    exact hno ⟨j, hj, hp, hn⟩
  have hsub : ((List.range have'.length).filter fun j => decide (have'.getD j [] = n)) ⊆
      p.filter fun j => decide (have'.getD j [] = n) := by
    intro j hj
    rw [List.mem_filter] at hj ⊢
    obtain ⟨h1, h2⟩ := hj
    rw [List.mem_range] at h1
    refine ⟨hall j h1 ?_, h2⟩
    rw [decide_eq_true_eq, List.getD_eq_getElem?_getD, List.getElem?_eq_getElem h1] at h2
    rw [List.getElem?_eq_getElem h1]; exact congrArg some h2
  have hle := ((List.nodup_range.filter _).subperm hsub).length_le
  have h1 : ((List.range have'.length).filter fun j => decide (have'.getD j [] = n)).length =
      have'.count n := by
    have hmap : have' = (List.range have'.length).map fun j => have'.getD j [] := by
      apply List.ext_getElem
      · simp
      · intro i h1 h2; simp [List.getD_eq_getElem?_getD, h1]
    conv_rhs => rw [hmap]
    rw [List.count_eq_countP, List.countP_map, List.countP_eq_length_filter]
    congr 1; apply List.filter_congr; intro x _; simp [beq_eq_decide]
  have h2 : (p.filter fun j => decide (have'.getD j [] = n)).length = done.count n := by
    rw [← hdone, List.count_eq_countP, List.countP_map, List.countP_eq_length_filter]
    congr 1; apply List.filter_congr; intro x _; simp [beq_eq_decide]
  omega

theorem loop_complete {e : Env} {need have' : List Str} (hperm : need.Perm have')
    (hnonempty : ∀ d ∈ need, d ≠ []) (hone : ∀ a ∈ need, ∀ b ∈ need, isHoriz a = true →
      isHoriz b = true → a = b) :
    ∀ ds k s, need.drop k = ds → s.perm.map (fun j => have'.getD j []) = need.take k →
    (loop e have' (findHoriz need) (findHoriz have') (findVert need) (findVert have') k ds s).2 = true := by
  intro ds
  induction ds with
  | nil => intro k s _ _; rfl
  | cons d ds ih =>
    intro k s hd hs
    have hkl : k < need.length := by
      have := congrArg List.length hd
      rw [List.length_drop] at this
      simp at this; omega
    rw [List.drop_eq_getElem_cons hkl] at hd
    injection hd with hd1 hd2
    have hkd : need[k]? = some d := by rw [← hd1]; simp [hkl]
    have htake : need.take (k + 1) = need.take k ++ [d] := by
      rw [List.take_add_one, hkd]; rfl
    have hmem : d ∈ need := List.mem_of_getElem? hkd
    rw [loop]
    have hcount : (need.take k).count d < have'.count d := by
      rw [← hperm.count_eq]
      have : need.count d = (need.take k).count d + (need.drop k).count d := by
        rw [← List.count_append, List.take_append_drop]
      rw [this, List.drop_eq_getElem_cons hkl, hd1, List.count_cons_self]
      omega
    obtain ⟨j, hjl, hjp, hjd⟩ := exists_unused hs hcount
    have hsome : ∃ s', step e have' (findHoriz need) (findHoriz have') (findVert need) (findVert have') k d s
        = some s' ∧ s'.perm.map (fun j => have'.getD j []) = need.take (k + 1) := by
      unfold step
      split
      · rename_i hkh
        obtain ⟨d', hd', hdh⟩ := findHoriz_spec hkh.symm
        rw [hkd] at hd'; injection hd' with hd'; subst hd'
        cases hhh : findHoriz have' with
        | none =>
          unfold findHoriz at hhh
          rw [List.findIdx?_eq_none_iff] at hhh
          have := hhh d (hperm.mem_iff.1 hmem)
          rw [hdh] at this; cases this
        | some h =>
          obtain ⟨d2, hd2', hdh2⟩ := findHoriz_spec hhh
          have hEq : d = d2 := hone d hmem d2
            (hperm.mem_iff.2 (List.mem_of_getElem? hd2')) hdh hdh2
          subst hEq
          simp only [getD_of hd2']
          have : horizDimMatch e d d (loopVarMatch d) = some d := by
            unfold horizDimMatch; rw [hdh]; simp
          rw [this]
          refine ⟨_, rfl, ?_⟩
          rw [List.map_append, hs, htake]
          simp only [List.map_cons, List.map_nil, getD_of hd2']
      · have hskip : (if findVert need = none then findVert have' else none) = none := by
          split
          · rename_i hnv
            unfold findVert at hnv ⊢
            rw [List.findIdx?_eq_none_iff] at hnv ⊢
            exact fun x hx => hnv x (hperm.mem_iff.2 hx)
          · rfl
        simp only [hskip]
        have hv : ∀ h, have'[h]? = some d →
            (decide (some h ≠ findVert have') || (findVert need).isSome) = true := by
          intro h hh
          cases hnv : findVert need with
          | some _ => simp
          | none =>
            have : findVert have' = none := by rw [hnv] at hskip; simpa using hskip
            rw [this]; simp
        cases hf : ((List.range have'.length).filter fun x => decide (x ∉ s.perm) &&
            decide (some x ≠ (none : Option Nat))).find?
            (fun h => (decide (some h ≠ findVert have') || (findVert need).isSome) &&
              (dimMatch d (have'.getD h [])).isSome) with
        | none =>
          exfalso
          rw [List.find?_eq_none] at hf
          refine hf j ?_ ?_
          · rw [List.mem_filter, List.mem_range]
            refine ⟨hjl, ?_⟩
            simp [hjp]
          · rw [hv j hjd, getD_of hjd]
            unfold dimMatch
            rw [if_pos rfl, if_neg (hnonempty d hmem)]; rfl
        | some h =>
          refine ⟨_, rfl, ?_⟩
          have h2 := List.find?_some hf
          rw [Bool.and_eq_true] at h2
          have heq : d = have'.getD h [] := by
            have := h2.2
            unfold dimMatch at this
            split at this
            · assumption
            · cases this
          rw [List.map_append, hs, htake]
          simp only [List.map_cons, List.map_nil]
          rw [← heq]
    obtain ⟨s', hs', hs2⟩ := hsome
    rw [hs']
    exact ih (k + 1) s' hd2 hs2

/-- C38, completeness: dimensions that are the same up to order (and with at most one kind of horizontal
dimension) are matched. -/
theorem match_complete (e : Env) (need have' : List Str) (hperm : need.Perm have')
    (hnonempty : ∀ d ∈ need, d ≠ [])
    (hone : ∀ a ∈ need, ∀ b ∈ need, isHoriz a = true → isHoriz b = true → a = b) :
    ∃ r, matchDims e need have' = .ok r ∧ r.ok = true ∧ r.missing = none := by
  have hl := loop_complete (e := e) hperm hnonempty hone need 0 ⟨[], [], have'⟩ (by simp) (by simp)
  have hno : ((findHoriz have').isNone && (findHoriz need).isSome) = false := by
    cases hn : findHoriz need with
    | none => simp
    | some i =>
      obtain ⟨d, hd, hdh⟩ := findHoriz_spec hn
      cases hh : findHoriz have' with
      | some _ => simp
      | none =>
        unfold findHoriz at hh
        rw [List.findIdx?_eq_none_iff] at hh
        rw [hh d (hperm.mem_iff.1 (List.mem_of_getElem? hd))] at hdh; cases hdh
  unfold matchDims
  simp only [hno, Bool.false_eq_true, if_false]
  split
  · rename_i v hnv hhv
    exfalso
    obtain ⟨d, hd, hdv⟩ := findVert_spec hhv
    unfold findVert at hnv
    rw [List.findIdx?_eq_none_iff] at hnv
    rw [hnv d (hperm.mem_iff.2 (List.mem_of_getElem? hd))] at hdv; cases hdv
  · exact ⟨_, rfl, hl, rfl⟩

def env0 : Env := ⟨true, fun s => s == "horizontal_loop_begin".toList || s == "horizontal_loop_end".toList⟩
def hle : Str := "ccpp_constant_one:horizontal_loop_extent".toList
def hbe : Str := "horizontal_loop_begin:horizontal_loop_end".toList
def vl : Str := "ccpp_constant_one:vertical_layer_dimension".toList

/-- C38 is violated by the code: a match is reported although the available variable has a dimension
the needed one lacks (the ranks are not compared); and a scalar is accepted for a host variable of any
rank. -/
theorem C38_violated :
    (∃ r, matchDims env0 [hbe] [hbe, "number_of_tracers".toList] = .ok r ∧ r.ok = true ∧
      r.missing = none ∧ r.newNeed = [hbe]) ∧
    matchVariable env0 [] [hbe, vl] = some (true, [], none) :=
  ⟨⟨_, rfl, by decide +kernel, by decide +kernel, by decide +kernel⟩, rfl⟩

example : ∃ r, matchDims env0 [hle, vl] [vl, hbe] = .ok r ∧ r.ok = true ∧ r.perm = some [1, 0] ∧
    r.newNeed = [hbe, vl] :=
  ⟨_, rfl, by decide +kernel, by decide +kernel, by decide +kernel⟩

example : matchVariable env0 [hle, vl] [hbe, vl] = some (true, [hbe, vl], none) := by decide +kernel

example : [hbe, vl].Perm [vl, hbe] := List.Perm.swap ..

end Ccpp.MD
