import Verif.Props.HostConst
/-! # C82: the registration routine -/
namespace Ccpp.HC
open Const Hash

variable {R : Type}

theorem suiteObjs_eq (next : Nat) (suites : List (List (CVar R))) : suiteObjs next suites = objs next (suites.flatMap suiteConsts) := rfl

/-- Attributes and the program's comparison. -/
theorem attrs_iff {mn : R} {h : Heap R} {next n : Nat} {p q : Ptr R} (hp : p.id < next + n) (hq : q.id < next + n)
    (up : p.units.length ≤ 256) (uq : q.units.length ≤ 256) :
    propsMatch (heapAt mn h next n) q p = true ↔ attrs h next q = attrs h next p := by
  have h1 : ∀ r : Ptr R, r.id < next + n → (heapAt mn h next n r.id).thermo = if r.id < next then (h r.id).thermo else false := by
    intro r hr
    unfold heapAt
    by_cases hlt : r.id < next
    · rw [if_neg (by omega), if_pos hlt]
    · rw [if_pos (by omega), if_neg hlt]; rfl
  have h2 : ∀ r : Ptr R, r.id < next + n → (heapAt mn h next n r.id).water = if r.id < next then (h r.id).water else false := by
    intro r hr
    unfold heapAt
    by_cases hlt : r.id < next
    · rw [if_neg (by omega), if_pos hlt]
    · rw [if_pos (by omega), if_neg hlt]; rfl
  have f1 : fit stdnameLen q.units = q.units := List.take_of_length_le uq
  have f2 : fit stdnameLen p.units = p.units := List.take_of_length_le up
  unfold propsMatch attrs
  rw [h1 p hp, h1 q hq, h2 p hp, h2 q hq, f1, f2]
  simp only [Bool.and_eq_true, beq_iff_eq, Attrs.mk.injEq, and_assoc]

theorem objs_nodup (next : Nat) (vs : List (CVar R)) : (objs next vs).Pairwise fun p q => p.id ≠ q.id := by
  induction vs generalizing next with
  | nil => exact List.Pairwise.nil
  | cons v vs ih =>
    rw [objs_cons, List.pairwise_cons]
    refine ⟨?_, ih _⟩
    intro q hq
    have := (objs_id hq).1
    simp only [suitePtr, newPtr]
    omega

theorem setIndices_spec {h : Heap R} {o : Obj R} {m L : List (Ptr R)} (hl : propsLocked o = (true, 0))
    (hf : ∀ k, findConst o k = specLookup key m k) (hp : L.Perm m)
    (hi : ∀ (i : Nat) (p : Ptr R), L[i]? = some p → (h p.id).constInd = some ((i : Int) + 1)) :
    ∀ (ns : List Str) (old : List Int), old.length = ns.length →
      ((setIndices h o ns old).2 = 0 ↔ ∀ n ∈ ns, (specLookup key m n).isSome = true) ∧
      ((setIndices h o ns old).2 = 0 → (setIndices h o ns old).1.length = ns.length ∧
        ∀ (i : Nat) n, ns[i]? = some n → ∃ (j : Nat) (p : Ptr R), (setIndices h o ns old).1[i]? = some ((j : Int) + 1) ∧ L[j]? = some p ∧
          specLookup key m n = some p) := by
  intro ns
  induction ns with
  | nil =>
    intro old ho
    have : old = [] := List.length_eq_zero_iff.1 (by simpa using ho)
    subst this
    exact ⟨by simp [setIndices], fun _ => ⟨by simp [setIndices], by simp⟩⟩
  | cons n ns ih =>
    intro old ho
    cases old with
    | nil => simp at ho
    | cons x old =>
      have ho' : old.length = ns.length := by simpa using ho
      obtain ⟨ih1, ih2⟩ := ih old ho'
      have hc : constIndex h o n = (match specLookup key m n with
          | some p => metaIndex h (some p)
          | none => intUnassigned, 0) := by
        unfold constIndex
        rw [hl, hf]
        simp only [if_true]
        cases specLookup key m n <;> rfl
      cases hs : specLookup key m n with
      | none =>
        rw [hs] at hc
        have : setIndices h o (n :: ns) (x :: old) = (x :: old, 1) := by
          simp only [setIndices, hc]
          rfl
        rw [this]
        refine ⟨⟨by simp, fun hh => ?_⟩, fun hh => by simp at hh⟩
        have := hh n (by simp)
        rw [hs] at this
        simp at this
      | some p =>
        rw [hs] at hc
        have hpL : p ∈ L := hp.mem_iff.2 (specLookup_mem hs).1
        obtain ⟨j, hj⟩ := List.getElem?_of_mem hpL
        have hmi : metaIndex h (some p) = (j : Int) + 1 := by
          show ((h p.id).constInd).getD intUnassigned = _
          rw [hi j p hj]
          rfl
        simp only [hmi] at hc
        have : setIndices h o (n :: ns) (x :: old) = (((j : Int) + 1) :: (setIndices h o ns old).1, (setIndices h o ns old).2) := by
          simp only [setIndices, hc]
          rw [if_neg (by simp), if_pos (by omega)]
        rw [this]
        refine ⟨?_, ?_⟩
        · simp only [List.mem_cons, forall_eq_or_imp]
          rw [ih1, hs]
          simp
        · intro he
          obtain ⟨e1, e2⟩ := ih2 he
          refine ⟨by simp [e1], ?_⟩
          intro i n' hn'
          cases i with
          | zero =>
            simp only [List.getElem?_cons_zero, Option.some.injEq] at hn'
            subst hn'
            exact ⟨j, p, rfl, hj, hs⟩
          | succ i =>
            simp only [List.getElem?_cons_succ] at hn' ⊢
            exact e2 i n' hn'

/-- **C82 (registration).**  The generated registration routine, called with constituents that were not registered before (and at
least one constituent in all), returns errcode 0 exactly when constituents of the same name have the same attributes, every
registered one is a layer variable, and every name of the cap is registered.  Then the table is locked, it holds exactly the first
constituent of every name, advected ones first, and the stored index of every name is the position of the constituent with this
name. -/
theorem C82_register {mn : R} {size : Int} {h : Heap R} {next : Nat} {o : Obj R} {host : List (Ptr R)} {dyn : List (List (Ptr R))}
    {suites : List (List (CVar R))} {names : List Str} {old : List Int} (hsize : 0 ≤ size) (hd : o.dataLocked = false)
    (hfresh : Fresh h next (host ++ dyn.flatten)) (hshort : Short (order next host dyn suites)) (hne : order next host dyn suites ≠ [])
    (hold : old.length = names.length) :
    ∃ r, register mn size h next o host dyn suites names old = some r ∧
      (r.err = 0 ↔ Agree h next (order next host dyn suites) ∧
        (∀ p ∈ order next host dyn suites, first (order next host dyn suites) p.name = some p → isLayer p = true) ∧
        ∀ n ∈ names, (first (order next host dyn suites) n).isSome = true) ∧
      (r.err = 0 → Registered (order next host dyn suites) names r) := by
  unfold register
  simp only
  generalize hO : order next host dyn suites = O at *
  generalize hP : host ++ dyn.flatten = P at *
  generalize hB : suites.flatMap suiteConsts = B at *
  have hOe : O = P ++ objs next B := by rw [← hO, ← hP, ← hB]; rfl
  generalize hH : heapAt mn h next B.length = H at *
  have hPid : ∀ p ∈ P, p.id < next := hfresh.lt
  have hOid : ∀ p ∈ O, p.id < next + B.length := by
    intro p hp
    rw [hOe] at hp
    rcases List.mem_append.1 hp with hp | hp
    · have := hPid p hp; omega
    · exact (objs_id hp).2
  have hHP : ∀ p ∈ P, H p.id = h p.id := by
    intro p hp
    have := hPid p hp
    rw [← hH]
    unfold heapAt
    rw [if_neg (by omega)]
  -- the program's test is agreement
  have hagree : (accept H [] O).isSome = true ↔ Agree h next O := by
    rw [accept_iff]
    simp only [List.nil_append]
    unfold Agree
    refine forall₂_congr fun p hp => forall₂_congr fun q hq => ?_
    have hqO : q ∈ O := List.mem_of_find?_eq_some hq
    rw [← hH]
    exact attrs_iff (hOid p hp) (hOid q hqO) (hshort p hp).2 (hshort q hqO).2
  have hcong : accept H [] P = accept h [] P := by
    have : ∀ (ps m : List (Ptr R)), (∀ p ∈ m, H p.id = h p.id) → (∀ p ∈ ps, H p.id = h p.id) → accept H m ps = accept h m ps := by
      intro ps
      induction ps with
      | nil => intros; rfl
      | cons p ps ih =>
        intro m hm hps
        simp only [accept]
        cases hs : specLookup key m p.name with
        | none =>
          exact ih _ (by
            intro q hq
            rcases List.mem_append.1 hq with hq | hq
            · exact hm q hq
            · rw [List.mem_singleton.1 hq]; exact hps p (by simp)) (fun q hq => hps q (by simp [hq]))
        | some q =>
          simp only
          rw [propsMatch_congr (h := h) (hm q (specLookup_mem hs).1) (hps p (by simp)), ih m hm (fun q hq => hps q (by simp [hq]))]
    exact this P [] (by simp) hHP
  have h1 := addPtrs_spec (h := h) (ps := P) (open_init o size hsize hd) (fun p hp => (hshort p (by rw [hOe]; simp [hp])).1)
  have hsplit : accept H [] O = (accept h [] P).bind fun m => accept H m (objs next B) := by
    rw [hOe, accept_append, hcong]
  cases ha : accept h [] P with
  | none =>
    rw [ha] at h1 hsplit
    simp only [Option.bind_none] at h1 hsplit
    rw [if_pos h1]
    refine ⟨_, rfl, ⟨fun he => absurd he h1, fun he => ?_⟩, fun he => absurd he h1⟩
    have := hagree.2 he.1
    rw [hsplit] at this
    simp at this
  | some m1 =>
    rw [ha] at h1 hsplit
    simp only [Option.bind_some] at h1 hsplit
    obtain ⟨o1, h2, h3⟩ := h1
    rw [h2]
    simp only [ne_eq, not_true_eq_false, if_false]
    have hm1 : ∀ p ∈ m1, p.id < next := by
      obtain ⟨l, e, hsub⟩ := accept_mem ha
      intro p hp
      rw [e] at hp
      exact hPid p (hsub.subset (by simpa using hp))
    have h4 := addSuites_spec (mn := mn) (H := H) (ds := suites) (h := h) h3 hm1 (by
      intro j hj; rw [hB, hH]) (by
      intro p hp
      rw [hB] at hp
      exact (hshort p (by rw [hOe]; simp [hp])).1)
    rw [hB, hH, ← hsplit] at h4
    cases hb : accept H [] O with
    | none =>
      rw [hb] at h4
      simp only at h4
      rw [if_pos h4]
      refine ⟨_, rfl, ⟨fun he => absurd he h4, fun he => ?_⟩, fun he => absurd he h4⟩
      have := hagree.2 he.1
      rw [hb] at this
      simp at this
    | some m =>
      rw [hb] at h4
      simp only at h4
      obtain ⟨o2, h5, t, ht, hr, hlk, hdl⟩ := h4
      rw [h5]
      simp only [not_true_eq_false, if_false]
      have hAg : Agree h next O := hagree.1 (by rw [hb]; rfl)
      obtain ⟨hpw, hlook⟩ := accept_result List.Pairwise.nil hb
      simp only [List.nil_append] at hlook
      obtain ⟨l, hle, hsub⟩ := accept_mem hb
      simp only [List.nil_append] at hle
      subst hle
      have hOids : O.Pairwise fun p q => p.id ≠ q.id := by
        rw [hOe, List.pairwise_append]
        refine ⟨hfresh.ids, objs_nodup _ _, ?_⟩
        intro p hp q hq
        have := hPid p hp
        have := (objs_id hq).1
        omega
      have hids := hOids.sublist hsub
      have hmem : ∀ p, p ∈ m ↔ p ∈ O ∧ first O p.name = some p := by
        intro p
        rw [← hlook]
        constructor
        · intro hp
          exact ⟨hsub.subset hp, specLookup_self hpw hp rfl⟩
        · intro hp
          exact (specLookup_mem hp.2).1
      have hnone : ∀ p ∈ m, (H p.id).constInd = none := by
        intro p hp
        have hpO := hsub.subset hp
        rw [hOe] at hpO
        rcases List.mem_append.1 hpO with hpP | hpB
        · rw [hHP p hpP]; exact hfresh.new p hpP
        · have := objs_id hpB
          rw [← hH]
          unfold heapAt
          rw [if_pos this]
          rfl
      have hlayer : (∀ p ∈ O, first O p.name = some p → isLayer p = true) ↔ ∀ p ∈ m, isLayer p = true := by
        constructor
        · intro hh p hp
          exact hh p ((hmem p).1 hp).1 ((hmem p).1 hp).2
        · intro hh p hp hpf
          exact hh p ((hmem p).2 ⟨hp, hpf⟩)
      rcases lockTable_cases (h := H) ht hr hids hlk with ⟨hnil, -⟩ | ⟨-, hrest⟩
      · exfalso
        subst hnil
        cases O with
        | nil => exact hne rfl
        | cons p O =>
          have := hlook p.name
          rw [first_eq] at this
          unfold specLookup at this
          rw [List.find?_cons_of_pos (by simp [SameKey, key])] at this
          simp at this
      · rcases hrest with ⟨⟨p, hp, hpl⟩, h', metas, na, e, hL, he, -⟩ | ⟨hall, hrest⟩
        · rw [hL]
          simp only
          rw [if_pos he]
          refine ⟨_, rfl, ⟨fun hh => absurd hh he, fun hh => ?_⟩, fun hh => absurd hh he⟩
          have := hlayer.1 hh.2.1 p hp
          rw [hpl] at this
          simp at this
        · obtain ⟨h', na, L, hperm, hL, hidx, -, -, -⟩ := hrest hnone
          rw [hL]
          simp only [not_true_eq_false, if_false]
          refine ⟨_, rfl, ?_⟩
          generalize ho3 : ({ Const.reset o2 false with numAdvected := na, metadata := some (L.map some), tableLocked := true } : Obj R) = o3
          have ht3 : o3.table = some t := by rw [← ho3]; simpa [Const.reset] using ht
          have hl3 : propsLocked o3 = (true, 0) := by
            unfold propsLocked Obj.isInit
            rw [ht3, ← ho3]
            rfl
          have hf3 := findConst_refines (o := o3) ht3 hr
          have hS := setIndices_spec (h := h') hl3 hf3 hperm (fun i p hp => (hidx i p hp).1) names old hold
          simp only [hlook] at hS
          refine ⟨?_, ?_⟩
          · simp only
            rw [hS.1]
            exact ⟨fun hh => ⟨hAg, hlayer.2 hall, hh⟩, fun hh => hh.2.2⟩
          · intro he
            simp only at he
            obtain ⟨hlen, hix⟩ := hS.2 he
            refine ⟨by simp only; rw [hl3], L, by simp only; rw [← ho3], ?_, ?_, ?_, hlen, hix⟩
            · intro p
              rw [hperm.mem_iff]
              exact hmem p
            · have : ∀ a b : Ptr R, ¬ SameKey (key a) (key b) → ¬ SameKey (key b) (key a) := fun a b hh hc => hh hc.symm
              exact (hperm.pairwise_iff (fun {a b} hab => this a b hab)).2 hpw
            · intro i p hp
              simp only
              rw [← ho3]
              exact (hidx i p hp).2

end Ccpp.HC
