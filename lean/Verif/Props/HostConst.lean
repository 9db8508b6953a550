import Verif.Spec.HostConst
import Verif.Props.Constituents
import Verif.Props.PrebuildArgs
import Verif.Props.ReqVars
/-! # C82: lemmas on registration -/
namespace Ccpp.HC
open Const Hash

variable {R : Type}

/-- An object that accepts registrations and holds `m`. -/
def Open (o : Obj R) (m : List (Ptr R)) : Prop :=
  ∃ t, o.table = some t ∧ Refines key t m ∧ o.tableLocked = false ∧ o.dataLocked = false

theorem open_init (o : Obj R) (size : Int) (hs : 0 ≤ size) (hd : o.dataLocked = false) : Open (initObj o size) [] :=
  ⟨_, rfl, init_refines key size none _ hs, rfl, by simpa [initObj, Const.reset] using hd⟩

theorem addMeta_spec {h : Heap R} {o : Obj R} {m : List (Ptr R)} {p : Ptr R} (ho : Open o m) (hp : p.name.length ≤ 256) :
    match specLookup key m p.name with
    | some q => if propsMatch h q p then addMetadata h o p 0 = (o, 0) else addMetadata h o p 0 = (o, 1)
    | none => ∃ o', addMetadata h o p 0 = (o', 0) ∧ Open o' (m ++ [p]) := by
  obtain ⟨t, ht, hr, hl, hd⟩ := ho
  have hfit : fit stdnameLen p.name = p.name := List.take_of_length_le hp
  have hok : okayToAdd o 0 = (true, 0) := by
    simp [okayToAdd, Obj.isInit, ht, propsLocked, dataLocked, hl, hd]
  have hf := findConst_refines ht hr p.name
  cases hs : specLookup key m p.name with
  | some q =>
    simp only
    rw [hs] at hf
    unfold addMetadata
    rw [hok, hfit, hf]
    simp only
    split <;> simp_all
  | none =>
    simp only
    rw [hs] at hf
    unfold addMetadata
    rw [hok, hfit, hf, ht]
    simp only
    obtain ⟨ha, hb, -⟩ := add_refines hr p
    have hany : m.any (fun w => decide (SameKey (key w) (key p))) = false := by
      unfold specLookup at hs
      rw [List.find?_eq_none] at hs
      rw [List.any_eq_false]
      intro w hw
      exact hs w hw
    rw [hany] at hb
    simp only [Bool.false_eq_true, if_false] at hb
    unfold specAdd at ha
    rw [hany] at ha
    simp only [Bool.false_eq_true, if_false] at ha
    have hadd : add key t p = ((add key t p).1, none) := Prod.ext rfl hb
    rw [hadd]
    simp only
    cases isLayer p with
    | true => exact ⟨_, rfl, _, rfl, ha, hl, hd⟩
    | false => exact ⟨_, rfl, _, rfl, ha, hl, hd⟩

/-- The registrations on the level of lists. -/
def accept (H : Heap R) : List (Ptr R) → List (Ptr R) → Option (List (Ptr R))
  | m, [] => some m
  | m, p :: ps => match specLookup key m p.name with
    | some q => if propsMatch H q p then accept H m ps else none
    | none => accept H (m ++ [p]) ps

theorem accept_append (H : Heap R) : ∀ (a b m : List (Ptr R)), accept H m (a ++ b) = (accept H m a).bind fun m' => accept H m' b := by
  intro a
  induction a with
  | nil => intro b m; rfl
  | cons p a ih =>
    intro b m
    simp only [List.cons_append, accept]
    cases specLookup key m p.name with
    | some q =>
      simp only
      split
      · exact ih b m
      · rfl
    | none => exact ih b _

theorem accept_mem {H : Heap R} : ∀ {ps m m' : List (Ptr R)}, accept H m ps = some m' → ∃ l, m' = m ++ l ∧ l.Sublist ps := by
  intro ps
  induction ps with
  | nil => intro m m' h; exact ⟨[], by simpa [accept] using h.symm, List.Sublist.refl _⟩
  | cons p ps ih =>
    intro m m' h
    simp only [accept] at h
    cases hs : specLookup key m p.name with
    | some q =>
      rw [hs] at h
      simp only at h
      split at h
      · obtain ⟨l, h1, h2⟩ := ih h
        exact ⟨l, h1, h2.cons _⟩
      · simp at h
    | none =>
      rw [hs] at h
      obtain ⟨l, h1, h2⟩ := ih h
      exact ⟨p :: l, by rw [h1]; simp, h2.cons_cons _⟩

theorem addPtrs_spec {h : Heap R} : ∀ {ps : List (Ptr R)} {o : Obj R} {m : List (Ptr R)}, Open o m → (∀ p ∈ ps, p.name.length ≤ 256) →
    match accept h m ps with
    | some m' => ∃ o', addPtrs h o ps = (o', 0) ∧ Open o' m'
    | none => (addPtrs h o ps).2 ≠ 0 := by
  intro ps
  induction ps with
  | nil => intro o m ho _; exact ⟨o, rfl, ho⟩
  | cons p ps ih =>
    intro o m ho hl
    have h1 := addMeta_spec (h := h) ho (hl p (by simp))
    have hl' : ∀ p ∈ ps, p.name.length ≤ 256 := fun q hq => hl q (by simp [hq])
    simp only [accept, addPtrs]
    cases hs : specLookup key m p.name with
    | some q =>
      rw [hs] at h1
      simp only at h1 ⊢
      by_cases hm : propsMatch h q p = true
      · rw [if_pos hm] at h1 ⊢
        rw [h1]
        simpa using ih ho hl'
      · rw [if_neg hm] at h1 ⊢
        rw [h1]
        simp
    | none =>
      rw [hs] at h1
      simp only at h1 ⊢
      obtain ⟨o', h2, h3⟩ := h1
      rw [h2]
      simpa using ih h3 hl'

theorem propsMatch_congr {h H : Heap R} {p q : Ptr R} (hp : H p.id = h p.id) (hq : H q.id = h q.id) : propsMatch H p q = propsMatch h p q := by
  unfold propsMatch
  rw [hp, hq]

/-- The heap when the suites' constituents are allocated. -/
def heapAt (mn : R) (h : Heap R) (next n : Nat) : Heap R := fun j => if next ≤ j ∧ j < next + n then newMut mn else h j

theorem heapAt_zero (mn : R) (h : Heap R) (next : Nat) : heapAt mn h next 0 = h := by
  funext j
  unfold heapAt
  rw [if_neg (by omega)]

theorem heapAt_succ (mn : R) (h : Heap R) (next n : Nat) : heapAt mn (alloc mn h next) (next + 1) n = heapAt mn h next (n + 1) := by
  funext j
  unfold heapAt alloc
  by_cases h1 : j = next
  · subst h1
    rw [if_neg (by omega), if_pos rfl, if_pos (by omega)]
  · by_cases h2 : next + 1 ≤ j ∧ j < next + 1 + n
    · rw [if_pos h2, if_pos (by omega)]
    · rw [if_neg h2, if_neg h1, if_neg (by omega)]

theorem heapAt_add (mn : R) (h : Heap R) (next a b : Nat) : heapAt mn (heapAt mn h next a) (next + a) b = heapAt mn h next (a + b) := by
  funext j
  unfold heapAt
  by_cases h1 : next + a ≤ j ∧ j < next + a + b
  · rw [if_pos h1, if_pos (by omega)]
  · rw [if_neg h1]
    by_cases h2 : next ≤ j ∧ j < next + a
    · rw [if_pos h2, if_pos (by omega)]
    · rw [if_neg h2, if_neg (by omega)]

/-- The objects of one suite. -/
def objs (next : Nat) (vs : List (CVar R)) : List (Ptr R) := vs.mapIdx fun i v => suitePtr (next + i) v

theorem objs_cons (next : Nat) (v : CVar R) (vs : List (CVar R)) : objs next (v :: vs) = suitePtr next v :: objs (next + 1) vs := by
  unfold objs
  rw [List.mapIdx_cons]
  congr 2
  funext i v
  congr 1
  omega

theorem objs_append (next : Nat) (a b : List (CVar R)) : objs next (a ++ b) = objs next a ++ objs (next + a.length) b := by
  induction a generalizing next with
  | nil => rfl
  | cons v a ih =>
    rw [List.cons_append, objs_cons, objs_cons, ih]
    simp only [List.cons_append, List.length_cons]
    rw [show next + (a.length + 1) = next + 1 + a.length by omega]

theorem objs_id {next : Nat} {vs : List (CVar R)} {p : Ptr R} (hp : p ∈ objs next vs) : next ≤ p.id ∧ p.id < next + vs.length := by
  unfold objs at hp
  rw [List.mem_mapIdx] at hp
  obtain ⟨i, hi, rfl⟩ := hp
  simp only [suitePtr, newPtr]
  omega

theorem addSuite_spec {mn : R} {H : Heap R} : ∀ {vs : List (CVar R)} {h : Heap R} {next : Nat} {o : Obj R} {m : List (Ptr R)}, Open o m →
    (∀ p ∈ m, p.id < next) → (∀ j, j < next + vs.length → H j = heapAt mn h next vs.length j) →
    (∀ p ∈ objs next vs, p.name.length ≤ 256) →
    match accept H m (objs next vs) with
    | some m' => ∃ o', addSuite mn h next o vs = (heapAt mn h next vs.length, next + vs.length, o', 0) ∧ Open o' m'
    | none => (addSuite mn h next o vs).2.2.2 ≠ 0 := by
  intro vs
  induction vs with
  | nil =>
    intro h next o m ho _ _ _
    exact ⟨o, by simp [addSuite, heapAt_zero], ho⟩
  | cons v vs ih =>
    intro h next o m ho hm hH hl
    rw [objs_cons] at hl ⊢
    have h1 := addMeta_spec (h := alloc mn h next) ho (hl (suitePtr next v) (by simp))
    have hl' : ∀ p ∈ objs (next + 1) vs, p.name.length ≤ 256 := fun q hq => hl q (by simp [hq])
    have hH' : ∀ j, j < next + 1 + vs.length → H j = heapAt mn (alloc mn h next) (next + 1) vs.length j := by
      intro j hj
      rw [heapAt_succ]
      exact hH j (by simp only [List.length_cons]; omega)
    have hHa : ∀ j, j < next + 1 → H j = alloc mn h next j := by
      intro j hj
      rw [hH' j (by omega)]
      unfold heapAt
      rw [if_neg (by omega)]
    have hlen : heapAt mn (alloc mn h next) (next + 1) vs.length = heapAt mn h next (v :: vs).length := by
      rw [heapAt_succ, List.length_cons]
    have hnx : next + 1 + vs.length = next + (v :: vs).length := by rw [List.length_cons]; omega
    simp only [accept, addSuite]
    cases hs : specLookup key m (suitePtr next v).name with
    | some q =>
      rw [hs] at h1
      simp only at h1 ⊢
      have hq : q.id < next := hm q (specLookup_mem hs).1
      rw [propsMatch_congr (h := alloc mn h next) (hHa _ (by omega)) (hHa _ (by simp [suitePtr, newPtr]))]
      by_cases hmm : propsMatch (alloc mn h next) q (suitePtr next v) = true
      · rw [if_pos hmm] at h1 ⊢
        rw [h1]
        have := ih ho (fun p hp => Nat.lt_succ_of_lt (hm p hp)) hH' hl'
        rw [hlen, hnx] at this
        simpa using this
      · rw [if_neg hmm] at h1 ⊢
        rw [h1]
        simp
    | none =>
      rw [hs] at h1
      simp only at h1 ⊢
      obtain ⟨o', h2, h3⟩ := h1
      rw [h2]
      have := ih h3 (by
        intro p hp
        rcases List.mem_append.1 hp with hp | hp
        · exact Nat.lt_succ_of_lt (hm p hp)
        · rw [List.mem_singleton.1 hp]; simp [suitePtr, newPtr]) hH' hl'
      rw [hlen, hnx] at this
      simpa using this

theorem addSuites_spec {mn : R} {H : Heap R} : ∀ {ds : List (List (CVar R))} {h : Heap R} {next : Nat} {o : Obj R} {m : List (Ptr R)}, Open o m →
    (∀ p ∈ m, p.id < next) →
    (∀ j, j < next + (ds.flatMap suiteConsts).length → H j = heapAt mn h next (ds.flatMap suiteConsts).length j) →
    (∀ p ∈ objs next (ds.flatMap suiteConsts), p.name.length ≤ 256) →
    match accept H m (objs next (ds.flatMap suiteConsts)) with
    | some m' => ∃ o', addSuites mn h next o ds =
        (heapAt mn h next (ds.flatMap suiteConsts).length, next + (ds.flatMap suiteConsts).length, o', 0) ∧ Open o' m'
    | none => (addSuites mn h next o ds).2.2.2 ≠ 0 := by
  intro ds
  induction ds with
  | nil =>
    intro h next o m ho _ _ _
    exact ⟨o, by simp [addSuites, heapAt_zero], ho⟩
  | cons d ds ih =>
    intro h next o m ho hm hH hl
    simp only [List.flatMap_cons] at hH hl ⊢
    generalize hA : suiteConsts d = A at hH hl ⊢
    generalize hB : ds.flatMap suiteConsts = B at hH hl ih ⊢
    rw [objs_append] at hl ⊢
    rw [accept_append]
    rw [List.length_append] at hH
    have hHa : ∀ j, j < next + A.length → H j = heapAt mn h next A.length j := by
      intro j hj
      rw [hH j (by omega), ← heapAt_add]
      unfold heapAt
      rw [if_neg (by omega)]
    have h1 := addSuite_spec (mn := mn) (vs := A) ho hm hHa (fun p hp => hl p (by simp [hp]))
    simp only [addSuites, hA]
    cases ha : accept H m (objs next A) with
    | none =>
      rw [ha] at h1
      simp only [Option.bind_none] at h1 ⊢
      rw [if_pos h1]
      exact h1
    | some m1 =>
      rw [ha] at h1
      simp only [Option.bind_some] at h1 ⊢
      obtain ⟨o1, h2, h3⟩ := h1
      rw [h2]
      simp only [ne_eq, not_true_eq_false, if_false]
      have hm1 : ∀ p ∈ m1, p.id < next + A.length := by
        obtain ⟨l, e, hsub⟩ := accept_mem ha
        intro p hp
        rw [e] at hp
        rcases List.mem_append.1 hp with hp | hp
        · have := hm p hp; omega
        · exact (objs_id (hsub.subset hp)).2
      have := ih (h := heapAt mn h next A.length) (next := next + A.length) h3 hm1 (by
        intro j hj
        rw [hH j (by omega), heapAt_add]) (fun p hp => hl p (by simp [hp]))
      rw [heapAt_add] at this
      rw [List.length_append, ← Nat.add_assoc]
      exact this

/-! ## What is accepted -/

theorem find_append_pos {P : Ptr R → Bool} {m l : List (Ptr R)} {q : Ptr R} (h : m.find? P = some q) : (m ++ l).find? P = some q := by
  rw [List.find?_append, h]; rfl

theorem first_eq (l : List (Ptr R)) (n : Str) : first l n = specLookup key l n := rfl

theorem propsMatch_refl (H : Heap R) (p : Ptr R) : propsMatch H p p = true := by simp [propsMatch]

theorem sameKey_find {m : List (Ptr R)} {a b : Str} (h : SameKey a b) : specLookup key m a = specLookup key m b := by
  unfold specLookup
  congr 1
  funext w
  apply decide_eq_decide.2
  unfold SameKey at *
  rw [h]

theorem accept_iff (H : Heap R) : ∀ (ps m : List (Ptr R)),
    (accept H m ps).isSome = true ↔ ∀ p ∈ ps, ∀ q, first (m ++ ps) p.name = some q → propsMatch H q p = true := by
  intro ps
  induction ps with
  | nil => intro m; simp [accept]
  | cons p ps ih =>
    intro m
    simp only [accept]
    cases hs : specLookup key m p.name with
    | some q =>
      simp only
      have hfp : first (m ++ p :: ps) p.name = some q := find_append_pos hs
      have hf : ∀ k, first (m ++ p :: ps) k = first (m ++ ps) k := by
        intro k
        simp only [first_eq]
        unfold specLookup
        rw [List.find?_append, List.find?_append]
        by_cases hk : SameKey p.name k
        · rw [sameKey_find hk] at hs
          unfold specLookup at hs
          rw [hs]
          rfl
        · rw [List.find?_cons_of_neg (by show ¬ (decide (SameKey p.name k) = true); rw [decide_eq_true_eq]; exact hk)]
      split
      · rename_i hm
        rw [ih m]
        constructor
        · intro h p' hp' q' hq'
          rcases List.mem_cons.1 hp' with rfl | hp'
          · rw [hfp] at hq'
            cases hq'
            exact hm
          · rw [hf] at hq'
            exact h p' hp' q' hq'
        · intro h p' hp' q' hq'
          exact h p' (by simp [hp']) q' (by rw [hf]; exact hq')
      · rename_i hm
        constructor
        · intro h; simp at h
        · intro h
          exact absurd (h p (by simp) q hfp) hm
    | none =>
      simp only
      rw [ih, List.append_assoc, List.singleton_append]
      have hfp : first (m ++ p :: ps) p.name = some p := by
        rw [first_eq]
        unfold specLookup
        rw [List.find?_append]
        unfold specLookup at hs
        rw [hs, List.find?_cons_of_pos (by simp [key, SameKey])]
        rfl
      constructor
      · intro h p' hp' q' hq'
        rcases List.mem_cons.1 hp' with rfl | hp'
        · rw [hfp] at hq'
          cases hq'
          exact propsMatch_refl _ _
        · exact h p' hp' q' hq'
      · intro h p' hp' q' hq'
        exact h p' (by simp [hp']) q' hq'

theorem accept_result {H : Heap R} : ∀ {ps m m' : List (Ptr R)}, m.Pairwise (fun p q => ¬ SameKey (key p) (key q)) →
    accept H m ps = some m' →
    m'.Pairwise (fun p q => ¬ SameKey (key p) (key q)) ∧ ∀ k, specLookup key m' k = first (m ++ ps) k := by
  intro ps
  induction ps with
  | nil =>
    intro m m' hm h
    simp only [accept, Option.some.injEq] at h
    subst h
    exact ⟨hm, by simp [first_eq]⟩
  | cons p ps ih =>
    intro m m' hm h
    simp only [accept] at h
    cases hs : specLookup key m p.name with
    | some q =>
      rw [hs] at h
      simp only at h
      split at h
      · obtain ⟨h1, h2⟩ := ih hm h
        refine ⟨h1, fun k => ?_⟩
        rw [h2]
        simp only [first_eq]
        unfold specLookup
        rw [List.find?_append, List.find?_append]
        by_cases hk : SameKey p.name k
        · rw [sameKey_find hk] at hs
          unfold specLookup at hs
          rw [hs]
          rfl
        · rw [List.find?_cons_of_neg (by show ¬ (decide (SameKey p.name k) = true); rw [decide_eq_true_eq]; exact hk)]
      · simp at h
    | none =>
      rw [hs] at h
      simp only at h
      have := ih (by
        rw [List.pairwise_append]
        refine ⟨hm, by simp, ?_⟩
        intro a ha b hb
        rw [List.mem_singleton.1 hb]
        unfold specLookup at hs
        rw [List.find?_eq_none] at hs
        have := hs a ha
        rw [decide_eq_true_eq] at this
        exact this) h
      rwa [List.append_assoc, List.singleton_append] at this

end Ccpp.HC
