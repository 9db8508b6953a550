import Verif.Model.Constituents
import Verif.Props.HashTable
/-! Lemmas about the constituent model -/
namespace Ccpp.Const
open Hash

variable {R : Type}

/-! ### Iteration -/

theorem iterValues_spec {t : Table (Ptr R)} {m : List (Ptr R)} (hr : Refines key t m) :
    (m = [] ∧ iterValues t = none) ∨ (m ≠ [] ∧ ∃ l, iterValues t = some l ∧ l.Perm m) := by
  obtain ⟨k, _, hk⟩ := size_reachable hr.reach
  have hpos : (0 : Int) < t.size := by rw [hk]; exact Int.pow_pos (by decide)
  have hflat := flatFrom_perm t key m t.size.toNat 0 hr.chain
  rw [List.filter_eq_self.2] at hflat
  rotate_left
  · intro v _
    have := C11_hash_in_bounds hr.reach (key v)
    simp only [decide_eq_true_eq]
    omega
  rcases startLoop_spec t t.size.toNat 0 (by omega) (by omega) with
    ⟨h0, h1⟩ | ⟨h0, it, hit, hg, hrest⟩
  · left
    rw [h0] at hflat
    refine ⟨(List.Perm.nil_eq hflat).symm, ?_⟩
    unfold iterValues start
    rw [h1]
  · right
    refine ⟨?_, rest t it, ?_, ?_⟩
    · intro hm
      rw [hm] at hflat
      exact h0 (List.Perm.eq_nil hflat)
    · have hperm : (rest t it).Perm m := by rw [hrest]; exact hflat
      have hlen : (rest t it).length = numValues t := by
        rw [hperm.length_eq]; exact hr.num.symm
      unfold iterValues start
      rw [hit]
      simp only
      rw [(collect_spec t (numValues t + 1) it hg (by omega)).1]
      simp [List.filterMap_map]
    · rw [hrest]; exact hflat

/-! ### The packing loop -/

theorem set_append_replicate {α : Type} (A B : List (Option α)) (k : Nat) (x : Option α) :
    (A ++ (List.replicate (k + 1) none ++ B)).set A.length x =
      A ++ [x] ++ (List.replicate k none ++ B) := by
  simp [List.set_append, List.replicate_succ]

/-- Positions at which the loop has stored something. -/
def adv (l : List (Ptr R)) : List (Ptr R) := l.filter (·.advected)
def nonadv (l : List (Ptr R)) : List (Ptr R) := l.filter (fun p => !p.advected)

theorem adv_nonadv_length (l : List (Ptr R)) : (adv l).length + (nonadv l).length = l.length := by
  induction l with
  | nil => rfl
  | cons p l ih =>
    unfold adv nonadv at *
    cases h : p.advected <;> simp [h] <;> omega

/-- Loop state after the elements `done` with all constituents usable. -/
structure PackInv (h0 : Heap R) (na n : Nat) (done : List (Ptr R)) (s : Pack R) : Prop where
  ia : s.ia = (adv done).length
  ic : s.ic = na + (nonadv done).length
  metas : s.metas = (adv done).map some ++ (List.replicate (na - (adv done).length) none ++
    ((nonadv done).map some ++ List.replicate (n - na - (nonadv done).length) none))
  idxA : ∀ (i : Nat) (p : Ptr R), (adv done)[i]? = some p → (s.heap p.id).constInd = some ((i : Int) + 1)
  idxN : ∀ (i : Nat) (p : Ptr R), (nonadv done)[i]? = some p → (s.heap p.id).constInd = some ((na : Int) + i + 1)
  other : ∀ id, (∀ p ∈ done, p.id ≠ id) → s.heap id = h0 id
  same : ∀ id, (s.heap id).thermo = (h0 id).thermo ∧ (s.heap id).water = (h0 id).water ∧
    (s.heap id).minVal = (h0 id).minVal
  err : s.err = 0
  errLocal : s.errLocal = 0

theorem setConstIndex_none {h : Heap R} {id : Nat} (hn : (h id).constInd = none) (i : Int) :
    setConstIndex h id i =
      (fun j => if j = id then { h j with constInd := some i } else h j, 0) := by
  simp [setConstIndex, hn]

theorem packLoop_ok (h0 : Heap R) (na n : Nat) (todo : List (Ptr R)) :
    ∀ (done : List (Ptr R)) (s : Pack R), PackInv h0 na n done s →
    na = (adv (done ++ todo)).length → n = (done ++ todo).length →
    (done ++ todo).Pairwise (fun p q => p.id ≠ q.id) →
    (∀ p ∈ todo, (h0 p.id).constInd = none) →
    (∀ p ∈ todo, isLayer p = true) →
    PackInv h0 na n (done ++ todo) (packLoop na n s todo) := by
  induction todo with
  | nil => intro done s hi _ _ _ _ _; simpa [packLoop] using hi
  | cons p ps ih =>
    intro done s hi hna hn hid hc hl
    have hlen := adv_nonadv_length (done ++ p :: ps)
    have hadv : (adv (done ++ p :: ps)).length = (adv done).length +
        ((if p.advected then 1 else 0) + (adv ps).length) := by
      unfold adv; cases h : p.advected <;> simp [List.filter_append, h]; omega
    have hnon : (nonadv (done ++ p :: ps)).length = (nonadv done).length +
        ((if p.advected then 0 else 1) + (nonadv ps).length) := by
      unfold nonadv; cases h : p.advected <;> simp [List.filter_append, h]; omega
    have hpd : ∀ q ∈ done, q.id ≠ p.id := by
      intro q hq
      rw [List.pairwise_append] at hid
      exact hid.2.2 q hq p (by simp)
    have hcn : (s.heap p.id).constInd = none := by
      rw [hi.other p.id (fun q hq => hpd q hq)]
      exact hc p (by simp)
    have hassoc : done ++ p :: ps = (done ++ [p]) ++ ps := by simp
    have hlp := hl p (by simp)
    rw [hassoc] at hna hn hid ⊢
    have step : ∀ s', PackInv h0 na n (done ++ [p]) s' →
        PackInv h0 na n (done ++ [p] ++ ps) (packLoop na n s' ps) := fun s' hs' =>
      ih (done ++ [p]) s' hs' hna hn hid (fun q hq => hc q (by simp [hq]))
        (fun q hq => hl q (by simp [hq]))
    rw [← hassoc] at hna hn hid
    cases hp : p.advected with
    | true =>
      rw [hp] at hadv hnon
      simp only [if_true] at hadv hnon
      have e1 : adv (done ++ [p]) = adv done ++ [p] := by simp [adv, List.filter_append, hp]
      have e2 : nonadv (done ++ [p]) = nonadv done := by
        simp [nonadv, List.filter_append, hp]
      simp only [packLoop, hp, if_true]
      rw [if_neg (by rw [hi.ia]; omega)]
      simp only [setConstIndex_none hcn, hlp, if_true]
      apply step
      refine ⟨by simp [e1, hi.ia], by simp [e2, hi.ic], ?_, ?_, ?_, ?_, ?_, rfl, hi.errLocal⟩
      · simp only
        rw [hi.metas, hi.ia, e1, e2]
        have : na - (adv done).length = (na - (adv done).length - 1) + 1 := by omega
        rw [this]
        have hA : (adv done).length + 1 - 1 = ((adv done).map some).length := by simp
        rw [hA, set_append_replicate]
        simp only [List.map_append, List.map_cons, List.map_nil, List.length_append,
          List.length_cons, List.length_nil]
        congr 3
      · intro i q hq
        rw [e1] at hq
        simp only
        rw [List.getElem?_append] at hq
        split at hq
        · have hqd : q ∈ done := (List.mem_filter.1 (List.mem_of_getElem? hq)).1
          rw [if_neg (hpd q hqd)]
          exact hi.idxA i q hq
        · rename_i hge
          have hi0 : i = (adv done).length := by
            rcases Nat.lt_trichotomy (i - (adv done).length) 1 with h | h | h
            · omega
            · rw [h] at hq; simp at hq
            · rw [List.getElem?_eq_none (by simp; omega)] at hq; simp at hq
          subst hi0
          simp at hq
          subst hq
          simp [hi.ia]
      · intro i q hq
        rw [e2] at hq
        have hqd : q ∈ done := (List.mem_filter.1 (List.mem_of_getElem? hq)).1
        simp only
        rw [if_neg (hpd q hqd)]
        exact hi.idxN i q hq
      · intro id hid'
        simp only
        rw [if_neg (fun e => hid' p (by simp) e.symm)]
        exact hi.other id (fun q hq => hid' q (by simp [hq]))
      · intro id
        simp only
        split
        · exact hi.same id
        · exact hi.same id
    | false =>
      rw [hp] at hadv hnon
      simp only [Bool.false_eq_true, if_false] at hadv hnon
      have e1 : adv (done ++ [p]) = adv done := by simp [adv, List.filter_append, hp]
      have e2 : nonadv (done ++ [p]) = nonadv done ++ [p] := by
        simp [nonadv, List.filter_append, hp]
      simp only [packLoop, hp, Bool.false_eq_true, if_false]
      rw [if_neg (by rw [hi.ic]; omega)]
      simp only [setConstIndex_none hcn, hlp, if_true]
      apply step
      refine ⟨by simp [e1, hi.ia], by simp only [e2, hi.ic, List.length_append,
        List.length_cons, List.length_nil]; omega, ?_, ?_, ?_, ?_, ?_, rfl, hi.errLocal⟩
      · simp only
        rw [hi.metas, hi.ic, e1, e2]
        have : n - na - (nonadv done).length = (n - na - (nonadv done).length - 1) + 1 := by omega
        rw [this]
        have hA : na + (nonadv done).length + 1 - 1 = ((adv done).map some ++
            (List.replicate (na - (adv done).length) none ++ (nonadv done).map some)).length := by
          simp; omega
        have hS := set_append_replicate ((adv done).map some ++
            (List.replicate (na - (adv done).length) none ++ (nonadv done).map some)) []
            (n - na - (nonadv done).length - 1) (some p)
        rw [← hA] at hS
        simp only [List.append_nil, List.append_assoc] at hS
        rw [hS]
        simp only [List.map_append, List.map_cons, List.map_nil, List.length_append,
          List.length_cons, List.length_nil, List.append_assoc]
        congr 5
      · intro i q hq
        rw [e1] at hq
        have hqd : q ∈ done := (List.mem_filter.1 (List.mem_of_getElem? hq)).1
        simp only
        rw [if_neg (hpd q hqd)]
        exact hi.idxA i q hq
      · intro i q hq
        rw [e2] at hq
        simp only
        rw [List.getElem?_append] at hq
        split at hq
        · have hqd : q ∈ done := (List.mem_filter.1 (List.mem_of_getElem? hq)).1
          rw [if_neg (hpd q hqd)]
          exact hi.idxN i q hq
        · rename_i hge
          have hi0 : i = (nonadv done).length := by
            rcases Nat.lt_trichotomy (i - (nonadv done).length) 1 with h | h | h
            · omega
            · rw [h] at hq; simp at hq
            · rw [List.getElem?_eq_none (by simp; omega)] at hq; simp at hq
          subst hi0
          simp at hq
          subst hq
          simp [hi.ic]
      · intro id hid'
        simp only
        rw [if_neg (fun e => hid' p (by simp) e.symm)]
        exact hi.other id (fun q hq => hid' q (by simp [hq]))
      · intro id
        simp only
        split
        · exact hi.same id
        · exact hi.same id

/-- A constituent which is not a layer variable makes the loop report an error. -/
theorem packLoop_bad (na n : Nat) (l : List (Ptr R)) :
    ∀ s : Pack R, (∃ p ∈ l, isLayer p = false) → 0 < (packLoop na n s l).errLocal := by
  induction l with
  | nil => rintro s ⟨p, hp, _⟩; simp at hp
  | cons q l ih =>
    rintro s ⟨p, hp, hb⟩
    by_cases hq : isLayer q = true
    · have hp' : p ∈ l := by
        rcases List.mem_cons.1 hp with rfl | h
        · rw [hq] at hb; simp at hb
        · exact h
      simp only [packLoop, hq, if_true]
      split
      · split
        · simp
        · exact ih _ ⟨p, hp', hb⟩
      · split
        · simp
        · exact ih _ ⟨p, hp', hb⟩
    · simp only [packLoop, hq, Bool.false_eq_true, if_false]
      split
      · split <;> simp
      · split <;> simp

/-- The loop only changes constituent indices of its elements. -/
theorem packLoop_frame (na n : Nat) (l : List (Ptr R)) :
    ∀ s : Pack R, (∀ id, (∀ p ∈ l, p.id ≠ id) → (packLoop na n s l).heap id = s.heap id) ∧
    (∀ id, ((packLoop na n s l).heap id).thermo = (s.heap id).thermo ∧
      ((packLoop na n s l).heap id).water = (s.heap id).water ∧
      ((packLoop na n s l).heap id).minVal = (s.heap id).minVal) := by
  induction l with
  | nil => intro s; simp [packLoop]
  | cons q l ih =>
    intro s
    have hset : ∀ (h : Heap R) (i : Int), (∀ id, q.id ≠ id → (setConstIndex h q.id i).1 id = h id) ∧
        (∀ id, ((setConstIndex h q.id i).1 id).thermo = (h id).thermo ∧
          ((setConstIndex h q.id i).1 id).water = (h id).water ∧
          ((setConstIndex h q.id i).1 id).minVal = (h id).minVal) := by
      intro h i
      unfold setConstIndex
      cases (h q.id).constInd with
      | some _ => simp
      | none =>
        refine ⟨fun id hid => by simp [hid.symm], fun id => ?_⟩
        simp only
        split <;> simp
    have fin : ∀ (h : Heap R) (i : Int) (s' : Pack R), s'.heap = (setConstIndex h q.id i).1 →
        s.heap = h →
        ((∀ id, (∀ p ∈ q :: l, p.id ≠ id) → (packLoop na n s' l).heap id = s.heap id) ∧
        (∀ id, ((packLoop na n s' l).heap id).thermo = (s.heap id).thermo ∧
          ((packLoop na n s' l).heap id).water = (s.heap id).water ∧
          ((packLoop na n s' l).heap id).minVal = (s.heap id).minVal)) ∧
        ((∀ id, (∀ p ∈ q :: l, p.id ≠ id) → s'.heap id = s.heap id) ∧
        (∀ id, (s'.heap id).thermo = (s.heap id).thermo ∧
          (s'.heap id).water = (s.heap id).water ∧
          (s'.heap id).minVal = (s.heap id).minVal)) := by
      intro h i s' hs' hs
      have := hset h i
      refine ⟨⟨fun id hid => ?_, fun id => ?_⟩, fun id hid => ?_, fun id => ?_⟩
      · rw [(ih s').1 id (fun p hp => hid p (by simp [hp])), hs', hs]
        exact this.1 id (hid q (by simp))
      · rw [((ih s').2 id).1, ((ih s').2 id).2.1, ((ih s').2 id).2.2, hs', hs]
        exact this.2 id
      · rw [hs', hs]; exact this.1 id (hid q (by simp))
      · rw [hs', hs]; exact this.2 id
    simp only [packLoop]
    split
    · split
      · simp
      · split
        · exact (fin s.heap _ _ rfl rfl).1
        · exact (fin s.heap _ ⟨(setConstIndex s.heap q.id _).1, s.metas, 0, 0, 0, 0⟩ rfl rfl).2
    · split
      · simp
      · split
        · exact (fin s.heap _ _ rfl rfl).1
        · exact (fin s.heap _ ⟨(setConstIndex s.heap q.id _).1, s.metas, 0, 0, 0, 0⟩ rfl rfl).2

end Ccpp.Const
