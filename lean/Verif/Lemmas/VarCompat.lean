import Verif.Model.VarCompat
import Mathlib.Data.List.Perm.Subperm
/-!
# Lemmas about the dimension permutation computed by _get_dim_transforms
-/
namespace Ccpp.VC

theorem pick_spec {v1 : List Str} {fwd : List Nat} {d : Str} {i : Nat} (h : pick v1 fwd d = some i) :
    i < v1.length ∧ v1[i]? = some d ∧ i ∉ fwd := by
  unfold pick at h
  have h1 := List.find?_some h
  have h2 := List.mem_of_find?_eq_some h
  simp only [List.mem_range] at h2
  simp only [decide_eq_true_eq] at h1
  exact ⟨h2, h1.1, h1.2⟩

theorem range_map_getElem? (v : List Str) : (List.range v.length).map (v[·]?) = v.map some := by
  apply List.ext_getElem?
  intro i
  simp only [List.getElem?_map]
  by_cases h : i < v.length
  · rw [List.getElem?_range h]; simp [h]
  · rw [List.getElem?_eq_none (by simpa using h), List.getElem?_eq_none (by omega)]; rfl

theorem count_map_some (d : Str) (v : List Str) : (v.map some).count (some d) = v.count d := by
  induction v with
  | nil => rfl
  | cons a v ih => simp [List.count_cons, ih]

/-- A dimension of variable 2 always finds an unused partner. -/
theorem pick_exists {v1 v2 : List Str} (hp : v1.Perm v2) {fwd : List Nat} {k : Nat} {d : Str}
    (hk : v2[k]? = some d) (hm : fwd.map (v1[·]?) = (v2.take k).map some) (hn : fwd.Nodup) :
    ∃ i, pick v1 fwd d = some i := by
  cases hpk : pick v1 fwd d with
  | some i => exact ⟨i, rfl⟩
  | none =>
    exfalso
    have hall : ∀ i, i < v1.length → v1[i]? = some d → i ∈ fwd := by
      intro i hi hd
      unfold pick at hpk
      have := List.find?_eq_none.1 hpk i (by simpa using hi)
      simp only [decide_eq_true_eq, not_and, not_not] at this
      exact this hd
    have hsub : (List.range v1.length).filter (fun i => v1[i]? == some d) ⊆
        fwd.filter (fun i => v1[i]? == some d) := by
      intro i hi
      simp only [List.mem_filter, List.mem_range, beq_iff_eq] at hi ⊢
      exact ⟨hall i hi.1 hi.2, hi.2⟩
    have hnd : ((List.range v1.length).filter (fun i => v1[i]? == some d)).Nodup :=
      List.Nodup.sublist List.filter_sublist List.nodup_range
    have hle := (List.subperm_of_subset hnd hsub).length_le
    have c1 : ((List.range v1.length).filter (fun i => v1[i]? == some d)).length = v1.count d := by
      rw [← count_map_some, ← range_map_getElem?, List.count, List.countP_map, List.countP_eq_length_filter]
      rfl
    have c2 : (fwd.filter (fun i => v1[i]? == some d)).length = (v2.take k).count d := by
      rw [← count_map_some, ← hm, List.count, List.countP_map, List.countP_eq_length_filter]
      rfl
    rw [c1, c2, hp.count_eq] at hle
    have hklt : k < v2.length := by
      by_contra h
      rw [List.getElem?_eq_none (by omega)] at hk; cases hk
    have hsplit : v2 = v2.take k ++ d :: v2.drop (k + 1) := by
      have : v2.drop k = d :: v2.drop (k + 1) := by
        rw [List.drop_eq_getElem_cons hklt]
        rw [List.getElem?_eq_getElem hklt] at hk
        cases hk; rfl
      rw [← this, List.take_append_drop]
    have : v2.count d = (v2.take k).count d + (1 + (v2.drop (k + 1)).count d) := by
      conv => lhs; rw [hsplit]
      rw [List.count_append, List.count_cons_self]
      omega
    omega

/-- State of the loop after `k` dimensions of variable 2. -/
structure LoopInv (dims1 dims2 : List Str) (k : Nat) (a : Acc) : Prop where
  len : a.fwd.length = k
  rlen : a.rev.length = dims1.length
  nodup : a.fwd.Nodup
  bound : ∀ i ∈ a.fwd, i < dims1.length
  same : a.fwd.map ((dims1.map regularize)[·]?) = ((dims2.map regularize).take k).map some
  inv : ∀ (i j : Nat), a.rev[i]? = some (some j) ↔ a.fwd[j]? = some i
  hdim : ∀ (h1 : Str) (i : Nat) (h2 : Str) (j : Nat), a.hdim = some (h1, i, h2, j) →
    a.fwd[j]? = some i ∧ dims1[i]? = some h1 ∧ dims2[j]? = some h2 ∧ isHoriz h1 = true
  noh : a.hdim = none → ∀ i ∈ a.fwd, isHoriz (dims1.getD i []) = false
  vdim : ∀ (i j : Nat), a.vdim = some (i, j) → a.fwd[j]? = some i ∧ isVert (dims1.getD i []) = true
  nov : a.vdim = none → ∀ i ∈ a.fwd, isHoriz (dims1.getD i []) = true ∨ isVert (dims1.getD i []) = false

theorem inv_init (dims1 dims2 : List Str) :
    LoopInv dims1 dims2 0 ⟨[], List.replicate dims1.length none, none, none⟩ where
  len := rfl
  rlen := by simp
  nodup := List.nodup_nil
  bound := by simp
  same := rfl
  inv := by
    intro i j
    simp only [List.getElem?_nil, reduceCtorEq, iff_false]
    intro h
    have := List.getElem?_replicate (a := (none : Option Nat)) (n := dims1.length) (i := i)
    rw [this] at h
    split at h <;> simp at h
  hdim := by simp
  noh := by simp
  vdim := by simp
  nov := by simp

theorem inv_step {dims1 dims2 : List Str} (hp : (dims1.map regularize).Perm (dims2.map regularize))
    {k : Nat} {a : Acc} (hi : LoopInv dims1 dims2 k a) {d : Str}
    (hd : (dims2.map regularize)[k]? = some d) :
    LoopInv dims1 dims2 (k + 1) (dimStep dims1 dims2 (dims1.map regularize) a k d) := by
  obtain ⟨i, hpk⟩ := pick_exists hp hd hi.same hi.nodup
  obtain ⟨h1, h2, h3⟩ := pick_spec hpk
  simp only [List.length_map] at h1
  have hk2 : k < dims2.length := by
    by_contra h
    rw [List.getElem?_eq_none (by simp; omega)] at hd; cases hd
  have ho1 : dims1[i]? = some (dims1.getD i []) := by
    rw [List.getElem?_eq_getElem h1]; simp [List.getD, h1]
  have ho2 : dims2[k]? = some (dims2.getD k []) := by
    rw [List.getElem?_eq_getElem hk2]; simp [List.getD, hk2]
  have grow : ∀ (j x : Nat), a.fwd[j]? = some x → (a.fwd ++ [i])[j]? = some x := by
    intro j x hx
    have : j < a.fwd.length := by
      by_contra hc
      rw [List.getElem?_eq_none (by omega)] at hx; cases hx
    rw [List.getElem?_append_left this]; exact hx
  have last : (a.fwd ++ [i])[k]? = some i := by
    rw [List.getElem?_append_right (by have := hi.len; omega)]; simp [hi.len]
  unfold dimStep
  rw [hpk]
  refine ⟨?_, ?_, ?_, ?_, ?_, ?_, ?_, ?_, ?_, ?_⟩
  · simp [hi.len]
  · simp [hi.rlen]
  · exact List.nodup_append.2 ⟨hi.nodup, by simp, by
      intro x hx y hy
      simp only [List.mem_singleton] at hy
      subst hy; rintro rfl; exact h3 hx⟩
  · intro x hx
    rcases List.mem_append.1 hx with hx | hx
    · exact hi.bound x hx
    · simp only [List.mem_singleton] at hx; subst hx; exact h1
  · have ht : (dims2.map regularize).take (k + 1) = (dims2.map regularize).take k ++ [d] := by
      rw [List.take_add_one, hd]; rfl
    rw [ht, List.map_append, List.map_append, hi.same]
    simp only [List.map_cons, List.map_nil, h2]
  · intro i' j'
    by_cases hii : i' = i
    · subst hii
      have : (a.rev.set i' (some k))[i']? = some (some k) := by
        rw [List.getElem?_set_self (by rw [hi.rlen]; exact h1)]
      simp only [this, Option.some.injEq]
      constructor
      · rintro rfl; exact last
      · intro h
        by_contra hne
        have hlt : j' < (a.fwd ++ [i']).length := by
          by_contra hc
          rw [List.getElem?_eq_none (by omega)] at h; cases h
        simp only [List.length_append, List.length_cons, List.length_nil] at hlt
        have hj : j' < a.fwd.length := by rw [hi.len] at hlt ⊢; omega
        rw [List.getElem?_append_left hj] at h
        exact h3 (List.mem_of_getElem? h)
    · simp only
      rw [List.getElem?_set_ne (fun h => hii h.symm), hi.inv i' j']
      constructor
      · exact grow _ _
      · intro h
        by_cases hj : j' < a.fwd.length
        · rwa [List.getElem?_append_left hj] at h
        · rw [List.getElem?_append_right (by omega)] at h
          have := List.mem_of_getElem? h
          simp only [List.mem_singleton] at this
          exact absurd this hii
  · intro hh1 ii hh2 jj h
    simp only at h
    split at h
    · next hz =>
      cases h
      exact ⟨last, ho1, ho2, hz⟩
    · obtain ⟨g1, g2⟩ := hi.hdim _ _ _ _ h
      exact ⟨grow _ _ g1, g2⟩
  · intro h x hx
    simp only at h
    split at h
    · cases h
    · next hz =>
      rcases List.mem_append.1 hx with hx | hx
      · exact hi.noh h x hx
      · simp only [List.mem_singleton] at hx; subst hx
        simpa using hz
  · intro ii jj h
    simp only at h
    split at h
    · obtain ⟨g1, g2⟩ := hi.vdim _ _ h
      exact ⟨grow _ _ g1, g2⟩
    · split at h
      · next hz =>
        cases h
        exact ⟨last, hz⟩
      · obtain ⟨g1, g2⟩ := hi.vdim _ _ h
        exact ⟨grow _ _ g1, g2⟩
  · intro h x hx
    simp only at h
    rcases List.mem_append.1 hx with hx | hx
    · split at h
      · exact hi.nov h x hx
      · split at h
        · cases h
        · exact hi.nov h x hx
    · simp only [List.mem_singleton] at hx; subst hx
      split at h
      · next hz => exact Or.inl hz
      · split at h
        · cases h
        · next hz => exact Or.inr (by simpa using hz)

theorem inv_loop {dims1 dims2 : List Str} (hp : (dims1.map regularize).Perm (dims2.map regularize)) :
    ∀ (ds : List Str) (k : Nat) (a : Acc), (dims2.map regularize).drop k = ds → k ≤ dims2.length →
      LoopInv dims1 dims2 k a →
      LoopInv dims1 dims2 dims2.length (dimLoop dims1 dims2 (dims1.map regularize) a k ds) := by
  intro ds
  induction ds with
  | nil =>
    intro k a hd hk hi
    have : dims2.length ≤ k := by
      have := congrArg List.length hd
      simp only [List.length_drop, List.length_map, List.length_nil] at this
      omega
    have : k = dims2.length := by omega
    subst this
    exact hi
  | cons d ds ih =>
    intro k a hd hk hi
    have hlt : k < (dims2.map regularize).length := by
      by_contra hc
      rw [List.drop_eq_nil_of_le (by omega)] at hd; cases hd
    rw [List.drop_eq_getElem_cons hlt] at hd
    have h1 := (List.cons.inj hd).1
    have h2 := (List.cons.inj hd).2
    rw [dimLoop]
    refine ih (k + 1) _ h2 (by rw [List.length_map] at hlt; omega) (inv_step hp hi ?_)
    rw [List.getElem?_eq_getElem hlt, h1]

/-- The state at the end of the loop. -/
theorem inv_final {dims1 dims2 : List Str} (hp : (dims1.map regularize).Perm (dims2.map regularize)) :
    LoopInv dims1 dims2 dims2.length (dimLoop dims1 dims2 (dims1.map regularize)
      ⟨[], List.replicate (dims1.map regularize).length none, none, none⟩ 0 (dims2.map regularize)) := by
  rw [List.length_map]
  exact inv_loop hp _ 0 _ rfl (Nat.zero_le _) (inv_init _ _)

theorem horiz_cases {d : Str} (h : isHoriz d = true) :
    isLoopDim d = true ∨ hasSub "horizontal_dimension".toList d = true := by
  cases hs : hasSub "horizontal_dimension".toList d with
  | true => exact Or.inr rfl
  | false => left; simp only [isLoopDim, h, hs]; rfl

theorem regularize_horiz {d d' : Str} (h : isHoriz d = true) (e : regularize d = regularize d') :
    isHoriz d' = true := by
  by_contra hc
  have e1 : regularize d = hdimTemp := by unfold regularize; rw [if_pos h]
  rw [e1] at e
  by_cases hcol : ':' ∈ d'
  · have : regularize d' = d' := by
      unfold regularize; rw [if_neg hc, if_neg (by simpa using hcol)]
    rw [this] at e
    rw [← e] at hcol
    revert hcol
    decide
  · have : regularize d' = "ccpp_constant_one:".toList ++ d' := by
      unfold regularize; rw [if_neg hc, if_pos hcol]
    rw [this] at e
    have hl := congrArg List.length e
    rw [List.length_append] at hl
    have h2 : hdimTemp.length = 15 := by decide
    have h3 : "ccpp_constant_one:".toList.length = 18 := by decide
    rw [h2, h3] at hl
    omega

end Ccpp.VC
