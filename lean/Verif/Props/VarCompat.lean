import Verif.Lemmas.VarCompat
import Verif.Spec.VarCompat
/-!
# C28–C31, C51: variable compatibility and dimension transforms
-/
namespace Ccpp.VC

/-! ## The names of the dimensions -/

/-- **C30 (names).**  The horizontal dimensions. -/
theorem horizontal_names (d : Str) : isHoriz d = true ↔ Horizontal d := by
  simp only [isHoriz, horizontalDims, List.contains_iff_mem, List.mem_cons, List.not_mem_nil, or_false,
    Horizontal, UpTo]
  rw [show "ccpp_constant_one:horizontal_dimension".toList =
      "ccpp_constant_one:".toList ++ "horizontal_dimension".toList by decide,
    show "ccpp_constant_one:horizontal_loop_extent".toList =
      "ccpp_constant_one:".toList ++ "horizontal_loop_extent".toList by decide]
  constructor
  · rintro (h | h | h | h | h) <;> simp [h]
  · rintro ((h | h) | (h | h) | h) <;> simp [h]

/-- **C30 (names).**  The vertical dimensions. -/
theorem vertical_names (d : Str) : isVert d = true ↔ Vertical d := by
  simp only [isVert, verticalDims, List.contains_iff_mem, List.mem_cons, List.not_mem_nil, or_false,
    Vertical, UpTo]
  rw [show "ccpp_constant_one:vertical_layer_dimension".toList =
      "ccpp_constant_one:".toList ++ "vertical_layer_dimension".toList by decide,
    show "ccpp_constant_one:vertical_interface_dimension".toList =
      "ccpp_constant_one:".toList ++ "vertical_interface_dimension".toList by decide]
  constructor
  · rintro (h | h | h | h | h | h) <;> simp [h]
  · rintro ((h | h) | (h | h) | h | h) <;> simp [h]

theorem sameDim_iff (d d' : Str) : SameDim d d' ↔ regularize d = regularize d' := by
  have hr : ∀ x : Str, isHoriz x = false → regularize x = withLower x := by
    intro x hx
    unfold regularize withLower
    rw [if_neg (by rw [hx]; decide)]
    by_cases hc : ':' ∈ x <;> simp [hc]
  have hc : ∀ x : Str, withLower x ≠ hdimTemp := by
    intro x h
    have : ':' ∈ withLower x := by
      unfold withLower
      split
      · assumption
      · exact List.mem_append_left _ (by decide)
    rw [h] at this
    revert this; decide
  have hh : ∀ x : Str, isHoriz x = true → regularize x = hdimTemp := by
    intro x hx; unfold regularize; rw [if_pos hx]
  unfold SameDim
  simp only [← horizontal_names]
  cases h1 : isHoriz d <;> cases h2 : isHoriz d' <;>
    simp only [Bool.false_eq_true, and_false, false_and, not_false_eq_true, true_and, false_or,
      not_true_eq_false, and_true, or_false]
  · rw [hr d h1, hr d' h2]
  · rw [hr d h1, hh d' h2, false_iff]; exact hc d
  · rw [hh d h1, hr d' h2, false_iff]; exact (hc d').symm
  · rw [hh d h1, hh d' h2]; simp


/-! ## C30 -/

theorem LoopInv.full {d1 d2 : List Str} {a : Acc} (hl : d1.length = d2.length)
    (hi : LoopInv d1 d2 d2.length a) : InversePerms d1.length a.fwd a.rev := by
  have hsub : a.fwd ⊆ List.range d1.length := fun x hx => by simpa using hi.bound x hx
  have hperm : a.fwd.Perm (List.range d1.length) :=
    (List.subperm_of_subset hi.nodup hsub).perm_of_length_le (by simp [hi.len, hl])
  refine ⟨by rw [hi.len, hl], hi.rlen, ?_, ?_⟩
  · intro k hk
    have hk' : k < a.fwd.length := by rw [hi.len]; omega
    refine ⟨a.fwd[k], hi.bound _ (List.getElem_mem _), List.getElem?_eq_getElem hk', ?_⟩
    rw [hi.inv]; exact List.getElem?_eq_getElem hk'
  · intro i hik
    have : i ∈ a.fwd := hperm.mem_iff.2 (by simpa using hik)
    obtain ⟨k, hk, he⟩ := List.mem_iff_getElem.1 this
    refine ⟨k, by rw [hi.len] at hk; omega, ?_, ?_⟩
    · rw [hi.inv, List.getElem?_eq_getElem hk, he]
    · rw [List.getElem?_eq_getElem hk, he]

/-- Everything known about a recorded transform. -/
structure Facts (d1 d2 : List Str) (t : DimT) : Prop where
  len : d1.length = d2.length
  inv : InversePerms d1.length t.fwd t.rev
  same : ∀ (k i : Nat), t.fwd[k]? = some i → (d1.map regularize)[i]? = (d2.map regularize)[k]?
  h12 : t.fwd[t.rhi]? = some t.fhi
  hh : isHoriz (d1.getD t.fhi []) = true
  l1 : t.v1hloop = isLoopDim (d1.getD t.fhi [])
  l2 : t.v2hloop = isLoopDim (d2.getD t.rhi [])
  v12 : ∀ (i : Nat), t.fvi = some i → ∃ k : Nat, t.rvi = some k ∧ t.fwd[k]? = some i ∧ isVert (d1.getD i []) = true
  vn : t.fvi = none → t.rvi = none ∧
    ∀ i < d1.length, isHoriz (d1.getD i []) = true ∨ isVert (d1.getD i []) = false

theorem getD_of_getElem? {l : List Str} {i : Nat} {x : Str} (h : l[i]? = some x) : l.getD i [] = x := by
  simp [List.getD, h]

theorem mkDimT_facts {d1 d2 : List Str} {a : Acc} {t : DimT} (hl : d1.length = d2.length)
    (hi : LoopInv d1 d2 d2.length a) (h : mkDimT a = .ok t) : Facts d1 d2 t := by
  unfold mkDimT at h
  split at h
  · cases h
  split at h
  · cases h
  next h1 i h2 k hd =>
  split at h
  · cases h
  split at h
  · cases h
  split at h
  · cases h
  split at h
  · cases h
  split at h
  · cases h
  split at h
  · cases h
  injection h with h
  subst h
  obtain ⟨g1, g2, g3, g4⟩ := hi.hdim _ _ _ _ hd
  have hf := hi.full hl
  refine ⟨hl, hf, ?_, g1, ?_, ?_, ?_, ?_, ?_⟩
  · intro k i hk
    have hs := congrArg (·[k]?) hi.same
    simp only [List.getElem?_map, hk, Option.map_some] at hs
    have hklt : k < d2.length := by
      have := (List.getElem?_eq_some_iff.1 hk).1
      rwa [hi.len] at this
    rw [List.getElem?_take_of_lt hklt] at hs
    simp only [List.getElem?_map] at hs ⊢
    cases hd2 : d2[k]? with
    | none => rw [hd2] at hs; simp at hs
    | some y => rw [hd2] at hs; simpa using hs
  · rw [getD_of_getElem? g2]; exact g4
  · simp only; rw [getD_of_getElem? g2]
  · simp only; rw [getD_of_getElem? g3]
  · intro i hv
    simp only [Option.map_eq_some_iff] at hv
    obtain ⟨⟨i', k'⟩, hv, rfl⟩ := hv
    obtain ⟨q1, q2⟩ := hi.vdim _ _ hv
    exact ⟨k', by simp [hv], q1, q2⟩
  · intro hv
    simp only [Option.map_eq_none_iff] at hv
    refine ⟨by simp [hv], fun i hil => ?_⟩
    obtain ⟨k, _, _, hk⟩ := hf.fro i hil
    exact hi.nov hv i (List.mem_of_getElem? hk)

theorem dimTransforms_facts {d1 d2 : List Str} {t : DimT} (h : dimTransforms d1 d2 = .ok (some t)) :
    Facts d1 d2 t := by
  unfold dimTransforms at h
  simp only at h
  split at h
  · next hp =>
    have hp := List.isPerm_iff.1 hp
    split at h
    · cases h
    split at h
    · cases h
    next t' he =>
      simp only [Except.ok.injEq, Option.some.injEq] at h
      subst h
      have hl : d1.length = d2.length := by simpa using hp.length_eq
      exact mkDimT_facts hl (inv_final hp) he
  · cases h

/-- **C30**: the recorded forward and reverse permutations are inverse bijections, mapping each
dimension of variable 2 onto the same dimension of variable 1. -/
theorem permutations_inverse {d1 d2 : List Str} {t : DimT} (h : dimTransforms d1 d2 = .ok (some t)) :
    d1.length = d2.length ∧ InversePerms d1.length t.fwd t.rev ∧
    ∀ (k i : Nat), t.fwd[k]? = some i → SameDim (d1.getD i []) (d2.getD k []) := by
  have hf := dimTransforms_facts h
  refine ⟨hf.len, hf.inv, fun k i hk => ?_⟩
  have hs := hf.same k i hk
  simp only [List.getElem?_map] at hs
  have hk2 : k < d2.length := by
    have := (List.getElem?_eq_some_iff.1 hk).1
    rw [hf.inv.flen, hf.len] at this; exact this
  rw [sameDim_iff]
  rw [List.getElem?_eq_getElem hk2] at hs
  cases h1 : d1[i]? with
  | none => rw [h1] at hs; simp at hs
  | some x =>
    rw [h1] at hs
    simp only [Option.map_some, Option.some.injEq] at hs
    rw [getD_of_getElem? h1, getD_of_getElem? (List.getElem?_eq_getElem hk2)]
    exact hs

/-- Non-trivial instance: three dimensions, cyclically permuted, with an upper-bound spelling. -/
example : dimTransforms
    ["horizontal_dimension".toList, "vertical_layer_dimension".toList, "nspec".toList]
    ["ccpp_constant_one:nspec".toList, "ccpp_constant_one:horizontal_loop_extent".toList,
     "vertical_layer_dimension".toList] =
    .ok (some ⟨[2, 0, 1], [some 1, some 2, some 0], 0, some 1, 1, some 2, false, true⟩) := by
  decide +kernel

theorem dimTransforms_perm_some {d1 d2 : List Str}
    (hp : (d1.map regularize).Perm (d2.map regularize)) (hh : ∃ d ∈ d1, isHoriz d = true) :
    ∃ t, dimTransforms d1 d2 = .ok (some t) := by
  have hl : d1.length = d2.length := by simpa using hp.length_eq
  have hi := inv_final hp
  have hf := hi.full hl
  unfold dimTransforms
  simp only
  rw [if_pos (List.isPerm_iff.2 hp), if_neg (by rw [hf.flen]; simp)]
  generalize dimLoop d1 d2 (d1.map regularize)
      ⟨[], List.replicate (d1.map regularize).length none, none, none⟩ 0 (d2.map regularize) = a at *
  have hmk : ∃ t, mkDimT a = .ok t := by
    unfold mkDimT
    rw [if_neg (by rw [hf.flen, hf.rlen]; simp)]
    cases hd : a.hdim with
    | none =>
      exfalso
      obtain ⟨d, hd1, hd2⟩ := hh
      obtain ⟨i, hil, he⟩ := List.mem_iff_getElem.1 hd1
      obtain ⟨k, _, _, hk⟩ := hf.fro i hil
      have := hi.noh hd i (List.mem_of_getElem? hk)
      rw [getD_of_getElem? (List.getElem?_eq_getElem hil), he, hd2] at this
      cases this
    | some q =>
      obtain ⟨h1, i, h2, k⟩ := q
      obtain ⟨g1, g2, g3, g4⟩ := hi.hdim _ _ _ _ hd
      have hil : i < d1.length := (List.getElem?_eq_some_iff.1 g2).1
      have hkl : k < d2.length := (List.getElem?_eq_some_iff.1 g3).1
      have hv : ∀ i k, a.vdim = some (i, k) → i < d1.length ∧ k < d2.length := by
        intro i k hv
        have q := (hi.vdim _ _ hv).1
        exact ⟨hi.bound _ (List.mem_of_getElem? q), by
          have := (List.getElem?_eq_some_iff.1 q).1; rwa [hi.len] at this⟩
      have hh2 : isHoriz h2 = true := by
        apply regularize_horiz g4
        have hs := congrArg (·[k]?) hi.same
        simp only [List.getElem?_map, g1, Option.map_some] at hs
        rw [List.getElem?_take_of_lt hkl] at hs
        simp only [List.getElem?_map, g2, g3, Option.map_some, Option.some.injEq] at hs
        exact hs
      simp only
      rw [if_neg (by rw [hf.flen]; omega), if_neg, if_neg (by rw [hf.rlen]; omega), if_neg, if_neg, if_neg]
      · exact ⟨_, rfl⟩
      · rcases horiz_cases hh2 with e | e <;> rw [e] <;> simp
      · rcases horiz_cases g4 with e | e <;> rw [e] <;> simp
      · cases hvd : a.vdim with
        | none => simp
        | some p => have := hv p.1 p.2 hvd; simp [hf.rlen]; omega
      · cases hvd : a.vdim with
        | none => simp
        | some p => have := hv p.1 p.2 hvd; simp [hf.flen]; omega
  obtain ⟨t, ht⟩ := hmk
  rw [ht]
  exact ⟨t, rfl⟩

/-- **C30**: variables with the same dimensions in another order, one of them horizontal, always
get a transform. -/
theorem reordered_accepted {d1 d2 : List Str} (hp : (d1.map regularize).Perm (d2.map regularize))
    (hh : ∃ d ∈ d1, isHoriz d = true) : ∃ t, dimTransforms d1 d2 = .ok (some t) :=
  dimTransforms_perm_some hp hh

/-- **C30**: otherwise they never do. -/
theorem different_rejected {d1 d2 : List Str} (hp : ¬ (d1.map regularize).Perm (d2.map regularize)) :
    dimTransforms d1 d2 = .ok none := by
  unfold dimTransforms
  simp only
  rw [if_neg (by rw [List.isPerm_iff]; exact hp)]

/-- **C30**, what is missing: without a horizontal dimension, reordered dimensions are an internal
error instead of a transform. -/
theorem reordered_without_horizontal {d1 d2 : List Str}
    (hp : (d1.map regularize).Perm (d2.map regularize)) (hh : ∀ d ∈ d1, isHoriz d = false) :
    dimTransforms d1 d2 = .error "forward_hdim_index out of range" := by
  have hl : d1.length = d2.length := by simpa using hp.length_eq
  have hi := inv_final hp
  have hf := hi.full hl
  unfold dimTransforms
  simp only
  rw [if_pos (List.isPerm_iff.2 hp), if_neg (by rw [hf.flen]; simp)]
  generalize dimLoop d1 d2 (d1.map regularize)
      ⟨[], List.replicate (d1.map regularize).length none, none, none⟩ 0 (d2.map regularize) = a at *
  unfold mkDimT
  rw [if_neg (by rw [hf.flen, hf.rlen]; simp)]
  cases hd : a.hdim with
  | none => rfl
  | some q =>
    obtain ⟨h1, i, h2, k⟩ := q
    obtain ⟨_, g2, _, g4⟩ := hi.hdim _ _ _ _ hd
    have := hh h1 (List.mem_of_getElem? g2)
    rw [g4] at this; cases this

example : dimTransforms ["nx".toList, "ny".toList] ["ny".toList, "nx".toList] =
    .error "forward_hdim_index out of range" := by decide +kernel

/-- Comparing two dimension lists fails exactly when they are a reordering of each other without
a horizontal dimension. -/
theorem dim_error_iff (d1 d2 : List Str) : (∃ e, dimTransforms d1 d2 = .error e) ↔
    (d1.map regularize).Perm (d2.map regularize) ∧ ∀ d ∈ d1, isHoriz d = false := by
  constructor
  · rintro ⟨e, he⟩
    by_cases hp : (d1.map regularize).Perm (d2.map regularize)
    · refine ⟨hp, fun d hd => ?_⟩
      by_contra hc
      obtain ⟨t, ht⟩ := reordered_accepted hp ⟨d, hd, by simpa using hc⟩
      rw [ht] at he; cases he
    · rw [different_rejected hp] at he; cases he
  · rintro ⟨hp, hh⟩
    exact ⟨_, reordered_without_horizontal hp hh⟩

/-! ## C31 -/

theorem pySet_length (l : List Int) (i : Option Nat) (f : Int → Int) : (pySet l i f).length = l.length := by
  unfold pySet; simp only; split <;> simp

theorem pySet_getD {l : List Int} {j : Nat} (hj : j < l.length) (f : Int → Int) (k : Nat) :
    (pySet l (some j) f).getD k 0 = if k = j then f (l.getD k 0) else l.getD k 0 := by
  unfold pySet
  simp only [Option.getD_some, List.getElem?_eq_getElem hj]
  by_cases h : k = j
  · subst h; simp [List.getD, hj]
  · simp [List.getD, h, List.getElem?_set_ne (fun e => h e.symm)]

theorem perm_getD {f : List Nat} {idx : List Int} {k i : Nat} (h : f[k]? = some i) :
    (f.map fun x => idx.getD x 0).getD k 0 = idx.getD i 0 := by
  simp [List.getD, h]

theorem permO_getD {f : List (Option Nat)} {idx : List Int} {k i : Nat} (h : f[k]? = some (some i)) :
    (f.map fun x => idx.getD (x.getD 0) 0).getD k 0 = idx.getD i 0 := by
  simp [List.getD, h]

theorem fwd_inj {n : Nat} {f : List Nat} {r : List (Option Nat)} (h : InversePerms n f r) {k k' i : Nat}
    (h1 : f[k]? = some i) (h2 : f[k']? = some i) : k = k' := by
  have hk : k < n := by rw [← h.flen]; exact (List.getElem?_eq_some_iff.1 h1).1
  have hk' : k' < n := by rw [← h.flen]; exact (List.getElem?_eq_some_iff.1 h2).1
  obtain ⟨i1, _, e1, q1⟩ := h.to k hk
  obtain ⟨i2, _, e2, q2⟩ := h.to k' hk'
  rw [h1] at e1; rw [h2] at e2
  cases e1; cases e2
  rw [q1] at q2
  simpa using q2

theorem rev_of_fwd {n : Nat} {f : List Nat} {r : List (Option Nat)} (h : InversePerms n f r) {k i : Nat}
    (h1 : f[k]? = some i) : r[i]? = some (some k) ∧ k < n ∧ i < n := by
  have hk : k < n := by rw [← h.flen]; exact (List.getElem?_eq_some_iff.1 h1).1
  obtain ⟨i1, hi, e1, q1⟩ := h.to k hk
  rw [h1] at e1; cases e1
  exact ⟨q1, hk, hi⟩

theorem fwd_of_rev {n : Nat} {f : List Nat} {r : List (Option Nat)} (h : InversePerms n f r) {k i : Nat}
    (h1 : r[i]? = some (some k)) : f[k]? = some i := by
  have hi : i < n := by rw [← h.rlen]; exact (List.getElem?_eq_some_iff.1 h1).1
  obtain ⟨k1, _, e1, q1⟩ := h.fro i hi
  rw [h1] at e1; cases e1
  exact q1

theorem SameDim.horiz {d d' : Str} (h : SameDim d d') : isHoriz d = isHoriz d' := by
  rw [sameDim_iff] at h
  cases h1 : isHoriz d with
  | true => rw [regularize_horiz h1 h]
  | false =>
    cases h2 : isHoriz d' with
    | false => rfl
    | true => rw [regularize_horiz h2 h.symm] at h1; cases h1

theorem Facts.sameDim {d1 d2 : List Str} {t : DimT} (hf : Facts d1 d2 t) {k i : Nat}
    (hk : t.fwd[k]? = some i) : SameDim (d1.getD i []) (d2.getD k []) := by
  have hs := hf.same k i hk
  simp only [List.getElem?_map] at hs
  have hk2 : k < d2.length := by rw [← hf.len]; exact (rev_of_fwd hf.inv hk).2.1
  have hi1 : i < d1.length := (rev_of_fwd hf.inv hk).2.2
  rw [List.getElem?_eq_getElem hk2, List.getElem?_eq_getElem hi1] at hs
  rw [sameDim_iff]
  rw [getD_of_getElem? (List.getElem?_eq_getElem hi1), getD_of_getElem? (List.getElem?_eq_getElem hk2)]
  simpa using hs

theorem not_loop {d : Str} (h : isHoriz d = false) : isLoopDim d = false := by
  unfold isLoopDim; rw [h]; rfl

/-- Variable 1 has only one horizontal dimension. -/
def OneHoriz (d : List Str) : Prop :=
  ∀ i j, isHoriz (d.getD i []) = true → isHoriz (d.getD j []) = true → i = j

theorem forward_getD {d1 d2 : List Str} {t : DimT} (hf : Facts d1 d2 t) (idx : List Int) (b : Int)
    {k i : Nat} (hk : t.fwd[k]? = some i) :
    (t.forward idx (some b) none).getD k 0 =
      if k = t.fhi then
        (if t.v1hloop && !t.v2hloop then idx.getD i 0 + b - 1
         else if t.v2hloop && !t.v1hloop then idx.getD i 0 - b + 1 else idx.getD i 0)
      else idx.getD i 0 := by
  have hlt : t.fhi < (t.fwd.map fun x => idx.getD x 0).length := by
    rw [List.length_map, hf.inv.flen]; exact (rev_of_fwd hf.inv hf.h12).2.2
  unfold DimT.forward
  simp only
  split
  · rw [pySet_getD hlt, perm_getD hk]
  · split
    · rw [pySet_getD hlt, perm_getD hk]
    · rw [perm_getD hk]; simp

theorem forward_length {t : DimT} (idx : List Int) (hb nk : Option Int) :
    (t.forward idx hb nk).length = t.fwd.length := by
  unfold DimT.forward
  cases hb <;> cases nk <;> simp only [pySet_length]
  · simp
  · simp
  all_goals
    split
    · simp [pySet_length]
    · split <;> simp [pySet_length]

/-- **C31** (forward, partial): if the horizontal dimension has the same position in both
variables, the generated index expressions address the same element.  Missing: any other
position (see `forward_wrong_position`). -/
theorem forward_same_element_partial {d1 d2 : List Str} {t : DimT}
    (h : dimTransforms d1 d2 = .ok (some t)) (h1 : OneHoriz d1) (hpos : t.fhi = t.rhi)
    (idx : List Int) (b : Int) :
    SameElement b d1 d2 (t.fwd[·]?) idx (t.forward idx (some b) none) := by
  have hf := dimTransforms_facts h
  refine ⟨by rw [forward_length, hf.inv.flen, hf.len], fun k hk i hi => ?_⟩
  simp only at hi
  rw [forward_getD hf idx b hi]
  by_cases hkk : k = t.fhi
  · have : i = t.fhi := by
      have h12 := hf.h12
      rw [← hpos, ← hkk, hi] at h12
      rw [Option.some.inj h12]; exact hkk
    subst this
    rw [if_pos hkk, hf.l1, hf.l2, ← hpos, ← hkk]
    unfold phys
    cases e1 : isLoopDim (d1.getD k []) <;> cases e2 : isLoopDim (d2.getD k []) <;> simp <;> omega
  · rw [if_neg hkk]
    have hne : i ≠ t.fhi := by
      rintro rfl
      exact hkk ((fwd_inj hf.inv hi hf.h12).trans hpos.symm)
    have n1 : isHoriz (d1.getD i []) = false := by
      by_contra hc
      exact hne (h1 _ _ (by simpa using hc) hf.hh)
    have n2 : isHoriz (d2.getD k []) = false := by rw [← (hf.sameDim hi).horiz]; exact n1
    unfold phys
    rw [not_loop n1, not_loop n2]

example : dimTransforms ["horizontal_dimension".toList, "vertical_layer_dimension".toList, "n".toList]
    ["horizontal_loop_extent".toList, "n".toList, "vertical_layer_dimension".toList] =
    .ok (some ⟨[0, 2, 1], [some 0, some 2, some 1], 0, some 1, 0, some 2, false, true⟩) := by
  decide +kernel

/-- **C31** fails as stated: whenever the horizontal dimension moves to another position and one
variable is chunk-sized and the other not, the adjustment is applied to the wrong index, for every
chunk that does not start at column one. -/
theorem forward_wrong_position {d1 d2 : List Str} {t : DimT}
    (h : dimTransforms d1 d2 = .ok (some t)) (hpos : t.fhi ≠ t.rhi) (hl : t.v1hloop ≠ t.v2hloop)
    (idx : List Int) (b : Int) (hb : b ≠ 1) :
    ¬ SameElement b d1 d2 (t.fwd[·]?) idx (t.forward idx (some b) none) := by
  have hf := dimTransforms_facts h
  rintro ⟨-, hs⟩
  have hr := rev_of_fwd hf.inv hf.h12
  have := hs t.rhi (by rw [← hf.len]; exact hr.2.1) t.fhi hf.h12
  rw [forward_getD hf idx b hf.h12, if_neg (fun e => hpos e.symm)] at this
  unfold phys at this
  rw [← hf.l1, ← hf.l2] at this
  cases e1 : t.v1hloop <;> cases e2 : t.v2hloop <;> simp [e1, e2] at this hl <;> omega

/-- Reachable: `(horizontal_dimension, vertical)` passed as `(vertical, horizontal_loop_extent)`. -/
example : ∃ t, dimTransforms ["horizontal_dimension".toList, "vertical_layer_dimension".toList]
    ["vertical_layer_dimension".toList, "horizontal_loop_extent".toList] = .ok (some t) ∧
    t.fhi ≠ t.rhi ∧ t.v1hloop ≠ t.v2hloop ∧
    t.forward [7, 2] (some 5) none = [-2, 7] :=
  ⟨⟨[1, 0], [some 1, some 0], 0, some 1, 1, some 0, false, true⟩, by decide +kernel, by decide, by decide,
    by decide⟩

theorem reverse_getD {d1 d2 : List Str} {t : DimT} (hf : Facts d1 d2 t) (idx : List Int) (b : Int)
    {k i : Nat} (hk : t.rev[i]? = some (some k)) :
    (t.reverse idx (some b) none).getD i 0 =
      if i = t.rhi then
        (if t.v1hloop && !t.v2hloop then idx.getD k 0 - b + 1
         else if t.v2hloop && !t.v1hloop then idx.getD k 0 + b - 1 else idx.getD k 0)
      else idx.getD k 0 := by
  have hlt : t.rhi < (t.rev.map fun x => idx.getD (x.getD 0) 0).length := by
    rw [List.length_map, hf.inv.rlen]; exact (rev_of_fwd hf.inv hf.h12).2.1
  unfold DimT.reverse
  simp only
  split
  · rw [pySet_getD hlt, permO_getD hk]
  · split
    · rw [pySet_getD hlt, permO_getD hk]
    · rw [permO_getD hk]; simp

theorem reverse_length {t : DimT} (idx : List Int) (hb nk : Option Int) :
    (t.reverse idx hb nk).length = t.rev.length := by
  unfold DimT.reverse
  cases hb <;> cases nk <;> simp only [pySet_length]
  · simp
  · simp
  all_goals
    split
    · simp [pySet_length]
    · split <;> simp [pySet_length]

/-- **C31** (reverse, partial): same restriction as the forward direction. -/
theorem reverse_same_element_partial {d1 d2 : List Str} {t : DimT}
    (h : dimTransforms d1 d2 = .ok (some t)) (h1 : OneHoriz d1) (hpos : t.fhi = t.rhi)
    (idx : List Int) (b : Int) :
    SameElement b d2 d1 (fun i => (t.rev[i]?).join) idx (t.reverse idx (some b) none) := by
  have hf := dimTransforms_facts h
  refine ⟨by rw [reverse_length, hf.inv.rlen], fun i hi k hk => ?_⟩
  simp only [Option.join_eq_some_iff] at hk
  rw [reverse_getD hf idx b hk]
  have hfk := fwd_of_rev hf.inv hk
  by_cases hkk : i = t.rhi
  · have : k = t.rhi := fwd_inj hf.inv (by rw [hfk, hkk]) (by rw [hf.h12, hpos])
    subst this
    rw [if_pos hkk, hf.l1, hf.l2, hpos, ← hkk]
    unfold phys
    cases e1 : isLoopDim (d1.getD i []) <;> cases e2 : isLoopDim (d2.getD i []) <;> simp <;> omega
  · rw [if_neg hkk]
    have hne : i ≠ t.fhi := by rw [hpos]; exact hkk
    have n1 : isHoriz (d1.getD i []) = false := by
      by_contra hc
      exact hne (h1 _ _ (by simpa using hc) hf.hh)
    have n2 : isHoriz (d2.getD k []) = false := by rw [← (hf.sameDim hfk).horiz]; exact n1
    unfold phys
    rw [not_loop n1, not_loop n2]

/-- **C31** fails in the reverse direction in the same way. -/
theorem reverse_wrong_position {d1 d2 : List Str} {t : DimT}
    (h : dimTransforms d1 d2 = .ok (some t)) (hpos : t.fhi ≠ t.rhi) (hl : t.v1hloop ≠ t.v2hloop)
    (idx : List Int) (b : Int) (hb : b ≠ 1) :
    ¬ SameElement b d2 d1 (fun i => (t.rev[i]?).join) idx (t.reverse idx (some b) none) := by
  have hf := dimTransforms_facts h
  rintro ⟨-, hs⟩
  have hr := rev_of_fwd hf.inv hf.h12
  have := hs t.fhi hr.2.2 t.rhi (by simp [hr.1])
  rw [reverse_getD hf idx b hr.1, if_neg hpos] at this
  unfold phys at this
  rw [← hf.l1, ← hf.l2] at this
  cases e1 : t.v1hloop <;> cases e2 : t.v2hloop <;> simp [e1, e2] at this hl <;> omega

/-! ### Round trip -/

theorem vert_not_horiz {d : Str} (h : isVert d = true) : isHoriz d = false := by
  have hall : verticalDims.all (fun d => !isHoriz d) = true := by decide +kernel
  have hm : d ∈ verticalDims := by simpa [isVert] using h
  have := List.all_eq_true.1 hall d hm
  simpa using this

theorem ext_getD {l l' : List Int} (hl : l.length = l'.length)
    (h : ∀ i < l.length, l.getD i 0 = l'.getD i 0) : l = l' := by
  apply List.ext_getElem hl
  intro i h1 h2
  have := h i h1
  simpa [List.getD, h1, h2] using this

/-- **C31** (round trip): without adjustments, copying to the other variable's order and back is
the identity, for every permutation. -/
theorem roundtrip_plain {d1 d2 : List Str} {t : DimT} (h : dimTransforms d1 d2 = .ok (some t))
    (idx : List Int) (hidx : idx.length = d1.length) :
    t.reverse (t.forward idx none none) none none = idx := by
  have hf := dimTransforms_facts h
  apply ext_getD (by rw [reverse_length, hf.inv.rlen, hidx])
  intro i hi
  rw [reverse_length, hf.inv.rlen] at hi
  obtain ⟨k, _, q1, q2⟩ := hf.inv.fro i hi
  unfold DimT.reverse DimT.forward
  simp only
  rw [permO_getD q1, perm_getD q2]

theorem forward_getD_flip {d1 d2 : List Str} {t : DimT} (hf : Facts d1 d2 t) (idx : List Int)
    (hb : Option Int) (n : Int) {v : Nat} (hv : t.fvi = some v) (k : Nat) :
    (t.forward idx hb (some n)).getD k 0 =
      if k = v then n - (t.forward idx hb none).getD k 0 + 1 else (t.forward idx hb none).getD k 0 := by
  obtain ⟨k', _, hk', _⟩ := hf.v12 v hv
  have hlt : v < (t.forward idx hb none).length := by
    rw [forward_length, hf.inv.flen]; exact (rev_of_fwd hf.inv hk').2.2
  have : t.forward idx hb (some n) = pySet (t.forward idx hb none) (some v) (fun v => n - v + 1) := by
    unfold DimT.forward; rw [hv]
  rw [this, pySet_getD hlt]

theorem reverse_getD_flip {d1 d2 : List Str} {t : DimT} (hf : Facts d1 d2 t) (idx : List Int)
    (hb : Option Int) (n : Int) {v : Nat} (hv : t.rvi = some v) (hlt : v < d1.length) (k : Nat) :
    (t.reverse idx hb (some n)).getD k 0 =
      if k = v then n - (t.reverse idx hb none).getD k 0 + 1 else (t.reverse idx hb none).getD k 0 := by
  have hlt : v < (t.reverse idx hb none).length := by rw [reverse_length, hf.inv.rlen]; exact hlt
  have : t.reverse idx hb (some n) = pySet (t.reverse idx hb none) (some v) (fun v => n - v + 1) := by
    unfold DimT.reverse; rw [hv]
  rw [this, pySet_getD hlt]

/-- **C31** (round trip, partial): with the horizontal offset the round trip is the identity if
the horizontal dimension keeps its position or swaps it (`fwd[fhi] = rhi`). Missing: other
permutations, where it is not (see the example below). -/
theorem roundtrip_offset_partial {d1 d2 : List Str} {t : DimT} (h : dimTransforms d1 d2 = .ok (some t))
    (hpos : t.fwd[t.fhi]? = some t.rhi) (idx : List Int) (hidx : idx.length = d1.length) (b : Int) :
    t.reverse (t.forward idx (some b) none) (some b) none = idx := by
  have hf := dimTransforms_facts h
  apply ext_getD (by rw [reverse_length, hf.inv.rlen, hidx])
  intro i hi
  rw [reverse_length, hf.inv.rlen] at hi
  obtain ⟨k, _, q1, q2⟩ := hf.inv.fro i hi
  rw [reverse_getD hf _ b q1, forward_getD hf idx b q2]
  have hiff : k = t.fhi ↔ i = t.rhi := by
    constructor
    · rintro rfl; rw [q2] at hpos; exact Option.some.inj hpos
    · rintro rfl; exact fwd_inj hf.inv q2 hpos
  by_cases hk : k = t.fhi
  · rw [if_pos (hiff.1 hk), if_pos hk]
    cases t.v1hloop <;> cases t.v2hloop <;> simp <;> omega
  · rw [if_neg (fun e => hk (hiff.2 e)), if_neg hk]

/-- A rotation of three dimensions on which the round trip moves the element: index 7 of a chunk
starting at column 5 comes back with the second and third index changed. -/
example : ∃ t, dimTransforms ["horizontal_dimension".toList, "vertical_layer_dimension".toList, "n".toList]
    ["n".toList, "horizontal_loop_extent".toList, "vertical_layer_dimension".toList] = .ok (some t) ∧
    t.reverse (t.forward [7, 2, 3] (some 5) none) (some 5) none = [7, 6, -1] :=
  ⟨⟨[2, 0, 1], [some 1, some 2, some 0], 0, some 1, 1, some 2, false, true⟩, by decide +kernel, by decide⟩

/-- **C31** (round trip, partial): flipping the vertical axis twice is the identity if the vertical
dimension keeps or swaps its position. -/
theorem roundtrip_flip_partial {d1 d2 : List Str} {t : DimT} (h : dimTransforms d1 d2 = .ok (some t))
    {v w : Nat} (hv : t.fvi = some v) (hw : t.rvi = some w) (hpos : t.fwd[v]? = some w)
    (idx : List Int) (hidx : idx.length = d1.length) (n : Int) :
    t.reverse (t.forward idx none (some n)) none (some n) = idx := by
  have hf := dimTransforms_facts h
  apply ext_getD (by rw [reverse_length, hf.inv.rlen, hidx])
  intro i hi
  rw [reverse_length, hf.inv.rlen] at hi
  obtain ⟨k, _, q1, q2⟩ := hf.inv.fro i hi
  have hwl := (rev_of_fwd hf.inv hpos).2.2
  rw [reverse_getD_flip hf _ none n hw hwl]
  have e1 : (t.reverse (t.forward idx none (some n)) none none).getD i 0 =
      (t.forward idx none (some n)).getD k 0 := by
    unfold DimT.reverse; simp only; rw [permO_getD q1]
  have e2 : (t.forward idx none none).getD k 0 = idx.getD i 0 := by
    unfold DimT.forward; simp only; rw [perm_getD q2]
  rw [e1, forward_getD_flip hf _ none n hv, e2]
  have hiff : k = v ↔ i = w := by
    constructor
    · rintro rfl; rw [q2] at hpos; exact Option.some.inj hpos
    · rintro rfl; exact fwd_inj hf.inv q2 hpos
  by_cases hk : k = v
  · rw [if_pos (hiff.1 hk), if_pos hk]; omega
  · rw [if_neg (fun e => hk (hiff.2 e)), if_neg hk]

/-- **C31** fails for a flip of variables without a vertical dimension: the last dimension is
flipped. -/
example : ∃ t, dimTransforms ["horizontal_dimension".toList, "n".toList]
    ["horizontal_loop_extent".toList, "n".toList] = .ok (some t) ∧
    t.forward [7, 2] none (some 10) = [7, 9] :=
  ⟨⟨[0, 1], [some 0, some 1], 0, none, 0, none, false, true⟩, by decide +kernel, by decide⟩

/-! ## C28: character kinds -/

/-- `compat` of two variables that differ at most in kind, in closed form. -/
theorem compat_char (spec : Option Str → Option Str) (conv : Str → Str → Except String (Str × Str))
    (n u : Str) (ds : List Str) (top : Bool) (k1 k2 : Option Str) :
    compat spec conv ⟨n, "character".toList, k1, u, ds, top⟩ ⟨n, "character".toList, k2, u, ds, top⟩ false =
    .ok (if charKindCheck k1 && charKindCheck k2 then ⟨true, true, none, none, none, false⟩
      else ⟨false, false, none, none, none, false⟩) := by
  unfold compat
  cases h1 : charKindCheck k1 <;> cases h2 : charKindCheck k2 <;>
    simp only [bne_self_eq_false, Bool.and_false, Bool.or_false, Bool.false_and, Bool.and_self, Bool.false_or,
      BEq.rfl, Bool.not_false, Bool.not_true, Bool.and_true, Bool.or_true, Bool.true_and, if_true, if_false,
      Bool.true_or, Bool.false_eq_true, Option.isNone_none] <;> rfl

/-- **C28** (partial): character variables are accepted only if each kind consists of one `len=`
entry.  Missing: that the two lengths agree — they need not, see `char_kind_ignores_length`. -/
theorem char_kind_supported_partial (spec : Option Str → Option Str)
    (conv : Str → Str → Except String (Str × Str)) (n u : Str) (ds : List Str) (top : Bool)
    (k1 k2 : Option Str) (r : Verdict)
    (h : compat spec conv ⟨n, "character".toList, k1, u, ds, top⟩
      ⟨n, "character".toList, k2, u, ds, top⟩ false = .ok r) :
    (r.equiv = true ↔ charKindCheck k1 = true ∧ charKindCheck k2 = true) ∧ r.compat = r.equiv := by
  rw [compat_char] at h
  injection h with h
  subst h
  cases charKindCheck k1 <;> cases charKindCheck k2 <;> simp

/-- A kind passes the check only if it has exactly one non-blank entry, starting with `len=`. -/
theorem charKindCheck_iff (k : Option Str) : charKindCheck k = true ↔
    ∃ s e, k = some s ∧ ((splitComma s).map strip).filter (!·.isEmpty) = [e] ∧
      lower (e.take 4) = "len=".toList := by
  unfold charKindCheck
  constructor
  · intro h
    split at h
    · cases h
    next s =>
      split at h
      · next e he => exact ⟨s, e, rfl, he, by simpa using h⟩
      · cases h
  · rintro ⟨s, e, rfl, he, hl⟩
    simp only [he]
    simpa using hl

/-- **C28** fails: whatever the lengths are, two `len=` kinds are reported equivalent. -/
theorem char_kind_ignores_length (spec : Option Str → Option Str)
    (conv : Str → Str → Except String (Str × Str)) (n u : Str) (ds : List Str) (top : Bool)
    (k1 k2 : Option Str) (h1 : charKindCheck k1 = true) (h2 : charKindCheck k2 = true) :
    compat spec conv ⟨n, "character".toList, k1, u, ds, top⟩ ⟨n, "character".toList, k2, u, ds, top⟩ false =
      .ok ⟨true, true, none, none, none, false⟩ := by
  rw [compat_char, h1, h2]; rfl

/-- Reachable: `len=3` and `len=5`. -/
example : charKindCheck (some "len=3".toList) = true ∧ charKindCheck (some " LEN=5 ".toList) = true ∧
    lenText "len=3".toList ≠ lenText "len=5".toList := by decide +kernel

/-! ## C29: the verdict -/

/-- The parts of a verdict that do not depend on the order of the variables. -/
def summary (x : Except String Verdict) : Option (Bool × Bool × Bool) :=
  match x with
  | .error _ => none
  | .ok r => some (r.equiv, r.compat, r.vert)

/-- **C29** (reflexive, partial): a variable is equivalent to itself, if it is not of character type
or has a supported kind.  Missing: character variables with another kind
(`character_not_reflexive`). -/
theorem reflexive_partial (spec : Option Str → Option Str) (conv : Str → Str → Except String (Str × Str))
    (v : V) (h : v.type ≠ "character".toList ∨ charKindCheck v.kind = true) :
    compat spec conv v v false = .ok ⟨true, true, none, none, none, false⟩ := by
  have hc : (v.type == "character".toList && !(charKindCheck v.kind && charKindCheck v.kind)) = false := by
    rcases h with h | h
    · rw [beq_eq_false_iff_ne.2 h]; rfl
    · rw [h]; simp
  unfold compat
  simp only [bne_self_eq_false, Bool.and_false, Bool.or_false, Bool.false_and, hc, BEq.rfl, Bool.or_true,
    if_true, Bool.false_eq_true, if_false, Option.isNone_none, Bool.and_true]
  rfl

example : compat (fun _ => none) (fun _ _ => .error "x")
    ⟨"t".toList, "real".toList, some "kind_phys".toList, "K".toList, ["horizontal_dimension".toList], true⟩
    ⟨"t".toList, "real".toList, some "kind_phys".toList, "K".toList, ["horizontal_dimension".toList], true⟩
    false = .ok ⟨true, true, none, none, none, false⟩ :=
  reflexive_partial _ _ _ (Or.inl (by decide))

/-- **C29** fails for character variables without a `len=` kind: not even compatible with
themselves. -/
theorem character_not_reflexive (spec : Option Str → Option Str)
    (conv : Str → Str → Except String (Str × Str)) (v : V) (ht : v.type = "character".toList)
    (hk : charKindCheck v.kind = false) :
    compat spec conv v v false = .ok ⟨false, false, none, none, none, false⟩ := by
  obtain ⟨n, t, k, u, ds, top⟩ := v
  simp only at ht hk
  subst ht
  rw [compat_char, hk]; rfl

example : charKindCheck none = false := rfl

/-- **C29**: different standard names or types are always rejected, without an error. -/
theorem names_types_rejected (spec : Option Str → Option Str)
    (conv : Str → Str → Except String (Str × Str)) (v1 v2 : V)
    (h : v1.stdname ≠ v2.stdname ∨ v1.type ≠ v2.type) :
    compat spec conv v1 v2 false = .ok ⟨false, false, none, none, none, false⟩ := by
  unfold compat
  have : ((false && !("tendency_of".toList.isPrefixOf v1.stdname)) ||
    (!false && v1.stdname != v2.stdname) || v1.type != v2.type) = true := by
    rcases h with h | h
    · rw [bne_iff_ne.2 h]; simp
    · rw [bne_iff_ne.2 h]; simp
  simp only [this, if_true]
  rfl

/-- Closed form of `compat` for variables of the same name and type. -/
theorem compat_eq (spec : Option Str → Option Str) (conv : Str → Str → Except String (Str × Str))
    (v1 v2 : V) (hn : v1.stdname = v2.stdname) (ht : v1.type = v2.type)
    (hc : v1.type = "character".toList → charKindCheck v1.kind = true ∧ charKindCheck v2.kind = true) :
    compat spec conv v1 v2 false =
    (let kindT := if v1.type == "character".toList || v1.kind == v2.kind then none
      else kindConv spec v1.kind v2.kind
     match (if normUnits v1.units == normUnits v2.units then (.ok none : Except String (Option (Str × Str)))
        else (conv (normUnits v1.units) (normUnits v2.units)).map some) with
     | .error e => .error e
     | .ok unitT =>
       if v1.dims == v2.dims then
         .ok ⟨kindT.isNone && unitT.isNone, true, none, kindT, unitT, v1.top != v2.top⟩
       else match dimTransforms v1.dims v2.dims with
         | .error e => .error e
         | .ok dimT => .ok ⟨kindT.isNone && unitT.isNone && (v1.dims.map regularize == v2.dims.map regularize),
             dimT.isSome, dimT, kindT, unitT, v1.top != v2.top⟩) := by
  have hcb : (v1.type == "character".toList && !(charKindCheck v1.kind && charKindCheck v2.kind)) = false := by
    by_cases h : v1.type = "character".toList
    · obtain ⟨a, b⟩ := hc h; rw [a, b]; simp
    · rw [beq_eq_false_iff_ne.2 h]; rfl
  unfold compat
  simp only [hn, ht, bne_self_eq_false, Bool.and_false, Bool.or_false, Bool.false_and, Bool.false_eq_true,
    if_false, Bool.false_or]
  rw [ht] at hcb
  simp only [hcb, Bool.false_eq_true, if_false]
  by_cases hu : (normUnits v1.units == normUnits v2.units) = true
  · simp only [hu, if_true]
    by_cases hd : (v1.dims == v2.dims) = true
    · simp only [hd, if_true]; rfl
    · simp only [hd, Bool.false_eq_true, if_false]
      cases hdt : dimTransforms v1.dims v2.dims <;> rfl
  · simp only [hu, Bool.false_eq_true, if_false]
    cases hcv : conv (normUnits v1.units) (normUnits v2.units) with
    | error e => rfl
    | ok p =>
      by_cases hd : (v1.dims == v2.dims) = true
      · simp only [hd, if_true]; rfl
      · simp only [hd, Bool.false_eq_true, if_false]
        cases hdt : dimTransforms v1.dims v2.dims <;> rfl

theorem compat_incompat (spec : Option Str → Option Str) (conv : Str → Str → Except String (Str × Str))
    (v1 v2 : V) (h : ¬ (v1.stdname = v2.stdname ∧ v1.type = v2.type ∧
      (v1.type = "character".toList → charKindCheck v1.kind = true ∧ charKindCheck v2.kind = true))) :
    compat spec conv v1 v2 false = .ok ⟨false, false, none, none, none, false⟩ := by
  by_cases hn : v1.stdname = v2.stdname
  · by_cases ht : v1.type = v2.type
    · have hc : v1.type = "character".toList := by
        by_contra hc; exact h ⟨hn, ht, fun e => absurd e hc⟩
      have hk : (charKindCheck v1.kind && charKindCheck v2.kind) = false := by
        by_contra hk
        simp only [Bool.not_eq_false, Bool.and_eq_true] at hk
        exact h ⟨hn, ht, fun _ => hk⟩
      unfold compat
      simp only [hn, ← ht, hc, hk, bne_self_eq_false, Bool.and_false, Bool.or_false, Bool.false_and, BEq.rfl,
        Bool.not_false, Bool.and_true, if_true, Bool.false_eq_true, if_false]
      rfl
    · exact names_types_rejected _ _ _ _ (Or.inr ht)
  · exact names_types_rejected _ _ _ _ (Or.inl hn)

/-- **C29**: a verdict "equivalent" means same name and type, no kind or unit conversion recorded,
the same units (up to the case of "none"), the same dimensions in the same order (up to the
spelling of the horizontal dimension and the default lower bound), and it implies "compatible". -/
theorem equiv_sound (spec : Option Str → Option Str) (conv : Str → Str → Except String (Str × Str))
    (v1 v2 : V) (r : Verdict) (h : compat spec conv v1 v2 false = .ok r) (he : r.equiv = true) :
    v1.stdname = v2.stdname ∧ v1.type = v2.type ∧ r.kindT = none ∧ r.unitT = none ∧
    normUnits v1.units = normUnits v2.units ∧ v1.dims.map regularize = v2.dims.map regularize ∧
    r.compat = true := by
  by_cases hg : v1.stdname = v2.stdname ∧ v1.type = v2.type ∧
      (v1.type = "character".toList → charKindCheck v1.kind = true ∧ charKindCheck v2.kind = true)
  · obtain ⟨hn, ht, hc⟩ := hg
    rw [compat_eq _ _ _ _ hn ht hc] at h
    simp only at h
    refine ⟨hn, ht, ?_⟩
    generalize hk : (if v1.type == "character".toList || v1.kind == v2.kind then none
      else kindConv spec v1.kind v2.kind) = kindT at h
    split at h
    · cases h
    next unitT hu =>
    split at h
    · next hd =>
      injection h with h
      subst h
      simp only [Bool.and_eq_true, Option.isNone_iff_eq_none] at he
      obtain ⟨h1, h2⟩ := he
      subst h1 h2
      refine ⟨rfl, rfl, ?_, by rw [eq_of_beq hd], rfl⟩
      split at hu
      · next hh => exact eq_of_beq hh
      · cases hcv : conv (normUnits v1.units) (normUnits v2.units) <;> rw [hcv] at hu <;> cases hu
    · next hd =>
      split at h
      · cases h
      next o ho =>
      injection h with h
      subst h
      simp only [Bool.and_eq_true, Option.isNone_iff_eq_none] at he
      obtain ⟨⟨h1, h2⟩, h3⟩ := he
      subst h1 h2
      refine ⟨rfl, rfl, ?_, eq_of_beq h3, ?_⟩
      · split at hu
        · next hh => exact eq_of_beq hh
        · cases hcv : conv (normUnits v1.units) (normUnits v2.units) <;> rw [hcv] at hu <;> cases hu
      · cases o with
        | some t => rfl
        | none =>
          exfalso
          have hp : (v1.dims.map regularize).Perm (v2.dims.map regularize) := by rw [eq_of_beq h3]
          by_cases hh : ∃ d ∈ v1.dims, isHoriz d = true
          · obtain ⟨t, ht'⟩ := reordered_accepted hp hh
            rw [ht'] at ho; cases ho
          · rw [reordered_without_horizontal hp (by
              intro d hd'
              by_contra hc'
              exact hh ⟨d, hd', by simpa using hc'⟩)] at ho
            cases ho
  · rw [compat_incompat _ _ _ _ hg] at h
    injection h with h
    subst h
    cases he

/-- **C29** fails: "equivalent" although a dimension conversion is recorded, and although the
vertical axes run in opposite directions. -/
theorem equiv_with_dimension_transform : ∃ r,
    compat (fun _ => none) (fun _ _ => .error "x")
      ⟨"t".toList, "real".toList, none, "K".toList, ["horizontal_dimension".toList], false⟩
      ⟨"t".toList, "real".toList, none, "K".toList, ["horizontal_loop_extent".toList], true⟩ false = .ok r ∧
    r.equiv = true ∧ r.dimT.isSome = true ∧ r.vert = true :=
  ⟨⟨true, true, some ⟨[0], [some 0], 0, none, 0, none, false, true⟩, none, none, true⟩,
    by decide +kernel, rfl, rfl, rfl⟩

/-- **C29**: a kind conversion is recorded exactly when the kinds differ after resolving the kind
definitions (and the type is not character), and it goes from the first variable's kind to the second's. -/
theorem kind_recorded (spec : Option Str → Option Str) (conv : Str → Str → Except String (Str × Str))
    (v1 v2 : V) (r : Verdict) (h : compat spec conv v1 v2 false = .ok r) (hc : r.compat = true) :
    r.kindT = if v1.type = "character".toList ∨ (spec v1.kind).or v1.kind = (spec v2.kind).or v2.kind
      then none else some (v1.kind, v2.kind) := by
  have hK : (if v1.type == "character".toList || v1.kind == v2.kind then none
      else kindConv spec v1.kind v2.kind) =
      if v1.type = "character".toList ∨ (spec v1.kind).or v1.kind = (spec v2.kind).or v2.kind
      then none else some (v1.kind, v2.kind) := by
    have e : kindConv spec v1.kind v2.kind =
        if (spec v1.kind).or v1.kind ≠ (spec v2.kind).or v2.kind then some (v1.kind, v2.kind) else none := by
      unfold kindConv
      cases spec v1.kind <;> cases spec v2.kind <;> rfl
    rw [e]
    by_cases h1 : v1.type = "character".toList
    · simp [h1]
    · by_cases h2 : v1.kind = v2.kind
      · simp [h2]
      · simp only [Bool.or_eq_true, beq_iff_eq, h1, h2, or_self, if_false, false_or]
        by_cases h3 : (spec v1.kind).or v1.kind = (spec v2.kind).or v2.kind <;> simp [h3]
  by_cases hg : v1.stdname = v2.stdname ∧ v1.type = v2.type ∧
      (v1.type = "character".toList → charKindCheck v1.kind = true ∧ charKindCheck v2.kind = true)
  · obtain ⟨hn, ht, hcc⟩ := hg
    rw [compat_eq _ _ _ _ hn ht hcc] at h
    simp only [hK] at h
    split at h
    · cases h
    split at h
    · injection h with h; subst h; rfl
    · split at h
      · cases h
      · injection h with h; subst h; rfl
  · rw [compat_incompat _ _ _ _ hg] at h
    injection h with h
    subst h
    cases hc

theorem kindConv_symm (spec : Option Str → Option Str) (k1 k2 : Option Str) :
    (kindConv spec k1 k2).isNone = (kindConv spec k2 k1).isNone := by
  unfold kindConv
  simp only
  cases spec k1 <;> cases spec k2 <;> simp only <;> split <;> split <;> simp_all

theorem dimTransforms_symm (d1 d2 : List Str) :
    (∀ t, dimTransforms d1 d2 = .ok (some t) → ∃ t', dimTransforms d2 d1 = .ok (some t')) ∧
    (dimTransforms d1 d2 = .ok none → dimTransforms d2 d1 = .ok none) ∧
    (∀ e, dimTransforms d1 d2 = .error e → ∃ e', dimTransforms d2 d1 = .error e') := by
  refine ⟨?_, ?_, ?_⟩
  · intro t ht
    have hf := dimTransforms_facts ht
    have hp : (d1.map regularize).Perm (d2.map regularize) := by
      by_contra hp
      rw [different_rejected hp] at ht; cases ht
    refine reordered_accepted hp.symm ⟨d2.getD t.rhi [], ?_, ?_⟩
    · have hr := (rev_of_fwd hf.inv hf.h12).2.1
      rw [hf.len] at hr
      rw [getD_of_getElem? (List.getElem?_eq_getElem hr)]
      exact List.getElem_mem _
    · rw [← (hf.sameDim hf.h12).horiz]; exact hf.hh
  · intro h
    have hp : ¬ (d1.map regularize).Perm (d2.map regularize) := by
      intro hp
      by_cases hh : ∃ d ∈ d1, isHoriz d = true
      · obtain ⟨t, ht⟩ := reordered_accepted hp hh
        rw [ht] at h; cases h
      · rw [reordered_without_horizontal hp (by
          intro d hd; by_contra hc; exact hh ⟨d, hd, by simpa using hc⟩)] at h
        cases h
    exact different_rejected (fun q => hp q.symm)
  · intro e he
    obtain ⟨hp, hh⟩ := (dim_error_iff d1 d2).1 ⟨e, he⟩
    refine (dim_error_iff d2 d1).2 ⟨hp.symm, fun d hd => ?_⟩
    by_contra hc
    have hm : regularize d ∈ d1.map regularize := hp.mem_iff.2 (List.mem_map.2 ⟨d, hd, rfl⟩)
    obtain ⟨d', hd', e'⟩ := List.mem_map.1 hm
    have := regularize_horiz (by simpa using hc) e'.symm
    rw [hh d' hd'] at this; cases this

/-- **C29**: the verdict — equivalent, compatible, vertical flip, or an error — does not depend on
the order of the variables, if finding unit conversions does not (proved of the actual table in
`Props/Units.lean`). -/
theorem verdict_symmetric (spec : Option Str → Option Str) (conv : Str → Str → Except String (Str × Str))
    (hconv : ∀ a b, (∃ e, conv a b = .error e) → ∃ e, conv b a = .error e) (v1 v2 : V) :
    summary (compat spec conv v1 v2 false) = summary (compat spec conv v2 v1 false) := by
  by_cases hg : v1.stdname = v2.stdname ∧ v1.type = v2.type ∧
      (v1.type = "character".toList → charKindCheck v1.kind = true ∧ charKindCheck v2.kind = true)
  · obtain ⟨hn, ht, hc⟩ := hg
    rw [compat_eq _ _ _ _ hn ht hc, compat_eq _ _ _ _ hn.symm ht.symm
      (fun e => (hc (ht.trans e)).symm)]
    simp only
    have hk : (if v1.type == "character".toList || v1.kind == v2.kind then none
        else kindConv spec v1.kind v2.kind).isNone =
        (if v2.type == "character".toList || v2.kind == v1.kind then none
        else kindConv spec v2.kind v1.kind).isNone := by
      rw [ht, show (v1.kind == v2.kind) = (v2.kind == v1.kind) from Bool.beq_comm]
      split
      · rfl
      · exact kindConv_symm spec _ _
    generalize (if v1.type == "character".toList || v1.kind == v2.kind then none
        else kindConv spec v1.kind v2.kind) = ka at *
    generalize (if v2.type == "character".toList || v2.kind == v1.kind then none
        else kindConv spec v2.kind v1.kind) = kb at *
    have hbeq : (normUnits v1.units == normUnits v2.units) = (normUnits v2.units == normUnits v1.units) :=
      Bool.beq_comm
    have hdbeq : (v1.dims == v2.dims) = (v2.dims == v1.dims) := Bool.beq_comm
    have htop : (v1.top != v2.top) = (v2.top != v1.top) := by cases v1.top <;> cases v2.top <;> rfl
    have hreg : (v1.dims.map regularize == v2.dims.map regularize) =
      (v2.dims.map regularize == v1.dims.map regularize) := Bool.beq_comm
    rw [hbeq, hdbeq, htop, hreg, hk]
    have key : ∀ (x y : Option (Str × Str)), x.isNone = y.isNone →
        summary (if (v2.dims == v1.dims) = true then
            .ok ⟨kb.isNone && x.isNone, true, none, ka, x, v2.top != v1.top⟩
          else match dimTransforms v1.dims v2.dims with
            | .error e => .error e
            | .ok dimT => .ok ⟨kb.isNone && x.isNone && (v2.dims.map regularize == v1.dims.map regularize),
              dimT.isSome, dimT, ka, x, v2.top != v1.top⟩) =
        summary (if (v2.dims == v1.dims) = true then
            .ok ⟨kb.isNone && y.isNone, true, none, kb, y, v2.top != v1.top⟩
          else match dimTransforms v2.dims v1.dims with
            | .error e => .error e
            | .ok dimT => .ok ⟨kb.isNone && y.isNone && (v2.dims.map regularize == v1.dims.map regularize),
              dimT.isSome, dimT, kb, y, v2.top != v1.top⟩) := by
      intro x y hxy
      rw [hxy]
      by_cases hd : (v2.dims == v1.dims) = true
      · rw [if_pos hd, if_pos hd]; rfl
      · rw [if_neg hd, if_neg hd]
        obtain ⟨s1, s2, s3⟩ := dimTransforms_symm v1.dims v2.dims
        cases hdt : dimTransforms v1.dims v2.dims with
        | error e =>
          obtain ⟨e', he'⟩ := s3 e hdt
          rw [he']; rfl
        | ok o =>
          cases o with
          | none => rw [s2 hdt]; rfl
          | some t =>
            obtain ⟨t', ht'⟩ := s1 t hdt
            rw [ht']; rfl
    by_cases hu : (normUnits v2.units == normUnits v1.units) = true
    · rw [if_pos hu, if_pos hu]
      exact key none none rfl
    · rw [if_neg hu, if_neg hu]
      cases c1 : conv (normUnits v1.units) (normUnits v2.units) with
      | error e =>
        obtain ⟨e', he'⟩ := hconv _ _ ⟨e, c1⟩
        rw [he']; rfl
      | ok p =>
        cases c2 : conv (normUnits v2.units) (normUnits v1.units) with
        | error e =>
          obtain ⟨e', he'⟩ := hconv _ _ ⟨e, c2⟩
          rw [c1] at he'; cases he'
        | ok q => exact key (some p) (some q) rfl
  · rw [compat_incompat _ _ _ _ hg, compat_incompat _ _ _ _ (fun hg' => hg
      ⟨hg'.1.symm, hg'.2.1.symm, fun e => (hg'.2.2 (hg'.2.1.trans e)).symm⟩)]

/-- Non-trivial instance: reordered dimensions and different kinds. -/
example : summary (compat (fun _ => none) (fun _ _ => .error "x")
    ⟨"t".toList, "real".toList, some "k1".toList, "K".toList,
      ["horizontal_dimension".toList, "n".toList], true⟩
    ⟨"t".toList, "real".toList, some "k2".toList, "K".toList,
      ["n".toList, "horizontal_dimension".toList], false⟩ false) = some (false, true, true) := by
  decide +kernel

/-! ## C51: units of tendencies -/

/-- The verdict on a tendency with the same type, kind and dimensions as its state variable. -/
def tendencyAccepted (tu su : Str) : Bool :=
  match compat (fun _ => none) (fun _ _ => .error "x")
      ⟨"tendency_of_x".toList, "real".toList, none, tu, [], false⟩
      ⟨"x".toList, "real".toList, none, su, [], false⟩ true with
  | .ok r => r.compat
  | .error _ => false

theorem tendencyAccepted_eq (tu su : Str) :
    tendencyAccepted tu su = (strip (beforePerSecond (normUnits tu)) == normUnits su) := by
  have h1 : "tendency_of".toList.isPrefixOf "tendency_of_x".toList = true := by decide +kernel
  have h2 : (("real".toList : Str) == "character".toList) = false := by decide
  unfold tendencyAccepted compat
  simp only [h1, h2, bne_self_eq_false, Bool.not_true, Bool.and_false, Bool.or_false, Bool.false_and,
    Bool.false_eq_true, if_false, BEq.rfl, Bool.or_true, if_true, Bool.true_and, Bool.true_or]
  generalize strip (beforePerSecond (normUnits tu)) = a
  cases h : (a == normUnits su) with
  | true =>
    have : (a != normUnits su) = false := by unfold bne; rw [h]; rfl
    simp only [this, Bool.false_eq_true, if_false]; rfl
  | false =>
    have : (a != normUnits su) = true := by unfold bne; rw [h]; rfl
    simp only [this, if_true]; rfl

/-- `s-1` occurs nowhere in the text. -/
def NoPerSecond (u : Str) : Prop := ∀ p q, u ≠ p ++ "s-1".toList ++ q

theorem before_append {u : Str} (h : NoPerSecond u) :
    beforePerSecond (u ++ " s-1".toList) = u ++ " ".toList := by
  induction u with
  | nil => decide
  | cons c u ih =>
    have hp : ¬ "s-1".toList.isPrefixOf (c :: (u ++ " s-1".toList)) = true := by
      intro hc
      obtain ⟨r, hr⟩ := List.isPrefixOf_iff_prefix.1 hc
      match u with
      | [] => revert hr; simp
      | [d] => revert hr; simp
      | d :: e :: u' =>
        have : c :: d :: e :: u' = [] ++ "s-1".toList ++ u' := by
          simp only [String.toList] at hr
          simp at hr ⊢
          obtain ⟨rfl, rfl, rfl, _⟩ := hr
          exact ⟨rfl, rfl, rfl⟩
        exact h _ _ this
    rw [List.cons_append, beforePerSecond, if_neg hp, ih (fun p q e => h (c :: p) q (by rw [e]; rfl))]
    rfl

theorem before_self {u : Str} (h : NoPerSecond u) : beforePerSecond u = u := by
  induction u with
  | nil => rfl
  | cons c u ih =>
    have hp : ¬ "s-1".toList.isPrefixOf (c :: u) = true := by
      intro hc
      obtain ⟨r, hr⟩ := List.isPrefixOf_iff_prefix.1 hc
      exact h [] r hr.symm
    rw [beforePerSecond, if_neg hp, ih (fun p q e => h (c :: p) q (by rw [e]; rfl))]

/-- **C51** (partial): the units `<units> s-1` are accepted for a tendency, if `<units>` itself has
no `s-1`. -/
theorem tendency_units_partial {u : Str} (h : NoPerSecond u) (hs : strip (u ++ " ".toList) = u)
    (hn : lower u ≠ "none".toList) : tendencyAccepted (u ++ " s-1".toList) u = true := by
  have h1 : normUnits (u ++ " s-1".toList) = u ++ " s-1".toList := by
    unfold normUnits
    rw [if_neg]
    intro hc
    have hm : ' ' ∈ lower (u ++ " s-1".toList) := by
      unfold lower
      rw [List.map_append]
      exact List.mem_append.2 (Or.inr (by decide))
    rw [hc] at hm
    revert hm; decide
  have h2 : normUnits u = u := by unfold normUnits; rw [if_neg hn]
  rw [tendencyAccepted_eq, h1, h2, before_append h, hs]
  exact beq_self_eq_true u

example : tendencyAccepted "kg kg-1 s-1".toList "kg kg-1".toList = true := by decide +kernel

/-- **C51** fails: for every unit without `s-1`, the unit of the state variable itself — not
divided by time — is accepted as the unit of its tendency. -/
theorem tendency_missing_per_second {u : Str} (h : NoPerSecond u) (hs : strip u = u)
    (hn : lower u ≠ "none".toList) : tendencyAccepted u u = true := by
  have h2 : normUnits u = u := by unfold normUnits; rw [if_neg hn]
  rw [tendencyAccepted_eq, h2, before_self h, hs]
  exact beq_self_eq_true u

example : tendencyAccepted "K".toList "K".toList = true := by decide +kernel

/-- **C51** fails the other way: the correct units of the tendency of a wind are rejected. -/
theorem tendency_of_rate_rejected : tendencyAccepted "m s-1 s-1".toList "m s-1".toList = false := by
  decide +kernel

/-- and text after the first `s-1` is ignored. -/
theorem tendency_trailing_text : tendencyAccepted "K s-1 foo".toList "K".toList = true := by
  decide +kernel

end Ccpp.VC
