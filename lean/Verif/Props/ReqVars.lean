import Verif.Model.ReqVars
import Verif.Spec.ReqVars
import Mathlib.Data.List.Nodup
import Mathlib.Data.List.Perm.Basic
/-!
# C40: the generated variable query
-/
namespace Ccpp.RV

theorem insertS_perm (x : Str) (l : List Str) : (insertS x l).Perm (x :: l) := by
  induction l with
  | nil => exact List.Perm.refl _
  | cons y l ih =>
    rw [insertS]
    split
    · exact List.Perm.refl _
    · exact (ih.cons y).trans (List.Perm.swap x y l)

theorem sorted_perm (l : List Str) : (sorted l).Perm l := by
  induction l with
  | nil => exact List.Perm.refl _
  | cons x l ih => rw [sorted]; exact (insertS_perm x _).trans (ih.cons x)

@[simp] theorem mem_sorted {x : Str} {l : List Str} : x ∈ sorted l ↔ x ∈ l := (sorted_perm l).mem_iff
@[simp] theorem length_sorted (l : List Str) : (sorted l).length = l.length := (sorted_perm l).length_eq
theorem nodup_sorted {l : List Str} : (sorted l).Nodup ↔ l.Nodup := (sorted_perm l).nodup_iff
@[simp] theorem sorted_eq_nil {l : List Str} : sorted l = [] ↔ l = [] := by
  rw [← List.length_eq_zero_iff, length_sorted, List.length_eq_zero_iff]

@[simp] theorem mem_union {x : Str} {a b : List Str} : x ∈ union a b ↔ x ∈ a ∨ x ∈ b := by
  unfold union
  rw [List.mem_append, List.mem_filter, decide_eq_true_eq]
  by_cases h : x ∈ a <;> simp [h]

@[simp] theorem mem_diff {x : Str} {a b : List Str} : x ∈ diff a b ↔ x ∈ a ∧ x ∉ b := by
  unfold diff; rw [List.mem_filter, decide_eq_true_eq]

@[simp] theorem mem_inter {x : Str} {a b : List Str} : x ∈ inter a b ↔ x ∈ a ∧ x ∈ b := by
  unfold inter; rw [List.mem_filter, decide_eq_true_eq]

theorem nodup_union {a b : List Str} (ha : a.Nodup) (hb : b.Nodup) : (union a b).Nodup := by
  unfold union
  rw [List.nodup_append]
  refine ⟨ha, hb.filter _, ?_⟩
  intro x hx y hy e
  subst e
  rw [List.mem_filter, decide_eq_true_eq] at hy
  exact hy.2 hx

theorem nodup_diff {a b : List Str} (ha : a.Nodup) : (diff a b).Nodup := ha.filter _
theorem nodup_inter {a b : List Str} (ha : a.Nodup) : (inter a b).Nodup := ha.filter _

/-- The state with the first places set to `pre` and `k` more places. -/
def mk (n : Nat) (pre : List Str) (k : Nat) : PSt := ⟨n, pre.map some ++ List.replicate k none⟩

theorem writeLoop_exec (f : QFlags) (rel : Bool) : ∀ (names pre : List Str) (n k start : Nat),
    (if rel then n else 0) + start = pre.length + 1 → names.length ≤ k →
    (writeLoop rel start names).exec f (mk n pre k) = some (mk n (pre ++ names) (k - names.length)) := by
  intro names
  induction names with
  | nil => intro pre n k start _ _; simp [writeLoop, Prog.exec]
  | cons x xs ih =>
    intro pre n k start hst hk
    rw [List.length_cons] at hk
    obtain ⟨k', rfl⟩ : ∃ k', k = k' + 1 := ⟨k - 1, by omega⟩
    rw [writeLoop, Prog.exec, Prog.exec]
    have harr : (mk n pre (k' + 1)).arr.set ((if rel then n else 0) + start - 1) (some x) =
        (mk n (pre ++ [x]) k').arr := by
      simp only [mk]
      rw [hst, List.replicate_succ, Nat.add_sub_cancel,
        List.set_append_right _ _ (by simp), List.length_map, Nat.sub_self]
      simp
    have hcond : 1 ≤ (if rel then (mk n pre (k' + 1)).num else 0) + start ∧
        (if rel then (mk n pre (k' + 1)).num else 0) + start ≤ (mk n pre (k' + 1)).arr.length := by
      have h1 : (mk n pre (k' + 1)).num = n := rfl
      have h2 : (mk n pre (k' + 1)).arr.length = pre.length + (k' + 1) := by simp [mk]
      rw [h1, h2, hst]; omega
    rw [if_pos hcond]
    have hnum : (mk n pre (k' + 1)).num = n := rfl
    simp only [hnum, harr]
    have := ih (pre ++ [x]) n k' (start + 1) (by rw [List.length_append]; simp; omega) (by omega)
    have hm : ({ num := n, arr := (mk n (pre ++ [x]) k').arr } : PSt) = mk n (pre ++ [x]) k' := rfl
    rw [hm, this]
    simp

theorem setLoop_exec (f : QFlags) (rel : Bool) (names pre : List Str) (n k start : Nat)
    (h : (if rel then n else 0) + start = pre.length + 1) (hk : names.length ≤ k) :
    (setLoop rel start names).exec f (mk n pre k) =
      some (mk n (pre ++ sorted names) (k - names.length)) := by
  unfold setLoop
  rw [writeLoop_exec f rel (sorted names) pre n k start h (by simpa using hk), length_sorted]

theorem exec_seq (f : QFlags) (a b : Prog) (s s' : PSt) (h : a.exec f s = some s') :
    (a ;; b).exec f s = b.exec f s' := by
  rw [Prog.exec, h]

/-- The names written for arrays. -/
def pickS (f : QFlags) (elem arr : List Str) : List Str := if f.struct then elem else arr

/-- The common pattern: `if (struct_elements_use) … else … end if` with absolute indices. -/
theorem abs_exec (f : QFlags) (el ar pre : List Str) (n k es ls : Nat)
    (he : f.struct = true → es = pre.length + 1) (hl : f.struct = false → ls = pre.length + 1)
    (hk : (pickS f el ar).length ≤ k) :
    (Prog.ite .struct (setLoop false es el ;; .setNum (es + el.length - 1))
        (setLoop false ls ar ;; .setNum (ls + ar.length - 1))).exec f (mk n pre k) =
      some (mk (pre.length + (pickS f el ar).length) (pre ++ sorted (pickS f el ar))
        (k - (pickS f el ar).length)) := by
  rw [Prog.exec]
  cases hs : f.struct with
  | true =>
    simp only [Cond.eval, hs, if_true, pickS] at hk ⊢
    have := he hs
    subst this
    rw [exec_seq f _ _ _ _ (setLoop_exec f false el pre n k _ (by simp) hk), Prog.exec]
    simp only [mk]
    congr 2; omega
  | false =>
    simp only [Cond.eval, hs, pickS, Bool.false_eq_true, if_false] at hk ⊢
    have := hl hs
    subst this
    rw [exec_seq f _ _ _ _ (setLoop_exec f false ar pre n k _ (by simp) hk), Prog.exec]
    simp only [mk]
    congr 2; omega

theorem ne_iff {l : List Str} : ne l = true ↔ l ≠ [] := by unfold ne; rw [decide_eq_true_eq]
theorem ne_false {l : List Str} : ne l = false ↔ l = [] := by unfold ne; simp

theorem sorted_nil : sorted [] = [] := rfl

/-! ## The segments -/

/-- What the inout variables contribute. -/
def names1 (c : Coll) (f : QFlags) : List Str :=
  sorted (sorted c.io.leaf) ++ sorted (pickS f c.elem1 c.leaf1)
def names2 (c : Coll) (f : QFlags) : List Str := sorted c.leaf2 ++ sorted (pickS f c.elem2 c.leaf3)
def names3 (c : Coll) (f : QFlags) : List Str := sorted c.leaf4 ++ sorted (pickS f c.elem4 c.leaf5)

theorem pick_nil {f : QFlags} {a b : List Str} (ha : a = []) (hb : b = []) : pickS f a b = [] := by
  unfold pickS; split <;> assumption

theorem len1 (c : Coll) (f : QFlags) :
    (names1 c f).length = c.io.leaf.length + (pickS f c.elem1 c.leaf1).length := by simp [names1]

theorem lw1_len {c : Coll} (h : c.leaf1 = []) : c.lw1.length = c.io.leaf.length := by
  have : diff c.io.arr c.io.leaf = [] := by
    rw [← sorted_eq_nil]; exact h
  unfold Coll.lw1 union
  unfold diff at this
  rw [List.length_append, this]; rfl

theorem segInout_exec (c : Coll) (f : QFlags) (n k : Nat) (hf : (f.input || f.output) = true)
    (hk : (names1 c f).length ≤ k) :
    (segInout c).exec f (mk n [] k) =
      some (mk (names1 c f).length (names1 c f) (k - (names1 c f).length)) := by
  have hlen := len1 c f
  have body : ((if c.anyIo then setLoop false 1 (sorted c.io.leaf) else Prog.skip) ;;
     (if c.has1 then
        Prog.ite .struct (setLoop false c.s0 c.elem1 ;; .setNum (c.s0 + c.elem1.length - 1))
          (setLoop false c.s0 c.leaf1 ;; .setNum (c.s0 + c.leaf1.length - 1))
      else .setNum c.lw1.length)).exec f (mk n [] k) =
      some (mk (names1 c f).length (names1 c f) (k - (names1 c f).length)) := by
    have h1 : (if c.anyIo then setLoop false 1 (sorted c.io.leaf) else Prog.skip).exec f (mk n [] k) =
        some (mk n (sorted (sorted c.io.leaf)) (k - c.io.leaf.length)) := by
      split
      · rw [setLoop_exec f false (sorted c.io.leaf) [] n k 1 (by simp) (by simp; omega)]
        simp
      · rename_i h
        have : c.io.leaf = [] := by
          unfold Coll.anyIo at h
          rw [Bool.not_eq_true, Bool.or_eq_false_iff, Bool.or_eq_false_iff] at h
          exact ne_false.1 h.1.1
        rw [this]; simp [sorted_nil, Prog.exec]
    rw [exec_seq f _ _ _ _ h1]
    split
    · rw [abs_exec f c.elem1 c.leaf1 _ n _ c.s0 c.s0 (by intro _; simp [Coll.s0]; omega)
        (by intro _; simp [Coll.s0]; omega) (by omega)]
      simp only [length_sorted, names1, List.length_append]
      congr 2; omega
    · rename_i h
      unfold Coll.has1 at h
      rw [Bool.not_eq_true, Bool.or_eq_false_iff] at h
      have he := ne_false.1 h.1
      have hl := ne_false.1 h.2
      rw [Prog.exec, lw1_len hl]
      simp only [mk, names1, pick_nil he hl, sorted_nil, List.append_nil, length_sorted]
  unfold segInout Prog.guard
  split
  · rw [Prog.exec]
    simp only [Cond.eval, hf, if_true]
    rename_i h
    simp only [h, if_true] at body
    exact body
  · rename_i h
    simp only [h] at body ⊢
    exact body

theorem es1_eq {c : Coll} {f : QFlags} (h : f.struct = true) : c.es1 = (names1 c f).length + 1 := by
  rw [len1]
  unfold Coll.es1 Coll.s0 pickS
  simp only [h, if_true, length_sorted]
  split
  · omega
  · rename_i hh
    unfold Coll.has1 at hh
    rw [Bool.not_eq_true, Bool.or_eq_false_iff] at hh
    rw [ne_false.1 hh.1]; simp; omega

theorem ls1_eq {c : Coll} {f : QFlags} (h : f.struct = false) : c.ls1 = (names1 c f).length + 1 := by
  rw [len1]
  unfold Coll.ls1 Coll.s0 pickS
  simp only [h, Bool.false_eq_true, if_false, length_sorted]
  split
  · omega
  · rename_i hh
    unfold Coll.has1 at hh
    rw [Bool.not_eq_true, Bool.or_eq_false_iff] at hh
    rw [ne_false.1 hh.2]; simp; omega

theorem inputBody_exec (c : Coll) (f : QFlags) (k : Nat) (hk : (names2 c f).length ≤ k) :
    (setLoop true 1 c.leaf2 ;;
     (if ne c.leaf2 then .addNum c.leaf2.length else .skip) ;;
     (if ne c.elem2 || ne c.leaf3 then
        .ite .struct
          (setLoop false (c.es1 + c.leaf2.length) c.elem2 ;;
            .setNum (c.es1 + c.leaf2.length + c.elem2.length - 1))
          (setLoop false (c.ls1 + c.leaf2.length) c.leaf3 ;;
            .setNum (c.ls1 + c.leaf2.length + c.leaf3.length - 1))
      else .skip)).exec f (mk (names1 c f).length (names1 c f) k) =
    some (mk (names1 c f ++ names2 c f).length (names1 c f ++ names2 c f) (k - (names2 c f).length)) := by
  have hlen : (names2 c f).length = c.leaf2.length + (pickS f c.elem2 c.leaf3).length := by simp [names2]
  rw [exec_seq f _ _ _ _ (setLoop_exec f true c.leaf2 _ _ _ 1 (by simp) (by omega))]
  have h2 : (if ne c.leaf2 then Prog.addNum c.leaf2.length else .skip).exec f
      (mk (names1 c f).length (names1 c f ++ sorted c.leaf2) (k - c.leaf2.length)) =
      some (mk ((names1 c f).length + c.leaf2.length) (names1 c f ++ sorted c.leaf2)
        (k - c.leaf2.length)) := by
    split
    · rfl
    · rename_i h
      rw [Bool.not_eq_true] at h
      rw [ne_false.1 h]; rfl
  rw [exec_seq f _ _ _ _ h2]
  split
  · rw [abs_exec f c.elem2 c.leaf3 _ _ _ _ _
      (by intro h; rw [es1_eq h]; simp; omega) (by intro h; rw [ls1_eq h]; simp; omega) (by omega)]
    simp only [names2, length_sorted, List.length_append, List.append_assoc]
    congr 2 <;> omega
  · rename_i h
    rw [Bool.not_eq_true, Bool.or_eq_false_iff] at h
    have he := ne_false.1 h.1
    have hl := ne_false.1 h.2
    rw [Prog.exec]
    simp only [names2, pick_nil he hl, sorted_nil, List.append_nil, length_sorted, List.length_append]

/-- If nothing is to be written for inputs, the input segment does nothing. -/
theorem segInput_off (c : Coll) (f : QFlags) (s : PSt) (hf : f.input = false)
    (h3 : c.haveIn = false → c.leaf3 = []) : (segInput c).exec f s = some s := by
  unfold segInput Prog.guard
  cases hh : c.haveIn with
  | true => simp only [if_true]; rw [Prog.exec]; simp [Cond.eval, hf, Prog.exec]
  | false =>
    have hl3 := h3 hh
    unfold Coll.haveIn at hh
    rw [Bool.or_eq_false_iff] at hh
    have he := ne_false.1 hh.1
    have hl := ne_false.1 hh.2
    simp only [hl, he, hl3, Bool.false_eq_true, if_false]
    rfl

theorem segInput_on (c : Coll) (f : QFlags) (k : Nat) (hf : f.input = true)
    (hk : (names2 c f).length ≤ k) :
    (segInput c).exec f (mk (names1 c f).length (names1 c f) k) =
    some (mk (names1 c f ++ names2 c f).length (names1 c f ++ names2 c f) (k - (names2 c f).length)) := by
  unfold segInput Prog.guard
  split
  · rw [Prog.exec]
    simp only [Cond.eval, hf, if_true]
    exact inputBody_exec c f k hk
  · exact inputBody_exec c f k hk

/-- The output body without the cross part. -/
theorem outputBody_exec (c : Coll) (f : QFlags) (pre : List Str) (k : Nat) (rest : Prog)
    (hk : (names3 c f).length ≤ k) :
    (setLoop true 1 c.leaf4 ;;
     (if c.has5 then .ite .struct (setLoop true c.st c.elem4) (setLoop true c.st c.leaf5) else .skip) ;;
     rest).exec f (mk pre.length pre k) =
    rest.exec f (mk pre.length (pre ++ names3 c f) (k - (names3 c f).length)) := by
  have hlen : (names3 c f).length = c.leaf4.length + (pickS f c.elem4 c.leaf5).length := by simp [names3]
  rw [exec_seq f _ _ _ _ (setLoop_exec f true c.leaf4 _ _ _ 1 (by simp) (by omega))]
  have h2 : (if c.has5 then Prog.ite .struct (setLoop true c.st c.elem4) (setLoop true c.st c.leaf5)
      else .skip).exec f (mk pre.length (pre ++ sorted c.leaf4) (k - c.leaf4.length)) =
      some (mk pre.length (pre ++ names3 c f) (k - (names3 c f).length)) := by
    split
    · rw [Prog.exec]
      cases hs : f.struct with
      | true =>
        simp only [pickS, hs, if_true] at hlen
        simp only [Cond.eval, hs, if_true]
        rw [setLoop_exec f true c.elem4 _ _ _ c.st (by simp [Coll.st]; omega) (by omega)]
        simp only [names3, pickS, hs, if_true, List.append_assoc, List.length_append, length_sorted]
        congr 2; omega
      | false =>
        simp only [pickS, hs, Bool.false_eq_true, if_false] at hlen
        simp only [Cond.eval, hs, Bool.false_eq_true, if_false]
        rw [setLoop_exec f true c.leaf5 _ _ _ c.st (by simp [Coll.st]; omega) (by omega)]
        simp only [names3, pickS, hs, Bool.false_eq_true, if_false, List.append_assoc,
          List.length_append, length_sorted]
        congr 2; omega
    · rename_i h
      unfold Coll.has5 at h
      rw [Bool.not_eq_true, Bool.or_eq_false_iff] at h
      have he := ne_false.1 h.1
      have hl := ne_false.1 h.2
      rw [Prog.exec]
      simp only [names3, pick_nil he hl, sorted_nil, List.append_nil, length_sorted]
  rw [exec_seq f _ _ _ _ h2]

theorem segCross_input (c : Coll) (f : QFlags) (s : PSt) (hf : f.input = true) :
    (segCross c).exec f s = some s := by
  unfold segCross
  split
  · rw [Prog.exec]; simp [Cond.eval, hf, Prog.exec]
  · rfl

theorem segCross_noinput (c : Coll) (f : QFlags) (base n3 : List Str) (k : Nat) (hf : f.input = false)
    (he : c.elemCrossL = []) (hsi : c.simpCrossL = [])
    (hls : c.leafCrossL ≠ [] → c.ls5 = n3.length + 1) (hk : c.leafCrossL.length ≤ k) :
    (segCross c).exec f (mk base.length (base ++ n3) k) =
      some (mk base.length (base ++ n3 ++ sorted c.leafCrossL) (k - c.leafCrossL.length)) := by
  unfold segCross
  split
  · rename_i h
    have hne : c.leafCrossL ≠ [] := by
      rw [he, Bool.or_eq_true] at h
      rcases h with h | h
      · exact ne_iff.1 h
      · exact absurd rfl (ne_iff.1 h)
    have hls := hls hne
    rw [Prog.exec]
    simp only [Cond.eval, hf, Bool.not_false, if_true]
    rw [exec_seq f _ _ _ _ (setLoop_exec f true c.leafCrossL _ _ _ c.ls5
      (by simp [hls]; omega) hk)]
    rw [he, hsi]
    rfl
  · rename_i h
    rw [Bool.not_eq_true, Bool.or_eq_false_iff] at h
    rw [ne_false.1 h.1]
    simp [Prog.exec, sorted_nil]

/-! ## The size -/

def unionAll (cats : List Sets) (f : QFlags) : List Str :=
  cats.foldl (fun a s => union (union a s.leaf) (pickS f s.elem s.arr)) []

theorem sizeProg_exec (cats : List Sets) (f : QFlags) (s : PSt)
    (h : ∀ t ∈ cats, t.arr ≠ [] → t.elem ≠ []) :
    (sizeProg cats).exec f s = some { s with num := (unionAll cats f).length } := by
  unfold sizeProg unionAll
  simp only
  split
  · rw [Prog.exec]
    cases hs : f.struct with
    | true => simp only [Cond.eval, hs, if_true, Prog.exec, pickS]
    | false => simp only [Cond.eval, hs, Bool.false_eq_true, if_false, Prog.exec, pickS]
  · rename_i hno
    rw [Prog.exec]
    have hall : ∀ t ∈ cats, t.elem = [] ∧ t.arr = [] := by
      intro t ht
      have : t.elem = [] := by
        by_cases he : t.elem = []
        · exact he
        · exact absurd (List.any_eq_true.2 ⟨t, ht, by simpa using he⟩) hno
      refine ⟨this, ?_⟩
      by_cases ha : t.arr = []
      · exact ha
      · exact absurd this (h t ht ha)
    have hfold : ∀ a, cats.foldl (fun a s => union (union a s.leaf) s.arr) a =
        cats.foldl (fun a s => union (union a s.leaf) (pickS f s.elem s.arr)) a := by
      clear hno h
      induction cats with
      | nil => intro a; rfl
      | cons t cats ih =>
        intro a
        rw [List.foldl_cons, List.foldl_cons, (hall t (by simp)).2, pick_nil (hall t (by simp)).1 rfl]
        exact ih (fun t ht => hall t (List.mem_cons_of_mem _ ht)) _
    rw [hfold]

/-- The categories that a query asks for. -/
def cats (c : Coll) (f : QFlags) : List Sets :=
  if f.input && f.output then [c.inp, c.io, c.out]
  else if f.input then [c.inp, c.io]
  else if f.output then [c.io, c.out] else []

theorem allocProg_exec (c : Coll) (f : QFlags) (hsep : Separate c) :
    (allocProg c).exec f ⟨0, []⟩ = some (mk (unionAll (cats c f) f).length [] (unionAll (cats c f) f).length) := by
  have hs : ∀ t, t = c.inp ∨ t = c.io ∨ t = c.out → t.arr ≠ [] → t.elem ≠ [] :=
    fun t ht => (hsep.sets t ht).2.2.2
  unfold allocProg
  have h1 : (Prog.ite .inputAndOutput (sizeProg [c.inp, c.io, c.out])
    (.ite .input (sizeProg [c.inp, c.io])
      (.ite .output (sizeProg [c.io, c.out]) (.setNum 0)))).exec f ⟨0, []⟩ =
      some ⟨(unionAll (cats c f) f).length, []⟩ := by
    unfold cats
    simp only [Prog.exec, Cond.eval]
    rw [sizeProg_exec _ _ _ (by intro t ht; apply hs; simpa using ht),
      sizeProg_exec _ _ _ (by intro t ht; apply hs; simp at ht; tauto),
      sizeProg_exec _ _ _ (by intro t ht; apply hs; simp at ht; tauto)]
    by_cases hi : f.input = true <;> by_cases ho : f.output = true <;> simp [hi, ho, unionAll]
  rw [exec_seq f _ _ _ _ h1, Prog.exec]
  simp [mk]

theorem mem_pick {f : QFlags} {a b : List Str} {x : Str} :
    x ∈ pickS f a b ↔ (f.struct = true ∧ x ∈ a) ∨ (f.struct = false ∧ x ∈ b) := by
  unfold pickS; split <;> simp_all

theorem nodup_pick {f : QFlags} {a b : List Str} (ha : a.Nodup) (hb : b.Nodup) : (pickS f a b).Nodup := by
  unfold pickS; split <;> assumption

theorem nodup_unionAll {l : List Sets} {f : QFlags}
    (h : ∀ t ∈ l, t.leaf.Nodup ∧ t.arr.Nodup ∧ t.elem.Nodup) : (unionAll l f).Nodup := by
  unfold unionAll
  have : ∀ a : List Str, a.Nodup →
      (l.foldl (fun a s => union (union a s.leaf) (pickS f s.elem s.arr)) a).Nodup := by
    induction l with
    | nil => exact fun a h => h
    | cons t l ih =>
      intro a ha
      rw [List.foldl_cons]
      have ht := h t (by simp)
      exact ih (fun t ht => h t (List.mem_cons_of_mem _ ht)) _
        (nodup_union (nodup_union ha ht.1) (nodup_pick ht.2.2 ht.2.1))
  exact this [] List.nodup_nil

/-- The names in the order in which they are written. -/
def written (c : Coll) (f : QFlags) : List Str :=
  names1 c f ++ (if f.input then names2 c f else []) ++
    (if f.output then names3 c f ++ (if f.input then [] else sorted c.leafCrossL) else [])

theorem mem_names1 {c : Coll} {f : QFlags} (hsep : Separate c) {x : Str} :
    x ∈ names1 c f ↔ x ∈ c.io.leaf ∨ x ∈ pickS f c.io.elem c.io.arr := by
  have := hsep.leafElem c.io c.io (by simp) (by simp) x
  simp only [names1, List.mem_append, mem_sorted, mem_pick, Coll.elem1, Coll.leaf1, mem_diff]
  tauto

theorem mem_names2 {c : Coll} {f : QFlags} (hsep : Separate c) {x : Str} :
    x ∈ names2 c f ↔ (x ∈ c.inp.leaf ∧ x ∉ c.io.leaf) ∨ x ∈ pickS f c.inp.elem c.inp.arr := by
  have h1 := hsep.leafElem c.io c.inp (by simp) (by simp) x
  have h2 := hsep.leafElem c.inp c.io (by simp) (by simp) x
  have h4 := hsep.leafElem c.inp c.inp (by simp) (by simp) x
  have h3 := hsep.inIo x
  simp only [names2, List.mem_append, mem_sorted, mem_pick, Coll.elem2, Coll.leaf2, Coll.leaf3, mem_diff,
    Coll.lw1, Coll.lw2, Coll.ew1, mem_union]
  tauto

theorem mem_names3 {c : Coll} {f : QFlags} (hsep : Separate c) {x : Str} :
    x ∈ names3 c f ↔ (x ∈ c.out.leaf ∧ x ∉ c.io.leaf ∧ x ∉ c.inp.leaf) ∨
      x ∈ pickS f c.out.elem c.out.arr := by
  have h1 := hsep.leafElem c.io c.out (by simp) (by simp) x
  have h2 := hsep.leafElem c.inp c.out (by simp) (by simp) x
  have h3 := hsep.leafElem c.out c.io (by simp) (by simp) x
  have h4 := hsep.leafElem c.out c.inp (by simp) (by simp) x
  have h5 := hsep.leafElem c.out c.out (by simp) (by simp) x
  have h6 := hsep.inOut x
  have h7 := hsep.ioOut x
  simp only [names3, List.mem_append, mem_sorted, mem_pick, Coll.elem4, Coll.leaf4, Coll.leaf5, mem_diff,
    Coll.lw1, Coll.lw2, Coll.lw3, Coll.ew1, Coll.ew2, Coll.ew3, mem_union]
  cases hs : f.struct <;> simp only [true_and, false_and, or_false, false_or, Bool.false_eq_true,
    reduceCtorEq] <;> grind

theorem mem_cross {c : Coll} (hsep : Separate c) {x : Str} :
    x ∈ c.leafCrossL ↔ x ∈ c.out.leaf ∧ x ∈ c.inp.leaf ∧ x ∉ c.io.leaf := by
  have h3 := hsep.leafElem c.out c.io (by simp) (by simp) x
  simp only [Coll.leafCrossL, mem_sorted, mem_diff, Coll.leafCross, mem_inter, Coll.lw1, mem_union]
  tauto

theorem mem_written {c : Coll} {f : QFlags} (hsep : Separate c) (hf : (f.input || f.output) = true)
    {x : Str} : x ∈ written c f ↔ Want c f x := by
  unfold written Want
  rw [List.mem_append, List.mem_append, mem_names1 hsep]
  have hp : ∀ a b : List Str, x ∈ (if f.struct = true then a else b) ↔ x ∈ pickS f a b := fun a b => Iff.rfl
  simp only [hp]
  cases hi : f.input <;> cases ho : f.output <;>
    simp only [hi, ho, Bool.or_self, Bool.or_true, Bool.true_or, Bool.false_eq_true, if_true, if_false,
      List.mem_append, mem_names2 hsep, mem_names3 hsep, mem_sorted, mem_cross hsep, List.not_mem_nil,
      false_and, true_and, or_false, false_or, true_or, or_true, eq_self_iff_true] at hf ⊢ <;> tauto

theorem nodup_app {a b : List Str} (ha : a.Nodup) (hb : b.Nodup) (h : ∀ x ∈ a, x ∉ b) : (a ++ b).Nodup := by
  rw [List.nodup_append]
  exact ⟨ha, hb, fun x hx y hy e => h x hx (e ▸ hy)⟩

theorem nodup_written {c : Coll} {f : QFlags} (hsep : Separate c) : (written c f).Nodup := by
  have hset := hsep.sets
  obtain ⟨a1, a2, a3, -⟩ := hset c.inp (by simp)
  obtain ⟨b1, b2, b3, -⟩ := hset c.io (by simp)
  obtain ⟨d1, d2, d3, -⟩ := hset c.out (by simp)
  have hLE : ∀ (s t : Sets), (s = c.inp ∨ s = c.io ∨ s = c.out) → (t = c.inp ∨ t = c.io ∨ t = c.out) →
      ∀ x, x ∈ s.leaf → x ∉ pickS f t.elem t.arr := by
    intro s t hs ht x hx hp
    have := hsep.leafElem s t hs ht x hx
    rw [mem_pick] at hp
    grind
  have hPin : ∀ x, x ∈ pickS f c.inp.elem c.inp.arr → x ∉ pickS f c.io.elem c.io.arr := by
    intro x h1 h2
    have := hsep.inIo x
    rw [mem_pick] at h1 h2
    cases hs : f.struct <;> simp [hs] at h1 h2 <;> grind
  have hPout : ∀ x, x ∈ pickS f c.inp.elem c.inp.arr → x ∉ pickS f c.out.elem c.out.arr := by
    intro x h1 h2
    have := hsep.inOut x
    rw [mem_pick] at h1 h2
    cases hs : f.struct <;> simp [hs] at h1 h2 <;> grind
  have hPio : ∀ x, x ∈ pickS f c.io.elem c.io.arr → x ∉ pickS f c.out.elem c.out.arr := by
    intro x h1 h2
    have := hsep.ioOut x
    rw [mem_pick] at h1 h2
    cases hs : f.struct <;> simp [hs] at h1 h2 <;> grind
  have n1 : (names1 c f).Nodup := by
    refine nodup_app (nodup_sorted.2 (nodup_sorted.2 b1)) (nodup_sorted.2 (nodup_pick
      (nodup_sorted.2 (nodup_diff b3)) (nodup_sorted.2 (nodup_diff b2)))) ?_
    intro x hx hp
    simp only [mem_sorted, mem_pick, Coll.elem1, Coll.leaf1, mem_diff] at hx hp
    grind
  have n2 : (names2 c f).Nodup := by
    refine nodup_app (nodup_sorted.2 (nodup_sorted.2 (nodup_diff a1))) (nodup_sorted.2 (nodup_pick
      (nodup_sorted.2 (nodup_diff a3)) (nodup_diff a2))) ?_
    intro x hx hp
    have := hsep.leafElem c.inp c.inp (by simp) (by simp) x
    simp only [mem_sorted, mem_pick, Coll.leaf2, Coll.elem2, Coll.leaf3, mem_diff] at hx hp
    grind
  have n3 : (names3 c f).Nodup := by
    refine nodup_app (nodup_sorted.2 (nodup_sorted.2 (nodup_diff d1))) (nodup_sorted.2 (nodup_pick
      (nodup_sorted.2 (nodup_diff d3)) (nodup_diff d2))) ?_
    intro x hx hp
    have := hsep.leafElem c.out c.out (by simp) (by simp) x
    simp only [mem_sorted, mem_pick, Coll.leaf4, Coll.elem4, Coll.leaf5, mem_diff] at hx hp
    grind
  have n4 : (sorted c.leafCrossL).Nodup :=
    nodup_sorted.2 (nodup_sorted.2 (nodup_diff (nodup_inter d1)))
  unfold written
  refine nodup_app (nodup_app n1 (by split; exact n2; exact List.nodup_nil) ?_) ?_ ?_
  · intro x h1 h2
    split at h2
    · rw [mem_names1 hsep] at h1
      rw [mem_names2 hsep] at h2
      have q1 := hLE c.io c.inp (by simp) (by simp) x
      have q2 := hLE c.inp c.io (by simp) (by simp) x
      have q3 := hPin x
      grind
    · cases h2
  · split
    · refine nodup_app n3 (by split; exact List.nodup_nil; exact n4) ?_
      intro x h1 h2
      split at h2
      · cases h2
      · rw [mem_names3 hsep] at h1
        rw [mem_sorted, mem_cross hsep] at h2
        have q1 := hLE c.out c.out (by simp) (by simp) x
        grind
    · exact List.nodup_nil
  · intro x h1 h2
    have q1 := hLE c.io c.out (by simp) (by simp) x
    have q2 := hLE c.inp c.out (by simp) (by simp) x
    have q3 := hLE c.out c.io (by simp) (by simp) x
    have q4 := hLE c.out c.inp (by simp) (by simp) x
    have q5 := hPout x
    have q6 := hPio x
    rw [List.mem_append, mem_names1 hsep] at h1
    cases hi : f.input <;> cases ho : f.output <;>
      simp only [hi, ho, Bool.false_eq_true, if_true, if_false, List.mem_append, mem_names2 hsep,
        mem_names3 hsep, mem_sorted, mem_cross hsep, List.not_mem_nil, or_false] at h1 h2 <;> grind

theorem mem_unionAll {c : Coll} {f : QFlags} {x : Str} : x ∈ unionAll (cats c f) f ↔ Want c f x := by
  unfold unionAll Want cats
  have hp : ∀ a b : List Str, x ∈ (if f.struct = true then a else b) ↔ x ∈ pickS f a b := fun a b => Iff.rfl
  simp only [hp]
  cases hi : f.input <;> cases ho : f.output <;> simp <;> tauto

/-- The allocated size is the number of wanted names. -/
theorem size_written {c : Coll} {f : QFlags} (hsep : Separate c) (hf : (f.input || f.output) = true) :
    (unionAll (cats c f) f).length = (written c f).length := by
  apply List.Perm.length_eq
  rw [List.perm_ext_iff_of_nodup _ (nodup_written hsep)]
  · intro x; rw [mem_unionAll, mem_written hsep hf]
  · apply nodup_unionAll
    intro t ht
    have : t = c.inp ∨ t = c.io ∨ t = c.out := by
      unfold cats at ht
      split at ht
      · simpa using ht
      · split at ht
        · simp at ht; tauto
        · split at ht
          · simp at ht; tauto
          · cases ht
    have := hsep.sets t this
    exact ⟨this.1, this.2.1, this.2.2.1⟩

theorem leaf3_off {c : Coll} (hsep : Separate c) (h : c.haveIn = false) : c.leaf3 = [] := by
  unfold Coll.haveIn at h
  rw [Bool.or_eq_false_iff] at h
  have he := ne_false.1 h.1
  have hel : c.inp.elem = [] := by
    rw [List.eq_nil_iff_forall_not_mem]
    intro x hx
    have : x ∈ c.elem2 := by
      have q1 := hsep.inIo x
      have q2 := hsep.leafElem c.io c.inp (by simp) (by simp) x
      simp only [Coll.elem2, mem_sorted, mem_diff, Coll.ew1, mem_union]
      tauto
    rw [he] at this; cases this
  have har : c.inp.arr = [] := by
    by_cases ha : c.inp.arr = []
    · exact ha
    · exact absurd hel ((hsep.sets c.inp (by simp)).2.2.2 ha)
  unfold Coll.leaf3; rw [har]; rfl

theorem cross_empty {c : Coll} (hsep : Separate c) : c.elemCrossL = [] ∧ c.simpCrossL = [] := by
  constructor <;>
  · rw [List.eq_nil_iff_forall_not_mem]
    intro x hx
    have := hsep.inOut x
    simp only [Coll.elemCrossL, Coll.simpCrossL, mem_sorted, mem_diff, mem_inter] at hx
    tauto

theorem ls5_eq {c : Coll} (hsep : Separate c) (f : QFlags) (ho : c.out.elem = []) :
    c.ls5 = (names3 c f).length + 1 := by
  have ha : c.out.arr = [] := by
    by_cases ha : c.out.arr = []
    · exact ha
    · exact absurd ho ((hsep.sets c.out (by simp)).2.2.2 ha)
  have h1 : c.elem4 = [] := by unfold Coll.elem4; rw [ho]; rfl
  have h2 : c.leaf5 = [] := by unfold Coll.leaf5; rw [ha]; rfl
  unfold Coll.ls5 Coll.has5 Coll.st names3
  rw [h1, h2, pick_nil rfl rfl]
  simp [ne, sorted_nil]
  omega

/-- C40, the part that holds: if no array or element is used under two intents or also as a leaf, and
no leaf is both input and output in a suite that has output arrays, then a query for input or output
variables returns each wanted name exactly once, filling exactly the list it allocates. -/
theorem query_correct_partial (c : Coll) (f : QFlags) (hsep : Separate c)
    (hf : (f.input || f.output) = true)
    (hx : f.input = false → c.out.elem = [] ∨ ∀ x ∈ c.out.leaf, x ∈ c.inp.leaf → x ∈ c.io.leaf) :
    Correct c f := by
  refine ⟨written c f, ?_, nodup_written hsep, fun x => mem_written hsep hf⟩
  have hsize := size_written hsep hf
  have hlen : (written c f).length = (names1 c f).length + (if f.input then names2 c f else []).length +
      (if f.output then names3 c f ++ (if f.input then [] else sorted c.leafCrossL) else []).length := by
    simp [written]; omega
  unfold query reqVarsProg
  rw [exec_seq f _ _ _ _ (allocProg_exec c f hsep), hsize]
  generalize hN : (written c f).length = N at *
  rw [exec_seq f _ _ _ _ (segInout_exec c f N N hf (by omega))]
  have hcross := cross_empty hsep
  cases hi : f.input with
  | true =>
    simp only [hi, if_true] at hlen
    rw [exec_seq f _ _ _ _ (segInput_on c f _ hi (by omega))]
    cases ho : f.output with
    | true =>
      simp only [ho, if_true, List.append_nil] at hlen
      have hb := outputBody_exec c f (names1 c f ++ names2 c f)
        (N - (names1 c f).length - (names2 c f).length) (segCross c) (by omega)
      rw [segCross_input c f _ hi] at hb
      have hseg : (segOutput c).exec f (mk (names1 c f ++ names2 c f).length (names1 c f ++ names2 c f)
          (N - (names1 c f).length - (names2 c f).length)) =
          some (mk (names1 c f ++ names2 c f).length (names1 c f ++ names2 c f ++ names3 c f)
            (N - (names1 c f).length - (names2 c f).length - (names3 c f).length)) := by
        unfold segOutput Prog.guard
        split
        · rw [Prog.exec]; simp only [Cond.eval, ho, if_true]; exact hb
        · exact hb
      rw [hseg]
      have h0 : N - (names1 c f).length - (names2 c f).length - (names3 c f).length = 0 := by omega
      simp only [Option.map_some, mk, h0, List.replicate_zero, List.append_nil, written, hi, ho, if_true]
    | false =>
      simp only [ho, Bool.false_eq_true, if_false, List.length_nil] at hlen
      have h0 : N - (names1 c f).length - (names2 c f).length = 0 := by omega
      have hseg : (segOutput c).exec f (mk (names1 c f ++ names2 c f).length (names1 c f ++ names2 c f) 0) =
          some (mk (names1 c f ++ names2 c f).length (names1 c f ++ names2 c f) 0) := by
        unfold segOutput Prog.guard
        cases hh : c.haveOut with
        | true => simp only [if_true]; rw [Prog.exec]; simp [Cond.eval, ho, Prog.exec]
        | false =>
          simp only [Bool.false_eq_true, if_false]
          have hz : names3 c f = [] := by
            unfold Coll.haveOut at hh
            rw [Bool.or_eq_false_iff] at hh
            have he := ne_false.1 hh.1
            have hl := ne_false.1 hh.2
            have hoe : c.out.elem = [] := by
              rw [List.eq_nil_iff_forall_not_mem]
              intro x hx'
              have : x ∈ c.elem4 := by
                have q1 := hsep.ioOut x
                have q2 := hsep.inOut x
                have q3 := hsep.leafElem c.io c.out (by simp) (by simp) x
                have q4 := hsep.leafElem c.inp c.out (by simp) (by simp) x
                have q5 := hsep.leafElem c.out c.out (by simp) (by simp) x
                simp only [Coll.elem4, mem_sorted, mem_diff, Coll.ew3, Coll.ew2, Coll.ew1, mem_union]
                tauto
              rw [he] at this; cases this
            have hoa : c.out.arr = [] := by
              by_cases ha : c.out.arr = []
              · exact ha
              · exact absurd hoe ((hsep.sets c.out (by simp)).2.2.2 ha)
            have hl5 : c.leaf5 = [] := by unfold Coll.leaf5; rw [hoa]; rfl
            unfold names3
            rw [hl, pick_nil he hl5]; rfl
          have hb := outputBody_exec c f (names1 c f ++ names2 c f) 0 (segCross c) (by rw [hz]; simp)
          rw [segCross_input c f _ hi, hz] at hb
          simp only [List.append_nil, List.length_nil, Nat.sub_zero] at hb
          exact hb
      rw [h0, hseg]
      simp only [Option.map_some, mk, List.replicate_zero, List.append_nil, written, hi, ho,
        Bool.false_eq_true, if_true, if_false]
  | false =>
    have ho : f.output = true := by rw [hi] at hf; simpa using hf
    simp only [hi, ho, Bool.false_eq_true, if_false, if_true, List.length_nil, List.length_append,
      length_sorted] at hlen
    rw [exec_seq f _ _ _ _ (segInput_off c f _ hi (leaf3_off hsep))]
    have hls : c.leafCrossL ≠ [] → c.ls5 = (names3 c f).length + 1 := by
      intro hne
      rcases hx hi with h | h
      · exact ls5_eq hsep f h
      · exfalso
        apply hne
        rw [List.eq_nil_iff_forall_not_mem]
        intro x hx'
        rw [mem_cross hsep] at hx'
        exact hx'.2.2 (h x hx'.1 hx'.2.1)
    have hb := outputBody_exec c f (names1 c f) (N - (names1 c f).length) (segCross c) (by omega)
    rw [segCross_noinput c f (names1 c f) (names3 c f) _ hi hcross.1 hcross.2 hls (by omega)] at hb
    have hseg : (segOutput c).exec f (mk (names1 c f).length (names1 c f) (N - (names1 c f).length)) =
        some (mk (names1 c f).length (names1 c f ++ names3 c f ++ sorted c.leafCrossL)
          (N - (names1 c f).length - (names3 c f).length - c.leafCrossL.length)) := by
      unfold segOutput Prog.guard
      split
      · rw [Prog.exec]; simp only [Cond.eval, ho, if_true]; exact hb
      · exact hb
    rw [hseg]
    have h0 : N - (names1 c f).length - (names3 c f).length - c.leafCrossL.length = 0 := by omega
    simp only [Option.map_some, mk, h0, List.replicate_zero, List.append_nil, written, hi, ho,
      Bool.false_eq_true, if_true, if_false, List.append_assoc]

/-- C40 with both flags false: the empty list, if no leaf is both input and output. -/
theorem query_none_partial (c : Coll) (f : QFlags) (hsep : Separate c) (hi : f.input = false)
    (ho : f.output = false) (hx : ∀ x ∈ c.out.leaf, x ∈ c.inp.leaf → x ∈ c.io.leaf) :
    query c f = some [] := by
  have hU : unionAll (cats c f) f = [] := by unfold cats; simp [hi, ho, unionAll]
  unfold query reqVarsProg
  rw [exec_seq f _ _ _ _ (allocProg_exec c f hsep), hU]
  have h1 : (segInout c).exec f (mk ([] : List Str).length [] ([] : List Str).length) = some (mk 0 [] 0) := by
    unfold segInout Prog.guard
    split
    · rw [Prog.exec]; simp [Cond.eval, hi, ho, Prog.exec]
    · rename_i h
      unfold Coll.anyIo at h
      rw [Bool.not_eq_true, Bool.or_eq_false_iff, Bool.or_eq_false_iff] at h
      have e1 := ne_false.1 h.1.1
      have e2 := ne_false.1 h.1.2
      have e3 := ne_false.1 h.2
      simp [Coll.anyIo, Coll.has1, Coll.elem1, Coll.leaf1, Coll.lw1, e1, e2, e3, ne, diff, sorted_nil,
        union, Prog.exec, mk]
  rw [exec_seq f _ _ _ _ h1, exec_seq f _ _ _ _ (segInput_off c f _ hi (leaf3_off hsep))]
  have hcl : c.leafCrossL = [] := by
    rw [List.eq_nil_iff_forall_not_mem]
    intro x hx'
    rw [mem_cross hsep] at hx'
    exact hx'.2.2 (hx x hx'.1 hx'.2.1)
  have hcross := cross_empty hsep
  unfold segOutput Prog.guard
  cases hh : c.haveOut with
  | true => simp only [if_true]; rw [Prog.exec]; simp [Cond.eval, ho, Prog.exec, mk]
  | false =>
    simp only [Bool.false_eq_true, if_false]
    have hz : c.leaf4 = [] ∧ c.elem4 = [] := by
      unfold Coll.haveOut at hh
      rw [Bool.or_eq_false_iff] at hh
      exact ⟨ne_false.1 hh.2, ne_false.1 hh.1⟩
    have hoe : c.out.elem = [] := by
      rw [List.eq_nil_iff_forall_not_mem]
      intro x hx'
      have : x ∈ c.elem4 := by
        have q1 := hsep.ioOut x
        have q2 := hsep.inOut x
        have q3 := hsep.leafElem c.io c.out (by simp) (by simp) x
        have q4 := hsep.leafElem c.inp c.out (by simp) (by simp) x
        have q5 := hsep.leafElem c.out c.out (by simp) (by simp) x
        simp only [Coll.elem4, mem_sorted, mem_diff, Coll.ew3, Coll.ew2, Coll.ew1, mem_union]
        tauto
      rw [hz.2] at this; cases this
    have hoa : c.out.arr = [] := by
      by_cases ha : c.out.arr = []
      · exact ha
      · exact absurd hoe ((hsep.sets c.out (by simp)).2.2.2 ha)
    have hl5 : c.leaf5 = [] := by unfold Coll.leaf5; rw [hoa]; rfl
    simp [segCross, Coll.has5, hz.1, hz.2, hl5, hcl, hcross.1, ne, setLoop, sorted_nil, writeLoop,
      Prog.exec, mk]

/-! ## Collecting the variables -/

theorem occurs_snoc {us : List Use} {w : Use} {P : List Use → Use → Prop} :
    Occurs (us ++ [w]) P ↔ Occurs us P ∨ P us w := by
  constructor
  · rintro ⟨l, u, r, h, hP⟩
    rcases List.eq_nil_or_concat r with rfl | ⟨r', z, rfl⟩
    · have := List.append_inj' h (by simp)
      obtain ⟨h1, h2⟩ := this
      injection h2 with h2
      subst h1; subst h2
      exact Or.inr hP
    · have h' : us ++ [w] = (l ++ u :: r') ++ [z] := by rw [h]; simp
      have := List.append_inj' h' (by simp)
      exact Or.inl ⟨l, u, r', this.1, hP⟩
  · rintro (⟨l, u, r, rfl, hP⟩ | hP)
    · exact ⟨l, u, r ++ [w], by simp, hP⟩
    · exact ⟨us, w, [], rfl, hP⟩

theorem collectedBy_skip {us w P s} (h : CollectedBy us P s) (hP : ¬ P us w) :
    CollectedBy (us ++ [w]) P s := by
  refine ⟨fun x => ?_, fun x => ?_, fun x => ?_, h.nodup⟩
  · rw [occurs_snoc, ← h.leaf]; tauto
  · rw [occurs_snoc, ← h.arr]; tauto
  · rw [occurs_snoc, ← h.elem]; tauto

theorem nodup_eraseDups (l : List Str) : l.eraseDups.Nodup := by
  induction hn : l.length using Nat.strongRecOn generalizing l with
  | ind n ih =>
    cases l with
    | nil => simp
    | cons x l =>
      rw [List.eraseDups_cons, List.nodup_cons]
      refine ⟨by simp [List.mem_eraseDups], ih _ ?_ _ rfl⟩
      have := List.length_filter_le (fun b => !b == x) l
      simp at hn; omega

theorem collectedBy_add {us w P s} (h : CollectedBy us P s) (hP : P us w) :
    CollectedBy (us ++ [w]) P (s.add w) := by
  obtain ⟨n1, n2, n3⟩ := h.nodup
  cases he : w.elements with
  | none =>
    have hs : s.add w = { s with leaf := union s.leaf [w.std] } := by unfold Sets.add; rw [he]
    rw [hs]
    refine ⟨fun x => ?_, fun x => ?_, fun x => ?_, nodup_union n1 (by simp), n2, n3⟩
    · rw [occurs_snoc, ← h.leaf, mem_union, List.mem_singleton]
      constructor
      · rintro (h | rfl)
        · exact Or.inl h
        · exact Or.inr ⟨hP, he, rfl⟩
      · rintro (h | ⟨-, -, rfl⟩)
        · exact Or.inl h
        · exact Or.inr rfl
    · rw [occurs_snoc, ← h.arr]; simp [he]
    · rw [occurs_snoc, ← h.elem]; simp [he]
  | some es =>
    have hs : s.add w = { s with arr := union s.arr [w.std], elem := union s.elem es.eraseDups } := by
      unfold Sets.add; rw [he]
    rw [hs]
    refine ⟨fun x => ?_, fun x => ?_, fun x => ?_, n1, nodup_union n2 (by simp),
      nodup_union n3 (nodup_eraseDups es)⟩
    · rw [occurs_snoc, ← h.leaf]; simp [he]
    · rw [occurs_snoc, ← h.arr, mem_union, List.mem_singleton]
      constructor
      · rintro (h | rfl)
        · exact Or.inl h
        · exact Or.inr ⟨hP, by simp [he], rfl⟩
      · rintro (h | ⟨-, -, rfl⟩)
        · exact Or.inl h
        · exact Or.inr rfl
    · rw [occurs_snoc, ← h.elem, mem_union, List.mem_eraseDups]
      constructor
      · rintro (h | h)
        · exact Or.inl h
        · exact Or.inr ⟨hP, es, he, h⟩
      · rintro (h | ⟨-, es', he', h⟩)
        · exact Or.inl h
        · rw [he] at he'; injection he' with he'; subst he'; exact Or.inr h

structure CInv (us : List Use) (c : Coll) : Prop where
  inp : CollectedBy us IsInput c.inp
  io : CollectedBy us IsInout c.io
  out : CollectedBy us IsOutput c.out
  ini : ∀ s, s ∈ c.constInit ↔ InitIn us s
  noerr : ¬ Occurs us fun b u => u.constituent = true ∧ u.intent = "out" ∧ u.phase ≠ "initialize" ∧
    ¬ InitIn b u.std

theorem initIn_snoc {us : List Use} {w : Use} {s : Str} : InitIn (us ++ [w]) s ↔ InitIn us s ∨
    (w.std = s ∧ w.intent = "out" ∧ w.constituent = true ∧ w.phase = "initialize") := by
  simp [InitIn, List.mem_append, or_and_right, exists_or]

/-- The condition under which the collection raises. -/
def BadUse (b : List Use) (u : Use) : Prop :=
  u.constituent = true ∧ u.intent = "out" ∧ u.phase ≠ "initialize" ∧ ¬ InitIn b u.std

theorem step_inv {us c w} (h : CInv us c) :
    (BadUse us w → ∃ e, collectStep c w = .error e) ∧
    (¬ BadUse us w → ∃ c', collectStep c w = .ok c' ∧ CInv (us ++ [w]) c') := by
  have hini : (decide (w.std ∈ c.constInit) = false) ↔ ¬ InitIn us w.std := by
    rw [decide_eq_false_iff_not, h.ini]
  have hno : ¬ BadUse us w → ¬ Occurs (us ++ [w]) BadUse := by
    intro hb
    rw [occurs_snoc]
    rintro (h1 | h1)
    · exact h.noerr h1
    · exact hb h1
  unfold collectStep
  dsimp only
  have keep : (¬ (w.intent = "out" ∧ w.constituent = true ∧ w.phase = "initialize")) →
      ∀ s, s ∈ c.constInit ↔ InitIn (us ++ [w]) s := by
    intro hn s
    rw [initIn_snoc, h.ini]
    tauto
  constructor
  · rintro ⟨h1, h2, h3, h4⟩
    rw [if_neg (by rw [h2]; simp), if_neg (by rw [h2]; simp), if_pos ⟨h1, h2, h3, hini.2 h4⟩]
    exact ⟨_, rfl⟩
  · intro hb
    have hno := hno hb
    split
    · rename_i hc
      refine ⟨_, rfl, collectedBy_add h.inp ⟨hc.1, hc.2.1, hini.1 hc.2.2⟩, collectedBy_skip h.io ?_, collectedBy_skip h.out ?_,
        keep (by rw [hc.1]; simp), hno⟩
      · unfold IsInout; rw [hc.1]; simp
      · unfold IsOutput; rw [hc.1]; simp
    · rename_i hc1
      have hc1 : ¬ IsInput us w := fun hx => hc1 ⟨hx.1, hx.2.1, hini.2 hx.2.2⟩
      split
      · rename_i hc
        refine ⟨_, rfl, collectedBy_skip h.inp hc1, collectedBy_add h.io ⟨hc.1, hini.1 hc.2⟩, collectedBy_skip h.out ?_,
          keep (by rw [hc.1]; simp), hno⟩
        unfold IsOutput; rw [hc.1]; simp
      · rename_i hc2
        have hc2 : ¬ IsInout us w := fun hx => hc2 ⟨hx.1, hini.2 hx.2⟩
        rw [if_neg (fun hx => hb ⟨hx.1, hx.2.1, hx.2.2.1, hini.1 hx.2.2.2⟩)]
        split
        · rename_i hc
          refine ⟨_, rfl, collectedBy_skip h.inp hc1, collectedBy_skip h.io hc2,
            collectedBy_skip h.out ?_, ?_, hno⟩
          · unfold IsOutput; tauto
          · intro s
            rw [mem_union, h.ini, initIn_snoc, List.mem_singleton]
            constructor
            · rintro (h1 | rfl)
              · exact Or.inl h1
              · exact Or.inr ⟨rfl, hc.1, hc.2.1, hc.2.2⟩
            · rintro (h1 | h1)
              · exact Or.inl h1
              · exact Or.inr h1.1.symm
        · rename_i hc3
          split
          · rename_i hc
            exact ⟨_, rfl, collectedBy_skip h.inp hc1, collectedBy_skip h.io hc2,
              collectedBy_add h.out ⟨hc, fun hx => hc3 ⟨hc, hx.1, hx.2⟩⟩,
              keep hc3, hno⟩
          · rename_i hc
            exact ⟨_, rfl, collectedBy_skip h.inp hc1, collectedBy_skip h.io hc2,
              collectedBy_skip h.out (fun hx => hc hx.1), keep hc3, hno⟩

theorem collectFrom_inv : ∀ (ws us : List Use) (c : Coll), CInv us c →
    (Occurs (us ++ ws) BadUse → ∃ e, collectFrom c ws = .error e) ∧
    (¬ Occurs (us ++ ws) BadUse → ∃ c', collectFrom c ws = .ok c' ∧ CInv (us ++ ws) c') := by
  intro ws
  induction ws with
  | nil =>
    intro us c h
    rw [List.append_nil]
    exact ⟨fun hb => absurd hb h.noerr, fun _ => ⟨c, rfl, h⟩⟩
  | cons w ws ih =>
    intro us c h
    have hs := step_inv (w := w) h
    have happ : us ++ w :: ws = (us ++ [w]) ++ ws := by simp
    rw [collectFrom]
    by_cases hb : BadUse us w
    · obtain ⟨e, he⟩ := hs.1 hb
      rw [he]
      refine ⟨fun _ => ⟨e, rfl⟩, fun hn => absurd ⟨us, w, ws, rfl, hb⟩ hn⟩
    · obtain ⟨c', hc', hinv⟩ := hs.2 hb
      rw [hc', happ]
      exact ih (us ++ [w]) c' hinv

theorem collect_init : CInv [] ⟨Sets.empty, Sets.empty, Sets.empty, []⟩ := by
  have hc : ∀ P, CollectedBy [] P Sets.empty := by
    intro P
    refine ⟨fun x => ?_, fun x => ?_, fun x => ?_, by simp [Sets.empty], by simp [Sets.empty],
      by simp [Sets.empty]⟩ <;>
    · simp [Sets.empty, Occurs]
  exact ⟨hc _, hc _, hc _, by simp [InitIn], by simp [Occurs]⟩

/-- C40, collection: the query covers exactly the variables read before the physics sets them (and not
protected), read and written, and written, with their elements; no name is collected twice. -/
theorem collect_exact (us : List Use) (c : Coll) (h : collect us = .ok c) :
    CollectedBy us IsInput c.inp ∧ CollectedBy us IsInout c.io ∧ CollectedBy us IsOutput c.out := by
  have hk := collectFrom_inv us [] _ collect_init
  rw [List.nil_append] at hk
  unfold collect at h
  by_cases hb : Occurs us BadUse
  · obtain ⟨e, he⟩ := hk.1 hb
    rw [he] at h; cases h
  · obtain ⟨c', hc', hinv⟩ := hk.2 hb
    rw [hc'] at h; injection h with h; subst h
    exact ⟨hinv.inp, hinv.io, hinv.out⟩

/-- C40, collection: generation is refused exactly if a constituent is first set outside the
initialize phase. -/
theorem collect_refused (us : List Use) : (∃ e, collect us = .error e) ↔
    Occurs us fun b u => u.constituent = true ∧ u.intent = "out" ∧ u.phase ≠ "initialize" ∧
      ¬ InitIn b u.std := by
  have hk := collectFrom_inv us [] _ collect_init
  rw [List.nil_append] at hk
  constructor
  · rintro ⟨e, he⟩
    by_cases hb : Occurs us BadUse
    · exact hb
    · obtain ⟨c', hc', -⟩ := hk.2 hb
      unfold collect at he
      rw [hc'] at he; cases he
  · exact hk.1

/-- C40 for suites whose variables are all leaves: the query is correct for every combination of
flags but input = output = false. -/
theorem leaves_correct (us : List Use) (c : Coll) (h : collect us = .ok c)
    (hleaf : ∀ u ∈ us, u.elements = none) (f : QFlags) (hf : (f.input || f.output) = true) :
    Correct c f := by
  obtain ⟨h1, h2, h3⟩ := collect_exact us c h
  have hmem : ∀ P : List Use → Use → Prop, Occurs us P → ∃ b u, u ∈ us ∧ P b u := by
    rintro P ⟨b, u, a, rfl, hP⟩; exact ⟨b, u, by simp, hP⟩
  have key : ∀ P s, CollectedBy us P s → s.arr = [] ∧ s.elem = [] := by
    intro P s hs
    constructor
    · rw [List.eq_nil_iff_forall_not_mem]
      intro x hx
      obtain ⟨b, u, hu, -, he, -⟩ := hmem _ ((hs.arr x).1 hx)
      exact he (hleaf u hu)
    · rw [List.eq_nil_iff_forall_not_mem]
      intro x hx
      obtain ⟨b, u, hu, -, es, he, -⟩ := hmem _ ((hs.elem x).1 hx)
      rw [hleaf u hu] at he; cases he
  obtain ⟨a1, a2⟩ := key _ _ h1
  obtain ⟨b1, b2⟩ := key _ _ h2
  obtain ⟨d1, d2⟩ := key _ _ h3
  refine query_correct_partial c f ⟨?_, ?_, ?_, ?_, ?_⟩ hf (fun _ => Or.inl d2)
  · rintro s (rfl | rfl | rfl)
    · exact ⟨h1.nodup.1, h1.nodup.2.1, h1.nodup.2.2, by simp [a1]⟩
    · exact ⟨h2.nodup.1, h2.nodup.2.1, h2.nodup.2.2, by simp [b1]⟩
    · exact ⟨h3.nodup.1, h3.nodup.2.1, h3.nodup.2.2, by simp [d1]⟩
  · rintro s t - (rfl | rfl | rfl) x -
    · simp [a1, a2]
    · simp [b1, b2]
    · simp [d1, d2]
  · simp [a1, a2]
  · simp [a1, a2]
  · simp [b1, b2]

/-! ## Cases in which the query is wrong -/

def use (s i : String) (es : Option (List Str)) : Use := ⟨s.toList, i, false, false, es, "run"⟩
def q12 : Option (List Str) := some ["q1".toList, "q2".toList]

/-- What `collect` gives for a list of uses (for the examples). -/
def coll (us : List Use) : Coll :=
  match collect us with
  | .ok c => c
  | .error _ => ⟨Sets.empty, Sets.empty, Sets.empty, []⟩

/-- C40 is violated by the code in four ways: an array that is input to one group and output of
another is written twice, past the end of the list; with both flags false a leaf that is input and
output is written into the empty list; for outputs with elements, an element is overwritten by a leaf
and the last place is never set; an element of an input array that is itself an output leaf is written
twice, past the end of the list. -/
theorem C40_violated :
    query (coll [use "q" "in" q12, use "q" "out" q12]) ⟨true, true, false⟩ = none ∧
    query (coll [use "a" "in" none, use "a" "out" none]) ⟨false, false, true⟩ = none ∧
    query (coll [use "a" "in" none, use "a" "out" none, use "q" "out" q12]) ⟨false, true, true⟩ =
      some [some "q1".toList, some "a".toList, none] ∧
    query (coll [use "q" "in" (some ["x".toList]), use "x" "out" none]) ⟨true, true, true⟩ = none := by
  decide +kernel

example : query (coll [use "b" "in" none, use "a" "inout" none, use "q" "out" q12, use "c" "out" none])
    ⟨true, true, true⟩ = some (["a", "b", "c", "q1", "q2"].map fun s => some s.toList) := by
  decide +kernel

example : ∃ c, collect [use "a" "in" none, use "a" "out" none, use "b" "inout" none] = .ok c :=
  ⟨_, rfl⟩

end Ccpp.RV
