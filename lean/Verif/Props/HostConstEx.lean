import Verif.Props.HostConstThm
/-! # C82: examples and violations -/
namespace Ccpp.HC
open Const Hash

variable {R : Type}

/-! ## Examples -/

instance (l : List (Ptr R)) : Decidable (Short l) := by unfold Short; infer_instance


def dimsL : List Str := ["horizontal_dimension".toList, "vertical_layer_dimension".toList]
def mkVar (n u : String) (ds : List Str) (adv : Bool) : CVar Int := ⟨n.toList, u.toList, ds, "real".toList, adv, 7⟩
def exQv : CVar Int := mkVar "qv" "kg kg-1" dimsL true
def exQl : CVar Int := mkVar "ql" "kg kg-1" ["ccpp_constant_one:horizontal_dimension".toList, "vertical_layer_dimension".toList] false
def exTend : CVar Int := mkVar "tendency_of_qv" "kg kg-1 s-1" dimsL false
def exSuites : List (List (CVar Int)) := [[exQv, exTend], [exQl, exQv]]
def exCompat : CVar Int → CVar Int → Bool := fun t c => t.units == c.units ++ " s-1".toList
def exCo2 : Ptr Int := ⟨0, "co2".toList, "mol mol-1".toList, "vertical_layer_dimension".toList, true, 1⟩
def exHeap : Heap Int := fun _ => ⟨none, false, false, 0⟩

/-- What the cap declares. -/
def exCap : CapVars :=
  ⟨[⟨"vars_layer(:,:,index_of_qv)".toList, "qv".toList, "kg kg-1".toList, dimsL⟩,
    ⟨"vars_layer_tend(:,:,index_of_qv)".toList, "tendency_of_qv".toList, "kg kg-1 s-1".toList, dimsL⟩,
    ⟨"vars_layer(:,:,index_of_ql)".toList, "ql".toList, "kg kg-1".toList, exQl.dims⟩],
   ["ql".toList, "qv".toList]⟩

theorem C82_example_cap : capVars exCompat exSuites = .ok exCap := by rfl

/-- The registration of the example: errcode 0, indices 3 (ql, not advected) and 1 or 2 (qv). -/
def exReg : Option (Reg Int) := register 0 5 exHeap 1 fresh [exCo2] [[], []] exSuites exCap.names [-1, -1]

theorem C82_example_reg : exReg.map (fun r => (r.err, r.indices, (propsLocked r.obj).1)) = some (0, [3, 1], true) := by decide +kernel

/-- The hypotheses of C82_register, C82_cap_register and C82_slots hold for the example, and its conclusion gives the state. -/
example : Fresh exHeap 1 ([exCo2] ++ ([[], []] : List (List (Ptr Int))).flatten) ∧ Short (order 1 [exCo2] [[], []] exSuites) ∧
    order 1 [exCo2] [[], []] exSuites ≠ [] ∧ Agree exHeap 1 (order 1 [exCo2] [[], []] exSuites) := by
  refine ⟨⟨by decide, by decide, by decide⟩, by decide +kernel, by decide, ?_⟩
  have : ∀ p ∈ order 1 [exCo2] [[], []] exSuites, (first (order 1 [exCo2] [[], []] exSuites) p.name).all
      (fun q => decide (attrs exHeap 1 q = attrs exHeap 1 p)) = true := by decide +kernel
  intro p hp q hq
  have h := this p hp
  rw [hq] at h
  simpa using h

theorem C82_example_slots : ∃ r, exReg = some r ∧ Registered (order 1 [exCo2] [[], []] exSuites) exCap.names r := by
  obtain ⟨r, h1, -, h3⟩ := C82_cap_register (mn := (0 : Int)) (size := 5) (h := exHeap) (next := 1) (o := fresh) (host := [exCo2])
    (dyn := [[], []]) (old := [-1, -1]) C82_example_cap (by decide) rfl ⟨by decide, by decide, by decide⟩ (by decide +kernel)
    (by decide) rfl
  refine ⟨r, h1, h3 ?_⟩
  have := C82_example_reg
  rw [show exReg = some r from h1] at this
  simp only [Option.map_some, Option.some.injEq, Prod.mk.injEq] at this
  exact this.1

/-- A suite whose schemes ask for the same constituent twice and for another variable. -/
example : dictAfter (fun _ => none) [(true, mkVar "qv" "1" ["horizontal_loop_extent".toList] true), (false, exQl),
    (true, mkVar "qv" "1" ["horizontal_loop_extent".toList] true)] = [mkVar "qv" "1" ["horizontal_dimension".toList] true] := by rfl

/-- Different units: an error. -/
theorem C82_example_conflict : (register 0 5 exHeap 1 fresh [{ exCo2 with name := "ql".toList }] [] exSuites exCap.names [-1, -1]).map
    (fun r => (r.err, r.indices)) = some (1, [-1, -1]) := by decide +kernel

/-! ## Violations -/

/-- **C82 is violated** by a second variable of the same name: its dimensions are never looked at. -/
theorem C82_second_suite_violated (compat : CVar R → CVar R → Bool) (v w : CVar R) (hn : w.name = v.name) (hg : GoodDims v.dims)
    (ht : ¬ Tend v.name) : ∃ c, capVars compat [[v], [w]] = .ok c ∧ c.names = [v.name] := by
  have hu : uniq ([[v], [w]] : List (List (CVar R))).flatten = [v] := by
    show v :: (w :: []).filter _ = [v]
    rw [List.filter_cons_of_neg (by simp [hn])]
    rfl
  obtain ⟨c, hc⟩ := (C82_accept_partial compat [[v], [w]]).2 (by
    rw [hu]
    intro u hu'
    rw [List.mem_singleton.1 hu']
    exact ⟨hg, fun h => absurd h ht⟩)
  refine ⟨c, hc, ?_⟩
  obtain ⟨-, -, rfl⟩ := (capVars_iff compat [[v], [w]] c).1 hc
  have : isTend v.name = false := by rw [← isTend_iff] at ht; simpa using ht
  simp only [hu]
  rw [List.filter_cons_of_pos (by simp [this])]
  rfl

/-- Nor are they at run time: the second suite's interface constituent is taken for the first suite's layer constituent. -/
theorem C82_dims_violated :
    (register 0 5 exHeap 0 fresh [] [] [[exQv], [{ exQv with dims := ["horizontal_dimension".toList, "vertical_interface_dimension".toList] }]]
      ["qv".toList] [-1]).map (fun r => (r.err, r.indices)) = some (0, [1]) := by decide +kernel

/-- **C82 is violated** by a name with `tendency_of_` inside: the cap takes it for a tendency, the registration for a constituent of
its own. -/
theorem C82_tendency_name_violated :
    (capVars (fun _ _ => true) [[exQv, mkVar "total_tendency_of_qv" "1" dimsL false]]).toOption.map (fun c => (c.names, c.entries.map (·.loc))) =
      some (["qv".toList], ["vars_layer(:,:,index_of_qv)".toList, "vars_layer_tend(:,:,index_of_qv)".toList]) ∧
    (suiteConsts [exQv, mkVar "total_tendency_of_qv" "1" dimsL false]).map (·.name) = ["qv".toList, "total_tendency_of_qv".toList] := by
  constructor
  · decide +kernel
  · decide +kernel

/-- **C82 is violated** by a name that contains `tendency_of` without `tendency_of_`: the program stops with an IndexError. -/
theorem C82_index_violated (compat : CVar R → CVar R → Bool) (v : CVar R) (hg : GoodDims v.dims) (ht : Tend v.name)
    (hn : ¬ "tendency_of_".toList <:+: v.name) : capVars compat [[v]] = .error .index := by
  have h1 : second "tendency_of_".toList v.name = none := by
    unfold second
    rw [(cutAt_none tend_ne).2 hn]
    rfl
  have h2 := (isTend_iff _).2 ht
  have h3 : addConst (⟨[], [], []⟩ : Acc R) v = .error .index := by
    unfold addConst
    rw [if_neg (by simp), (checkDims_iff _).2 hg]
    simp only [stateName, h2, if_true, h1]
  unfold capVars
  simp only [List.flatten_cons, List.flatten_nil, List.append_nil, addConsts, h3]

example : GoodDims (mkVar "tendency_ofx" "1" dimsL false).dims ∧ Tend "tendency_ofx".toList ∧ ¬ "tendency_of_".toList <:+: "tendency_ofx".toList := by
  refine ⟨⟨_, _, rfl, by decide, by decide⟩, ?_, ?_⟩
  · exact ⟨[], "x".toList, by decide⟩
  · rw [← PA.inText_iff]; decide

/-- **C82 is violated** when there is no constituent at all: the lock reads outside the hash table. -/
theorem C82_empty_violated (mn : R) (size : Int) (h : Heap R) (next : Nat) (o : Obj R) (suites : List (List (CVar R))) (names : List Str)
    (old : List Int) (hs : 0 ≤ size) (hd : o.dataLocked = false) (he : ∀ d ∈ suites, suiteConsts d = []) :
    register mn size h next o [] [] suites names old = none := by
  obtain ⟨t, ht, hr, hl, -⟩ := open_init o size hs hd
  have h1 : addSuites mn h next (initObj o size) suites = (h, next, initObj o size, 0) := by
    induction suites with
    | nil => rfl
    | cons d ds ih =>
      simp only [addSuites, he d (by simp), addSuite]
      exact ih fun d' hd' => he d' (by simp [hd'])
  unfold register
  simp only [List.flatten_nil, List.append_nil, addPtrs, ne_eq, not_true_eq_false, if_false, h1]
  rcases lockTable_cases (h := h) ht hr List.Pairwise.nil hl with ⟨-, hc⟩ | ⟨hc, -⟩
  · rw [hc]
  · exact absurd rfl hc

/-- **C82 is violated** after a cleanup: once field data was made, no later registration succeeds. -/
theorem C82_again_violated (mn : R) (size : Int) (h : Heap R) (next : Nat) (o : Obj R) (host : List (Ptr R)) (dyn : List (List (Ptr R)))
    (suites : List (List (CVar R))) (names : List Str) (old : List Int) (hd : o.dataLocked = true)
    (hne : order next host dyn suites ≠ []) :
    ∃ r, register mn size h next (cleanup o suites) host dyn suites names old = some r ∧ r.err ≠ 0 := by
  have hcl : ∀ (ds : List (List (CVar R))) (o : Obj R), o.dataLocked = true → (cleanup o ds).dataLocked = true := by
    intro ds
    induction ds with
    | nil => intro o ho; exact ho
    | cons d ds ih => intro o ho; exact ih _ (by simpa [Const.reset] using ho)
  have hb : ∀ (h : Heap R) (p : Ptr R), (addMetadata h (initObj (cleanup o suites) size) p 0).2 ≠ 0 := by
    intro h p
    have : okayToAdd (initObj (cleanup o suites) size) 0 = (false, 1) := by
      simp [okayToAdd, Obj.isInit, initObj, propsLocked, dataLocked, Const.reset, hcl suites o hd]
    unfold addMetadata
    rw [this]
    simp
  have hO : order next host dyn suites = (host ++ dyn.flatten) ++ objs next (suites.flatMap suiteConsts) := rfl
  unfold register
  simp only
  cases hP : host ++ dyn.flatten with
  | cons p ps =>
    have : (addPtrs h (initObj (cleanup o suites) size) (p :: ps)).2 ≠ 0 := by
      simp only [addPtrs]
      rw [if_pos (hb h p)]
      exact hb h p
    rw [if_pos this]
    exact ⟨_, rfl, this⟩
  | nil =>
    rw [hO, hP, List.nil_append] at hne
    rw [if_neg (show ¬ (addPtrs h (initObj (cleanup o suites) size) []).2 ≠ 0 by simp [addPtrs])]
    have : (addSuites mn h next (initObj (cleanup o suites) size) suites).2.2.2 ≠ 0 := by
      generalize initObj (cleanup o suites) size = o' at hb
      induction suites generalizing h next with
      | nil => exact absurd rfl hne
      | cons d ds ih =>
        simp only [addSuites]
        cases hc : suiteConsts d with
        | nil =>
          simp only [addSuite, ne_eq, not_true_eq_false, if_false]
          simp only [List.flatMap_cons, hc, List.nil_append] at hne
          exact ih h next hne rfl
        | cons v vs =>
          have h1 : (addSuite mn h next o' (v :: vs)).2.2.2 ≠ 0 := by
            simp only [addSuite]
            rw [if_pos (hb _ _)]
            exact hb _ _
          rw [if_pos h1]
          exact h1
    rw [if_pos (show (addSuites mn h next (addPtrs h (initObj (cleanup o suites) size) []).1 suites).2.2.2 ≠ 0 from this)]
    exact ⟨_, rfl, this⟩

/-- The generated copy routine returns the element for an index that is in range. -/
theorem C82_copy (arr : List (CVar R)) (i : Nat) (hi : i < arr.length) : copyConst true arr ((i : Int) + 1) = (0, some arr[i]) := by
  unfold copyConst
  simp only [if_true]
  rw [if_neg (by omega), if_neg (by omega), if_neg (by omega)]
  simp [hi]

/-- **C82 is violated** for any other index: errcode is set, but the array is read outside its bounds all the same. -/
theorem C82_copy_violated (b : Bool) (arr : List (CVar R)) (i : Int) (hi : i < 1 ∨ i > arr.length) : copyConst b arr i = (1, none) := by
  unfold copyConst
  by_cases h1 : i < 1
  · simp [h1]
  · have h2 : i > arr.length := by omega
    simp only
    rw [if_neg h1, if_pos h2, if_neg h1]
    simp only [Prod.mk.injEq, true_and, List.getElem?_eq_none_iff]
    omega

end Ccpp.HC
