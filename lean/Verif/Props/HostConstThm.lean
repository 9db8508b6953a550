import Verif.Props.HostConstVars
import Verif.Props.HostConstReg
/-! # C82: constituents of a host cap -/
namespace Ccpp.HC
open Const Hash

variable {R : Type}

/-! ## The suite's dictionary -/

theorem substName_replaced (d : Str) : Replaced d (substName d) := by
  unfold substName
  split
  · rename_i h; rw [h]; exact .extent
  · rename_i h1
    split
    · rename_i h; rw [h]; exact .last
    · rename_i h2
      split
      · rename_i h; rw [h]; exact .first
      · rename_i h3; exact .keep d h1 h2 h3

theorem splitOn_no (c : Char) (s : Str) : ∀ t ∈ Chk.splitOn c s, c ∉ t := by
  induction s with
  | nil => intro t ht; rw [Chk.splitOn, List.mem_singleton] at ht; rw [ht]; simp
  | cons d s ih =>
    intro t ht
    rw [Chk.splitOn] at ht
    split at ht
    · rcases List.mem_cons.1 ht with rfl | ht
      · simp
      · exact ih t ht
    · rename_i hd
      cases hs : Chk.splitOn c s with
      | nil => exact absurd hs (Chk.splitOn_ne_nil _ _)
      | cons u us =>
        rw [hs] at ht
        rcases List.mem_cons.1 ht with rfl | ht
        · rw [List.mem_cons, not_or]
          exact ⟨fun he => hd he.symm, ih u (by rw [hs]; simp)⟩
        · exact ih t (by rw [hs]; simp [ht])

theorem splitOn_joinColon {l : List Str} (hne : l ≠ []) (h : ∀ t ∈ l, ':' ∉ t) : Chk.splitOn ':' (joinColon l) = l := by
  induction l with
  | nil => exact absurd rfl hne
  | cons a l ih =>
    cases l with
    | nil => rw [joinColon, Chk.splitOn_item _ _ (h a (by simp))]
    | cons b l => rw [joinColon, Chk.splitOn_append _ _ _ (h a (by simp)), ih (by simp) (fun t ht => h t (by simp [ht]))]

theorem splitOn_substDim (d : Str) : Chk.splitOn ':' (substDim d) = (Chk.splitOn ':' d).map substName := by
  unfold substDim
  apply splitOn_joinColon
  · simp [Chk.splitOn_ne_nil]
  · intro t ht
    obtain ⟨u, hu, rfl⟩ := List.mem_map.1 ht
    have := splitOn_no ':' d u hu
    have hr := substName_replaced u
    generalize substName u = w at hr
    cases hr with
    | extent => decide
    | last => decide
    | first => decide
    | keep => exact this

theorem forall₂_map {α β : Type} {P : α → β → Prop} {f : α → β} (h : ∀ a, P a (f a)) (l : List α) : List.Forall₂ P l (l.map f) := by
  induction l with
  | nil => exact .nil
  | cons a l ih => exact .cons (h a) ih

/-- The clone. -/
def made (v : CVar R) : CVar R := { v with dims := v.dims.map substDim }

theorem made_from (v : CVar R) : MadeFrom v (made v) := by
  refine ⟨rfl, forall₂_map (fun d => ?_) _⟩
  rw [splitOn_substDim]
  exact forall₂_map substName_replaced _

theorem dict_gen (parent : Str → Option (CVar R)) : ∀ (reqs : List (Bool × CVar R)) (d : List (CVar R)) (S : List Str),
    (∀ n, n ∈ S ↔ n ∈ d.map (·.name)) →
    reqs.foldl (fun d q => (findVar d parent q.1 q.2).1) d = d ++ (nub S (wanted parent reqs)).map made := by
  intro reqs
  induction reqs with
  | nil => intro d S _; simp [wanted, nub]
  | cons q reqs ih =>
    intro d S hS
    rw [List.foldl_cons]
    cases hf : d.find? (fun w => w.name == q.2.name) with
    | some w =>
      have h1 : findVar d parent q.1 q.2 = (d, some w) := by
        unfold findVar; rw [hf]
      have hin : q.2.name ∈ S := by
        rw [hS, List.mem_map]
        exact ⟨w, List.mem_of_find?_eq_some hf, by simpa using List.find?_some hf⟩
      rw [h1, ih d S hS]
      congr 1
      unfold wanted
      by_cases hq : (q.1 && (parent q.2.name).isNone) = true
      · rw [List.filter_cons, if_pos hq, List.map_cons, nub, if_pos hin]
      · rw [List.filter_cons, if_neg hq]
    | none =>
      have hnin : q.2.name ∉ S := by
        rw [hS, List.mem_map]
        rintro ⟨w, hw, he⟩
        rw [List.find?_eq_none] at hf
        exact hf w hw (by simpa using he)
      cases hp : parent q.2.name with
      | some w =>
        have h1 : findVar d parent q.1 q.2 = (d, some w) := by
          unfold findVar; rw [hf, hp]
        rw [h1, ih d S hS]
        congr 2
        unfold wanted
        rw [List.filter_cons_of_neg (by simp [hp])]
      | none =>
        by_cases hc : q.1 = true
        · have h1 : findVar d parent q.1 q.2 = (d ++ [made q.2], some (made q.2)) := by
            unfold findVar
            rw [hf, hp]
            simp only [hc, if_true]
            rfl
          rw [h1]
          simp only
          rw [ih _ (q.2.name :: S) (by
            intro n
            rw [List.mem_cons, hS n, List.map_append, List.mem_append, List.map_cons, List.map_nil, List.mem_singleton]
            exact or_comm)]
          unfold wanted
          rw [List.filter_cons_of_pos (by simp [hc, hp]), List.map_cons, nub, if_neg hnin, List.map_cons]
          simp
        · have h1 : findVar d parent q.1 q.2 = (d, none) := by
            unfold findVar
            rw [hf, hp]
            simp [hc]
          rw [h1, ih d S hS]
          congr 2
          unfold wanted
          rw [List.filter_cons_of_neg (by simp [hc])]

/-- **C82 (dictionary).**  After any sequence of requests the constituent dictionary of a suite holds, once per name and in order of
the first request, exactly the constituents that no enclosing scope has, with the loop dimensions replaced and nothing else
changed; a later request for one of them returns it and changes nothing. -/
theorem C82_dictionary (parent : Str → Option (CVar R)) (reqs : List (Bool × CVar R)) :
    List.Forall₂ MadeFrom (uniq (wanted parent reqs)) (dictAfter parent reqs) ∧
    ∀ (b : Bool) (v : CVar R), (∃ w ∈ wanted parent reqs, w.name = v.name) →
      ∃ w ∈ dictAfter parent reqs, w.name = v.name ∧ findVar (dictAfter parent reqs) parent b v = (dictAfter parent reqs, some w) := by
  have h0 := dict_gen parent reqs [] [] (by simp)
  rw [nub_nil, List.nil_append] at h0
  have h1 : dictAfter parent reqs = (uniq (wanted parent reqs)).map made := h0
  refine ⟨?_, ?_⟩
  · rw [h1]
    exact forall₂_map made_from _
  · rintro b v ⟨u, hu, hun⟩
    obtain ⟨w, hw, hwn⟩ := mem_uniq hu
    have hex : ∃ w', (dictAfter parent reqs).find? (fun w => w.name == v.name) = some w' := by
      cases hf : (dictAfter parent reqs).find? (fun w => w.name == v.name) with
      | some w' => exact ⟨w', rfl⟩
      | none =>
        rw [List.find?_eq_none] at hf
        exact absurd (by simp [made, hwn, hun]) (hf (made w) (by rw [h1]; exact List.mem_map_of_mem hw))
    obtain ⟨w', hf⟩ := hex
    refine ⟨w', List.mem_of_find?_eq_some hf, by simpa using List.find?_some hf, ?_⟩
    unfold findVar
    rw [hf]

/-- Constituents requested with loop dimensions get dimensions that the host cap supports. -/
theorem C82_loop_dims (b e : Str) (hb : ':' ∉ b) (he : e = "horizontal_loop_extent".toList ∨ e = "horizontal_loop_end".toList) :
    GoodDims ([b ++ ':' :: e, "ccpp_constant_one:vertical_layer_dimension".toList].map substDim) := by
  have hc : ':' ∉ e := by rcases he with rfl | rfl <;> decide
  refine ⟨_, _, rfl, ?_, ?_⟩
  · rw [splitOn_substDim, Chk.splitOn_append _ _ _ hb, Chk.splitOn_item _ _ hc]
    rcases he with rfl | rfl <;> rfl
  · decide

/-! ## The variables of the host cap -/

/-- **C82 (acceptance).**  The host cap accepts the constituents of the suites exactly when every first variable of a name has the
dimensions (horizontal_dimension, vertical_layer_dimension) and every tendency belongs to a constituent of the suites that it is
compatible with.  Partial: only the first variable of every name is looked at (see C82_second_suite_violated). -/
theorem C82_accept_partial (compat : CVar R → CVar R → Bool) (suites : List (List (CVar R))) :
    (∃ c, capVars compat suites = .ok c) ↔
      ∀ v ∈ uniq suites.flatten, GoodDims v.dims ∧
        (Tend v.name → ∃ s ∈ uniq suites.flatten, ¬ Tend s.name ∧ TendOf v.name s.name ∧ compat v s = true) := by
  constructor
  · rintro ⟨c, hc⟩ v hv
    obtain ⟨h1, h2, -⟩ := (capVars_iff compat suites c).1 hc
    exact ⟨(h1 v hv).1, h2 v hv⟩
  · intro h
    refine ⟨_, (capVars_iff compat suites _).2 ⟨?_, fun t ht => (h t ht).2, rfl⟩⟩
    intro v hv
    refine ⟨(h v hv).1, ?_⟩
    unfold stateName
    by_cases ht : isTend v.name = true
    · rw [if_pos ht]
      obtain ⟨s, -, -, hs, -⟩ := (h v hv).2 ((isTend_iff _).1 ht)
      rw [second_iff.2 hs]
      rfl
    · rw [if_neg ht]; rfl

/-- **C82 (entries).**  Then there is one entry for every name, in order, which refers to the slot of the constituent (or of the
constituent that the tendency belongs to), and the names of the array are the names of the constituents, in order, each once. -/
theorem C82_entries {compat : CVar R → CVar R → Bool} {suites : List (List (CVar R))} {c : CapVars} (h : capVars compat suites = .ok c) :
    List.Forall₂ EntryFor (uniq suites.flatten) c.entries ∧
    DT.SortedSetOf c.names fun n => ¬ Tend n ∧ ∃ v ∈ suites.flatten, v.name = n := by
  obtain ⟨h1, h2, rfl⟩ := (capVars_iff compat suites c).1 h
  refine ⟨?_, DT.sorted_ordered _, ?_, ?_⟩
  · simp only
    have : ∀ l : List (CVar R), (∀ v ∈ l, (stateName v.name).isSome = true) → List.Forall₂ EntryFor l (l.map mkEntry) := by
      intro l
      induction l with
      | nil => intro _; exact .nil
      | cons v l ih =>
        intro hl
        refine .cons ?_ (ih fun w hw => hl w (by simp [hw]))
        have hv := hl v (by simp)
        refine ⟨rfl, rfl, rfl, ?_, ?_⟩
        · intro ht
          have : isTend v.name = false := by
            rw [← isTend_iff] at ht
            simpa using ht
          simp only [mkEntry, arrayName, stateName, this]
          rfl
        · intro ht
          have hi := (isTend_iff _).2 ht
          simp only [stateName, hi, if_true] at hv
          obtain ⟨x, hx⟩ := Option.isSome_iff_exists.1 hv
          refine ⟨x, second_iff.1 hx, ?_⟩
          simp only [mkEntry, arrayName, stateName, hi, if_true, hx]
          rfl
    exact this _ fun v hv => (h1 v hv).2
  · simp only
    rw [RV.nodup_sorted]
    exact List.pairwise_map.2 ((uniq_pairwise suites.flatten).filter _)
  · intro n
    simp only
    rw [RV.mem_sorted, List.mem_map]
    constructor
    · rintro ⟨v, hv, rfl⟩
      obtain ⟨hv1, hv2⟩ := List.mem_filter.1 hv
      refine ⟨?_, v, uniq_subset hv1, rfl⟩
      rw [← isTend_iff]
      simpa using hv2
    · rintro ⟨ht, v, hv, rfl⟩
      obtain ⟨w, hw, hwn⟩ := mem_uniq hv
      refine ⟨w, List.mem_filter.2 ⟨hw, ?_⟩, hwn⟩
      rw [hwn]
      rw [← isTend_iff] at ht
      simpa using ht

/-! ## Cap and registration together -/

theorem starts_tend {n : Str} (h : startsTend n = true) : Tend n := by
  have h1 := List.isPrefixOf_iff_prefix.1 h
  have h2 : "tendency_of".toList <+: "tendency_of_".toList := by decide
  exact (h2.trans h1).isInfix

theorem flatMap_filter {α : Type} (f : α → Bool) (l : List (List α)) : l.flatMap (fun d => d.filter f) = l.flatten.filter f := by
  induction l with
  | nil => rfl
  | cons d l ih => rw [List.flatMap_cons, List.flatten_cons, List.filter_append, ih]

theorem find_uniq {f : Str → Bool} {l : List (CVar R)} {v : CVar R} (h : l.find? (fun w => f w.name) = some v) : v ∈ uniq l := by
  induction l with
  | nil => simp at h
  | cons u l ih =>
    rw [uniq]
    by_cases hu : f u.name = true
    · rw [List.find?_cons, hu] at h
      simp only [Option.some.injEq] at h
      simp [h]
    · rw [List.find?_cons, eq_false_of_ne_true hu] at h
      refine List.mem_cons_of_mem _ (List.mem_filter.2 ⟨ih h, ?_⟩)
      have := List.find?_some h
      simp only [decide_eq_true_eq]
      intro he
      exact hu (he ▸ this)

theorem objs_find {P : Str → Bool} : ∀ {vs : List (CVar R)} {next : Nat} {p : Ptr R}, (objs next vs).find? (fun q => P q.name) = some p →
    ∃ i v, vs.find? (fun w => P (rtrim w.name)) = some v ∧ p = suitePtr i v := by
  intro vs
  induction vs with
  | nil => intro next p h; simp [objs] at h
  | cons v vs ih =>
    intro next p h
    rw [objs_cons] at h
    by_cases hv : P (rtrim v.name) = true
    · rw [List.find?_cons_of_pos (by exact hv)] at h
      simp only [Option.some.injEq] at h
      exact ⟨next, v, by rw [List.find?_cons, hv], h.symm⟩
    · rw [List.find?_cons_of_neg (by exact hv)] at h
      obtain ⟨i, w, h1, h2⟩ := ih h
      exact ⟨i, w, by rw [List.find?_cons, eq_false_of_ne_true hv]; exact h1, h2⟩

theorem objs_mem {vs : List (CVar R)} {next : Nat} {v : CVar R} (h : v ∈ vs) : ∃ i, suitePtr i v ∈ objs next vs := by
  obtain ⟨k, hk, rfl⟩ := List.getElem_of_mem h
  exact ⟨next + k, by unfold objs; rw [List.mem_mapIdx]; exact ⟨k, hk, rfl⟩⟩

theorem good_layer {v : CVar R} (h : GoodDims v.dims) (i : Nat) : isLayer (suitePtr i v) = true := by
  obtain ⟨a, z, hd, -, hz⟩ := h
  have hm : "vertical_layer_dimension".toList ∈ v.dims.flatMap (Chk.splitOn ':') := by
    rw [List.mem_flatMap]
    exact ⟨z, by rw [hd]; simp, List.mem_of_getLast? hz⟩
  have : vertDim v = "vertical_layer_dimension".toList := by
    unfold vertDim
    simp only
    rw [if_pos hm]
  show (rtrim (fit dimnameLen (rtrim (vertDim v))) == _) = true
  rw [this]
  decide

theorem rtrim_rtrim (s : Str) : rtrim (rtrim s) = rtrim s := by
  unfold rtrim
  rw [List.reverse_reverse]
  congr 1
  generalize s.reverse = l
  induction l with
  | nil => rfl
  | cons c l ih =>
    by_cases hc : (c == ' ') = true
    · rw [List.dropWhile_cons, if_pos hc]; exact ih
    · rw [List.dropWhile_cons, if_neg hc, List.dropWhile_cons, if_neg hc]

/-- **C82 (cap and registration).**  For a host cap that was generated without an error, registration returns errcode 0 exactly when
constituents of the same name have the same attributes and the host's own constituents (as far as they are the first of their name)
are layer variables. -/
theorem C82_cap_register {compat : CVar R → CVar R → Bool} {c : CapVars} {mn : R} {size : Int} {h : Heap R} {next : Nat} {o : Obj R}
    {host : List (Ptr R)} {dyn : List (List (Ptr R))} {suites : List (List (CVar R))} {old : List Int}
    (hcap : capVars compat suites = .ok c) (hsize : 0 ≤ size) (hd : o.dataLocked = false)
    (hfresh : Fresh h next (host ++ dyn.flatten)) (hshort : Short (order next host dyn suites)) (hne : order next host dyn suites ≠ [])
    (hold : old.length = c.names.length) :
    ∃ r, register mn size h next o host dyn suites c.names old = some r ∧
      (r.err = 0 ↔ Agree h next (order next host dyn suites) ∧
        ∀ p ∈ host ++ dyn.flatten, first (host ++ dyn.flatten) p.name = some p → isLayer p = true) ∧
      (r.err = 0 → Registered (order next host dyn suites) c.names r) := by
  obtain ⟨r, h1, h2, h3⟩ := C82_register (mn := mn) (names := c.names) hsize hd hfresh hshort hne hold
  refine ⟨r, h1, ?_, h3⟩
  rw [h2]
  have hnames := (C82_entries hcap).2.2.2
  obtain ⟨hg, -, -⟩ := (capVars_iff compat suites c).1 hcap
  have hB : suites.flatMap suiteConsts = suites.flatten.filter fun v => !startsTend v.name := flatMap_filter _ _
  have hO : order next host dyn suites = (host ++ dyn.flatten) ++ objs next (suites.flatMap suiteConsts) := rfl
  constructor
  · rintro ⟨ha, hb, -⟩
    refine ⟨ha, fun p hp hpf => hb p (by rw [hO]; exact List.mem_append_left _ hp) ?_⟩
    rw [hO]
    exact find_append_pos hpf
  · rintro ⟨ha, hb⟩
    refine ⟨ha, ?_, ?_⟩
    · intro p hp hpf
      rw [hO] at hpf
      unfold first at hpf
      rw [List.find?_append] at hpf
      cases hf : (host ++ dyn.flatten).find? (fun q => decide (rtrim q.name = rtrim p.name)) with
      | some q =>
        rw [hf] at hpf
        simp only [Option.some_or, Option.some.injEq] at hpf
        subst hpf
        exact hb q (List.mem_of_find?_eq_some hf) hf
      | none =>
        rw [hf] at hpf
        simp only [Option.none_or] at hpf
        obtain ⟨i, v, hv, he⟩ := objs_find (P := fun n => decide (rtrim n = rtrim p.name)) hpf
        rw [he]
        apply good_layer
        rw [hB, List.find?_filter] at hv
        exact (hg v (find_uniq (f := fun n => decide ((!startsTend n) = true ∧ decide (rtrim (rtrim n) = rtrim p.name) = true)) hv)).1
    · intro n hn
      obtain ⟨ht, v, hv, rfl⟩ := (hnames n).1 hn
      have hvB : v ∈ suites.flatMap suiteConsts := by
        rw [hB]
        refine List.mem_filter.2 ⟨hv, ?_⟩
        cases hst : startsTend v.name with
        | false => rfl
        | true => exact absurd (starts_tend hst) ht
      obtain ⟨i, hi⟩ := objs_mem (next := next) hvB
      unfold first
      rw [List.find?_isSome]
      exact ⟨_, by rw [hO]; exact List.mem_append_right _ hi, by simp [suitePtr, newPtr, rtrim_rtrim]⟩

/-- **C82 (slots).**  After a successful registration every entry of the host cap refers to the slot of its own constituent: the
index variable `index_of_x` is element i of the array of indices, where x is element i of the array of names, its value is the
position of a constituent with the name x, and for a tendency x is the constituent that it belongs to. -/
theorem C82_slots {compat : CVar R → CVar R → Bool} {c : CapVars} {suites : List (List (CVar R))} {l : List (Ptr R)} {r : Reg R}
    (hcap : capVars compat suites = .ok c) (hr : Registered l c.names r) :
    ∃ L : List (Ptr R), r.obj.metadata = some (L.map some) ∧ ∀ e ∈ c.entries, ∃ (x : Str) (i j : Nat) (p : Ptr R),
      ((¬ Tend e.name ∧ x = e.name ∧ e.loc = slotRef "vars_layer".toList x) ∨
        (Tend e.name ∧ TendOf e.name x ∧ e.loc = slotRef "vars_layer_tend".toList x)) ∧
      c.names[i]? = some x ∧ r.indices[i]? = some ((j : Int) + 1) ∧ L[j]? = some p ∧ rtrim p.name = rtrim x := by
  obtain ⟨L, hL, -, -, -, -, hidx⟩ := hr.table
  refine ⟨L, hL, ?_⟩
  have hE := C82_entries hcap
  obtain ⟨hg, ht, hc⟩ := (capVars_iff compat suites c).1 hcap
  intro e he
  have hex : ∃ v ∈ uniq suites.flatten, EntryFor v e := by
    have : ∀ {a : List (CVar R)} {b : List Entry}, List.Forall₂ EntryFor a b → e ∈ b → ∃ v ∈ a, EntryFor v e := by
      intro a b hab
      induction hab with
      | nil => intro h; simp at h
      | cons hx _ ih =>
        intro h
        rcases List.mem_cons.1 h with rfl | h
        · exact ⟨_, by simp, hx⟩
        · obtain ⟨v, hv, hv'⟩ := ih h
          exact ⟨v, by simp [hv], hv'⟩
    exact this hE.1 he
  obtain ⟨v, hv, hn, -, -, hloc1, hloc2⟩ := hex
  have hfin : ∀ x, x ∈ c.names → ∃ (i j : Nat) (p : Ptr R), c.names[i]? = some x ∧ r.indices[i]? = some ((j : Int) + 1) ∧ L[j]? = some p ∧
      rtrim p.name = rtrim x := by
    intro x hx
    obtain ⟨i, hi⟩ := List.getElem?_of_mem hx
    obtain ⟨j, p, h1, h2, h3⟩ := hidx i x hi
    exact ⟨i, j, p, hi, h1, h2, by simpa using List.find?_some h3⟩
  by_cases htd : Tend v.name
  · obtain ⟨x, hx, hxl⟩ := hloc2 htd
    obtain ⟨s, hs, hsn, hst, -⟩ := ht v hv htd
    have hxs : x = s.name := by
      have h1 := second_iff.2 hx
      have h2 := second_iff.2 hst
      rw [h1] at h2
      simpa using h2
    obtain ⟨i, j, p, h1, h2, h3, h4⟩ := hfin x ((hE.2.2.2 x).2 ⟨by rw [hxs]; exact hsn, s, uniq_subset hs, hxs.symm⟩)
    exact ⟨x, i, j, p, .inr ⟨by rw [hn]; exact htd, by rw [hn]; exact hx, hxl⟩, h1, h2, h3, h4⟩
  · obtain ⟨i, j, p, h1, h2, h3, h4⟩ := hfin v.name ((hE.2.2.2 _).2 ⟨htd, v, uniq_subset hv, rfl⟩)
    exact ⟨v.name, i, j, p, .inl ⟨by rw [hn]; exact htd, hn.symm, hloc1 htd⟩, h1, h2, h3, h4⟩

end Ccpp.HC
