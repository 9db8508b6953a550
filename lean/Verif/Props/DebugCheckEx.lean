import Verif.Props.DebugCheckElems
/-! # C83: the selection of the checks, the internal variables, examples and violations -/
namespace Ccpp.DC
open PB (Str)

/-! ### add_var_debug_check -/

theorem dimNames_mem {sees : Str → Bool} : ∀ {ds : List Str} {r : List Str}, dimNames sees ds = .ok r → ∀ d ∈ ds,
    (':' ∉ d → d ∈ r ∧ sees d = true) ∧ (':' ∈ d → ∃ lo hi, d = lo ++ ':' :: hi ∧ ':' ∉ lo ∧ ':' ∉ hi ∧ lo ∈ r ∧ hi ∈ r ∧ sees lo = true ∧ sees hi = true) := by
  intro ds
  induction ds with
  | nil => simp
  | cons d ds ih =>
    intro r h x hx
    simp only [dimNames] at h
    by_cases hc : ':' ∈ d
    · rw [if_neg (by simpa using hc)] at h
      split at h
      · rename_i lo hi hs
        obtain ⟨e1, e2, e3⟩ := splitColon_inv d lo hi hs
        split at h
        · rename_i hl
          split at h
          · rename_i hh
            obtain ⟨q, hq, h⟩ := bind_ok.mp h
            cases h
            rcases List.mem_cons.mp hx with rfl | hx
            · exact ⟨fun hn => absurd hc hn, fun _ => ⟨lo, hi, e1, e2, e3, by simp, by simp, hl, hh⟩⟩
            · obtain ⟨i1, i2⟩ := ih hq x hx
              refine ⟨fun hn => ⟨by simp [i1 hn], (i1 hn).2⟩, fun hn => ?_⟩
              obtain ⟨a, b, j1, j2, j3, j4, j5, j6, j7⟩ := i2 hn
              exact ⟨a, b, j1, j2, j3, by simp [j4], by simp [j5], j6, j7⟩
          · cases h
        · cases h
      · cases h
    · rw [if_pos hc] at h
      split at h
      · rename_i hs
        obtain ⟨q, hq, h⟩ := bind_ok.mp h
        cases h
        rcases List.mem_cons.mp hx with rfl | hx
        · exact ⟨fun _ => ⟨by simp, hs⟩, fun hn => absurd hn hc⟩
        · obtain ⟨i1, i2⟩ := ih hq x hx
          refine ⟨fun hn => ⟨by simp [i1 hn], (i1 hn).2⟩, fun hn => ?_⟩
          obtain ⟨a, b, j1, j2, j3, j4, j5, j6, j7⟩ := i2 hn
          exact ⟨a, b, j1, j2, j3, by simp [j4], by simp [j5], j6, j7⟩
      · cases h

/-- C83. Which variables get a check, and what is put into the call list of the group for it: exactly the variables that are never active and the
error variables get none; for a check, every variable of the condition and every dimension of the variable is put into the call list. -/
theorem C83_added {scopes : List Dict} {sees : Str → Bool} {v : DVar} {r : Option (Check × List Str)} (h : addCheck scopes sees v = .ok r) :
    (r = none ↔ lower v.active = ".false.".toList ∨ v.std = "ccpp_error_code".toList ∨ v.std = "ccpp_error_message".toList) ∧
    ∀ k names, r = some (k, names) →
      k.std = v.std ∧ k.dims = v.dims ∧ k.active = v.active ∧ k.allocatable = v.allocatable ∧ k.ivar = internalName v ∧
      (∀ d ∈ v.dims, (':' ∉ d → d ∈ names) ∧ ∀ lo hi, d = lo ++ ':' :: hi → ':' ∉ lo → ':' ∉ hi → lo ∈ names ∧ hi ∈ names) ∧
      ∃ t ns, CD.capgen scopes v.active = some (t, ns) ∧ ∀ n ∈ ns, n ∈ names := by
  have hw : wanted v = false ↔ lower v.active = ".false.".toList ∨ v.std = "ccpp_error_code".toList ∨ v.std = "ccpp_error_message".toList := by
    unfold wanted
    simp only [Bool.not_eq_false', Bool.or_eq_true, decide_eq_true_eq]
    tauto
  unfold addCheck at h
  by_cases hv : wanted v = true
  · rw [if_pos hv] at h
    split at h
    · cases h
    · rename_i t ns hc
      obtain ⟨ds, hds, h⟩ := bind_ok.mp h
      cases h
      refine ⟨⟨(fun h => nomatch h), fun h => absurd hv (by rw [hw.mpr h]; simp)⟩, ?_⟩
      intro k names he
      cases he
      refine ⟨rfl, rfl, rfl, rfl, rfl, ?_, t, ns, hc, fun n hn => by simp [hn]⟩
      intro d hd
      obtain ⟨i1, i2⟩ := dimNames_mem hds d hd
      refine ⟨fun hn => by simp [i1 hn], fun lo hi e e1 e2 => ?_⟩
      obtain ⟨a, b, j1, j2, j3, j4, j5, _⟩ := i2 (by rw [e]; simp)
      have := splitColon_two lo hi e1 e2
      rw [← e, j1, splitColon_two a b j2 j3] at this
      simp only [List.cons.injEq, and_true] at this
      obtain ⟨rfl, rfl⟩ := this
      simp [j4, j5]
  · have hv' : wanted v = false := by simpa using hv
    rw [if_neg hv] at h
    cases h
    exact ⟨⟨fun _ => hw.mp hv', fun _ => rfl⟩, fun k names he => nomatch he⟩

theorem split_und : ∀ {a b x y : Str}, '_' ∉ a → '_' ∉ b → a ++ '_' :: x = b ++ '_' :: y → a = b ∧ x = y := by
  intro a
  induction a with
  | nil =>
    intro b x y _ hb h
    cases b with
    | nil => simpa using h
    | cons c b =>
      simp only [List.nil_append, List.cons_append, List.cons.injEq] at h
      exact absurd (by rw [← h.1]; simp) hb
  | cons c a ih =>
    intro b x y ha hb h
    cases b with
    | nil =>
      simp only [List.nil_append, List.cons_append, List.cons.injEq] at h
      exact absurd (by simp [h.1]) ha
    | cons d b =>
      simp only [List.cons_append, List.cons.injEq] at h
      obtain ⟨e1, e2⟩ := ih (fun hm => ha (by simp [hm])) (fun hm => hb (by simp [hm])) h.2
      exact ⟨by rw [h.1, e1], e2⟩

theorem undEq_id {s : Str} (h : '=' ∉ s) : undEq s = s := by
  unfold undEq
  conv_rhs => rw [← List.map_id s]
  apply List.map_congr_left
  intro c hc
  have : c ≠ '=' := fun e => h (e ▸ hc)
  simp [this]

/-- C83, internal variables of intrinsic types (`_partial`: the statement is false of derived types). Two variables of intrinsic types share an
internal variable only if they have the same type and the same kind, up to the character `=` in the kind. -/
theorem C83_internal_types_partial {v w : DVar} (hv : v.ddt = false) (hw : w.ddt = false) (h1 : '_' ∉ v.vtype) (h2 : '_' ∉ w.vtype)
    (h3 : '=' ∉ v.vtype) (h4 : '=' ∉ w.vtype) (h : internalName v = internalName w) : v.vtype = w.vtype ∧ undEq v.kind = undEq w.kind := by
  unfold internalName at h
  simp only [hv, hw, Bool.false_eq_true, if_false, undEq_id h3, undEq_id h4] at h
  by_cases e1 : v.kind = [] <;> by_cases e2 : w.kind = []
  · rw [if_pos e1, if_pos e2] at h
    exact ⟨List.append_cancel_left h, by rw [e1, e2]⟩
  · rw [if_pos e1, if_neg e2] at h
    rw [List.append_assoc, List.append_assoc] at h
    have := List.append_cancel_left h
    rw [this] at h1
    simp at h1
  · rw [if_neg e1, if_pos e2] at h
    rw [List.append_assoc, List.append_assoc] at h
    have := List.append_cancel_left h
    rw [← this] at h2
    simp at h2
  · rw [if_neg e1, if_neg e2] at h
    rw [List.append_assoc, List.append_assoc, List.append_assoc, List.append_assoc] at h
    exact split_und h1 h2 (List.append_cancel_left h)

/-- C83. The name of an internal variable is a Fortran name if type and kind consist of letters, digits, `_` and `=`. -/
theorem C83_internal_legal {v : DVar} (h1 : ∀ ch ∈ v.vtype, isWordC ch = true ∨ ch = '=') (h2 : ∀ ch ∈ v.kind, isWordC ch = true ∨ ch = '=') :
    (∀ ch ∈ internalName v, isWordC ch = true) ∧ ∃ r, internalName v = 'i' :: r := by
  have hu : ∀ s : Str, (∀ ch ∈ s, isWordC ch = true ∨ ch = '=') → ∀ ch ∈ undEq s, isWordC ch = true := by
    intro s hs ch hc
    unfold undEq at hc
    obtain ⟨x, hx, rfl⟩ := List.mem_map.mp hc
    by_cases e : x = '='
    · rw [if_pos e]; decide
    · rw [if_neg e]
      rcases hs x hx with h | h
      · exact h
      · exact absurd h e
  have hp : ∀ ch ∈ "internal_var_".toList, isWordC ch = true := by decide
  have key : ∀ kd : Str, (∀ ch ∈ kd, isWordC ch = true ∨ ch = '=') →
      (∀ ch ∈ (if kd = [] then "internal_var_".toList ++ undEq v.vtype else "internal_var_".toList ++ undEq v.vtype ++ "_".toList ++ undEq kd),
        isWordC ch = true) ∧
      ∃ r, (if kd = [] then "internal_var_".toList ++ undEq v.vtype else "internal_var_".toList ++ undEq v.vtype ++ "_".toList ++ undEq kd) = 'i' :: r := by
    intro kd hk
    by_cases e : kd = []
    · rw [if_pos e]
      refine ⟨fun ch hc => ?_, _, rfl⟩
      rcases List.mem_append.mp hc with hc | hc
      · exact hp ch hc
      · exact hu _ h1 ch hc
    · rw [if_neg e]
      refine ⟨fun ch hc => ?_, _, rfl⟩
      rcases List.mem_append.mp hc with hc | hc
      · rcases List.mem_append.mp hc with hc | hc
        · rcases List.mem_append.mp hc with hc | hc
          · exact hp ch hc
          · exact hu _ h1 ch hc
        · have : ch = '_' := by simpa using hc
          rw [this]; decide
      · exact hu _ hk ch hc
  unfold internalName
  by_cases hd : v.ddt = true
  · simp only [hd, if_true]
    exact key [] (by simp)
  · simp only [hd]
    exact key v.kind h2

/-! ### Examples -/

def exCall : Dict := [("air_temperature".toList, "temp".toList), ("horizontal_loop_begin".toList, "col_start".toList),
  ("horizontal_loop_end".toList, "col_end".toList), ("vertical_layer_dimension".toList, "pver".toList), ("zero".toList, "zero".toList),
  ("flag_for_temperature".toList, "do_temp".toList)]
def exGroup : Dict := [("internal_var_real_local".toList, "internal_var_real".toList)]
def exSuite : Dict := [("cloud_fraction".toList, "cld".toList)]
def exIntents (i : String) : List (Str × Str) := [("air_temperature".toList, i.toList), ("cloud_fraction".toList, i.toList)]
def exCtx (i : String) : Ctx := ⟨true, false, exGroup, exCall, [exSuite], [exGroup, exCall, exSuite], exIntents i⟩
def hDim : Str := "horizontal_loop_begin:horizontal_loop_end".toList
def vDim : Str := "ccpp_constant_one:vertical_layer_dimension".toList
def v0Dim : Str := "zero:vertical_layer_dimension".toList
def exTemp : Check := ⟨"air_temperature".toList, [hDim, vDim], "flag_for_temperature".toList, false, "internal_var_real".toList⟩
def exCld : Check := ⟨"cloud_fraction".toList, [hDim, vDim], ".true.".toList, false, "internal_var_real".toList⟩
def exMem : Str → Option Int := fun n =>
  if n = "col_start".toList then some 1 else if n = "col_end".toList then some 2 else if n = "pver".toList then some 3
  else if n = "zero".toList then some 0 else if n = "do_temp".toList then some 1 else none
def exEv : Str → (Str → Option Int) → Bool := fun t m => m t == some 1
def sumVal : List Int → Int := List.sum
def exState (t d : List (Int × Int)) : State :=
  ⟨exMem, fun n => if n = "temp".toList then some ⟨t, sumVal⟩ else if n = "cld".toList then some ⟨d, sumVal⟩ else none⟩
def exS : State := exState [(1, 2), (1, 3)] [(1, 9), (1, 3)]

set_option maxRecDepth 20000 in
/-- The text of the debug code of an argument. -/
theorem C83_example_text : (emit (exCtx "inout") exTemp).map (fun gs => gs.flatMap (Guarded.text "errflg".toList "errmsg".toList)) =
    .ok (["if do_temp then", "if (size(temp(:,:)) /= 1*(col_end-col_start+1)*(pver-1+1)) then",
      "write(errmsg, '(2(a,i8))') 'for array temp, expected size ', 1*(col_end-col_start+1)*(pver-1+1), ' but got ', size(temp)",
      "errflg = 1", "return", "end if", "end if", "if do_temp then", "internal_var_real = temp(1,1)",
      "internal_var_real = temp(col_end-col_start+1,pver)", "end if"].map String.toList) := by rfl

theorem exMeta (i : String) (arg : Bool) (t d : List (Int × Int)) :
    List.Forall₂ (Meta (exCtx i) (exState t d) arg) [hDim, vDim] [2, 3] := by
  refine .cons ?_ (.cons ?_ .nil)
  · exact Meta.horizontalLoop (b := 1) (e := 2) (by decide) (by decide) rfl (by simp [exCtx]) rfl rfl
  · exact Meta.range (lo := "ccpp_constant_one".toList) (hi := "vertical_layer_dimension".toList) (l := 1) (h := 3) (by decide) (by decide) (by decide) rfl rfl

theorem exActive (i : String) (s : State) (h : s.mem = exMem) : Active exEv (exCtx i) s exTemp.active :=
  ⟨"do_temp".toList, ["flag_for_temperature".toList], by rfl, Or.inr (by rw [h]; rfl)⟩

theorem exActive2 (i : String) (s : State) : Active exEv (exCtx i) s exCld.active := ⟨".true.".toList, [], by rfl, Or.inl rfl⟩

theorem vDim_split {lo hi : Str} (e : vDim = lo ++ ':' :: hi) (hlo : ':' ∉ lo) : lo = "ccpp_constant_one".toList := by
  have hhi : ':' ∉ hi := by
    intro hm
    have h1 : List.count ':' vDim = List.count ':' (lo ++ ':' :: hi) := by rw [e]
    rw [List.count_append, List.count_cons_self, show List.count ':' vDim = 1 by decide] at h1
    have h5 : 0 < List.count ':' hi := List.count_pos_iff.mpr hm
    omega
  have h2 := splitColon_two lo hi hlo hhi
  rw [← e, show splitColon vDim = ["ccpp_constant_one".toList, "vertical_layer_dimension".toList] by decide, List.cons.injEq] at h2
  exact h2.1.symm

theorem exLow : ∀ d ∈ exTemp.dims, VC.isHoriz d = false → ∀ lo hi, d = lo ++ ':' :: hi → ':' ∉ lo → value (exCtx "in") exS lo = some 1 := by
  intro d hd hh lo hi e hlo
  have hd' : d = hDim ∨ d = vDim := by
    rcases List.mem_cons.mp hd with h | h
    · exact Or.inl h
    · rcases List.mem_cons.mp h with h | h
      · exact Or.inr h
      · exact absurd h (List.not_mem_nil)
  rcases hd' with h | h
  · rw [h] at hh; exact absurd hh (by decide)
  · rw [h] at e
    rw [vDim_split e hlo]
    rfl

/-- The hypotheses of C83_check_argument hold for an array of the wrong size, and its conclusion is that the group returns with code 1. -/
example : ∃ gs, emit (exCtx "in") exTemp = .ok gs ∧ execG exEv (exState [(1, 2), (1, 4)] []) gs = .stop 1 6 8 := by
  obtain ⟨gs, h1, h2, _⟩ := C83_check_argument (ev := exEv) (c := exCtx "in") (k := exTemp) (s := exState [(1, 2), (1, 4)] []) (l := "temp".toList)
    (intent := "in".toList) (a := ⟨[(1, 2), (1, 4)], sumVal⟩) (ns := [2, 3]) rfl rfl (by decide) (exActive _ _ rfl) (by decide) (by decide)
    (exMeta _ _ _ _) rfl rfl
  exact ⟨gs, h1, h2 (by decide)⟩

/-- The hypotheses of C83_reads_argument hold for the example. -/
example : ∃ gs, emit (exCtx "in") exTemp = .ok gs ∧
    execG exEv exS gs = .cont ((exS.set "internal_var_real".toList 2).set "internal_var_real".toList 5) := by
  obtain ⟨gs, h1, h2, h3⟩ := C83_check_argument (ev := exEv) (c := exCtx "in") (k := exTemp) (s := exS) (l := "temp".toList)
    (intent := "in".toList) (a := ⟨[(1, 2), (1, 3)], sumVal⟩) (ns := [2, 3]) rfl rfl (by decide) (exActive _ _ rfl) (by decide) (by decide)
    (exMeta _ _ _ _) rfl rfl
  refine ⟨gs, h1, ?_⟩
  have hr : ReadsNone [exTemp.ivar] gs := by
    have : emit (exCtx "in") exTemp = .ok [⟨some "do_temp".toList, [.check "temp".toList [.all, .all] [.ext "col_end".toList "col_start".toList, .ext "pver".toList "1".toList]]⟩,
       ⟨some "do_temp".toList, [.elem "internal_var_real".toList "temp".toList [.one, .nm "1".toList],
         .elem "internal_var_real".toList "temp".toList [.ext "col_end".toList "col_start".toList, .nm "pver".toList]]⟩] := by rfl
    rw [h1] at this
    cases this
    unfold ReadsNone
    decide
  exact C83_reads_argument (ev := exEv) (c := exCtx "in") (k := exTemp) (s := exS) (l := "temp".toList) (intent := "in".toList)
    (a := ⟨[(1, 2), (1, 3)], sumVal⟩) (ns := [2, 3]) rfl rfl (by decide) (exActive _ _ rfl) (by decide) (by decide)
    (exMeta _ _ _ _) exLow rfl rfl (by decide) h1 hr

/-- The hypotheses of C83_check_own and C83_reads_own hold for a variable of the suite with nine columns, of which the call has two. -/
example : Own (exCtx "in") exCld.std "cld".toList ∧
    List.Forall₂ (fun p m => Sect (exCtx "in") exS p.1 p.2 m) (exCld.dims.zip [(1, 9), (1, 3)]) [2, 3] ∧
    List.Forall₂ (fun p q => Inside (exCtx "in") exS p.1 p.2 q.1 q.2) (exCld.dims.zip [((1 : Int), (9 : Int)), (1, 3)]) [(1, 2), (1, 3)] := by
  refine ⟨⟨by rfl, Or.inr ⟨by rfl, by rfl⟩⟩, .cons ?_ (.cons ?_ .nil), .cons ?_ (.cons ?_ .nil)⟩
  · exact Sect.loop (i := 1) (j := 2) (by decide) (by decide) rfl rfl rfl (by decide) (by decide) (by decide)
  · exact Sect.whole (by decide) (by decide)
  · exact Inside.loop (by decide) (by decide) rfl rfl rfl (by decide) (by decide) (by decide)
  · exact Inside.range (lo := "ccpp_constant_one".toList) (hi := "vertical_layer_dimension".toList) (by decide) (by decide) (by decide) rfl rfl (by decide)

/-- The hypotheses of C83_inactive hold for an array that is not allocated. -/
example : Inactive exEv (exCtx "in") ⟨fun _ => none, fun _ => none⟩ exTemp.active ∧ ∃ gs, emit (exCtx "in") exTemp = .ok gs :=
  ⟨⟨"do_temp".toList, ["flag_for_temperature".toList], by rfl, by decide, by rfl⟩, _, rfl⟩

/-- The hypotheses of C83_block hold for the two checks of the example, with a condition that does not depend on the internal variable. -/
example : ∃ gs, emitAll (exCtx "in") [exTemp, exCld] = .ok gs ∧ NoLit ["internal_var_real".toList] ∧
    ReadsNone ["internal_var_real".toList] gs ∧ (∀ k ∈ [exTemp, exCld], k.ivar ∈ ["internal_var_real".toList]) ∧
    ∀ t m m', (∀ n, n ∉ ["internal_var_real".toList] → m' n = m n) →
      (fun (t : Str) (m : Str → Option Int) => if t = "internal_var_real".toList then false else exEv t m) t m' =
      (fun (t : Str) (m : Str → Option Int) => if t = "internal_var_real".toList then false else exEv t m) t m := by
  refine ⟨_, rfl, by unfold NoLit; decide, ?_, by decide, ?_⟩
  · unfold ReadsNone
    decide +kernel
  · intro t m m' h
    by_cases e : t = "internal_var_real".toList
    · simp only [if_pos e]
    · simp only [if_neg e]
      unfold exEv
      rw [h t (by simpa using e)]

/-! ### Violations -/

/-- C83 violated: only the number of all elements is compared. A transposed array (3 × 2 instead of 2 × 3) passes the check of a scheme that writes
it, and for a scheme that reads it the debug code itself refers to an element outside of the array. -/
theorem C83_shape_violated : ∃ gs gs', emit (exCtx "out") exTemp = .ok gs ∧ emit (exCtx "in") exTemp = .ok gs' ∧
    List.Forall₂ (Meta (exCtx "in") (exState [(1, 3), (1, 2)] []) true) exTemp.dims [2, 3] ∧
    execG exEv (exState [(1, 3), (1, 2)] []) gs = .cont (exState [(1, 3), (1, 2)] []) ∧
    execG exEv (exState [(1, 3), (1, 2)] []) gs' = .undef :=
  ⟨_, _, rfl, rfl, exMeta _ _ _ _, rfl, rfl⟩

def exZero : Check := { exTemp with dims := [hDim, v0Dim] }

/-- C83 violated: lower bounds other than 1. The array of a dimension `zero:vertical_layer_dimension` has exactly the right shape (2 × 4); in the
group, where the argument has the lower bound 1, the debug code refers to the element 0. -/
theorem C83_lower_bound_violated : ∃ gs, emit (exCtx "in") exZero = .ok gs ∧
    List.Forall₂ (Meta (exCtx "in") (exState [(1, 2), (1, 4)] []) true) exZero.dims [2, 4] ∧
    execG exEv (exState [(1, 2), (1, 4)] []) gs = .undef := by
  refine ⟨_, rfl, .cons ?_ (.cons ?_ .nil), rfl⟩
  · exact Meta.horizontalLoop (b := 1) (e := 2) (by decide) (by decide) rfl (by simp [exCtx]) rfl rfl
  · exact Meta.range (lo := "zero".toList) (hi := "vertical_layer_dimension".toList) (l := 0) (h := 3) (by decide) (by decide) (by decide) rfl rfl

def exEmpty : State := ⟨fun n => if n = "col_end".toList then some 0 else exMem n, fun _ => some ⟨[(1, 0), (1, 3)], sumVal⟩⟩

/-- C83 violated: a call without columns. The array is as the metadata say (0 × 3), and the debug code refers to an element that it does not
have. -/
theorem C83_empty_violated : ∃ gs, emit (exCtx "in") exTemp = .ok gs ∧
    List.Forall₂ (Meta (exCtx "in") exEmpty true) exTemp.dims [0, 3] ∧ execG exEv exEmpty gs = .undef := by
  refine ⟨_, rfl, .cons ?_ (.cons ?_ .nil), rfl⟩
  · exact Meta.horizontalLoop (b := 1) (e := 0) (by decide) (by decide) rfl (by simp [exCtx]) rfl rfl
  · exact Meta.range (lo := "ccpp_constant_one".toList) (hi := "vertical_layer_dimension".toList) (l := 1) (h := 3) (by decide) (by decide) (by decide) rfl rfl

/-- C83 violated: the columns of a variable of the suite are not checked. With one column, where the call has two, the debug code takes the section
`1:2` of it and does not return an error. -/
theorem C83_own_columns_violated : ∃ gs, emit (exCtx "in") exCld = .ok gs ∧
    List.Forall₂ (Meta (exCtx "in") (exState [] [(1, 1), (1, 3)]) false) exCld.dims [2, 3] ∧
    execG exEv (exState [] [(1, 1), (1, 3)]) gs = .undef :=
  ⟨_, rfl, exMeta _ _ _ _, rfl⟩

/-- C83 violated: the message for a variable of the suite gives the size of the whole array and not of the section, and may say that six elements
were expected but six found. -/
theorem C83_message_violated : ∃ gs, emit (exCtx "in") exCld = .ok gs ∧ execG exEv (exState [] [(1, 6), (1, 1)]) gs = .stop 1 6 6 :=
  ⟨_, rfl, rfl⟩

/-- C83 violated: with `--debug`, a variable with a number in a dimension cannot be used, because no variable has a number as standard name. -/
theorem C83_number_violated (scopes : List Dict) (sees : Str → Bool) (h : sees "5".toList = false) (v : DVar) (hw : wanted v = true)
    (hd : v.dims = ["ccpp_constant_one:5".toList]) : ∀ r, addCheck scopes sees v ≠ .ok r := by
  intro r hr
  unfold addCheck at hr
  rw [if_pos hw] at hr
  split at hr
  · cases hr
  · obtain ⟨ds, hds, _⟩ := bind_ok.mp hr
    obtain ⟨_, h2⟩ := dimNames_mem hds "ccpp_constant_one:5".toList (by rw [hd]; simp)
    obtain ⟨lo, hi, e, e1, e2, _, _, _, h8⟩ := h2 (by decide)
    have := splitColon_two lo hi e1 e2
    rw [← e] at this
    have h6 : splitColon "ccpp_constant_one:5".toList = ["ccpp_constant_one".toList, "5".toList] := by decide
    rw [h6] at this
    simp only [List.cons.injEq, and_true] at this
    rw [← this.2, h] at h8
    cases h8

def exSuiteVar : DVar := ⟨"cloud_fraction".toList, ["ccpp_constant_one:horizontal_dimension".toList], ".true.".toList, false, "real".toList, [], false⟩

/-- C83 violated: for a suite variable with dimension `horizontal_dimension`, the run phase needs the loop bounds, and they are not what is put into
the call list: if the group does not have them for another reason, the caps cannot be written. -/
theorem C83_horizontal_missing_violated : ∃ k names, addCheck [exSuite] (fun _ => true) exSuiteVar = .ok (some (k, names)) ∧
    names = ["ccpp_constant_one".toList, "horizontal_dimension".toList] ∧
    ∀ gs, emit ⟨true, false, [], [("horizontal_dimension".toList, "ncol".toList)], [exSuite], [exSuite], exIntents "in"⟩ k ≠ .ok gs := by
  refine ⟨_, _, rfl, rfl, ?_⟩
  intro gs h
  have : emit ⟨true, false, [], [("horizontal_dimension".toList, "ncol".toList)], [exSuite], [exSuite], exIntents "in"⟩
      ⟨exSuiteVar.std, exSuiteVar.dims, exSuiteVar.active, exSuiteVar.allocatable, internalName exSuiteVar⟩ =
      .error "No variable with this standard name in cldicts" := by rfl
  rw [this] at h
  cases h

/-- C83 violated: a derived type may have the same internal variable as an intrinsic type, so that the variable of one of them is assigned to a
variable of the other type. -/
theorem C83_internal_types_violated : internalName ⟨"a".toList, [], [], false, "real_kind_phys".toList, [], true⟩ =
    internalName ⟨"b".toList, [], [], false, "real".toList, "kind_phys".toList, false⟩ := by rfl

/-- C83 violated: a character variable of assumed length has an internal variable whose name is not a Fortran name. -/
theorem C83_internal_legal_violated : '*' ∈ internalName ⟨"a".toList, [], [], false, "character".toList, "len=*".toList, false⟩ ∧
    isWordC '*' = false := by decide

end Ccpp.DC
