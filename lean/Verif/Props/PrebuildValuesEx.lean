import Verif.Props.PrebuildValuesGroup
import Verif.Model.Units
/-!
# The values around the calls of prebuild (C75): examples and violations
-/
namespace Ccpp.PV
open PB (Str)
open PA (Intent)

variable {V : Type} {env : Env V} {run : Bool}

/-! ## A host -/

/-- metres to millimetres and back, in whole numbers -/
def exFn (f : Str) (v : Int) : Int :=
  if f = "1.0E+3{kind}*{var}".toList then 1000 * v else if f = "1.0E-3{kind}*{var}".toList then v / 1000 else v

/-- The conditions of the example: `.true.`, and the flag of the host -/
def exActive (c : Str) (h : Host Int) : Bool := c == trueText || (c == "flag".toList && h "flag".toList == [[1]])

/-- Five columns in blocks of two and three -/
def exEnv : Env Int := ⟨1, [2, 3], 5, fun _ _ => -99, exFn, exActive⟩

/-- Metres in the host, millimetres in the scheme -/
def exConv : Option (Str × Str) := some ("1.0E+3{kind}*{var}".toList, "1.0E-3{kind}*{var}".toList)

/-- The depth of the snow in the blocks of the host -/
def exSnow : Arg := ⟨"snow".toList, "d(cdata%blk_no)%snow".toList, true, .inout, exConv, "flag".toList, true, []⟩
/-- A result in the blocks of the host -/
def exOut : Arg := ⟨"o".toList, "d(cdata%blk_no)%o".toList, true, .out, none, trueText, true, []⟩
/-- A scalar with a conversion -/
def exDt : Arg := ⟨"dx".toList, "dx".toList, false, .in, exConv, trueText, false, []⟩

/-- The variables of the host -/
def exHost : Host Int := fun k =>
  if k = "d(cdata%blk_no)%snow".toList then [[1, 2], [3, 4, 5]]
  else if k = "d(cdata%blk_no)%o".toList then [[0, 0], [0, 0, 0]]
  else if k = "dx".toList then [[7]]
  else if k = "flag".toList then [[1]]
  else []

/-- A scheme: `o` becomes 5 everywhere, all other arguments are increased by `dx` -/
def exScheme : Scheme Int := fun v d =>
  if d = "o".toList then List.replicate ((v d).getD []).length 5
  else ((v d).getD []).map fun x => x + (((v "dx".toList).getD []).headD 0)

/-- The arguments of the call -/
def exArgs : List Arg := [exSnow, exOut, exDt]

/-- The generated code is executed in an initial phase: the snow is converted, changed and converted back, block by block. -/
example : ((genGroup false [exArgs, exArgs]).bind fun r =>
    (execGroup exEnv (fun _ => false) ([exScheme, exScheme].zip r.2) (start exHost)).map fun m =>
      (m.host "d(cdata%blk_no)%snow".toList, m.host "d(cdata%blk_no)%o".toList, m.host "dx".toList)) =
    some ([[15, 16], [17, 18, 19]], [[5, 5], [5, 5, 5]], [[7]]) := by decide +kernel

theorem exScheme_ok : SchemeOk exScheme exArgs := by
  constructor
  · intro v d l h
    unfold exScheme
    split <;> simp [h]
  · intro v w hl he
    funext d
    unfold exScheme
    have hdx : v "dx".toList = w "dx".toList := by
      apply he
      intro a ha hd
      simp only [exArgs, List.mem_cons, List.not_mem_nil, or_false] at ha
      rcases ha with ha | ha | ha <;> subst ha <;> revert hd <;> decide
    split
    · have := hl d
      cases hv : v d <;> cases hw : w d <;> rw [hv, hw] at this <;> simp_all
    · next hd =>
      rw [hdx, he d]
      intro a ha hd'
      simp only [exArgs, List.mem_cons, List.not_mem_nil, or_false] at ha
      rcases ha with ha | ha | ha <;> subst ha
      · decide
      · exact absurd hd'.symm hd
      · decide

/-- The hypotheses of the theorem hold in the example: the shapes are those of the host whatever the values are. -/
theorem exGroup_ok : GroupOk exEnv false [(exScheme, exArgs), (exScheme, exArgs)] exHost := by
  have h1 : ∀ c ∈ [(exScheme, exArgs), (exScheme, exArgs)], c = (exScheme, exArgs) := by simp
  refine ⟨?_, ?_, ?_, ?_, ?_, ?_, ?_, ?_⟩
  · intro c hc; rw [h1 c hc]; unfold exArgs; simp only [List.pairwise_cons, List.mem_cons, List.not_mem_nil, or_false]
    exact ⟨by rintro a (h | h) <;> subst h <;> decide, by rintro a h; subst h; decide, by simp, .nil⟩
  · intro c hc; rw [h1 c hc]; unfold exArgs; simp only [List.pairwise_cons, List.mem_cons, List.not_mem_nil, or_false]
    exact ⟨by rintro a (h | h) <;> subst h <;> decide, by rintro a h; subst h; decide, by simp, .nil⟩
  · intro c hc; rw [h1 c hc]; exact exScheme_ok
  · intro c hc; rw [h1 c hc]
    intro a ha h h' hk
    have hf := hk "flag".toList (by
      intro b hb hbk
      simp only [exArgs, List.mem_cons, List.not_mem_nil, or_false] at hb
      rcases hb with hb | hb | hb <;> subst hb <;> exact absurd hbk (by decide))
    show exActive _ _ = exActive _ _
    unfold exActive
    rw [hf]
  · intro c hc a ha; rw [h1 c hc] at ha
    simp only [exArgs, List.mem_cons, List.not_mem_nil, or_false] at ha
    rcases ha with ha | ha | ha <;> subst ha <;> decide
  · intro c hc a ha c' hc' b hb; rw [h1 c hc] at ha; rw [h1 c' hc'] at hb
    simp only [exArgs, List.mem_cons, List.not_mem_nil, or_false] at ha hb
    rcases ha with ha | ha | ha <;> rcases hb with hb | hb | hb <;> subst ha <;> subst hb <;> decide
  · intro h' hs c hc a ha _; rw [h1 c hc] at ha
    have hl : ∀ k, (h' k).length = (exHost k).length := fun k => by simpa using (congrArg List.length (hs k)).symm
    simp only [exArgs, List.mem_cons, List.not_mem_nil, or_false] at ha
    rcases ha with ha | ha | ha <;> subst ha
    · exact ⟨fun _ => ⟨(hs _).symm, rfl⟩, fun h => absurd h (by decide), fun h => (by cases h), fun h => (by cases h)⟩
    · exact ⟨fun _ => ⟨(hs _).symm, rfl⟩, fun h => absurd h (by decide), fun h => (by cases h), fun h => (by cases h)⟩
    · refine ⟨fun h => absurd h (by decide), fun _ => hl _, fun h => (by cases h), fun _ b hb => ?_⟩
      have := hs exDt.key
      have h2 : exHost exDt.key = [[7]] := by decide
      rw [h2] at this
      match h' exDt.key, this, hb with
      | [l], this, hb => simp at hb this; subst hb; exact this.symm
      | _ :: _ :: _, this, _ => simp at this
  · intro h'; rfl

example : ∀ a ∈ exArgs, Handled false a := by
  intro a ha
  simp only [exArgs, List.mem_cons, List.not_mem_nil, or_false] at ha
  rcases ha with ha | ha | ha <;> subst ha
  · exact ⟨.inl (by decide), fun h => absurd h (by decide)⟩
  · exact ⟨.inl (by decide), fun h => absurd h (by decide)⟩
  · exact ⟨.inr (.inr (.inl rfl)), fun _ _ _ _ => .inl rfl⟩

/-! ## Violations -/

/-- **C75 is violated** by variables with a condition, intent(out) and a unit conversion: the pointer is never associated with the temporary variable (this
is only done together with the conversion before the call), so that the scheme does not get the argument at all. -/
theorem C75_out_violated {s : Tmps} {m m' : Mem V} {a : Arg} (hi : a.intent = .out) (hc : a.conv.isSome = true) (ho : optional a = true)
    (hd : deblock run a = false) (hp : m.ptr (ptrOf s a) = .null) (h : execBlocks env m [(a.cond, before run s a)] = some m') :
    readActual env m' (actual run s a) = some none := by
  have hcv : converts run a = true := by rw [converts_conv, hd, hc]; rfl
  have hai : a.actIn = none := by simp [Arg.actIn, hi]
  have hb : before run s a = if a.arr then [.alloc (tmpOf s a) a.key] else [] := by
    unfold before; rw [if_neg (by simp [hd]), if_pos hcv, hai]; simp
  have hptr : m'.ptr = m.ptr := by
    rw [hb] at h
    simp only [execBlocks] at h
    rw [Option.bind_eq_some_iff] at h
    obtain ⟨x, hx, h⟩ := h
    cases h
    split at hx
    · split at hx
      · simp only [execList, exec, Option.bind_eq_some_iff] at hx
        obtain ⟨y, hy, hx⟩ := hx
        cases hx
        split at hy
        · cases hy; rfl
        · cases hy
      · simp only [execList] at hx; cases hx; rfl
    · cases hx; rfl
  simp [actual, ho, readActual, hptr, hp]

/-- The host gets what happened to be in the memory (here -99000/1000) instead of the results (5). -/
theorem C75_out_host_violated :
    let a : Arg := ⟨"o".toList, "snow".toList, true, .out, exConv, "flag".toList, false, "(1:n)".toList⟩
    let h : Host Int := fun k => if k = "flag".toList then [[1]] else [[1, 2]]
    ∃ s codes m, genGroup true [[a]] = some (s, codes) ∧ execGroup exEnv (fun _ => false) ([exScheme].zip codes) (start h) = some m ∧
      m.host "snow".toList = [[-1, -1]] ∧ toHost exEnv a (exScheme (inputs exEnv true h [a]) "o".toList) = [0, 0] := by
  refine ⟨_, _, _, rfl, rfl, ?_, ?_⟩ <;> decide +kernel

/-- **C75 is violated** by variables with a condition, intent(in) and a unit conversion: the pointer is not nullified after the call (this is only done together
with the conversion after the call) and points to a deallocated variable. If the next scheme has intent(out) it is given this memory. -/
theorem C75_in_violated :
    let a : Arg := ⟨"x".toList, "snow".toList, true, .in, exConv, "flag".toList, false, "(1:n)".toList⟩
    let b : Arg := { a with intent := .out, loc := "o".toList }
    let h : Host Int := fun k => if k = "flag".toList then [[1]] else [[1, 2]]
    ∃ s codes m, genGroup true [[a]] = some (s, codes) ∧ execGroup exEnv (fun _ => false) ([exScheme].zip codes) (start h) = some m ∧
      m.ptr (ptrOf s a) = .dangling ∧
    ∃ s' codes', genGroup true [[a], [b]] = some (s', codes') ∧
      execGroup exEnv (fun _ => false) ([exScheme, exScheme].zip codes') (start h) = none := by
  refine ⟨_, _, _, rfl, rfl, ?_, _, _, rfl, ?_⟩ <;> decide +kernel

/-- **C75 is violated** by the conversion of arrays with formulas that do not end in the variable: the dimensions are written behind the formula
(`T-273.15_kind(1:n)`); there is no execution. -/
theorem C75_formula_violated {s : Tmps} {m : Mem V} {a : Arg} {f : Str × Str} (hc : a.conv = some f) (hi : a.intent ≠ .out)
    (hd : deblock run a = false) (hdim : a.dims ≠ []) (hf : endsInVar f.1 = false) (hact : env.active a.cond m.host = true) :
    execBlocks env m [(a.cond, before run s a)] = none := by
  have hcv : converts run a = true := by rw [converts_conv, hd, hc]; rfl
  have hai : a.actIn = some f.1 := by simp [Arg.actIn, hi, hc]
  have hne : (a.dims.isEmpty || endsInVar f.1) = false := by
    rw [hf, Bool.or_false]; simpa using hdim
  unfold before
  rw [if_neg (by simp [hd]), if_pos hcv, hai]
  cases harr : a.arr with
  | false => simp [execBlocks, hact, execList, exec, hne]
  | true =>
    simp only [if_true, List.cons_append, List.nil_append, execBlocks, hact, execList]
    cases exec env m (.alloc (tmpOf s a) a.key) with
    | none => rfl
    | some m' => simp [exec, hne]

/-- These are the conversions concerned, among them kelvin to degrees Celsius and back. -/
theorem C75_formulas : (Units.table.filter fun e => !endsInVar e.2).map (fun e => String.ofList e.1) =
    ["s__to__min", "s__to__h", "h__to__d", "s__to__d", "K__to__C", "C__to__K", "degree__to__radian", "degree_north__to__radian",
     "degree_east__to__radian", "km_h_minus_1__to__m_s_minus_1"] := by
  decide +kernel

/-- **C75 is violated** if a scheme changes a variable on which the condition of another argument depends: the conversion before the call is executed, the one
after the call is not. -/
theorem C75_condition_violated :
    let a : Arg := ⟨"x".toList, "snow".toList, true, .inout, exConv, "flag".toList, false, "(1:n)".toList⟩
    let b : Arg := ⟨"o".toList, "flag".toList, false, .inout, none, trueText, false, []⟩
    let h : Host Int := fun k => if k = "flag".toList then [[1]] else [[1, 2]]
    ∃ s codes m, genGroup true [[a, b]] = some (s, codes) ∧ execGroup exEnv (fun _ => false) ([exScheme].zip codes) (start h) = some m ∧
      m.host "flag".toList = [[5]] ∧ m.host "snow".toList = [[1, 2]] ∧ m.tmp (tmpOf s a) = some [1000, 2000] := by
  refine ⟨_, _, _, rfl, rfl, ?_, ?_, ?_⟩ <;> decide +kernel

/-- **C75 is violated** if two standard names have the same variable of the host: both arguments use one temporary variable, which is allocated twice. -/
theorem C75_shared_violated :
    let a : Arg := ⟨"x".toList, "snow".toList, true, .in, exConv, trueText, false, "(1:n)".toList⟩
    let b : Arg := { a with loc := "y".toList }
    let h : Host Int := fun _ => [[1, 2]]
    ∃ s codes, genGroup true [[a, b]] = some (s, codes) ∧ execGroup exEnv (fun _ => false) ([exScheme].zip codes) (start h) = none := by
  refine ⟨_, _, rfl, ?_⟩; decide +kernel

/-- **C75 is violated** by hosts with a variable called `nb` or `ib` (or `tmpvar_1`): a local variable of the cap gets the same name. -/
theorem C75_local_names_violated : ∃ s codes, genGroup false [[exOut]] = some (s, codes) ∧ "nb".toList ∈ localNames false s [[exOut]] := by
  refine ⟨_, _, rfl, ?_⟩; decide +kernel

end Ccpp.PV
