import Verif.Spec.ErrorVars
/-!
# C113: the error variables of the constituent routines
-/
namespace Ccpp.EV

theorem asOut_std (v : Var) : (asOut v).std = v.std := by unfold asOut; split <;> rfl
theorem asOut_lname (v : Var) : (asOut v).lname = v.lname := by unfold asOut; split <;> rfl
theorem asOut_intent (v : Var) : (asOut v).intent = "out".toList := by
  unfold asOut
  by_cases h : v.intent = "out".toList
  · rw [if_neg (by simpa using h)]; exact h
  · rw [if_pos h]

theorem names_of {m c : Var} (hm : m.std = "ccpp_error_message".toList) (hc : c.std = "ccpp_error_code".toList) :
    errcodeNames [m, c] = if c.lname = [] ∨ m.lname = [] then none else some (c.lname, m.lname) := by
  have hne : "ccpp_error_message".toList ≠ "ccpp_error_code".toList := by decide +kernel
  simp only [errcodeNames, namesLoop, hm, hc, if_neg hne, if_true]

/-- A call of a constituent routine of a suite passes the code and the message of the caller to the arguments that the suite knows by the standard
names of the error code and of the error message; it is written exactly if the suite has both. -/
theorem C113_call {find : Str → Option Var} (hb : ByName find) (code msg t : Str) :
    callStr find code msg = some t ↔ ∃ c m, Known find "ccpp_error_code".toList c ∧ Known find "ccpp_error_message".toList m ∧
      t = c ++ ['='] ++ code ++ [',', ' '] ++ (m ++ ['='] ++ msg) := by
  unfold callStr findErr Known
  cases h1 : find "ccpp_error_code".toList with
  | none => simp [errcodeNames, namesLoop]
  | some v =>
    cases h2 : find "ccpp_error_message".toList with
    | none => simp [errcodeNames, namesLoop]
    | some w =>
      simp only [if_true]
      rw [names_of (by rw [asOut_std]; exact hb _ _ h2) (by rw [asOut_std]; exact hb _ _ h1), asOut_lname, asOut_lname]
      by_cases h : v.lname = [] ∨ w.lname = []
      · rw [if_pos h]
        simp only [Option.map_none, reduceCtorEq, Option.some.injEq, exists_eq_left', false_iff]
        rintro ⟨c, m, ⟨hc, rfl⟩, ⟨hm, rfl⟩, _⟩
        rcases h with h | h
        · exact hc h
        · exact hm h
      · rw [if_neg h]
        simp only [Option.map_some, Option.some.injEq, exists_eq_left']
        constructor
        · rintro rfl
          refine ⟨_, _, ⟨fun e => h (.inl e), rfl⟩, ⟨fun e => h (.inr e), rfl⟩, ?_⟩
          simp only [List.append_assoc]
          rfl
        · rintro ⟨c, m, ⟨_, rfl⟩, ⟨_, rfl⟩, rfl⟩
          simp only [List.append_assoc]
          rfl

/-- The text of the call is a list of keyword arguments. -/
theorem C113_keywords {find : Str → Option Var} (hb : ByName find) {code msg t : Str} (h : callStr find code msg = some t) :
    ∃ c m, Known find "ccpp_error_code".toList c ∧ Known find "ccpp_error_message".toList m ∧ Keywords t [(c, code), (m, msg)] := by
  obtain ⟨c, m, h1, h2, rfl⟩ := (C113_call hb code msg t).1 h
  exact ⟨c, m, h1, h2, .cons .one⟩

/-- The error variables are both the message and the code, or none of them; as output variables they have intent out and their names. -/
theorem C113_variables {find : Str → Option Var} (v : Var) :
    v ∈ findErr find true ↔ v.intent = "out".toList ∧ ∃ c m, find "ccpp_error_code".toList = some c ∧ find "ccpp_error_message".toList = some m ∧
      ((v.std = c.std ∧ v.lname = c.lname) ∨ (v.std = m.std ∧ v.lname = m.lname)) := by
  have hext : ∀ {a : Var}, (v = asOut a ↔ v.intent = "out".toList ∧ v.std = a.std ∧ v.lname = a.lname) := by
    intro a
    constructor
    · rintro rfl; exact ⟨asOut_intent a, asOut_std a, asOut_lname a⟩
    · rintro ⟨h1, h2, h3⟩
      have e1 := asOut_intent a
      have e2 := asOut_std a
      have e3 := asOut_lname a
      cases v
      cases h : asOut a
      rw [h] at e1 e2 e3
      simp_all
  unfold findErr
  cases h1 : find "ccpp_error_code".toList with
  | none => simp
  | some c =>
    cases h2 : find "ccpp_error_message".toList with
    | none => simp
    | some m =>
      simp only [if_true, List.mem_cons, List.not_mem_nil, or_false, hext, Option.some.injEq]
      constructor
      · rintro (⟨h, g⟩ | ⟨h, g⟩)
        · exact ⟨h, _, _, rfl, rfl, .inr g⟩
        · exact ⟨h, _, _, rfl, rfl, .inl g⟩
      · rintro ⟨h, _, _, rfl, rfl, g | g⟩
        · exact .inr ⟨h, g⟩
        · exact .inl ⟨h, g⟩

/-- The two error variables of a dictionary are initialised to no error: an empty message and the code 0, and nothing else is written. -/
theorem C113_init {find : Str → Option Var} (hb : ByName find) {c m : Var} (h1 : find "ccpp_error_code".toList = some c)
    (h2 : find "ccpp_error_message".toList = some m) :
    ((findErr find true).filterMap initErr).Perm [c.lname ++ " = 0".toList, m.lname ++ " = ''".toList] ∧
    ∀ v : Var, (initErr v).isSome = true ↔ v.std = "ccpp_error_code".toList ∨ v.std = "ccpp_error_message".toList := by
  have hne : "ccpp_error_code".toList ≠ "ccpp_error_message".toList := by decide +kernel
  have e1 : initErr (asOut m) = some (m.lname ++ " = ''".toList) := by
    rw [initErr, asOut_std, hb _ _ h2, if_pos rfl, asOut_lname]
  have e2 : initErr (asOut c) = some (c.lname ++ " = 0".toList) := by
    rw [initErr, asOut_std, hb _ _ h1, if_neg hne, if_pos rfl, asOut_lname]
  constructor
  · simp only [findErr, h1, h2, if_true, List.filterMap_cons, e1, e2, List.filterMap_nil]
    exact List.Perm.swap _ _ _
  · intro v
    unfold initErr
    by_cases h : v.std = "ccpp_error_message".toList
    · simp [h]
    · by_cases g : v.std = "ccpp_error_code".toList
      · rw [if_neg h, if_pos g]; simp [g]
      · rw [if_neg h, if_neg g]; simp only [Option.isSome_none, Bool.false_eq_true, h, g, or_self]

/-- A dictionary with both variables, and one with only one of them. -/
def exFind (n : Str) : Option Var :=
  if n = "ccpp_error_code".toList then some ⟨n, "ierr".toList, "out".toList⟩
  else if n = "ccpp_error_message".toList then some ⟨n, "emsg".toList, "inout".toList⟩ else none

example : ByName exFind ∧ callStr exFind "errflg".toList "errmsg".toList = some "ierr=errflg, emsg=errmsg".toList ∧
    callStr (fun n => if n = "ccpp_error_code".toList then exFind n else none) "errflg".toList "errmsg".toList = none := by
  refine ⟨?_, by decide +kernel, by decide +kernel⟩
  intro n v h
  unfold exFind at h
  split at h
  · cases Option.some.inj h; rfl
  · obtain ⟨_, e⟩ := Option.ite_none_right_eq_some.1 h
    cases Option.some.inj e; rfl

end Ccpp.EV
