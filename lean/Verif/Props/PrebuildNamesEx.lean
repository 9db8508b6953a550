import Verif.Props.PrebuildNames
/-!
# C71: examples
-/
namespace Ccpp.PB

/-- A variable of the host. -/
def nv (std loc type kind cont : String) : Var :=
  { std := std.toList, units := "1".toList, loc := loc.toList, type := type.toList, dims := [], kind := kind.toList, intent := [],
    active := "T".toList, container := some cont.toList }

/-- The tracers are an array in a structure, with an index that is a variable of another structure. -/
def exNames : List (List (List Var)) :=
  [[[nv "water_vapor" "q(:, -1:index_of_water)" "real" "" "MODULE_state TYPE_state_type"]],
   [[nv "index_of_water" "ntqv" "integer" "" "MODULE_control TYPE_control_type", nv "old_style" "Old%x(3)" "real" "" "MODULE_other"],
    [nv "ccpp_error_code" "errflg" "integer" "" "MODULE_state", nv "ccpp_error_message" "errmsg" "character" "len=512" "MODULE_state"]]]

/-- The prefixes. -/
def exTypedefs : Typedefs :=
  [("state".toList, [("state".toList, []), ("state_type".toList, "phys%state".toList)]),
   ("control".toList, [("control_type".toList, "phys%control".toList)])]

theorem exNames_ok : TextsOk exNames.flatten.flatten exTypedefs := by
  intro v hv
  have : v ∈ [nv "water_vapor" "q(:, -1:index_of_water)" "real" "" "MODULE_state TYPE_state_type",
    nv "index_of_water" "ntqv" "integer" "" "MODULE_control TYPE_control_type", nv "old_style" "Old%x(3)" "real" "" "MODULE_other",
    nv "ccpp_error_code" "errflg" "integer" "" "MODULE_state", nv "ccpp_error_message" "errmsg" "character" "len=512" "MODULE_state"] := hv
  simp only [List.mem_cons, List.not_mem_nil, or_false] at this
  rcases this with rfl | rfl | rfl | rfl | rfl
  · refine ⟨"state".toList, "state_type".toList, ⟨by decide, Or.inr ⟨by decide, rfl⟩⟩, Or.inr ⟨"q(:,-1:index_of_water)".toList, Or.inr ?_⟩⟩
    refine ⟨"q".toList, [":".toList, " -1:index_of_water".toList], [":".toList, "-1:index_of_water".toList], by decide, by decide, rfl, rfl, ?_⟩
    refine .cons (Or.inl ⟨[], [], (by intro c hc; cases hc), (by intro c hc; cases hc), rfl, rfl⟩) (.cons (Or.inr ?_) .nil)
    refine ⟨[" -1".toList, "index_of_water".toList], ["-1".toList, "index_of_water".toList], by decide, rfl, rfl, .cons ?_ (.cons ?_ .nil)⟩
    · exact ⟨[' '], ['-', '1'], [], (by unfold Blanks; decide), (by intro c hc; cases hc), rfl,
        Or.inl ⟨⟨['-'], ['1'], Or.inr (Or.inl rfl), rfl, by decide, by decide⟩, rfl⟩⟩
    · exact ⟨[], "index_of_water".toList, [], (by intro c hc; cases hc), (by intro c hc; cases hc), rfl,
        Or.inr ⟨⟨⟨'i', "ndex_of_water".toList, rfl, by decide⟩, by decide⟩, trivial⟩⟩
  · exact ⟨"control".toList, "control_type".toList, ⟨by decide, Or.inr ⟨by decide, rfl⟩⟩, Or.inr ⟨"ntqv".toList, Or.inl ⟨by decide, rfl⟩⟩⟩
  · exact ⟨"other".toList, "other".toList, ⟨by decide, Or.inl ⟨rfl, rfl⟩⟩, Or.inl (by decide)⟩
  · exact ⟨"state".toList, "state".toList, ⟨by decide, Or.inl ⟨rfl, rfl⟩⟩, Or.inr ⟨"errflg".toList, Or.inl ⟨by decide, rfl⟩⟩⟩
  · exact ⟨"state".toList, "state".toList, ⟨by decide, Or.inl ⟨rfl, rfl⟩⟩, Or.inr ⟨"errmsg".toList, Or.inl ⟨by decide, rfl⟩⟩⟩

/-- The theorems apply: prefixes, the index is replaced by the name of its variable, the old style stays. -/
theorem ex_names : (gather exTypedefs 10 exNames).map (fun d => d.map fun e => (String.ofList e.1, e.2.map fun v => String.ofList v.loc)) =
    some [("ccpp_error_code", ["errflg"]), ("ccpp_error_message", ["errmsg"]), ("index_of_water", ["phys%control%ntqv"]),
      ("old_style", ["Old%x(3)"]), ("water_vapor", ["phys%state%q(:,-1:phys%control%ntqv)"])] := by decide +kernel

/-- Two variables that are the indices of each other. -/
def exCycle : List (List (List Var)) :=
  [[[nv "first" "a(second)" "integer" "" "MODULE_m", nv "second" "b(first)" "integer" "" "MODULE_m"]]]

/-- The prefixes. -/
def cyTypedefs : Typedefs := [("m".toList, [("m".toList, [])])]

theorem cycle_texts : TextsOk exCycle.flatten.flatten cyTypedefs := by
  intro v hv
  have : v ∈ [nv "first" "a(second)" "integer" "" "MODULE_m", nv "second" "b(first)" "integer" "" "MODULE_m"] := hv
  simp only [List.mem_cons, List.not_mem_nil, or_false] at this
  rcases this with rfl | rfl
  · refine ⟨"m".toList, "m".toList, ⟨by decide, Or.inl ⟨rfl, rfl⟩⟩, Or.inr ⟨"a(second)".toList, Or.inr ?_⟩⟩
    refine ⟨"a".toList, ["second".toList], ["second".toList], by decide, by decide, rfl, rfl, .cons (Or.inr ?_) .nil⟩
    refine ⟨["second".toList], ["second".toList], by decide, rfl, rfl, .cons ?_ .nil⟩
    exact ⟨[], "second".toList, [], (by intro c hc; cases hc), (by intro c hc; cases hc), rfl,
      Or.inr ⟨⟨⟨'s', "econd".toList, rfl, by decide⟩, by decide⟩, trivial⟩⟩
  · refine ⟨"m".toList, "m".toList, ⟨by decide, Or.inl ⟨rfl, rfl⟩⟩, Or.inr ⟨"b(first)".toList, Or.inr ?_⟩⟩
    refine ⟨"b".toList, ["first".toList], ["first".toList], by decide, by decide, rfl, rfl, .cons (Or.inr ?_) .nil⟩
    refine ⟨["first".toList], ["first".toList], by decide, rfl, rfl, .cons ?_ .nil⟩
    exact ⟨[], "first".toList, [], (by intro c hc; cases hc), (by intro c hc; cases hc), rfl,
      Or.inr ⟨⟨⟨'f', "irst".toList, rfl, by decide⟩, by decide⟩, trivial⟩⟩

/-- **C71** Variables that are indices of each other have no final name, and are refused at every depth of the recursion. -/
theorem C71_cycle : (∀ n, ¬ Final exCycle.flatten.flatten cyTypedefs "first".toList n) ∧ ∀ fuel, gather cyTypedefs fuel exCycle = none := by
  have key : ∀ d n, ¬ FinalIn exCycle.flatten.flatten cyTypedefs d "first".toList n ∧
      ¬ FinalIn exCycle.flatten.flatten cyTypedefs d "second".toList n := by
    have step : ∀ {F : Str → Str → Prop} {base s : Str} {o : Str}, '(' ∉ base → IsName s → Replaced F (base ++ ['('] ++ s ++ [')']) o → ∃ x, F s x := by
      intro F base s o hb hs h
      have hl : LText (base ++ ['('] ++ s ++ [')']) (.ref base [.dims [s]]) :=
        ⟨hb, by simp, [s], rfl, .cons ⟨by simp, [s], rfl, .cons ⟨⟨[], [], (by intro c hc; cases hc), (by intro c hc; cases hc), by simp⟩, Or.inr hs⟩ .nil⟩ .nil⟩
      obtain ⟨os, _, hf⟩ := (replaced_iff hl).1 h
      cases hf with
      | cons h1 _ =>
        obtain ⟨os', _, hf'⟩ := h1
        cases hf' with
        | cons h2 _ =>
          rcases h2 with ⟨a, _⟩ | ⟨_, b⟩
          · exact (literal_not_name a hs).elim
          · exact ⟨_, b⟩
    intro d
    induction d with
    | zero => intro n; exact ⟨fun h => h, fun h => h⟩
    | succ d ih =>
      have mem : ∀ v, v ∈ exCycle.flatten.flatten → v = nv "first" "a(second)" "integer" "" "MODULE_m" ∨
          v = nv "second" "b(first)" "integer" "" "MODULE_m" := by
        intro v hv
        have : v ∈ [nv "first" "a(second)" "integer" "" "MODULE_m", nv "second" "b(first)" "integer" "" "MODULE_m"] := hv
        simpa using this
      have pl1 : Place (nv "first" "a(second)" "integer" "" "MODULE_m") "m".toList "m".toList := ⟨by decide, Or.inl ⟨rfl, rfl⟩⟩
      have pl2 : Place (nv "second" "b(first)" "integer" "" "MODULE_m") "m".toList "m".toList := ⟨by decide, Or.inl ⟨rfl, rfl⟩⟩
      intro n
      constructor
      · rintro ⟨v, m, ty, hv, hk, hp, h⟩
        rcases mem v hv with rfl | rfl
        · obtain ⟨rfl, rfl⟩ := place_unique pl1 hp
          rcases h with ⟨h, _⟩ | ⟨ts, p, o, _, _, h, _⟩
          · revert h; decide
          · obtain ⟨x, hx⟩ := step (base := ['a']) (s := "second".toList) (by decide) ⟨⟨'s', "econd".toList, rfl, by decide⟩, by decide⟩ h
            exact (ih x).2 hx
        · revert hk; decide
      · rintro ⟨v, m, ty, hv, hk, hp, h⟩
        rcases mem v hv with rfl | rfl
        · revert hk; decide
        · obtain ⟨rfl, rfl⟩ := place_unique pl2 hp
          rcases h with ⟨h, _⟩ | ⟨ts, p, o, _, _, h, _⟩
          · revert h; decide
          · obtain ⟨x, hx⟩ := step (base := ['b']) (s := "first".toList) (by decide) ⟨⟨'f', "irst".toList, rfl, by decide⟩, by decide⟩ h
            exact (ih x).1 hx
  have h1 : ∀ n, ¬ Final exCycle.flatten.flatten cyTypedefs "first".toList n := fun n ⟨d, h⟩ => (key d n).1 h
  refine ⟨h1, fun fuel => ?_⟩
  cases hg : gather cyTypedefs fuel exCycle with
  | none => rfl
  | some d =>
    obtain ⟨_, hf⟩ := (C71_accepted_iff (by decide) cycle_texts).1 ⟨fuel, d, hg⟩
    obtain ⟨n, hn⟩ := hf (nv "first" "a(second)" "integer" "" "MODULE_m") (by decide)
    exact absurd hn (h1 n)

end Ccpp.PB
