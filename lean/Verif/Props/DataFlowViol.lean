import Verif.Props.DataFlowExec
/-! # C54: suites that are accepted although a value is read that was never assigned, and an example -/
namespace Ccpp.DF

/-- A host that provides only the constant one and the given names. -/
def hostOf (l : List Name) : Name → Bool := fun n => n == "ccpp_constant_one" || l.contains n

/-- An argument without default value. -/
def scalar (n : Name) (i : Intent) : Arg := ⟨n, i, false, false⟩
/-- An array argument without default value. -/
def arr (n : Name) (i : Intent) : Arg := ⟨n, i, false, true⟩

/-- The suite is accepted, and some history with at least `k` iterations per subcycle and `j` timesteps
per cycle reads an undefined value. -/
def ReadsUndefined (k j : Nat) (host : Name → Bool) (s : Suite) : Prop :=
  ∃ st h, analyze host s = some st ∧ History k j s h ∧ execAll st (hostMem host) h = none

/-- The history with one cycle of one timestep, for a suite with one run group. -/
theorem oneStep {k j : Nat} {s : Suite} {r i ti tr tf f : List Call} {b : Body} (hk : j ≤ 1)
    (hr : s.runs = [b]) (h0 : Runs k s.reg r) (h1 : Runs k s.ini i) (h2 : Runs k s.tsi ti)
    (h3 : Runs k b tr) (h4 : Runs k s.tsf tf) (h5 : Runs k s.fin f) :
    History k j s [(0, .register, r), (1, .initialize, i), (2, .tsInitial, ti), (3, .run, tr),
      (4, .tsFinal, tf), (5, .finalize, f)] := by
  refine .mk h0 ?_
  have hts : Timesteps k s 1 [(2, .tsInitial, ti), (3, .run, tr), (4, .tsFinal, tf)] := by
    have := Timesteps.cons h2 (by rw [hr]; exact RunGroups.cons h3 (RunGroups.nil _)) h4
      (Timesteps.nil (k := k) (s := s))
    rw [hr] at this
    exact this
  have := Cycles.cons (j := j) h1 hts hk h5 Cycles.nil
  rw [hr] at this
  exact this

/-- **C54 violated.** The default value of an argument that nothing provides is never assigned. -/
theorem C54_default_violated :
    ReadsUndefined 1 1 (hostOf [])
      ⟨.empty, .empty, .empty, [.call [⟨"x", .in, true, false⟩]], .empty, .empty⟩ := by
  refine ⟨_, _, rfl, oneStep (Nat.le_refl _) rfl .empty .empty .empty (.call _) .empty .empty, ?_⟩
  decide

/-- **C54 violated.** A subcycle may make no iteration; what its schemes would have assigned is read
after it. -/
theorem C54_subcycle_violated :
    ReadsUndefined 0 1 (hostOf [])
      ⟨.empty, .empty, .empty, [.seq (.loop (.call [scalar "x" .out])) (.call [scalar "x" .in])],
        .empty, .empty⟩ := by
  refine ⟨_, _, rfl, oneStep (Nat.le_refl _) rfl .empty .empty .empty
    (.seq (.loop [] (Nat.le_refl _) (by simp)) (.call _)) .empty .empty, ?_⟩
  decide

/-- **C54 violated.** The substitution for a vertical dimension has no statement that computes it. -/
theorem C54_vertical_violated :
    ReadsUndefined 1 1 (hostOf ["vertical_layer_index"])
      ⟨.empty, .empty, .empty, [.call [scalar "vertical_layer_dimension" .in]], .empty, .empty⟩ := by
  refine ⟨_, _, rfl, oneStep (Nat.le_refl _) rfl .empty .empty .empty (.call _) .empty .empty, ?_⟩
  decide

/-- **C54 violated.** An array created in a timestep phase (the first or the last of a timestep) is read in
the finalize phase, but was deallocated at the end of the timestep. -/
theorem C54_timestep_array_violated :
    ReadsUndefined 1 1 (hostOf [])
      ⟨.empty, .empty, .call [arr "x" .out], [.empty], .empty, .call [arr "x" .in]⟩ ∧
    ReadsUndefined 1 1 (hostOf [])
      ⟨.empty, .empty, .empty, [.empty], .call [arr "x" .out], .call [arr "x" .in]⟩ := by
  refine ⟨⟨_, _, rfl, oneStep (Nat.le_refl _) rfl .empty .empty (.call _) .empty .empty (.call _), ?_⟩,
    ⟨_, _, rfl, oneStep (Nat.le_refl _) rfl .empty .empty .empty .empty (.call _) (.call _), ?_⟩⟩
  · decide
  · decide

/-- **C54 violated.** An array created in the register phase is read in the run phase, but suite arrays
are allocated in the initialize phase. -/
theorem C54_register_array_violated :
    ReadsUndefined 1 1 (hostOf [])
      ⟨.call [arr "x" .out], .empty, .empty, [.call [arr "x" .in]], .empty, .empty⟩ := by
  refine ⟨_, _, rfl, oneStep (Nat.le_refl _) rfl (.call _) .empty .empty (.call _) .empty .empty, ?_⟩
  decide

/-- **C54 violated.** A loop variable is computed at the beginning of the group from one that a scheme
of the same group assigns later. -/
theorem C54_loop_variable_violated :
    ReadsUndefined 1 1 (hostOf [])
      ⟨.empty, .empty, .empty, [.seq (.call [scalar "horizontal_loop_extent" .out])
        (.call [scalar "horizontal_loop_end" .in])], .empty, .empty⟩ := by
  refine ⟨_, _, rfl, oneStep (Nat.le_refl _) rfl .empty .empty .empty (.seq (.call _) (.call _)) .empty
    .empty, ?_⟩
  decide

/-- **C54 violated.** The suite is finalized without a timestep; a variable assigned in the run phase is
read. -/
theorem C54_no_timestep_violated :
    ReadsUndefined 1 0 (hostOf [])
      ⟨.empty, .empty, .empty, [.call [scalar "x" .out]], .empty, .call [scalar "x" .in]⟩ := by
  refine ⟨_, [(0, .register, []), (1, .initialize, []), (5, .finalize, [[scalar "x" .in]])], rfl,
    .mk .empty ?_, ?_⟩
  · exact Cycles.cons (ev := []) (rest := []) .empty .nil (Nat.le_refl _) (.call _) .nil
  · decide

/-- Example for `C54_defined_before_use_partial`: a variable promoted to the suite, one created in a
timestep phase, a subcycle, and a derived loop variable. -/
def exampleSuite : Suite :=
  ⟨.empty, .call [scalar "coefficient" .out], .call [arr "tendency" .out, scalar "host_x" .in],
   [.loop (.seq (.call [scalar "coefficient" .in, arr "tendency" .inout, scalar "local" .out,
      scalar "horizontal_loop_extent" .in]) (.call [scalar "local" .in])),
    .call [arr "tendency" .in, scalar "local" .out]], .empty, .call [scalar "coefficient" .in]⟩

/-- The host of the example. -/
def exampleHost : Name → Bool := hostOf ["host_x", "horizontal_loop_begin", "horizontal_loop_end"]

example : ∃ st, analyze exampleHost exampleSuite = some st ∧ hasVar st.suite "coefficient" = true ∧
    hasVar st.suite "tendency" = true ∧ hasVar st.suite "local" = true := ⟨_, rfl, by decide⟩

/-- Checking a property of all splits of a list. -/
theorem splits_of_check {α : Type} (p : List α → α → Prop) (l : List α)
    (h : ∀ i (hi : i < l.length), p (l.take i) l[i]) :
    ∀ pre u post, l = pre ++ u :: post → p pre u := by
  intro pre u post e
  have hi : pre.length < l.length := by rw [e]; simp
  have := h pre.length hi
  simpa [e] using this

/-- A use of the example has a source. -/
def exOk (pre : List Use) (u : Use) : Bool :=
  decide (u.2.2.intent = .out ∨
        (exampleHost u.2.2.std || pre.any fun w => w.2.2.std == u.2.2.std &&
          (w.1 == u.1 || !loopNames.contains u.2.2.std)) = true ∨
        (u.2.1 = .run ∧ u.2.2.array = false ∧ u.2.2.std = "horizontal_loop_extent"))

theorem example_provided : Provided exampleHost exampleSuite.uses := by
  have key : ∀ (i : Nat) (hi : i < exampleSuite.uses.length),
      exOk (exampleSuite.uses.take i) exampleSuite.uses[i] = true := by
    decide
  intro pre u post e
  rcases of_decide_eq_true (splits_of_check (fun p u => exOk p u = true) _ key pre u post e)
    with h | h | ⟨h1, h2, h3⟩
  · exact Or.inl h
  · rw [Bool.or_eq_true] at h
    rcases h with h | h
    · exact Or.inr (Or.inl (Or.inl h))
    · obtain ⟨w, hw, h⟩ := List.any_eq_true.1 h
      simp only [Bool.and_eq_true, beq_iff_eq, Bool.or_eq_true, Bool.not_eq_true'] at h
      refine Or.inr (Or.inl (Or.inr ⟨w, hw, h.1, h.2.imp id ?_⟩))
      intro h hm
      rw [show loopNames.contains u.2.2.std = LoopVars.contains u.2.2.std from rfl, List.contains_iff_mem.2 hm] at h
      exact absurd h (by decide)
  · refine Or.inr (Or.inr ⟨h1, h2, ["horizontal_loop_begin", "horizontal_loop_end"], ?_, ?_⟩)
    · rw [h3]; decide
    · decide

theorem example_lasting : Lasting exampleHost exampleSuite.uses := by
  intro u v hu hv e _ ha
  have h1 : ∀ x ∈ exampleSuite.uses, x.2.1 ≠ .register ∧
      (x.2.1 = .finalize → x.2.2.array = false ∧ x.2.2.std = "coefficient") ∧
      (x.2.2.std = "coefficient" → x.2.2.array = false) := by decide
  refine ⟨fun h => absurd h (h1 u hu.mem).1, fun _ h => ?_⟩
  have := ((h1 v hv).2.1 h).2
  rw [e] at this
  have := (h1 u hu.mem).2.2 this
  rw [this] at ha
  exact absurd ha (by decide)

example : ∃ st, analyze exampleHost exampleSuite = some st ∧
    ∀ h, History 1 1 exampleSuite h → (execAll st (hostMem exampleHost) h).isSome := by
  refine C54_defined_before_use_partial _ (by decide) _ example_provided example_lasting ?_
  unfold Distinct
  decide

end Ccpp.DF
