import Verif.Model.DataFlow
/-!
# Specification for C54: every value a scheme reads was provided before

Only the suite itself is mentioned here (the order of its groups and schemes), not the analysis.
-/
namespace Ccpp.DF

/-- A use of a standard name: number of the group, phase, and the argument. -/
abbrev Use := Nat × Phase × Arg

/-- The arguments of the schemes of the groups, numbered from `k` on, in suite order. -/
def usesFrom : Nat → List Group → List Use
  | _, [] => []
  | k, grp :: gs => grp.body.flat.flatten.map (fun a => (k, grp.phase, a)) ++ usesFrom (k + 1) gs

/-- All arguments of all schemes of a suite, in suite order. -/
def Suite.uses (s : Suite) : List Use := usesFrom 0 s.groups

/-- The loop variables of CCPP. -/
def LoopVars : List String :=
  ["horizontal_loop_extent", "horizontal_loop_begin", "horizontal_loop_end", "vertical_layer_index",
   "vertical_interface_index"]

/-- `n` is available to group `g` after the uses `pre`: the host provides it, or a scheme earlier in
the same group used it, or a scheme of an earlier group did (loop variables stay in their group). -/
def Avail (host : Name → Bool) (pre : List Use) (g : Nat) (n : Name) : Prop :=
  host n = true ∨ ∃ u ∈ pre, u.2.2.std = n ∧ (u.1 = g ∨ n ∉ LoopVars)

/-- `Computed n req act`: the variable `n` may be replaced by the variables `req`; `act` says that it is
computed from them (`subst? n = some (req, act)` below: theorem `derived_variables`). -/
inductive Computed : Name → List Name → Bool → Prop where
  | extent : Computed "horizontal_loop_extent" ["horizontal_loop_begin", "horizontal_loop_end"] true
  | first : Computed "horizontal_loop_begin" ["ccpp_constant_one"] true
  | last : Computed "horizontal_loop_end" ["horizontal_loop_extent"] true
  | layer : Computed "vertical_layer_dimension" ["vertical_layer_index"] false
  | interface : Computed "vertical_interface_dimension" ["vertical_interface_index"] false

/-- A scalar of the run phase that can be computed from other available variables (for example
horizontal_loop_extent from horizontal_loop_begin and horizontal_loop_end). -/
def Derivable (host : Name → Bool) (pre : List Use) (u : Use) : Prop :=
  u.2.1 = .run ∧ u.2.2.array = false ∧
    ∃ req act, subst? u.2.2.std = some (req, act) ∧ ∀ r ∈ req, Avail host pre u.1 r

/-- Every argument that is read has a source: it is only written, or has a default value, or is
available or derivable. -/
def Complete (host : Name → Bool) (uses : List Use) : Prop :=
  ∀ pre u post, uses = pre ++ u :: post →
    u.2.2.intent = .out ∨ u.2.2.default = true ∨ Avail host pre u.1 u.2.2.std ∨ Derivable host pre u

/-- As `Complete`, but default values do not count, and derived variables are computed from host
variables. -/
def Provided (host : Name → Bool) (uses : List Use) : Prop :=
  ∀ pre u post, uses = pre ++ u :: post →
    u.2.2.intent = .out ∨ Avail host pre u.1 u.2.2.std ∨
    (u.2.1 = .run ∧ u.2.2.array = false ∧
      ∃ req, subst? u.2.2.std = some (req, true) ∧ ∀ r ∈ req, host r = true)

/-- The first use of a name. -/
def FirstUse (uses : List Use) (u : Use) : Prop :=
  ∃ pre post, uses = pre ++ u :: post ∧ ∀ w ∈ pre, w.2.2.std ≠ u.2.2.std

/-- Arrays created in the register phase are not used in other phases, and arrays created in a timestep
phase are not used in the finalize phase. -/
def Lasting (host : Name → Bool) (uses : List Use) : Prop :=
  ∀ u v, FirstUse uses u → v ∈ uses → v.2.2.std = u.2.2.std → host u.2.2.std = false →
    u.2.2.array = true →
    (u.2.1 = .register → v.2.1 = .register) ∧ ((u.2.1 = .tsInitial ∨ u.2.1 = .tsFinal) → v.2.1 ≠ .finalize)

/-- No scheme has two arguments with the same standard name. -/
def Distinct (s : Suite) : Prop :=
  ∀ grp ∈ s.groups, ∀ c ∈ grp.body.flat, (c.map Arg.std).Nodup

/-- `Runs k b t`: executing the parts `b` calls the schemes `t`, when every subcycle makes at least `k`
iterations. -/
inductive Runs (k : Nat) : Body → List Call → Prop where
  | empty : Runs k .empty []
  | call (c : Call) : Runs k (.call c) [c]
  | seq {a b ta tb} : Runs k a ta → Runs k b tb → Runs k (.seq a b) (ta ++ tb)
  | loop {b} (ts : List (List Call)) : k ≤ ts.length → (∀ t ∈ ts, Runs k b t) →
      Runs k (.loop b) ts.flatten

/-- A call of a group's subroutine: number, phase, and the schemes executed. -/
abbrev Event := Nat × Phase × List Call

/-- The run groups, numbered from `j` on, one after the other. -/
inductive RunGroups (k : Nat) : Nat → List Body → List Event → Prop where
  | nil (j : Nat) : RunGroups k j [] []
  | cons {j b bs t ev} : Runs k b t → RunGroups k (j + 1) bs ev →
      RunGroups k j (b :: bs) ((j, .run, t) :: ev)

/-- A number of timesteps: timestep_initial, the run groups in suite order, timestep_final. -/
inductive Timesteps (k : Nat) (s : Suite) : Nat → List Event → Prop where
  | nil : Timesteps k s 0 []
  | cons {ti ev tf rest n} : Runs k s.tsi ti → RunGroups k 3 s.runs ev → Runs k s.tsf tf →
      Timesteps k s n rest →
      Timesteps k s (n + 1) ((2, .tsInitial, ti) :: ev ++ (3 + s.runs.length, .tsFinal, tf) :: rest)

/-- Any number of cycles: initialize, at least `j` timesteps, finalize. -/
inductive Cycles (k j : Nat) (s : Suite) : List Event → Prop where
  | nil : Cycles k j s []
  | cons {i ev f rest n} : Runs k s.ini i → Timesteps k s n ev → j ≤ n → Runs k s.fin f →
      Cycles k j s rest →
      Cycles k j s ((1, .initialize, i) :: ev ++ (4 + s.runs.length, .finalize, f) :: rest)

/-- The life of a suite: register, then cycles, with at least `j` timesteps each, in which every
subcycle makes at least `k` iterations. -/
inductive History (k j : Nat) (s : Suite) : List Event → Prop where
  | mk {r ev} : Runs k s.reg r → Cycles k j s ev → History k j s ((0, .register, r) :: ev)

/-- Execute a history; `none`: an undefined value was read. -/
def execAll (st : St) : Mem → List Event → Option Mem
  | m, [] => some m
  | m, (g, ph, t) :: es =>
    match execGroup st g ph t m with
    | none => none
    | some m' => execAll st m' es

/-- At the beginning exactly the host's variables have values. -/
def hostMem (host : Name → Bool) : Mem := fun l =>
  match l with
  | .host n => host n
  | _ => false

end Ccpp.DF
