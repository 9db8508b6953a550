import Verif.Model.StaticApi
/-!
# Specification for C72: what the static API of prebuild does when a host calls it

The input: the suites, which routines the schemes have (`has`), the error codes of the routines (`beh`, a function of all calls so
far), and the history of calls of the host.  Shared with the model: the records, the names of stages, groups, functions and
modules, and `trim`.
-/
namespace Ccpp.SA

/-- The routines that a stage of a group calls, in order, with loop counter and loop extent: in the run stage every subcycle is
repeated, in the other stages it is done once. -/
def planned (has : List Char → Stage → Bool) (st : Stage) (i : Nat) (g : PB.Group) : List Event :=
  (g.subs.map fun sub =>
    let schemes := sub.2.filter fun s => has s st
    if st = .run then
      ((List.range sub.1.toNat).map fun (c : Nat) => schemes.map fun s => (⟨s ++ ['_'] ++ st.full, i, c + 1, sub.1⟩ : Event)).flatten
    else schemes.map fun s => ⟨s ++ ['_'] ++ st.full, i, 1, 1⟩).flatten

/-- Calls one after another, until one returns an error: the error code, and all calls so far. -/
def attempt (beh : List Event → Int) : List Event → List Event → Int × List Event
  | tr, [] => (0, tr)
  | tr, e :: es => if beh (tr ++ [e]) = 0 then attempt beh (tr ++ [e]) es else (beh (tr ++ [e]), tr ++ [e])

/-- The state that a host expects: which groups of which suites are initialised for which instances, and all calls so far. -/
structure Ideal where
  on : List Char → List Char → Nat → Bool
  trace : List Event

/-- The group is initialised or not. -/
def Ideal.set (x : Ideal) (s g : List Char) (i : Nat) (b : Bool) : Ideal :=
  { x with on := fun s' g' i' => if s' = s ∧ g' = g ∧ i' = i then b else x.on s' g' i' }

/-- What a stage of a group should do. -/
def idealGroup (has : List Char → Stage → Bool) (beh : List Event → Int) (st : Stage) (i : Nat) (s : List Char) (g : PB.Group)
    (x : Ideal) : Int × Ideal :=
  let a := attempt beh x.trace (planned has st i g)
  let y : Ideal := { x with trace := a.2 }
  match st with
  | .init => if x.on s (groupName g) i then (0, x) else (a.1, if a.1 = 0 then y.set s (groupName g) i true else y)
  | .final => if x.on s (groupName g) i then (a.1, if a.1 = 0 then y.set s (groupName g) i false else y) else (0, x)
  | _ => if x.on s (groupName g) i then (a.1, y) else (1, x)

/-- All groups of a suite, until the first error. -/
def idealSuite (has : List Char → Stage → Bool) (beh : List Event → Int) (st : Stage) (i : Nat) (s : List Char) :
    List PB.Group → Ideal → Int × Ideal
  | [], x => (0, x)
  | g :: gs, x =>
    let r := idealGroup has beh st i s g x
    if r.1 = 0 then idealSuite has beh st i s gs r.2 else r

/-- What a call of the API should do; the suite and the group are found by their names. -/
def idealApi (has : List Char → Stage → Bool) (beh : List Event → Int) (suites : List PB.Suite) (c : Call) (x : Ideal) : Int × Ideal :=
  match suites.find? fun s => s.name = trim c.suite with
  | none => (1, x)
  | some s =>
    match c.group with
    | none => idealSuite has beh c.stage c.inst s.name s.groups x
    | some n =>
      match s.groups.find? fun g => groupName g = trim n with
      | none => (1, x)
      | some g => idealGroup has beh c.stage c.inst s.name g x

/-- A history of calls. -/
def idealMany (has : List Char → Stage → Bool) (beh : List Event → Int) (suites : List PB.Suite) : List Call → Ideal → List Int × Ideal
  | [], x => ([], x)
  | c :: cs, x => ((idealApi has beh suites c x).1 :: (idealMany has beh suites cs (idealApi has beh suites c x).2).1,
      (idealMany has beh suites cs (idealApi has beh suites c x).2).2)

/-- Nothing is initialised, and nothing was called. -/
def fresh : Ideal := ⟨fun _ _ _ => false, []⟩

/-- A call concerns a group of a suite. -/
def Concerns (c : Call) (s : PB.Suite) (g : PB.Group) : Prop :=
  s.name = trim c.suite ∧ g ∈ s.groups ∧ (c.group = none ∨ ∃ n, c.group = some n ∧ trim n = groupName g)

/-- The host keeps the order: a group is run only when it is initialised, and finalised only when no other instance needs it. -/
def Proper (suites : List PB.Suite) (c : Call) (x : Ideal) : Prop :=
  ∀ s ∈ suites, ∀ g, Concerns c s g →
    (c.stage ≠ .init → c.stage ≠ .final → x.on s.name (groupName g) c.inst = true) ∧
    (c.stage = .final → ∀ j, j ≠ c.inst → x.on s.name (groupName g) j = false)

/-- The host keeps the order in the whole history. -/
def ProperAll (has : List Char → Stage → Bool) (beh : List Event → Int) (suites : List PB.Suite) : List Call → Ideal → Prop
  | [], _ => True
  | c :: cs, x => Proper suites c x ∧ ProperAll has beh suites cs (idealApi has beh suites c x).2

/-- The functions and the modules of the caps have different names. -/
def Linkable (suites : List PB.Suite) : Prop :=
  ((suites.map fun s => allStages.map (suiteFn s.name)).flatten ++
    (suites.map fun s => (s.groups.map fun g => (allStages.filter (inStage g)).map (groupFn s.name g)).flatten).flatten).Nodup ∧
  ((suites.map fun s => suiteModule s.name).append (suites.map fun s => s.groups.map (groupModule s.name)).flatten).Nodup

/-- Every subcycle is done at least once. -/
def Loops (suites : List PB.Suite) : Prop := ∀ s ∈ suites, ∀ g ∈ s.groups, ∀ sub ∈ g.subs, (1 : Int) ≤ sub.1

/-- No `init` and no `finalize` elements. -/
def OnlyGroups (suites : List PB.Suite) : Prop := ∀ s ∈ suites, ∀ g ∈ s.groups, g.tag = .group

/-- A call initialises a group for an instance. -/
def Initialises (s g : List Char) (i : Nat) (c : Call) : Prop :=
  c.stage = .init ∧ trim c.suite = s ∧ c.inst = i ∧ (c.group = none ∨ ∃ n, c.group = some n ∧ trim n = g)

/-- The elements `init` and `finalize` have only one stage. -/
def HasStage (g : PB.Group) (st : Stage) : Prop := (g.tag = .init → st = .init) ∧ (g.tag = .finalize → st = .final)

end Ccpp.SA
