import Verif.Model.PrebuildValues
/-!
# What a call of a scheme has to do with the variables of the host (C75)
-/
namespace Ccpp.PV
open PB (Str)
open PA (Intent)

/-- What a scheme has to see of a variable: in the run phase the current block, in all other phases the columns of all blocks. -/
def visible {V} (env : Env V) (run : Bool) (k : Str) (bs : List (List V)) : List V :=
  if run && blocked k then (bs[env.blk]?).getD [] else bs.flatten

/-- The value in the units of the scheme -/
def toScheme {V} (env : Env V) (a : Arg) (v : List V) : List V := match a.conv with | some f => v.map (env.fn f.1) | none => v
/-- The value in the units of the host -/
def toHost {V} (env : Env V) (a : Arg) (v : List V) : List V := match a.conv with | some f => v.map (env.fn f.2) | none => v

/-- The arguments that the scheme has to get: the values of the active variables in its own units -/
def inputs {V} (env : Env V) (run : Bool) (h : Host V) (args : List Arg) (d : Str) : Option (List V) :=
  match args.find? (fun a => a.loc == d) with
  | some a => if env.active a.cond h then some (toScheme env a (visible env run a.key (h a.key))) else none
  | none => none

/-- The call of scheme `S` with these arguments changes the variables of the host from `h` to `h'`. -/
structure CallSpec {V} (env : Env V) (run : Bool) (S : Scheme V) (args : List Arg) (h h' : Host V) : Prop where
  /-- no other variable of the host changes -/
  frame : ∀ k, (∀ a ∈ args, a.key ≠ k) → h' k = h k
  /-- variables that are only read, and variables that are not active, do not change -/
  unchanged : ∀ a ∈ args, (a.intent = .in ∨ env.active a.cond h = false) → h' a.key = h a.key
  /-- the blocks keep their sizes -/
  shape : ∀ a ∈ args, (h' a.key).map List.length = (h a.key).map List.length
  /-- in the run phase only the current block changes -/
  others : run = true → ∀ a ∈ args, blocked a.key = true → ∀ i, i ≠ env.blk → (h' a.key)[i]? = (h a.key)[i]?
  /-- the host gets the results of the scheme in its own units -/
  result : ∀ a ∈ args, a.intent ≠ .in → env.active a.cond h = true →
    visible env run a.key (h' a.key) = toHost env a (S (inputs env run h args) a.loc)

/-- The calls of a group, until one of them sets the error flag -/
inductive GroupSpec {V} (env : Env V) (run : Bool) (failed : Host V → Bool) : List (Scheme V × List Arg) → Host V → Host V → Prop where
  | done (h) : GroupSpec env run failed [] h h
  | stop {c cs h h'} : CallSpec env run c.1 c.2 h h' → failed h' = true → GroupSpec env run failed (c :: cs) h h'
  | next {c cs h h' h''} : CallSpec env run c.1 c.2 h h' → failed h' = false → GroupSpec env run failed cs h' h'' →
      GroupSpec env run failed (c :: cs) h h''

/-- The rules for a scheme in Fortran: the arguments keep their sizes; the results do not depend on the values that arguments
with intent(out) have before the call. -/
structure SchemeOk {V} (S : Scheme V) (args : List Arg) : Prop where
  size : ∀ v d l, v d = some l → (S v d).length = l.length
  out : ∀ v w : Str → Option (List V), (∀ d, (v d).map List.length = (w d).map List.length) →
    (∀ d, (∀ a ∈ args, a.loc = d → a.intent ≠ .out) → v d = w d) → S v = S w

/-- The shape of a variable fits: its blocks have the sizes that the host says and fill the horizontal dimension; a variable that is not
in a blocked structure is one block; the current block exists; a scalar is one value. -/
def ShapeOk {V} (env : Env V) (run : Bool) (bs : List (List V)) (a : Arg) : Prop :=
  (deblock run a = true → bs.map List.length = env.sizes ∧ env.sizes.sum = env.hdim) ∧
  (blocked a.key = false → bs.length = 1) ∧
  (run = true → blocked a.key = true → env.blk < bs.length) ∧
  (a.arr = false → ∀ b ∈ bs, b.length = 1)

/-- The condition of an argument of a call does not depend on variables that the call changes. -/
def CondOk {V} (env : Env V) (args : List Arg) : Prop :=
  ∀ a ∈ args, ∀ h h' : Host V, (∀ k, (∀ b ∈ args, b.key = k → b.intent = .in) → h k = h' k) →
    env.active a.cond h = env.active a.cond h'

/-- The blocks of all variables have the same sizes. -/
def SameShape {V} (h h' : Host V) : Prop := ∀ k, (h k).map List.length = (h' k).map List.length

/-- What is required of the calls of a group and of the variables of the host. -/
structure GroupOk {V} (env : Env V) (run : Bool) (calls : List (Scheme V × List Arg)) (h : Host V) : Prop where
  /-- the arguments of a call are different variables of the host, with different names in the scheme -/
  keys : ∀ c ∈ calls, c.2.Pairwise (·.key ≠ ·.key)
  locs : ∀ c ∈ calls, c.2.Pairwise (·.loc ≠ ·.loc)
  schemes : ∀ c ∈ calls, SchemeOk c.1 c.2
  conds : ∀ c ∈ calls, CondOk env c.2
  /-- a variable with the horizontal dimension is an array; the rank of a variable is the same in all schemes -/
  array : ∀ c ∈ calls, ∀ a ∈ c.2, a.hdim = true → a.arr = true
  rank : ∀ c ∈ calls, ∀ a ∈ c.2, ∀ c' ∈ calls, ∀ b ∈ c'.2, a.key = b.key → a.arr = b.arr
  /-- the variables have the right shapes whenever they are active -/
  shape : ∀ h', SameShape h h' → ∀ c ∈ calls, ∀ a ∈ c.2, env.active a.cond h' = true → ShapeOk env run (h' a.key) a
  always : ∀ h', env.active trueText h' = true

/-- The cases in which the generated code is right: a variable with a condition that needs a unit conversion has intent(inout) (or is copied from
blocks), and the formula of a conversion of an array ends in the variable. -/
def Handled (run : Bool) (a : Arg) : Prop :=
  (deblock run a = true ∨ a.conv = none ∨ a.cond = trueText ∨ a.intent = .inout) ∧
  (deblock run a = false → ∀ f, a.conv = some f → a.intent ≠ .out → a.dims = [] ∨ endsInVar f.1 = true)

/-- Lower case (Fortran names) -/
def sameName (a b : Str) : Prop := lower a = lower b

end Ccpp.PV
