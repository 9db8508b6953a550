import Mathlib.Data.Rat.Defs
/-!
# Model of the code around a scheme call for a converted argument

`scripts/suite_objects.py`: `Scheme.add_var_transform` (1623-1713), `write_var_transform`
(1714-1744), `associate_optional_var` (1590-1604), `assign_pointer_to_var` (1605-1622),
`CallList.call_string` (108-190) and `Scheme.write` (1745-1841); `VarCompatObj.forward_transform`,
`reverse_transform` (`var_props.py`:1002-1090).

The generated statements are given their Fortran meaning.  One argument is modelled; an array is a
function of its vertical index (the other indices are `:` and are treated elementwise).
-/
namespace Ccpp.TR

/-- metavar.py:98-262 (the intent property) -/
inductive Intent where
  | «in» | out | inout
deriving DecidableEq, Repr

/-- An argument for which a unit, kind or orientation conversion is registered,
suite_objects.py:1270-1277.  `lo`/`hi` are the values of the vertical bounds. -/
structure Arg where
  intent : Intent
  optional : Bool
  flip : Bool
  lo : Int
  hi : Int

/-- Notation: a Fortran array, by index. -/
abbrev Arr := Int → Rat

/-- The positions of section `lo:hi`, suite_objects.py:1673 -/
def Arg.lindices (a : Arg) : List Int := (List.range (a.hi + 1 - a.lo).toNat).map fun (j : Nat) => a.lo + (j : Int)

/-- The positions of `hi:lo:-1` or `lo:hi`, suite_objects.py:1674-1678 -/
def Arg.rindices (a : Arg) : List Int := if a.flip then a.lindices.reverse else a.lindices

/-- Fortran array assignment `dst(l) = f(src(r))`; the right-hand side is evaluated first.
Fortran language semantics of the lines written at suite_objects.py:1711-1740. -/
def assign (dst : Arr) (l : List Int) (f : Rat → Rat) (src : Arr) (r : List Int) : Arr :=
  (l.zip (r.map fun i => f (src i))).foldl (fun d p i => if i = p.1 then p.2 else d i) dst

/-- Memory: the caller's variable (`none`: not allocated), the local copy `<name>_local`, and
whether the pointer `<name>_ptr` is associated (with the local copy, since a conversion is
registered). Notation: program state around a scheme call, suite_objects.py:1742-1841. -/
structure Mem where
  host : Option Arr
  loc : Arr
  ptr : Bool

/-- suite_objects.py:137-165 -/
inductive Actual where
  | host | loc | ptr
deriving DecidableEq, Repr

/-- Name passed as the actual argument, suite_objects.py:137-165: the local copy if there is a
reverse transform for the variable, else the pointer of an optional variable, else the variable. -/
def Arg.actual (a : Arg) : Actual :=
  if a.intent ≠ .out then .loc else if a.optional then .ptr else .host

/-- Pre-scheme conversion, suite_objects.py:1688-1699, 1789-1797, 1725-1731 -/
def pre (a : Arg) (toScheme : Rat → Rat) (m : Mem) : Except String Mem :=
  if a.intent ≠ .out then
    match m.host with
    | none => .error "reference to unallocated variable"
    | some h => .ok { m with loc := assign m.loc a.lindices toScheme h a.rindices }
  else .ok m

/-- Pointer association, suite_objects.py:1590-1604; `active` is the value of the condition. -/
def associate (a : Arg) (active : Bool) (m : Mem) : Mem :=
  if a.optional && active then { m with ptr := true } else m

/-- The scheme call.  `scheme` maps the argument's content to its content on return; `present` is
what the scheme can observe of an absent argument. suite_objects.py:1802 -/
def call (a : Arg) (scheme : Option Arr → Arr) (m : Mem) : Except String (Option Arr × Mem) :=
  match a.actual with
  | .host =>
    match m.host with
    | none => .error "unallocated actual argument"
    | some h => .ok (some h, if a.intent = .«in» then m else { m with host := some (scheme (some h)) })
  | .loc => .ok (some m.loc, if a.intent = .«in» then m else { m with loc := scheme (some m.loc) })
  | .ptr =>
    if m.ptr then .ok (some m.loc, if a.intent = .«in» then m else { m with loc := scheme (some m.loc) })
    else .ok (none, m)

/-- Post-scheme conversion, suite_objects.py:1701-1712, 1826-1836, 1735-1741.  (Copying the pointer
back, 1605-1622, is a self-assignment here.) -/
def post (a : Arg) (toHost : Rat → Rat) (m : Mem) : Except String Mem :=
  if a.intent ≠ .«in» then
    match m.host with
    | none => .error "assignment to unallocated variable"
    | some h => .ok { m with host := some (assign h a.rindices toHost m.loc a.lindices) }
  else .ok m

/-- Scheme.write, suite_objects.py:1745-1841, for this argument.  Result: what the scheme received
(`none`: not present) and the memory afterwards. -/
def run (a : Arg) (toScheme toHost : Rat → Rat) (active : Bool) (scheme : Option Arr → Arr) (m : Mem) :
    Except String (Option Arr × Mem) :=
  match pre a toScheme m with
  | .error e => .error e
  | .ok m1 =>
    match call a scheme (associate a active m1) with
    | .error e => .error e
    | .ok (got, m2) =>
      match post a toHost m2 with
      | .error e => .error e
      | .ok m3 => .ok (got, m3)

end Ccpp.TR
