import Verif.Model.HostConst
/-!
# What the constituents of a host cap should be
-/
namespace Ccpp.HC
open Const Hash

variable {R : Type}

/-! ## Python side -/

/-- The variables without later ones of the same name. -/
def uniq : List (CVar R) → List (CVar R)
  | [] => []
  | v :: vs => v :: (uniq vs).filter fun w => decide (w.name ≠ v.name)

/-- The name says that the variable is a tendency: it contains `tendency_of`. -/
def Tend (n : Str) : Prop := "tendency_of".toList <:+: n

/-- `s` is `a`, then the first occurrence of `sep`, then `r`. -/
def FirstCut (sep s a r : Str) : Prop := s = a ++ sep ++ r ∧ ¬ sep <:+: a ++ sep.dropLast

/-- `x` is the text of `n` between the first and the second occurrence of `tendency_of_` (or to the end). -/
def TendOf (n x : Str) : Prop :=
  ∃ a r, FirstCut "tendency_of_".toList n a r ∧
    ((¬ "tendency_of_".toList <:+: r ∧ x = r) ∨ ∃ b, FirstCut "tendency_of_".toList r x b)

/-- The only shape that is supported: the last part of the first dimension is `horizontal_dimension`, that of the second and last
one `vertical_layer_dimension`. -/
def GoodDims (ds : List Str) : Prop :=
  ∃ h z, ds = [h, z] ∧ (Chk.splitOn ':' h).getLast? = some "horizontal_dimension".toList ∧
    (Chk.splitOn ':' z).getLast? = some "vertical_layer_dimension".toList

/-- The reference to the data of `x` in the constituents object. -/
def slotRef (array x : Str) : Str := array ++ "(:,:,index_of_".toList ++ x ++ ")".toList

/-- A metadata entry is right for a variable. -/
def EntryFor (v : CVar R) (e : Entry) : Prop :=
  e.name = v.name ∧ e.units = v.units ∧ e.dims = v.dims ∧
  (¬ Tend v.name → e.loc = slotRef "vars_layer".toList v.name) ∧
  (Tend v.name → ∃ x, TendOf v.name x ∧ e.loc = slotRef "vars_layer_tend".toList x)

/-- How a part of a dimension is replaced when a constituent is made for the host. -/
inductive Replaced : Str → Str → Prop where
  | extent : Replaced "horizontal_loop_extent".toList "horizontal_dimension".toList
  | last : Replaced "horizontal_loop_end".toList "horizontal_dimension".toList
  | first : Replaced "horizontal_loop_begin".toList "ccpp_constant_one".toList
  | keep (d : Str) (h1 : d ≠ "horizontal_loop_extent".toList) (h2 : d ≠ "horizontal_loop_end".toList)
      (h3 : d ≠ "horizontal_loop_begin".toList) : Replaced d d

/-- The constituent made for the host from a scheme's variable: only the dimensions change. -/
def MadeFrom (v w : CVar R) : Prop :=
  w = { v with dims := w.dims } ∧
    List.Forall₂ (fun d e => List.Forall₂ Replaced (Chk.splitOn ':' d) (Chk.splitOn ':' e)) v.dims w.dims

/-- The requests of a suite for variables, each with `is_constituent`, and what the suite's dictionary is afterwards. -/
def dictAfter (parent : Str → Option (CVar R)) (reqs : List (Bool × CVar R)) : List (CVar R) :=
  reqs.foldl (fun d q => (findVar d parent q.1 q.2).1) []

/-- The requests for constituents that the enclosing scopes do not have. -/
def wanted (parent : Str → Option (CVar R)) (reqs : List (Bool × CVar R)) : List (CVar R) :=
  (reqs.filter fun q => q.1 && (parent q.2.name).isNone).map (·.2)

/-! ## Run time side -/

/-- The constituents of the suites, in order, as objects at the addresses next, next+1, ... -/
def suiteObjs (next : Nat) (suites : List (List (CVar R))) : List (Ptr R) :=
  (suites.flatMap suiteConsts).mapIdx fun i v => suitePtr (next + i) v

/-- Everything that is registered, in order. -/
def order (next : Nat) (host : List (Ptr R)) (dyn : List (List (Ptr R))) (suites : List (List (CVar R))) : List (Ptr R) :=
  host ++ dyn.flatten ++ suiteObjs next suites

/-- The first of these with this name. -/
def first (l : List (Ptr R)) (n : Str) : Option (Ptr R) := l.find? fun p => decide (rtrim p.name = rtrim n)

/-- The attributes that have to agree: advected, thermodynamically active, water species, units. -/
structure Attrs where
  advected : Bool
  thermo : Bool
  water : Bool
  units : Str
  deriving DecidableEq

/-- The attributes of a registered constituent; those of the suites (address next or above) are neither thermodynamically active
nor water species. -/
def attrs (h : Heap R) (next : Nat) (p : Ptr R) : Attrs :=
  ⟨p.advected, if p.id < next then (h p.id).thermo else false, if p.id < next then (h p.id).water else false, rtrim p.units⟩

/-- The host's objects can be registered: instantiated, distinct, and not registered before. -/
structure Fresh (h : Heap R) (next : Nat) (l : List (Ptr R)) : Prop where
  ids : l.Pairwise fun p q => p.id ≠ q.id
  lt : ∀ p ∈ l, p.id < next
  new : ∀ p ∈ l, (h p.id).constInd = none

/-- Names and units fit into the buffers. -/
def Short (l : List (Ptr R)) : Prop := ∀ p ∈ l, p.name.length ≤ 256 ∧ p.units.length ≤ 256

/-- Constituents of the same name have the same attributes as the first of them. -/
def Agree (h : Heap R) (next : Nat) (l : List (Ptr R)) : Prop :=
  ∀ p ∈ l, ∀ q, first l p.name = some q → attrs h next q = attrs h next p

/-- The state after a successful registration. -/
structure Registered (l : List (Ptr R)) (names : List Str) (r : Reg R) : Prop where
  locked : (propsLocked r.obj).1 = true
  table : ∃ L : List (Ptr R), r.obj.metadata = some (L.map some) ∧
    (∀ p, p ∈ L ↔ p ∈ l ∧ first l p.name = some p) ∧
    L.Pairwise (fun p q => rtrim p.name ≠ rtrim q.name) ∧
    (∀ (i : Nat) (p : Ptr R), L[i]? = some p → (p.advected = true ↔ i < r.obj.numAdvected)) ∧
    r.indices.length = names.length ∧
    ∀ (i : Nat) n, names[i]? = some n → ∃ (j : Nat) (p : Ptr R), r.indices[i]? = some ((j : Int) + 1) ∧ L[j]? = some p ∧ first l n = some p

end Ccpp.HC
