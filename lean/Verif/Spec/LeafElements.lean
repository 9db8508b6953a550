import Verif.Model.LeafElements
/-!
# Specification of the elements of a variable
-/
namespace Ccpp.LE

/-- `c` is an array reference of `v`: its own, or if it has none one of the variable it was cloned from. -/
inductive Refers : RVar → RVar → Prop
  | orig {s d kids c} : c ∈ kids → Refers (.orig s d kids) c
  | own {s d kids src c} : c ∈ kids → Refers (.clone s d kids src) c
  | cloned {s d src c} : Refers src c → Refers (.clone s d [] src) c

/-- The same, or if there is none a reference of the variable with the same standard name in a dictionary. -/
inductive RefersIn (check : Str → Option RVar) (v c : RVar) : Prop
  | own : Refers v c → RefersIn check v c
  | other {p} : (∀ x, ¬Refers v x) → check v.std = some p → Refers p c → RefersIn check v c

/-- The standard names of the leaves below a variable. -/
inductive Leaf : RVar → Str → Prop
  | self {v} : (∀ c, ¬Refers v c) → Leaf v v.std
  | ref {v c x} : Refers v c → Leaf c x → Leaf v x

/-- Neither the variable nor a reference below it is of a derived type. -/
inductive Plain : RVar → Prop
  | mk {v} : v.ddt = none → (∀ c, Refers v c → Plain c) → Plain v

/-- The types are known, down to the types of components of components, and no reference is of a derived type. -/
inductive Known (lib : Str → Option (List RVar)) (check : Str → Option RVar) : RVar → Prop
  | simple {v} : v.ddt = none → (∀ c, RefersIn check v c → Plain c) → Known lib check v
  | typed {v t fs} : v.ddt = some t → lib t = some fs → (∀ f ∈ fs, Known lib check f) → (∀ c, RefersIn check v c → Plain c) →
      Known lib check v

/-- The names are not empty. -/
inductive Named : RVar → Prop
  | mk {v} : v.std ≠ [] → (∀ c, Refers v c → Named c) → Named v

/-- What the documentation says: the leaves of intrinsic type, those of the references, or else those of the components of a derived type, or else
the variable. -/
inductive Intrinsic (lib : Str → Option (List RVar)) : (Str → Option RVar) → RVar → Str → Prop
  | self {check v} : (∀ c, ¬RefersIn check v c) → v.ddt = none → Intrinsic lib check v v.std
  | ref {check v c x} : RefersIn check v c → Intrinsic lib (fun _ => none) c x → Intrinsic lib check v x
  | component {check v t fs f x} : (∀ c, ¬RefersIn check v c) → v.ddt = some t → lib t = some fs → f ∈ fs → Intrinsic lib check f x →
      Intrinsic lib check v x

end Ccpp.LE
