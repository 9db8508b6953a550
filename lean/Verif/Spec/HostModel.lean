import Verif.Model.HostModel
import Verif.Spec.MetadataFile
/-!
# Specification for C67 (components of derived types of the host) and C68 (imports of the host cap)

Shared with the model: variables, types (`Lib`), headers, `Ref` (what a look-up returns).
-/
namespace Ccpp.HM

/-- The variables of the host: those of its headers and the constituents object. -/
def variablesOf (headers : List Header) (const : Option (Str × V)) : List V :=
  headers.flatMap (·.vars) ++ (const.map (·.2)).toList

/-- The list of the paths from these variables to all their components at all depths (and to themselves).  There is none if a
type contains itself. -/
inductive Paths (lib : Lib) : List V → List (List V) → Prop
  | nil : Paths lib [] []
  | leaf {c rest ps} : (c.ddt = false ∨ ∀ t ∈ lib, t.1 ≠ c.type) → Paths lib rest ps → Paths lib (c :: rest) ([c] :: ps)
  | node {c fields rest qs ps} : c.ddt = true → (c.type, fields) ∈ lib → Paths lib fields qs → Paths lib rest ps →
      Paths lib (c :: rest) (qs.map (c :: ·) ++ [c] :: ps)

/-- The end of a path, if there is one. -/
def last : List V → V
  | [] => ⟨[], [], [], false, []⟩
  | [v] => v
  | _ :: v :: p => last (v :: p)

/-- The beginning of a path. -/
def root : List V → V
  | [] => ⟨[], [], [], false, []⟩
  | v :: _ => v

/-- Fortran reference for a path whose end is written as the text given: the names separated by `%`. -/
def pathText : List V → Str → Str
  | [], t => t
  | [_], t => t
  | v :: w :: p, t => v.loc ++ "%".toList ++ pathText (w :: p) t

/-- The loop variables of CCPP. -/
def LoopVars : List (List Char) := ["horizontal_loop_extent", "horizontal_loop_begin", "horizontal_loop_end", "vertical_layer_index",
  "vertical_interface_index"].map String.toList

/-- No local name of a loop variable of a host header is also that of a loop component known then. -/
def NoLoopClash (lib : Lib) (headers : List Header) : Prop :=
  ∀ a x b, headers = a ++ x :: b → (match x.kind with | .host => True | _ => False) →
    ∀ v ∈ x.vars, v.std ∈ LoopVars → ∀ ps, Paths lib ((a ++ [x]).flatMap (·.vars)) ps → ∀ p ∈ ps, 2 ≤ p.length →
      (last p).std ∈ LoopVars → lower v.loc ≠ lower (last p).loc

/-- What is accepted: types have distinct names; there are only module and host headers; the types of variables are known;
no type contains itself; the standard names of all variables and components are distinct; so are the local names of variables;
and those of all components. -/
structure Acceptable (lib : Lib) (headers : List Header) (const : Option (Str × V)) (ps : List (List V)) : Prop where
  titles : (lib.map (·.1)).Nodup
  kinds : ∀ x ∈ headers, (match x.kind with | .other => False | _ => True)
  known : ∀ v ∈ variablesOf headers const, v.ddt = true → ∃ t ∈ lib, t.1 = v.type
  paths : Paths lib (variablesOf headers const) ps
  stdNames : (ps.map fun p => (last p).std).Nodup
  constant : ∀ p ∈ ps, (last p).std ≠ "ccpp_constant_one".toList
  locals : ((variablesOf headers const).map fun v => lower v.loc).Nodup
  components : ((ps.filter fun p => 2 ≤ p.length).map fun p => lower (last p).loc).Nodup
  loops : NoLoopClash lib headers

/-- Texts separated by a text. -/
def joined (sep : Str) : List Str → Str
  | [] => []
  | [x] => x
  | x :: y :: l => x ++ sep ++ joined sep (y :: l)

/-- There is a variable or component with this standard name. -/
def Named (ps : List (List V)) (s : Str) : Prop := s ≠ [] ∧ ∃ p ∈ ps, (last p).std = s

/-- The Fortran reference of a variable or component: the names on the path separated by `%`.  If the last name is an array
reference `name(i, j:k)`, then standard names in it are replaced by their references and numbers are kept.  `dims` are the dimensions,
each one the parts separated by colons with their replacements. -/
inductive PathRef (ps : List (List V)) : List V → Str → Prop
  | plain {p} : p ∈ ps → '(' ∉ (last p).loc → PathRef ps p (pathText p (last p).loc)
  | array {p name raws} {dims : List (List (Str × Str))} {q : Str → List V} : p ∈ ps → dims ≠ [] →
      (last p).loc = name ++ "(".toList ++ joined ",".toList raws ++ ")".toList →
      name ≠ [] → '(' ∉ name → strip name = name →
      raws.map strip = dims.map (fun d => joined ":".toList (d.map (·.1))) →
      (∀ r ∈ raws, ',' ∉ r) → (∀ d ∈ dims, d ≠ [] ∧ ∀ x ∈ d, ':' ∉ x.1) →
      (∀ d ∈ dims, ∀ x ∈ d, ¬ Named ps x.1 → (x.1 = [] ∧ x.2 = []) ∨ (x.1 = "ccpp_constant_one".toList ∧ x.2 = "1".toList) ∨
        (x.1 ≠ "ccpp_constant_one".toList ∧ Chk.isPyInt x.1 = true ∧ x.2 = x.1)) →
      (∀ d ∈ dims, ∀ x ∈ d, Named ps x.1 → q x.1 ∈ ps ∧ (last (q x.1)).std = x.1) →
      (∀ d ∈ dims, ∀ x ∈ d, Named ps x.1 → PathRef ps (q x.1) x.2) →
      PathRef ps p (pathText p (name ++ "(".toList ++ joined ", ".toList (dims.map fun d => joined ":".toList (d.map (·.2))) ++ ")".toList))

/-- What is right in the code: no component has components, and no variable with components is an array reference. -/
def Shallow (ps : List (List V)) : Prop := ∀ p ∈ ps, p.length ≤ 2 ∧ (p.length = 2 → '(' ∉ (root p).loc)

/-! ## Imports -/

/-- The text is an array reference with this index (a name or a number). -/
def IndexIn (loc i : Str) : Prop := ∃ name b raws, Chk.IsName name ∧ FDecl.Blank b ∧
  loc = name ++ b ++ "(".toList ++ joined ",".toList raws ++ ")".toList ∧ raws.length ≤ 7 ∧
  (∀ r ∈ raws, MF.Index (strip r)) ∧ i ∈ raws.map strip ∧ i ≠ ":".toList

/-- A standard name that is requested, or used as an index in the local name of such a variable. -/
inductive Wanted (find : Str → Option Ref) (reqs : List Str) : Str → Prop
  | asked {s} : s ∈ reqs → Wanted find reqs s
  | index {s r i} : Wanted find reqs s → find s = some r → IndexIn r.leaf.loc i → Wanted find reqs i

/-- The variable is in a module. -/
def InModule (headers : List Header) (m : Str) (v : V) : Prop :=
  ∃ x ∈ headers, (match x.kind with | .module_ n => n = m | _ => False) ∧ v ∈ x.vars

end Ccpp.HM
