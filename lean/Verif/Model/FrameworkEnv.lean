import Verif.Model.Text
/-!
# Model of `scripts/framework_env.py`: preprocessor definitions and kind specifications

A Python dict is an association list in insertion order.
-/
namespace Ccpp.Env

/-- Notation: a Python string. -/
abbrev Str := List Char

/-- `str.split(c)` for a one-character separator (Python library). -/
def splitC (c : Char) : Str → List Str
  | [] => [[]]
  | d :: s =>
    if d = c then [] :: splitC c s
    else match splitC c s with
      | [] => [[d]]
      | t :: ts => (d :: t) :: ts

/-- `str.split(c, 1)` (Python library). -/
def split1 (c : Char) : Str → List Str
  | [] => [[]]
  | d :: s =>
    if d = c then [[], s]
    else match split1 c s with
      | [] => [[d]]
      | t :: ts => (d :: t) :: ts

/-- `d[k] = v` on a dict (Python library). -/
def put {β : Type} (d : List (Str × β)) (k : Str) (v : β) : List (Str × β) :=
  if d.any (fun p => p.1 == k) then d.map fun p => if p.1 == k then (k, v) else p
  else d ++ [(k, v)]

/-- `d.get(k)` (Python library). -/
def get {β : Type} (d : List (Str × β)) (k : Str) : Option β := (d.find? fun p => p.1 == k).map (·.2)

/-! ## Kinds -/

/-- One iteration of the loop over kind specifications, framework_env.py:153-166.  Simplification:
the accumulated error text is only the fact that there is one. -/
def kindStep (s : Bool × List (Str × Str)) (kind : Str) : Bool × List (Str × Str) :=
  match (splitC '=' (strip kind)).map strip with
  | [name, spec] => (s.1, put s.2 name spec)
  | _ => (true, s.2)

/-- framework_env.py:145-170 and the final check (210-212); `none` is the ValueError. -/
def kindDict (kinds : List Str) : Option (List (Str × Str)) :=
  let s := kinds.foldl kindStep (false, [])
  let d := if s.2.any (fun p => p.1 == "kind_phys".toList) then s.2
    else s.2 ++ [("kind_phys".toList, "REAL64".toList)]
  if s.1 then none else some d

/-- kind_spec, framework_env.py:268-277 -/
def kindSpec (d : List (Str × Str)) (k : Str) : Option Str := get d k

/-- kind_types, framework_env.py:279-282 -/
def kindTypes (d : List (Str × Str)) : List Str := d.map (·.1)

/-! ## Preprocessor definitions -/

/-- The argument: a list, or a string ('UNSET' and '' mean nothing).
framework_env.py:24-130 -/
inductive Defs where
  | list (l : List Str)
  | str (s : Str)

/-- framework_env.py:96-108 -/
def defList : Defs → List Str
  | .list l => l
  | .str s =>
    if s = [] ∨ s = "UNSET".toList then []
    else if ',' ∈ s then (splitC ',' s).map strip
    else ((splitC ' ' s).filter (!·.isEmpty)).map strip

/-- One item, framework_env.py:116-131 (`split('=', 1)` never gives more than two parts, so the
error branch is dead). -/
def defStep (d : List (Str × Option Str)) (item : Str) : List (Str × Option Str) :=
  match (split1 '=' item).map strip with
  | [] => d
  | key :: rest =>
    let key := if key.take 2 = "-D".toList then key.drop 2 else key
    put d key rest.head?

/-- preproc_defs, framework_env.py:92-132 -/
def preprocDefs (x : Defs) : List (Str × Option Str) := (defList x).foldl defStep []

end Ccpp.Env
