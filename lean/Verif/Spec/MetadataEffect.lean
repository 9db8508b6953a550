import Verif.Spec.MetadataFile
/-!
# Specification for C63: what is written in a metadata file takes effect

An entry whose key is written once in its block (table header, section header, variable) has its effect.
-/
namespace Ccpp.MF

/-- The key `k` is written once, with value `v`. -/
def Once (es : List (List Char × List Char)) (k v : List Char) : Prop := valuesOf es k = [v]

/-- The entries of a variable take effect: a derived type (entry `type`) is its `ddt_type`; every other entry is a property
with its valid value (dimensions: as ranges). -/
def VarEffect (env : Env) (d : VarDoc) (p : Props) : Prop :=
  (∀ v, Once d.entries "type".toList v →
    if env.intrinsic v then p "type".toList = env.value "type".toList v ∧ p "type".toList ≠ none
    else p "ddt_type".toList = some (.text v) ∧ p "type".toList = none) ∧
  (∀ v, Once d.entries "dimensions".toList v → ∃ l, env.value "dimensions".toList v = some (.list l) ∧
    p "dimensions".toList = some (.list (l.map asRange))) ∧
  (∀ k v, k ∉ ["type".toList, "dimensions".toList, "local_name".toList] → Once d.entries k v →
    p k = env.value k v ∧ p k ≠ none) ∧
  (valuesOf d.entries "local_name".toList = [] → p "local_name".toList = some (localName d none))

/-- The entries of a section take effect. -/
def SectEffect (env : Env) (d : SectDoc) (s : Section) : Prop :=
  (∀ k v, Once d.entries k v →
    (k = "name".toList ∧ s.title = v) ∨ (k = "type".toList ∧ s.type = v) ∨
    (k = "module".toList ∧ s.module = v) ∨ (k = "process".toList ∧ s.process = v)) ∧
  All2 (VarEffect env) d.vars s.vars

/-- The entries of a table take effect. -/
def TableEffect (env : Env) (d : TableDoc) (t : Table) : Prop :=
  (∀ k v, Once d.entries k v →
    (k = "name".toList ∧ t.name = some v) ∨ (k = "type".toList ∧ t.type = some v) ∨
    (k = "relative_path".toList ∧ t.path = some v) ∨ k = "dependencies".toList) ∧
  (∀ v ∈ valuesOf d.entries "dependencies".toList,
    if lower v = "none".toList then t.deps = []
    else ∀ x ∈ Chk.splitOn ',' v, strip x ≠ [] → env.abspath (env.join (depDir env t.path) (strip x)) ∈ t.deps) ∧
  All2 (SectEffect env) d.sects t.sects

end Ccpp.MF
