import Verif.Model.PrebuildSdfs
import Mathlib.Data.List.Forall2
/-!
# Specification of the choice of the suite definition files
-/
namespace Ccpp.SD

/-- The words with a comma between them. -/
inductive Words : List Str → Str → Prop where
  | one {w : Str} : ',' ∉ w → Words [w] w
  | cons {w s : Str} {l : List Str} : ',' ∉ w → Words l s → Words (w :: l) (w ++ [','] ++ s)

/-- The path of the file `f` seen from the directory `d`. -/
inductive Path (d f : Str) : Str → Prop where
  | root : f.head? = some '/' → Path d f f
  | here : f.head? ≠ some '/' → d = [] → Path d f f
  | slash {e : Str} : f.head? ≠ some '/' → d = e ++ ['/'] → Path d f (d ++ f)
  | dir : f.head? ≠ some '/' → d ≠ [] → (∀ e, d ≠ e ++ ['/']) → Path d f (d ++ ['/'] ++ f)

/-- The file of the suite `n`: the one of this name, or else the one of the name after `suite_`. -/
def Chosen (ex : Str → Bool) (dir n p : Str) : Prop :=
  ex p = true ∧ (Path dir n p ∨ (Path dir ("suite_".toList ++ n) p ∧ ∀ q, Path dir n q → ex q = false))

/-- The names of the suite definition files of a run: the given ones, or else all those of the directory. -/
def Names (arg : Option Str) (listing : List Str) (l : List Str) : Prop :=
  (∃ s ws, arg = some s ∧ s ≠ [] ∧ Words ws s ∧ l = ws.map fun w => w ++ ".xml".toList) ∨
  ((arg = none ∨ arg = some []) ∧ l.Sublist listing ∧ l ≠ [] ∧
    ∃ p : Str → Bool, l = listing.filter p ∧ ∀ f ∈ listing, (p f = true ↔ ∃ stem, f = stem ++ ".xml".toList))

end Ccpp.SD
