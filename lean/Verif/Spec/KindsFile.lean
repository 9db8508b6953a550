import Verif.Model.KindsFile
import Verif.Spec.Checkers
/-!
# Specification of the kinds module

`iso` gives the values of the names (in lower case) of the intrinsic module ISO_FORTRAN_ENV.
-/
namespace Ccpp.KF

/-- The statement gives the entity `sp` of ISO_FORTRAN_ENV the local name `k`. -/
def Renames (line k sp : Str) : Prop :=
  Chk.IsName k ∧ Chk.IsName sp ∧ line = "use ISO_FORTRAN_ENV, only: ".toList ++ k ++ " => ".toList ++ sp

/-- Fortran accepts the module: every statement is a legal one for an entity that exists, each local name stands for one entity, and what is made
public has been named. -/
def Legal (iso : Str → Option Int) (f : File) : Prop :=
  (∀ l ∈ f.uses, ∃ k sp, Renames l k sp ∧ (iso (lower sp)).isSome = true) ∧
  (∀ l ∈ f.uses, ∀ m ∈ f.uses, ∀ k sp k' sp', Renames l k sp → Renames m k' sp' → lower k = lower k' → lower sp = lower sp') ∧
  (∀ p ∈ f.publics, ∃ k, p = "public :: ".toList ++ k ∧ ∃ l ∈ f.uses, ∃ k' sp, Renames l k' sp ∧ lower k' = lower k)

/-- The module exports the name `n` with the value `v`. -/
def Exports (iso : Str → Option Int) (f : File) (n : Str) (v : Int) : Prop :=
  (∃ p ∈ f.publics, ∃ k, p = "public :: ".toList ++ k ∧ lower k = n) ∧
  ∃ l ∈ f.uses, ∃ k sp, Renames l k sp ∧ lower k = n ∧ iso (lower sp) = some v

/-- The value of a kind where the kinds of the module and, for other names, ISO_FORTRAN_ENV are known. -/
def Value (iso : Str → Option Int) (f : File) (k : Str) (v : Int) : Prop :=
  Exports iso f (lower k) v ∨ ((∀ w, ¬Exports iso f (lower k) w) ∧ iso (lower k) = some v)

end Ccpp.KF
