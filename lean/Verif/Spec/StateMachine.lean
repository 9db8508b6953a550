/-!
# Specification of scheme-subroutine names (independent of the model)

A scheme subroutine is called `<scheme>_<spelling>`, where the spelling denotes a
phase, ignoring case.
-/
namespace Ccpp.SM.Spec

/-- The spellings of each phase, from the CCPP documentation. -/
def spellings : List (String × List String) :=
  [("register", ["register"]),
   ("initialize", ["init", "initial", "initialize"]),
   ("timestep_initial", ["timestep_init", "timestep_initial", "timestep_initialize"]),
   ("run", ["run"]),
   ("timestep_final", ["timestep_final", "timestep_finalize"]),
   ("finalize", ["final", "finalize"])]

/-- `w` (already lower case) is a spelling of `phase`. -/
def IsSpelling (phase w : List Char) : Prop :=
  ∃ e ∈ spellings, e.1.toList = phase ∧ ∃ v ∈ e.2, v.toList = w

/-- A legal Fortran identifier: a letter followed by letters, digits, underscores. -/
def LegalId (s : List Char) : Prop :=
  ∃ c r, s = c :: r ∧ c.isAlpha = true ∧ ∀ x ∈ r, x.isAlphanum = true ∨ x = '_'

/-- `name` can be read as subroutine `scheme_suffix` of phase `phase`. -/
structure Reading (name scheme suffix phase : List Char) : Prop where
  split : name = scheme ++ '_' :: suffix
  legal : LegalId scheme
  spelled : IsSpelling phase (suffix.map Char.toLower)

end Ccpp.SM.Spec
