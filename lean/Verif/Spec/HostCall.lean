import Verif.Model.HostCall
/-!
# Specification for C101: the physics routines of the host cap
-/
namespace Ccpp.HCall

/-- The variable with this standard name is taken from here: from the host model if it has it (as a variable or as a
component), else from the constituents. -/
inductive Denotes (h : Host) (cs : List Str) (s : Str) : Src → Prop
  | var {v} : v ∈ h.vars → v.std = s → Denotes h cs s .host
  | field : s ∈ h.fields → Denotes h cs s .host
  | const : (∀ v ∈ h.vars, v.std ≠ s) → s ∉ h.fields → s ∈ cs → Denotes h cs s .const

/-- The array of run-time constituents. -/
def IsProps (a : PVar) : Prop := a.type = "ccpp_constituent_properties_t".toList

/-- The constant, which is never an argument. -/
def Constant (s : Str) : Prop := s = "ccpp_constant_one".toList

/-- A loop variable. -/
def LoopVar (s : Str) : Prop :=
  s = "horizontal_loop_extent".toList ∨ s = "horizontal_loop_begin".toList ∨ s = "horizontal_loop_end".toList ∨
    s = "vertical_layer_index".toList ∨ s = "vertical_interface_index".toList

/-- Two local variables that can be declared in the same routine. -/
def Apart (v w : PVar) : Prop := v.std ≠ w.std ∧ lower v.lname ≠ lower w.lname

/-- `ls` are the arrays of run-time constituents among the arguments. -/
def PropsOf (ls as : List PVar) : Prop := ∃ f : PVar → Bool, (∀ a, f a = true ↔ IsProps a) ∧ ls = as.filter f

/-- The parts can be called: every argument is known; run-time constituents are returned by register routines only, and the
variables for them can be declared together. -/
def Callable (h : Host) (cs : List Str) (stage : Str) (ps : List Part) : Prop :=
  (∀ p ∈ ps, ∀ a ∈ p.args, ¬ IsProps a → Constant a.std ∨ ∃ src, Denotes h cs a.std src) ∧
  (∀ p ∈ ps, ∀ a ∈ p.args, IsProps a → stage = "register".toList) ∧
  ∃ ls, PropsOf ls (ps.flatMap (·.args)) ∧ (∀ v ∈ ls, ¬ Constant v.std) ∧
    (ls ++ if ls = [] then [] else counters).Pairwise Apart

/-- An actual argument for the dummy argument `a`: given by keyword; an array of run-time constituents is a local variable of
its name, anything else the reference of the variable with the same standard name. -/
inductive ArgFor (ref : Src → Str → Bool → Str) (h : Host) (cs : List Str) (locals : List Str) (run : Bool) (a : PVar) : Str → Prop
  | props : IsProps a → a.lname ∈ locals → ArgFor ref h cs locals run a (a.lname ++ "=".toList ++ a.lname)
  | var {src} : ¬ IsProps a → Denotes h cs a.std src → ArgFor ref h cs locals run a (a.lname ++ "=".toList ++ ref src a.std run)

end Ccpp.HCall
