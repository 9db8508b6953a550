import Verif.Spec.StateMachine
import Verif.Model.SuiteCalls
/-!
# Specification for C64: which scheme routines a suite calls

Only the input types (`Xml`, `SuiteItem`, `Header`), the interface to the analysis of variables (`Vars`) and the
generated statements with their execution (`Stmt`, `Event`) are shared with the model.
-/
namespace Ccpp.Seq

/-- The header `h` describes the routine of the scheme `n` for a phase (C04). -/
def IsRoutine (h : Header) (n ph : List Char) : Prop :=
  ∃ suf, SM.Spec.Reading h.title n suf ph ∧ ∀ p f q, SM.Spec.Reading h.title p f q → f.length ≤ suf.length

/-- `r` gives the routine of every scheme for the phase `ph`. -/
def Routines (hs : List Header) (ph : List Char) (r : List Char → Option Header) : Prop :=
  ∀ n h, r n = some h ↔ h ∈ hs ∧ IsRoutine h n ph

/-- Nested loops over vertical indices: the values of the indices. -/
def levels (vs : Vars) (val : List Char → Nat) : List (List Char) → List (Option (List Char) × Nat) →
    List (List (Option (List Char) × Nat))
  | [], env => [env]
  | i :: is, env => (List.range (val ((vs.extent i).getD []))).flatMap fun k => levels vs val is (env ++ [(some i, k + 1)])

/-- The calls of one routine: one, or one for each level if it works on single levels. -/
def callOf (vs : Vars) (val : List Char → Nat) (env : List (Option (List Char) × Nat)) : Option Header → List Event
  | none => []
  | some h => (levels vs val (vs.needs h.title) env).map fun e => (h.title, e)

mutual
/-- The calls that an element of the suite definition file asks for, where `r` is the routine of each scheme: schemes in
their order, subcycles repeated. -/
def intended (r : List Char → Option Header) (vs : Vars) (val : List Char → Nat) :
    List (Option (List Char) × Nat) → Xml → List Event
  | env, .scheme n => callOf vs val env (r n)
  | env, .subcycle l items => (List.range (val l)).flatMap fun k => intendedAll r vs val (env ++ [(none, k + 1)]) items
  | env, .timeSplit items => intendedAll r vs val env items
  | _, .other _ => []
/-- The same for a sequence of elements. -/
def intendedAll (r : List Char → Option Header) (vs : Vars) (val : List Char → Nat) :
    List (Option (List Char) × Nat) → List Xml → List Event
  | _, [] => []
  | env, x :: xs => intended r vs val env x ++ intendedAll r vs val env xs
end

mutual
/-- The schemes named in an element. -/
def Xml.names : Xml → List (List Char)
  | .scheme n => [n]
  | .subcycle _ items => namesOf items
  | .timeSplit items => namesOf items
  | .other _ => []
/-- The schemes named in a sequence of elements. -/
def namesOf : List Xml → List (List Char)
  | [] => []
  | x :: xs => x.names ++ namesOf xs
end

mutual
/-- Only the known elements, with numbers for the subcycles, and only subcycles allowed by `loopOk`. -/
def Xml.Known (loopOk : List Char → Prop) : Xml → Prop
  | .scheme _ => True
  | .subcycle l items => l ≠ [] ∧ (∀ c ∈ l, c.isDigit = true) ∧ loopOk l ∧ allKnown loopOk items
  | .timeSplit items => allKnown loopOk items
  | .other _ => False
/-- The same for a sequence of elements. -/
def allKnown (loopOk : List Char → Prop) : List Xml → Prop
  | [] => True
  | x :: xs => x.Known loopOk ∧ allKnown loopOk xs
end

/-- The vertical indices needed by a list of schemes. -/
def needed (r : List Char → Option Header) (vs : Vars) (ns : List (List Char)) : List (List Char) :=
  ns.flatMap fun n => ((r n).map fun h => vs.needs h.title).getD []

/-- The phases that run once for the whole suite, in the order of the caps: before and after the groups. -/
def before : List (List Char) := ["register".toList, "initialize".toList, "timestep_initial".toList]
/-- See `before`. -/
def after : List (List Char) := ["timestep_final".toList, "finalize".toList]

/-- The name of the subroutine of a group or phase. -/
def subName (suite part : List Char) : List Char := suite ++ '_' :: part

mutual
/-- The routines called somewhere in a statement. -/
def Stmt.routines : Stmt → List (List Char)
  | .ifOk (some t) => [t]
  | .ifOk none => []
  | .loop _ _ body => routinesOf body
/-- The routines called somewhere in a sequence of statements. -/
def routinesOf : List Stmt → List (List Char)
  | [] => []
  | s :: ss => s.routines ++ routinesOf ss
end

/-- `a` is mentioned before `b` in the metadata: some routine of `a` comes before all routines of `b`. -/
def MentionedBefore (hs : List Header) (a b : List Char) : Prop :=
  ∃ pre h post, hs = pre ++ h :: post ∧ (∃ ph, IsRoutine h a ph) ∧ ∀ x ∈ pre, ∀ ph, ¬ IsRoutine x b ph

/-- The schemes of a phase other than run: `order` contains each scheme of `used` that has a routine of the phase exactly
once; the order is that of the metadata. -/
structure PhaseOrder (hs : List Header) (r : List Char → Option Header) (used : List (List Char))
    (order : List (List Char)) : Prop where
  once : order.Nodup
  mem : ∀ n, n ∈ order ↔ n ∈ used ∧ ∃ h, r n = some h
  sorted : ∀ a b, [a, b].Sublist order → MentionedBefore hs a b

/-- No two headers describe the routine of the same scheme for the same phase, and at most one has a title that belongs to
no phase. -/
def Distinct (hs : List Header) : Prop :=
  hs.Pairwise fun a b => (∀ n ph, IsRoutine a n ph → ¬ IsRoutine b n ph) ∧
    ((∃ n ph, IsRoutine a n ph) ∨ (∃ n ph, IsRoutine b n ph))

/-- The groups `gs` (name and elements) are the elements of the suite. -/
def Groups (items : List SuiteItem) (gs : List (List Char × List Xml)) : Prop :=
  items = gs.map fun g => .group g.1 g.2

end Ccpp.Seq
