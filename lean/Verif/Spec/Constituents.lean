import Verif.Model.Constituents
/-! Specification of the life cycle of a ccpp_model_constituents_t object (C15). -/
namespace Ccpp.Const

variable {R : Type}

/-- Life-cycle phases: not initialised; accepting metadata; properties locked; field data
created. -/
inductive Phase where
  | new | opened | propsLocked | ready
deriving DecidableEq, Repr

/-- Which calls the life cycle allows in which phase. -/
def allowed : Phase → Call R → Bool
  | ph, .add .. => ph == .opened
  | ph, .lockTable => ph == .opened
  | ph, .lockData _ => ph == .propsLocked
  | ph, .copyOut .. => ph == .ready
  | _, .init _ => true
  | _, .reset => true
  | _, .setThermo .. => true
  | _, .setWater .. => true
  | _, .setMinimum .. => true

/-- How the phase changes with a call that returned errcode `e`. -/
def nextPhase (ph : Phase) (c : Call R) (e : Int) : Phase :=
  match c with
  | .init _ => .opened
  | .reset => .new
  | .lockTable => if ph = .opened ∧ e = 0 then .propsLocked else ph
  | .lockData _ => if ph = .propsLocked ∧ e = 0 then .ready else ph
  | _ => ph

/-- Histories with their phase, in which the object is not reset or initialised again once its
data has been created (see C18 for that case). -/
inductive Trace (zero : R) : Sys R → Phase → Prop where
  | start (h : Heap R) : Trace zero { heap := h, next := 0, obj := fresh } .new
  | step {s ph c s' e} : Trace zero s ph → step zero s c = some (s', e) →
      (∀ k, c = .init k → 0 ≤ k) →
      (ph = .ready → c ≠ .reset ∧ ∀ k, c ≠ .init k) → Trace zero s' (nextPhase ph c e)

/-- The calls that change nothing but the data or metadata they are about: the errcode of a
rejected call must be nonzero, except for `copy_out`, which is a no-op. -/
def silent : Call R → Bool
  | .copyOut .. => true
  | _ => false

/-- A constituent is selected if it has each property the caller asks for (an absent optional
argument asks for nothing). -/
def Selected (h : Heap R) (sel : Sel) (p : Ptr R) : Prop :=
  (∀ b, sel.advected = some b → p.advected = b) ∧
  (∀ b, sel.thermo = some b → (h p.id).thermo = b) ∧
  (∀ b, sel.water = some b → (h p.id).water = b)

instance (h : Heap R) (sel : Sel) (p : Ptr R) : Decidable (Selected h sel p) := by
  unfold Selected; infer_instance

end Ccpp.Const
