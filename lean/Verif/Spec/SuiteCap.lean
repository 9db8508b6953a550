import Verif.Model.SuiteCap
/-!
# Specification for generated suite caps
-/
namespace Ccpp.Cap

mutual
/-- The steps of a part in suite-definition order, loops unrolled. -/
def Item.order : Item → List Step
  | .scheme cs n => cs.map Step.check ++ [.call n]
  | .vloop n b => (List.replicate n b.order).flatten
  | .subcycle n b => (List.replicate n b.order).flatten
  | .timesplit b => b.order
def Items.order : Items → List Step
  | .nil => []
  | .cons x xs => x.order ++ xs.order
end

mutual
/-- The part contains no `subcycle`. -/
def Item.noSubcycle : Item → Bool
  | .scheme _ _ => true
  | .vloop _ b => b.noSubcycle
  | .subcycle _ _ => false
  | .timesplit b => b.noSubcycle
def Items.noSubcycle : Items → Bool
  | .nil => true
  | .cons x xs => x.noSubcycle && xs.noSubcycle
end

/-- Execute the steps in order up to and including the first one that reports an error.
Result: the steps executed, the error code returned (0 if none), and whether
the error came from a debug check. -/
def untilError (beh : Beh) : List Step → List Step → List Step × Int × Bool
  | pre, [] => (pre, 0, false)
  | pre, x :: xs =>
    let tr := pre ++ [x]
    if beh tr = 0 then untilError beh tr xs
    else match x with
      | .check _ => (tr, 1, true)
      | .call _ => (tr, beh tr, false)

/-! The call sequences the CCPP allows:
`(register | initialize (timestep_initial run* timestep_final)* finalize)*`
and its prefixes, as a right-linear grammar with one nonterminal per suite state. -/
mutual
inductive PathUninit : List Phase → Prop
  | stop : PathUninit []
  | register {l} : PathUninit l → PathUninit (.register :: l)
  | initialize {l} : PathInit l → PathUninit (.initialize :: l)
inductive PathInit : List Phase → Prop
  | stop : PathInit []
  | timestepInitial {l} : PathStep l → PathInit (.timestepInitial :: l)
  | finalize {l} : PathUninit l → PathInit (.finalize :: l)
inductive PathStep : List Phase → Prop
  | stop : PathStep []
  | run {l} : PathStep l → PathStep (.run :: l)
  | timestepFinal {l} : PathInit l → PathStep (.timestepFinal :: l)
end

/-- The suite state a phase requires (CCPP documentation). -/
def requires : Phase → String
  | .register => "uninitialized"
  | .initialize => "uninitialized"
  | .timestepInitial => "initialized"
  | .run => "in_time_step"
  | .timestepFinal => "in_time_step"
  | .finalize => "initialized"

/-- The suite state after a phase (CCPP documentation). -/
def leadsTo : Phase → String
  | .register => "uninitialized"
  | .initialize => "initialized"
  | .timestepInitial => "in_time_step"
  | .run => "in_time_step"
  | .timestepFinal => "initialized"
  | .finalize => "uninitialized"

end Ccpp.Cap
