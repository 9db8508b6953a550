import Verif.Model.Units
/-!
# Specification for C32: what the units mean, and what a conversion formula computes
-/
namespace Ccpp.Units

/-- Value of a digit string. -/
def digits (s : Str) : Nat := s.foldl (fun n c => 10 * n + (c.toNat - '0'.toNat)) 0

/-- Value of a Fortran real literal `digits.digits` or `digits.digitsE±digits`. -/
def literal (s : Str) : Option Rat :=
  let mant := s.takeWhile (· != 'E')
  let expo := (s.dropWhile (· != 'E')).drop 1
  let whole := mant.takeWhile (· != '.')
  let frac := (mant.dropWhile (· != '.')).drop 1
  if (whole ++ frac).all Char.isDigit && !whole.isEmpty then
    let m : Rat := (digits (whole ++ frac) : Rat) / (10 ^ frac.length : Nat)
    match expo with
    | [] => some m
    | '+' :: e => if e.all Char.isDigit then some (m * (10 ^ digits e : Nat)) else none
    | '-' :: e => if e.all Char.isDigit then some (m / (10 ^ digits e : Nat)) else none
    | _ => none
  else none

/-- Value of `x` written before `pat`, if the text is `x ++ pat`. -/
def dropSuffix? (pat s : Str) : Option Str :=
  if pat.isSuffixOf s then some (s.take (s.length - pat.length)) else none

/-- The map computed by a conversion formula, as coefficients `(a, b)` of `x ↦ a * x + b`. -/
def formula (s : Str) : Option (Rat × Rat) :=
  match dropSuffix? "{kind}*{var}".toList s with
  | some l => (literal l).map fun q => (q, 0)
  | none =>
    match dropPrefix? "{var}".toList s with
    | some (op :: t) =>
      match dropSuffix? "{kind}".toList t with
      | none => none
      | some l =>
        match literal l with
        | none => none
        | some q =>
          if op = '/' then some (1 / q, 0)
          else if op = '+' then some (1, q)
          else if op = '-' then some (1, -q) else none
    | _ => none

/-- Apply a conversion formula to a value. -/
def apply (f : Str) (x : Rat) : Option Rat := (formula f).map fun p => p.1 * x + p.2

/-- Meaning of a unit: physical dimension, and scale and offset of the value in the base unit. -/
structure Meaning where
  dim : String
  scale : Rat
  offset : Rat
deriving DecidableEq

/-- The units a host or scheme may use, with their textbook meaning (the number of degrees per
radian is the decimal the framework uses). -/
def units : List (Str × Meaning) :=
  [("mm", ⟨"length", 1/1000, 0⟩), ("cm", ⟨"length", 1/100, 0⟩), ("um", ⟨"length", 1/1000000, 0⟩),
   ("m", ⟨"length", 1, 0⟩), ("km", ⟨"length", 1000, 0⟩),
   ("s", ⟨"time", 1, 0⟩), ("min", ⟨"time", 60, 0⟩), ("h", ⟨"time", 3600, 0⟩), ("d", ⟨"time", 86400, 0⟩),
   ("K", ⟨"temperature", 1, 0⟩), ("C", ⟨"temperature", 1, 27315/100⟩),
   ("kg kg-1", ⟨"mixing ratio", 1, 0⟩), ("g kg-1", ⟨"mixing ratio", 1/1000, 0⟩),
   ("radian", ⟨"angle", 57295779513/1000000000, 0⟩), ("degree", ⟨"angle", 1, 0⟩),
   ("degree_north", ⟨"angle", 1, 0⟩), ("degree_east", ⟨"angle", 1, 0⟩),
   ("Pa", ⟨"pressure", 1, 0⟩), ("hPa", ⟨"pressure", 100, 0⟩),
   ("m s-1", ⟨"speed", 1, 0⟩), ("km h-1", ⟨"speed", 10/36, 0⟩),
   ("W m-2", ⟨"flux", 1, 0⟩), ("erg cm-2 s-1", ⟨"flux", 1/1000, 0⟩)].map fun p => (p.1.toList, p.2)

/-- Value in the base unit. -/
def Meaning.base (m : Meaning) (x : Rat) : Rat := m.scale * x + m.offset

end Ccpp.Units
