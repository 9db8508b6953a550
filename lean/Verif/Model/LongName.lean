/-!
# Model of standard_name_to_long_name in `scripts/var_props.py`
-/
namespace Ccpp.LongName

/-- Notation: a Python string; names hold ASCII characters and no line ends. -/
abbrev Str := List Char

/-- `_REAL_SUBST_RE.match`, `(.*\d)p(\d.*)`, and the text with a point for the p, var_props.py:26, 165-167: `.*` is greedy,
so the last place is taken. -/
def substLast : Str → Option Str
  | [] => none
  | c :: r =>
    match substLast r with
    | some r' => some (c :: r')
    | none =>
      match r with
      | 'p' :: e :: t => if c.isDigit ∧ e.isDigit then some (c :: '.' :: e :: t) else none
      | _ => none

/-- The number of characters p (for the proof that the loop of lines 166-169 of var_props.py ends; library). -/
def count (s : Str) : Nat := s.countP (· == 'p')

theorem substLast_count : ∀ {s s' : Str}, substLast s = some s' → count s' < count s
  | [], s', h => by cases h
  | c :: r, s', h => by
    unfold substLast at h
    cases hr : substLast r with
    | some r' =>
      rw [hr] at h
      cases h
      have := substLast_count hr
      unfold count at *
      rw [List.countP_cons, List.countP_cons]
      omega
    | none =>
      rw [hr] at h
      simp only at h
      split at h
      · next e t =>
        split at h
        · cases h
          unfold count
          simp only [List.countP_cons]
          simp
        · cases h
      · cases h

/-- The loop of standard_name_to_long_name, var_props.py:165-169 -/
def substAll (s : Str) : Str :=
  match h : substLast s with
  | some s' => substAll s'
  | none => s
termination_by count s
decreasing_by exact substLast_count h

/-- standard_name_to_long_name of a given standard name, var_props.py:158-169 -/
def longName : Str → Str
  | [] => substAll []
  | c :: r => substAll (c.toUpper :: r.map fun x => if x = '_' then ' ' else x)

/-- standard_name_to_long_name, var_props.py:156-181; `none` for the argument: no standard name; for the result: a
CCPPError. -/
def standardNameToLongName : Option Str → Option Str
  | some s => some (longName s)
  | none => none

end Ccpp.LongName
