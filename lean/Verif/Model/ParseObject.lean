import Verif.Model.Text
/-!
# Model of `scripts/parse_tools/parse_object.py`: class ParseObject
-/
namespace Ccpp.PO

/-- Notation: a Python string. -/
abbrev Str := List Char

/-- State of a ParseObject, parse_object.py:36-45.  (Line numbers are natural numbers: a negative
line_start, which makes every position invalid, is not modelled.)  `messages` counts the messages
stored, `errs` is __num_errors, `walked` records the "Maximum number of errors exceeded" note. -/
structure St where
  lines : List Str
  num : Nat
  next : Nat
  last : Nat
  errs : Nat
  messages : Nat
  walked : Bool

/-- __init__, parse_object.py:36-45 -/
def init (lines : List Str) (start : Nat) : St := ⟨lines, start, start, start, 0, 0, false⟩

/-- valid_line, parse_object.py:57-59 -/
def St.valid (s : St) : Bool := decide (s.num < s.lines.length)

/-- `endswith('\\')`, parse_object.py:82 -/
def endsBackslash (l : Str) : Bool := l.getLast? == some '\\'

/-- curr_line, parse_object.py:66-93 (with next_line, 95-99, inlined in the recursive call). -/
def St.currLine (s : St) : Option Str × Nat × St :=
  if h : s.num < s.lines.length then
    let cur := rstrip s.lines[s.num]
    let s1 := { s with
                next := s.num + 1
                last := s.num + 1 }
    if endsBackslash cur then
      let r := St.currLine { s1 with num := s1.next }
      let text := match r.1 with
        | none => cur.dropLast
        | some t => cur.dropLast ++ t
      (some text, s.num, { r.2.2 with num := s.num })
    else (some cur, s.num, s1)
  else (none, s.num, s)
termination_by s.lines.length - s.num

/-- next_line, parse_object.py:95-99 -/
def St.nextLine (s : St) : Option Str × Nat × St := St.currLine { s with num := s.next }

/-- peek_line, parse_object.py:101-107 -/
def St.peekLine (s : St) (i : Nat) : Option Str := s.lines[i]?

/-- reset_pos, parse_object.py:138-146; `none` is the CCPPError. -/
def St.resetPos (s : St) (i : Nat) : Option St :=
  if i ≥ s.lines.length then none
  else some { s with
              num := i
              next := i }

/-- write_line, parse_object.py:148-155; `none` is the CCPPError. -/
def St.writeLine (s : St) (i : Nat) (l : Str) : Option St :=
  if i ≥ s.lines.length then none else some { s with lines := s.lines.set i l }

/-- _max_errors, parse_object.py:34 -/
def maxErrors : Nat := 32

/-- add_syntax_err, parse_object.py:109-136; `none` is the CCPPError.  (The error message is
non-empty exactly when an error was added before.) -/
def St.addSyntaxErr (s : St) : Option St :=
  let s1 : Option St :=
    if s.errs ≠ 0 then
      if s.errs = maxErrors then
        some { s with
               num := s.lines.length
               next := s.lines.length
               walked := true }
      else if s.errs > maxErrors then none
      else some s
    else some s
  match s1 with
  | none => none
  | some s1 => some { s1 with
                      messages := if s1.errs < maxErrors then s1.messages + 1 else s1.messages
                      errs := s1.errs + 1 }

end Ccpp.PO
