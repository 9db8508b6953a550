import Verif.Model.PrebuildSuite
/-!
# Model of the local names of host variables in `scripts/ccpp_prebuild.py`

`decode_container_as_dict`, `split_var_name_and_array_reference` (`scripts/common.py`), `convert_local_name_from_new_metadata`,
`gather_variable_definitions` (`scripts/ccpp_prebuild.py`), the collection of variables in `parse_variable_tables`
(`scripts/metadata_parser.py`).

A raised exception is `none`, and so is `success = False`, which the main program turns into an exception; the dictionary is
not used after that.  The first argument of `convert` bounds the depth of the recursion (as Python does).

Simplifications: which tables a source file has is given; dependencies and messages are not modelled; the texts are ASCII.
-/
namespace Ccpp.PB

/-- `int(s)` succeeds, after the sign and the first digit: digits with single underscores (Python library). -/
def restDigits : Str → Bool
  | [] => true
  | '_' :: c :: s => c.isDigit && restDigits s
  | c :: s => c.isDigit && restDigits s

/-- An unsigned number (Python library). -/
def isNat : Str → Bool
  | [] => false
  | c :: s => c.isDigit && restDigits s

/-- `int(s)` succeeds for a stripped text (Python library), ccpp_prebuild.py:255-260 -/
def isInt : Str → Bool
  | '+' :: s => isNat s
  | '-' :: s => isNat s
  | s => isNat s

/-- An item as key and value; `find` is -1 without underscore, common.py:164-166 -/
def itemPair (i : Str) : Str × Str := if '_' ∈ i then (beforeUnderscore i, afterUnderscore i) else (i.dropLast, i)

/-- `d[k]` of a dictionary written by a loop: the last value (Python library). -/
def lookupLast (k : Str) : List (Str × Str) → Option Str
  | [] => none
  | e :: d => match lookupLast k d with
    | some v => some v
    | none => if e.1 = k then some e.2 else none

/-- decode_container_as_dict, common.py:155-167 -/
def decodeDict (c : Str) : Option (List (Str × Str)) :=
  let items := splitOn ' ' c
  if items.length ≤ 3 then some (items.map itemPair) else none

/-- `typedefs_new_metadata`: the prefix by module and type, ccpp_prebuild.py:220-232 -/
abbrev Typedefs := List (Str × List (Str × Str))

/-- `d[k]` (Python library). -/
def lookup (k : Str) : List (Str × α) → Option α
  | [] => none
  | e :: d => if e.1 = k then some e.2 else lookup k d

/-- The loop of split_var_name_and_array_reference: the number of parentheses, the text before in reverse, the text after,
common.py:113-127 -/
def splitRefLoop : Int → Str → Str → Option (Str × Str)
  | _, [], _ => none
  | p, c :: s, acc =>
    let p' := if c = ')' then p + 1 else if c = '(' then p - 1 else p
    if p' = 0 then some (s.reverse, c :: acc) else splitRefLoop p' s (c :: acc)

/-- split_var_name_and_array_reference, common.py:108-128 -/
def splitRef (s : Str) : Option (Str × Str) := splitRefLoop 0 s.reverse []

/-- `lstrip('(').rstrip(')')`, ccpp_prebuild.py:239 -/
def stripParens (s : Str) : Str := (((s.dropWhile (· == '(')).reverse).dropWhile (· == ')')).reverse

/-- `c.join(l)` (Python library). -/
def joinWith (c : Char) : List Str → Str
  | [] => []
  | [x] => x
  | x :: xs => x ++ c :: joinWith c xs

/-- Set the local name of the first variable of a name, ccpp_prebuild.py:270, 324 -/
def setLoc : Dict → Str → Str → Dict
  | [], _, _ => []
  | e :: d, k, n =>
    if e.1 = k then (e.1, match e.2 with | [] => [] | v :: l => { v with loc := n } :: l) :: d else e :: setLoc d k n

/-- The metadata and the list of the converted variables, ccpp_prebuild.py:207 -/
abbrev NSt := Dict × List Str

/-- One dimension of an index, ccpp_prebuild.py:251-271; `rec` is the recursive call -/
def convDim (rec : NSt → Str → Option (Str × NSt)) (st : NSt) (t : Str) : Option (Str × NSt) :=
  let d := strip t
  if isInt d then some (d, st) else (rec st d).map fun r => (r.1, setLoc r.2.1 d r.1, r.2.2)

/-- A loop that collects texts, ccpp_prebuild.py:241, 251 -/
def collectTexts (f : NSt → α → Option (Str × NSt)) : NSt → List α → Option (List Str × NSt)
  | st, [] => some ([], st)
  | st, t :: ts => (f st t).bind fun r => (collectTexts f r.2 ts).map fun q => (r.1 :: q.1, q.2)

/-- One index, ccpp_prebuild.py:241-272 -/
def convRange (rec : NSt → Str → Option (Str × NSt)) (st : NSt) (t : Str) : Option (Str × NSt) :=
  let r := strip t
  if r = [':'] then some (r, st) else (collectTexts (convDim rec) st (splitOn ':' r)).map fun q => (joinWith ':' q.1, q.2)

/-- The local name without prefix, ccpp_prebuild.py:237-276 -/
def convRef (rec : NSt → Str → Option (Str × NSt)) (st : NSt) (loc : Str) : Option (Str × NSt) :=
  if '(' ∈ loc then
    (splitRef loc).bind fun s =>
    (collectTexts (convRange rec) st (splitOn ',' (stripParens s.2))).map fun q => (s.1 ++ '(' :: joinWith ',' q.1 ++ [')'], q.2)
  else some (loc, st)

/-- The prefix, ccpp_prebuild.py:278-280 -/
def prefixed (p n : Str) : Str := if p = [] then n else p ++ '%' :: n

/-- convert_local_name_from_new_metadata, ccpp_prebuild.py:207-284 -/
def convert (td : Typedefs) : Nat → NSt → Str → Option (Str × NSt)
  | 0, _, _ => none
  | fuel + 1, st, k =>
    match get st.1 k with
    | some (v :: _) =>
      if k ∈ st.2 then some (v.loc, st) else
      (v.container.bind decodeDict).bind fun c =>
      (lookupLast "MODULE".toList c).bind fun m =>
      match lookup m td with
      | none => some (v.loc, st)
      | some ts =>
        (lookup ((lookupLast "TYPE".toList c).getD m) ts).bind fun p =>
        (convRef (convert td fuel) st v.loc).map fun r => (prefixed p r.1, (r.2.1, r.2.2 ++ [k]))
    | _ => none

/-- The loop over all variables; two definitions of a name are an error, ccpp_prebuild.py:309-324 -/
def convLoop (td : Typedefs) (fuel : Nat) : NSt → List Str → Option NSt
  | st, [] => some st
  | st, k :: ks =>
    match get st.1 k with
    | some [_] => (convert td fuel st k).bind fun r => convLoop td fuel (setLoc r.2.1 k r.1, r.2.2) ks
    | _ => none

/-- A variable of the host with a mandatory name agrees with the mandatory variable, metadata_parser.py:415-420 -/
def mandatoryOk (v : Var) : Bool := (suiteVars.take 2).all fun m => m.std != v.std || compatible m v

/-- The tables of a file of the host, metadata_parser.py:380-434; read_new_metadata refuses duplicates in a table, 245-247 -/
def hostTables : Dict → List (List Var) → Option Dict
  | d, [] => some d
  | d, t :: ts => if noDup t && t.all mandatoryOk then (addVars d t).bind fun d' => hostTables d' ts else none

/-- The variables of all files, ccpp_prebuild.py:293-303 -/
def hostFiles : Dict → List (List (List Var)) → Option Dict
  | d, [] => some d
  | d, f :: fs => (hostTables [] f).bind fun m => (merge d m).bind fun d' => hostFiles d' fs

/-- gather_variable_definitions, ccpp_prebuild.py:286-326 -/
def gather (td : Typedefs) (fuel : Nat) (files : List (List (List Var))) : Option Dict :=
  (hostFiles [] files).bind fun d =>
  if td = [] then some d else (convLoop td fuel (d, []) (keys d)).map (·.1)

end Ccpp.PB
