import Verif.Model.PrebuildArgs
/-!
# Model of the sections of arrays in the calls of the group caps of ccpp_prebuild

`extract_dimensions_from_local_name` (scripts/mkstatic.py:110-149) and the part of `Group.write` that derives the sections of the arguments
of a call, the shapes of temporary variables, and the tests of the debug mode (scripts/mkstatic.py:1346-1553, 1588-1626).

A raised exception is `none`.  Simplifications: the texts are ASCII; a bound is never an empty text (mkstatic.py:1433, 1443), because an empty
text is no standard name and local names are not empty.
-/
namespace Ccpp.SC
open PB (Str)
open PA (HVar find)

/-- The text after the last `%` that is not in parentheses, or the whole text; from the right, mkstatic.py:113-126.  Arguments: the number of open
parentheses, the rest of the text in reverse order, the text after it. -/
def lastPart : Int → Str → Str → Str
  | _, [], acc => acc
  | p, c :: s, acc =>
    if c = ')' then lastPart (p + 1) s (c :: acc)
    else if c = '(' then lastPart (p - 1) s (c :: acc)
    else if c = '%' ∧ p = 0 then acc
    else lastPart p s (c :: acc)

/-- From the first opening to the last closing parenthesis, mkstatic.py:127-130 -/
def dimText (part : Str) : Str := (((part.dropWhile (· != '(')).reverse).dropWhile (· != ')')).reverse

/-- The loop over the text, mkstatic.py:133-144: `opened` is never changed in it. -/
def splitDims : Str → Str → List Str
  | [], _ => []
  | c :: s, d =>
    if c = ',' then d :: splitDims s []
    else if s.isEmpty && !d.isEmpty then [d]
    else splitDims s (d ++ [c])

/-- extract_dimensions_from_local_name, mkstatic.py:110-149 -/
def extractDims (s : Str) : List Str × Str :=
  let t := dimText (lastPart 0 s.reverse [])
  (splitDims (t.drop 1) [], t)

/-- A bound of a dimension: a number, or the local name of the variable of the host, mkstatic.py:1379-1388, 1389-1391, 1420-1424 -/
def bound (h : List HVar) (d : Str) : Option Str :=
  if PB.isInt (strip (lower d)) then some (lower d) else (find h (lower d)).map (·.loc)

/-- `host_var_is_contiguous`, the last dimension decides; the outer `none` is an exception, mkstatic.py:1402-1411 -/
def contiguous : Option Bool → List Str → Option (Option Bool)
  | r, [] => some r
  | r, d :: ds =>
    if ':' ∈ d then
      let ps := (PB.splitOn ':' d).map lower
      contiguous (if "horizontal_dimension".toList ∈ ps then some true else if "horizontal_loop_extent".toList ∈ ps then some false else r) ds
    else none

/-- The bounds of a dimension and whether it was found to be the horizontal dimension of an array that is not blocked,
mkstatic.py:1376-1424; `std` is the standard name of the argument. -/
def bounds (h : List HVar) (run : Bool) (std : Str) (ps : List Str) : Option (Str × Str × Bool) :=
  match ps with
  | p :: q :: _ =>
    (bound h p).bind fun lo =>
      if run ∧ lower q = "horizontal_loop_extent".toList then
        (find h std).bind fun v => (contiguous none v.dims).bind fun c => c.bind fun c =>
          if (find h "horizontal_loop_begin".toList).isSome ∧ c = true then
            (find h "horizontal_loop_begin".toList).bind fun b => (find h "horizontal_loop_end".toList).map fun e => (b.loc, e.loc, true)
          else
            (find h "ccpp_constant_one".toList).bind fun b => (find h "horizontal_loop_extent".toList).map fun e => (b.loc, e.loc, false)
      else (bound h q).map fun hi => (lo, hi, false)
  | _ => none

/-- Dimensions that a scheme must not have, mkstatic.py:1430-1450; the fifth name of the second case is the extent of the subcycles. -/
def invalid (run : Bool) (ps : List Str) : Bool :=
  let ps := ps.map lower
  ps.contains "horizontal_loop_begin".toList || ps.contains "horizontal_loop_end".toList ||
    (if run then ps.contains "horizontal_dimension".toList else ps.contains "ccpp_loop_extent".toList)

/-- A dimension of the section: its bounds, and whether they are written, mkstatic.py:1364-1424, 1457-1470 -/
structure Dim where
  lo : Str
  hi : Str
  explicit : Bool
deriving DecidableEq

/-- One round of the loop over the dimensions of an argument, mkstatic.py:1362-1450; `char` is true for texts -/
def dimOf (h : List HVar) (run char : Bool) (std d : Str) : Option Dim :=
  if ':' ∈ d then
    (bounds h run std (PB.splitOn ':' d)).bind fun b =>
      if invalid run (PB.splitOn ':' d) then none else some ⟨b.1, b.2.1, !char || b.2.2⟩
  else none

/-- `dim_substrings`, mkstatic.py:1456-1470 -/
def Dim.text (d : Dim) : Str := if d.explicit then (if d.lo = d.hi then d.hi else d.lo ++ ':' :: d.hi) else [':']

/-- `array_size`, mkstatic.py:1456-1470 -/
def Dim.size (d : Dim) : Str := if d.lo = d.hi then ['1'] else '(' :: (d.hi ++ '-' :: (d.lo ++ "+1)".toList))

/-- `s.rstrip(',')` (Python library) -/
def rstripCommas (s : Str) : Str := (s.reverse.dropWhile (· == ',')).reverse

/-- The items with a comma behind every one, without the last commas, in parentheses, mkstatic.py:1493-1504 -/
def parens (l : List Str) : Str := rstripCommas ('(' :: l.flatMap (· ++ [','])) ++ [')']

/-- The loop over the dimensions of the local name: the items of `dim_string` and of `dim_string_allocate`, mkstatic.py:1495-1509 -/
def merge : List Str → List Str → Option (List Str × List Str)
  | [], [] => some ([], [])
  | [], _ :: _ => none
  | t :: ts, subs =>
    if ':' ∈ t then
      match subs with
      | [] => none
      | s :: subs => (merge ts subs).map fun r => (s :: r.1, s :: r.2)
    else (merge ts subs).map fun r => (t :: r.1, r.2)

/-- What is written for an argument: `dim_string`, `dim_string_allocate`, `var_size_expected`, mkstatic.py:1472-1521 -/
structure Section where
  dims : Str
  alloc : Str
  size : Str
deriving DecidableEq

/-- An argument of a scheme: standard name, dimensions, whether it is a text; `target` is the local name in the host, mkstatic.py:1346-1356 -/
structure Req where
  std : Str
  dims : List Str
  char : Bool
  target : Str

/-- mkstatic.py:1358-1521 -/
def section_ (h : List HVar) (run : Bool) (v : Req) : Option Section :=
  let e := extractDims v.target
  if v.dims = [] then some ⟨e.2, [], ['1']⟩
  else
    (v.dims.mapM (dimOf h run v.char v.std)).bind fun ds =>
      let size := '(' :: (PB.joinWith '*' (ds.map Dim.size) ++ [')'])
      if e.1 = [] then
        let t := '(' :: (PB.joinWith ',' (ds.map Dim.text) ++ [')'])
        some ⟨t, t, size⟩
      else (merge e.1 (ds.map Dim.text)).map fun r => ⟨parens r.1, parens r.2, size⟩

/-- `name.replace(dim_string_target_name, '')`; replacing an empty text changes nothing, mkstatic.py:1543, 1753, 1763, 1806, 1830 -/
def base (target : Str) : Str :=
  let t := (extractDims target).2
  if t = [] then target else PA.removeAll t 0 target

/-- The variable of the host as it is passed, converted, or pointed to, mkstatic.py:1752-1755, 1763-1766, 1805-1807, 1829-1830 -/
def passed (h : List HVar) (run : Bool) (v : Req) : Option Str := (section_ h run v).map fun s => base v.target ++ s.dims

/-- The shape of the temporary variable for a unit conversion, mkstatic.py:1749 -/
def allocated (h : List HVar) (run : Bool) (v : Req) : Option Str := (section_ h run v).map (·.alloc)

/-- The value of `var_size_expected` for these values of the bounds, mkstatic.py:1459, 1462, 1513 -/
def expectedSize : List (Int × Int) → Int
  | [] => 1
  | b :: l => (b.2 - b.1 + 1) * expectedSize l

/-- The test of the debug mode is in the cap: not for blocked arrays (`deblock`), scalars and texts, mkstatic.py:1523-1547 -/
def tested (deblock : Bool) (v : Req) : Bool := !deblock && !v.dims.isEmpty && !v.char

/-! ## Arrays for blocked data -/

/-- A dimension of the array for blocked data, mkstatic.py:1590-1616; here the name is looked up as it is, and a dimension without colon starts with 1 -/
def allocDim (h : List HVar) (d : Str) : Option Str :=
  if ':' ∈ d then
    match (PB.splitOn ':' d).map lower with
    | p :: q :: _ =>
      ((if PB.isInt (strip p) then some p else (find h p).map (·.loc))).bind fun lo =>
      ((if PB.isInt (strip q) then some q else (find h q).map (·.loc))).map fun hi => lo ++ ':' :: hi
    | _ => none
  else (if PB.isInt (strip d) then some d else (find h d).map (·.loc)).map fun hi => '1' :: ':' :: hi

/-- The dimension over which the blocks are distributed, mkstatic.py:1576, 1619 -/
def horizontal : Str := "ccpp_constant_one:horizontal_dimension".toList

/-- The dimensions of the array, and the subscripts of the array of a block: colons, the columns of the block, colons, mkstatic.py:1588-1638 -/
def deblocked (h : List HVar) (dims : List Str) : Option (Str × Str) :=
  (dims.mapM (allocDim h)).bind fun ds =>
    if horizontal ∈ dims then
      let i := dims.idxOf horizontal
      some (PB.joinWith ',' ds, (List.replicate i ":,".toList).flatten ++ "ib:ib+n-1".toList ++ (List.replicate (dims.length - (i + 1)) ",:".toList).flatten)
    else none

end Ccpp.SC
