import Verif.Model.RefCheck
/-!
# Model of `Var.write_def` and `Var.write_ptr_def`, `scripts/metavar.py`

The statement is what is handed to `outfile.write`; breaking it into lines is the task of the writer
(`Model/FortranWriter.lean`).  Messages of exceptions are not modelled.
-/
namespace Ccpp.VText

open Ccpp.RC (Str scalarRef)

/-- array_ref: the two groups of FORTRAN_SCALAR_REF_RE, metavar.py:772-780, parse_checkers.py:210-222.  The text
matches, so group 1 is its first word and group 2 the text between the parentheses after leading blanks. -/
def arrayRef (s : Str) : Option (Str × Str) :=
  if scalarRef.dollar s then
    some (s.takeWhile isWordC, lstrip (((s.dropWhile (· != '(')).drop 1).takeWhile (· != ')')))
  else none

/-- The properties of a variable that write_def looks at, metavar.py:1041-1100; `constant` says whether the standard
name is one of CCPP_CONSTANT_VARS, `rank` is the number of dimensions.  A missing logical property is false. -/
structure Info where
  constant : Bool
  ddt : Bool
  type : Str
  kind : Str
  name : Str
  rank : Nat
  prot : Bool
  polymorphic : Bool
  optional : Bool
  allocatable : Bool
  target : Bool
  intent : Option Str
deriving DecidableEq

/-- The arguments of write_def, metavar.py:1032-1033; `dimstring` is the result of call_dimstring (metavar.py:1060), used
only for a variable with dimensions that is neither allocatable nor a dummy argument; `none` is its CCPPError. -/
structure Args where
  allocatable : Bool
  target : Bool
  dummy : Bool
  addIntent : Option Str
  extraSpace : Int
  dimstring : Option Str

/-- `' '*n`: nothing for a negative count (Python library), metavar.py:1095, 1097 and others -/
def blanks (n : Int) : Str := List.replicate n.toNat ' '

/-- The name without subscripts, metavar.py:1051-1055 -/
def baseName (v : Info) : Str := ((arrayRef v.name).map (·.1)).getD v.name

/-- `'(:' + ',:'*(n - 1) + ')'`, metavar.py:1059 -/
def colons (n : Nat) : Str := "(:".toList ++ (List.replicate (n - 1) ",:".toList).flatten ++ ")".toList

/-- The dimensions text, metavar.py:1056-1064 -/
def dimText (v : Info) (a : Args) : Option Str :=
  if v.rank = 0 then some []
  else if a.allocatable || a.dummy then some (colons v.rank)
  else a.dimstring

/-- `intent.lower()[-3:] == 'out'`, metavar.py:1093 (Python library: the last three characters) -/
def isOut (i : Str) : Bool := lower ((i.reverse.take 3).reverse) == "out".toList

/-- `intent(...)` and blanks, metavar.py:1094, 1096, 1099 -/
def intentText (i between : Str) : Str := "intent(".toList ++ i ++ ")".toList ++ between ++ blanks (5 - i.length)

/-- intent_str, metavar.py:1080-1106; `intent` is the intent after lines 1067-1079 -/
def intentStr (v : Info) (a : Args) (dims : Str) (intent : Option Str) : Str :=
  if v.prot && a.dummy then "intent(in)   ".toList
  else if a.allocatable then
    if !dims.isEmpty || v.polymorphic then
      if a.target then "allocatable,".toList ++ "  target".toList else "allocatable         ".toList
    else blanks 13
  else match intent with
    | some i =>
      if isOut i && v.allocatable then "allocatable, ".toList ++ intentText i []
      else if v.optional then intentText i ",".toList ++ "target, optional ".toList
      else intentText i []
    | none => if a.dummy then blanks 13 else blanks 20

/-- The statement, metavar.py:1107-1142 -/
def statement (v : Info) (a : Args) (dims istr : Str) : Str :=
  let targ : Str := if v.target then ", target".toList else []
  let comma := targ ++ (if (strip istr).isEmpty then " ".toList else ",".toList)
  let extra : Int := a.extraSpace - targ.length
  let tail := istr ++ " :: ".toList ++ baseName v ++ dims
  if v.ddt then
    if v.polymorphic then
      "class(".toList ++ v.kind ++ ")".toList ++ (comma ++ blanks (extra + 12 - v.kind.length)) ++ tail
    else
      "type(".toList ++ v.kind ++ ")".toList ++ (comma ++ blanks (extra + 13 - v.kind.length)) ++ tail
  else if !v.kind.isEmpty then
    v.type ++ "(".toList ++ v.kind ++ ")".toList ++ (comma ++ blanks (extra + 17 - v.type.length - v.kind.length)) ++ tail
  else
    v.type ++ (comma ++ blanks (extra + 19 - v.type.length)) ++ tail

/-- write_def, metavar.py:1032-1142: `none` is a CCPPError, `some none` if nothing is written. -/
def writeDef (v : Info) (a : Args) : Option (Option Str) :=
  if v.constant then some none
  else
    (dimText v a).bind fun dims =>
      let intent := if a.dummy then v.intent else none
      if v.prot && a.allocatable then none
      else if a.dummy && intent.isNone then
        match a.addIntent with
        | some i => some (some (statement v a dims (intentStr v a dims (some i))))
        | none => none
      else some (some (statement v a dims (intentStr v a dims intent)))

/-- write_ptr_def, metavar.py:1144-1157 -/
def writePtrDef (name kind dims vtype : Str) (extraSpace : Int) : Str :=
  let tail := "pointer          :: ".toList ++ name ++ dims ++ blanks (20 - name.length - dims.length) ++ " => null()".toList
  if !kind.isEmpty then
    vtype ++ "(".toList ++ kind ++ ")".toList ++ (", ".toList ++ blanks (extraSpace + 20 - vtype.length - kind.length)) ++ tail
  else
    vtype ++ (", ".toList ++ blanks (extraSpace + 22 - vtype.length)) ++ tail

end Ccpp.VText
