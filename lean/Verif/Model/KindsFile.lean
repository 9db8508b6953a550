import Verif.Model.FrameworkEnv
import Verif.Model.VarCompat
/-!
# Model of `scripts/ccpp_capgen.py`: create_kinds_file

The statements that the kinds file gets; the lines around them are modelled in `FortranWriter.lean`.
-/
namespace Ccpp.KF

/-- Notation: a text. -/
abbrev Str := List Char

/-- The statements `use` and `public`, ccpp_capgen.py:128-138 -/
structure File where
  uses : List Str
  publics : List Str

/-- create_kinds_file, ccpp_capgen.py:120-141 -/
def file (d : List (Str × Str)) : File where
  uses := (Env.kindTypes d).map fun k =>
    "use ISO_FORTRAN_ENV, only: ".toList ++ k ++ " => ".toList ++ (Env.kindSpec d k).getD "None".toList
  publics := (Env.kindTypes d).map fun k => "public :: ".toList ++ k

/-- The conversion between two kinds for this environment, var_props.py:1123-1134 -/
def conversion (d : List (Str × Str)) (k1 k2 : Str) : Option (Option Str × Option Str) :=
  VC.kindConv (fun k => k.bind (Env.kindSpec d)) (some k1) (some k2)

end Ccpp.KF
