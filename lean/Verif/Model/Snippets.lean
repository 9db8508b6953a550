/-!
# Model of the texts of the snippets for make, cmake and the shell in `scripts/mkcap.py`
-/
namespace Ccpp.Snip

/-- Notation: a Python string. -/
abbrev Str := List Char

/-- `str.replace` (library) with a pattern that is not empty; the number counts the characters of a match that are still to
be passed. -/
def replaceGo (p r : Str) : Nat → Str → Str
  | _, [] => []
  | k + 1, _ :: s => replaceGo p r k s
  | 0, c :: s => if p.isPrefixOf (c :: s) then r ++ replaceGo p r (p.length - 1) s else c :: replaceGo p r 0 s

/-- `s.replace(p, r)` (library). -/
def replace (p r s : Str) : Str := replaceGo p r 0 s

/-- `s.endswith(e)` (library). -/
def endsWith (s e : Str) : Bool := e.isSuffixOf s

/-- `s.rstrip(';')` (library). -/
def rstripSemi (s : Str) : Str := (s.reverse.dropWhile (· == ';')).reverse

/-- The comment at the begin of all headers, mkcap.py:430-435, 463-468, 504-509, 555-560, 606-611, 651-656, 706-711, 740-745,
781-786; `what` is caps, schemes or types. -/
def banner (what : Str) : Str :=
  "\n# All CCPP ".toList ++ what ++ " are defined here.\n#\n# This file is auto-generated using ccpp_prebuild.py\n# at compile time, do not edit manually.\n#\n".toList

/-- The line that is added for one file, mkcap.py:451, 589, 728 -/
def makeEntry (f : Str) : Str := " \\\n\t   ".toList ++ f

/-- CapsMakefile.write, TypedefsMakefile.write, mkcap.py:428-454, 704-731 -/
def listMake (what var : Str) (files : List Str) : Str := banner what ++ var ++ " =".toList ++ files.flatMap makeEntry

/-- CapsCMakefile.write, SchemesCMakefile.write, TypedefsCMakefile.write, mkcap.py:461-496, 604-633, 738-773 -/
def listCMake (what var : Str) (files : List Str) : Str :=
  banner what ++ "set(".toList ++ var ++ "\n".toList ++ files.flatMap (fun f => "      ".toList ++ f ++ "\n".toList) ++ ")\n".toList

/-- CapsSourcefile.write, SchemesSourcefile.write, TypedefsSourcefile.write, mkcap.py:502-541, 649-684, 779-818 -/
def listSource (what var : Str) (files : List Str) : Str :=
  rstripSemi (banner what ++ "export ".toList ++ var ++ "=\"".toList ++ files.flatMap (· ++ ";".toList)) ++ "\"\n".toList

/-- The header of SchemesMakefile, mkcap.py:555-568 -/
def schemesHeader : Str :=
  banner "schemes".toList ++ "SCHEMES_F =\n\nSCHEMES_F90 =\n\nSCHEMES_f =\n\nSCHEMES_f90 =".toList

/-- The four texts of the loop of SchemesMakefile.write, mkcap.py:583-596: of the ending `e`, if no ending before it fits -/
def entries (before : List Str) (e : Str) (files : List Str) : Str :=
  (files.filter fun f => !(before.any fun b => endsWith f b) && endsWith f e).flatMap makeEntry

/-- SchemesMakefile.write, mkcap.py:574-601 -/
def schemesMake (files : List Str) : Str :=
  let f := ".F".toList
  let f90 := ".F90".toList
  let lf := ".f".toList
  let lf90 := ".f90".toList
  let c := schemesHeader
  let c := replace "SCHEMES_F =".toList ("SCHEMES_F =".toList ++ entries [] f files) c
  let c := replace "SCHEMES_F90 =".toList ("SCHEMES_F90 =".toList ++ entries [f] f90 files) c
  let c := replace "SCHEMES_f =".toList ("SCHEMES_f =".toList ++ entries [f, f90] lf files) c
  replace "SCHEMES_f90 =".toList ("SCHEMES_f90 =".toList ++ entries [f, f90, lf] lf90 files) c

/-- CapsMakefile.write, mkcap.py:428-454 -/
def capsMake : List Str → Str := listMake "caps".toList "CAPS_F90".toList

/-- CapsCMakefile.write, mkcap.py:461-496 -/
def capsCMake : List Str → Str := listCMake "caps".toList "CAPS".toList

/-- CapsSourcefile.write, mkcap.py:502-541 -/
def capsSource : List Str → Str := listSource "caps".toList "CCPP_CAPS".toList

/-- SchemesCMakefile.write, mkcap.py:604-633 -/
def schemesCMake : List Str → Str := listCMake "schemes".toList "SCHEMES".toList

/-- SchemesSourcefile.write, mkcap.py:649-684 -/
def schemesSource : List Str → Str := listSource "schemes".toList "CCPP_SCHEMES".toList

/-- TypedefsMakefile.write, mkcap.py:704-731 -/
def typedefsMake : List Str → Str := listMake "types".toList "TYPEDEFS".toList

/-- TypedefsCMakefile.write, mkcap.py:738-773 -/
def typedefsCMake : List Str → Str := listCMake "types".toList "TYPEDEFS".toList

/-- TypedefsSourcefile.write, mkcap.py:779-818 -/
def typedefsSource : List Str → Str := listSource "types".toList "CCPP_TYPEDEFS".toList

end Ccpp.Snip
