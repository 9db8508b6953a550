import Verif.Model.PrebuildMatch
/-!
# Model of the suites of `scripts/ccpp_prebuild.py`

`Suite.parse` (`scripts/mkstatic.py`), `check_schemes_in_suites`, `filter_metadata`,
`generate_list_of_schemes_and_dependencies_to_compile` (`scripts/ccpp_prebuild.py`), `decode_container` (`scripts/common.py`).

A raised exception is `none`; a suite whose name is refused (`success = False`) is `some none`.

Simplifications: the XML document is given as its elements; texts of elements and attributes are there where the code reads them,
except for the attributes `name` of a group and `loop` of a subcycle, which may be missing (`loop` is the converted number);
a Python set is a list without duplicates.
-/
namespace Ccpp.PB

/-- The tag of a child of the suite in lower case, mkstatic.py:729-738 -/
inductive Tag where
  | init | finalize | group
deriving DecidableEq

/-- An element `subcycle`: `int(subcycle_xml.get('loop'))` and the texts of its children, mkstatic.py:741-750 -/
structure SubXml where
  loop : Option Int
  schemes : List Str

/-- A child of the suite, mkstatic.py:724-758 -/
structure Child where
  tag : Tag
  name : Option Str
  text : Str
  subs : List SubXml

/-- The file name without directory, the attribute `name` and the children, mkstatic.py:692-712 -/
structure SuiteXml where
  file : Str
  name : Str
  children : List Child

/-- A group of the suite: its name, its kind and its subcycles, mkstatic.py:732-758 -/
structure Group where
  name : Option Str
  tag : Tag
  subs : List (Int × List Str)
deriving DecidableEq

/-- The attributes of a Suite after `parse`, mkstatic.py:635-648 -/
structure Suite where
  name : Str
  schemes : List Str
  subroutines : List Str
  groups : List Group
  tree : List (Str × List Str)
deriving DecidableEq

/-- CCPP_STAGES: full names and abbreviations, in order, common.py:15-20 -/
def stages : List (Str × Str) :=
  [("timestep_init".toList, "tsinit".toList), ("timestep_finalize".toList, "tsfinal".toList), ("init".toList, "init".toList),
   ("run".toList, "run".toList), ("finalize".toList, "final".toList)]

/-- The state of the loops of `parse`: the attributes and the variable `loop`, mkstatic.py:713-724 -/
structure PSt where
  schemes : List Str
  subroutines : List Str
  groups : List Group
  tree : List (Str × List Str)
  loop : Option Int

/-- `d[k] = v` (Python library). -/
def dset (d : List (Str × α)) (k : Str) (v : α) : List (Str × α) :=
  if d.any fun e => e.1 == k then d.map fun e => if e.1 = k then (k, v) else e else d ++ [(k, v)]

/-- `d[k].append(...)` for several elements, mkstatic.py:754-756 -/
def dappend (d : List (Str × List Str)) (k : Str) (v : List Str) : List (Str × List Str) :=
  d.map fun e => if e.1 = k then (k, e.2 ++ v) else e

/-- The loop over the schemes of a subcycle, mkstatic.py:743-748 -/
def schemeLoop (sx : SubXml) : PSt → List Str → Option PSt
  | st, [] => some st
  | st, s :: ss => sx.loop.bind fun n => schemeLoop sx { st with
      schemes := st.schemes ++ [s]
      loop := some n
      subroutines := st.subroutines ++ stages.map fun g => s ++ "_".toList ++ g.2 } ss

/-- `n` copies of a list (`for loop in range(0, n)`), mkstatic.py:754-756 -/
def copies (l : List Str) : Nat → List Str
  | 0 => []
  | n + 1 => l ++ copies l n

/-- The call tree; `loop` is also the variable of this loop, mkstatic.py:752-756 -/
def callTree (make : Bool) (g : Str) (sx : SubXml) (st : PSt) : Option PSt :=
  if make then sx.loop.map fun n => { st with
    tree := dappend st.tree g (copies sx.schemes n.toNat)
    loop := if n > 0 then some (n - 1) else st.loop }
  else some st

/-- The loop over the subcycles of a group, mkstatic.py:741-756 -/
def subLoop (make : Bool) (g : Str) : PSt → List (Int × List Str) → List SubXml → Option (PSt × List (Int × List Str))
  | st, acc, [] => some (st, acc)
  | st, acc, sx :: sxs =>
    (schemeLoop sx st sx.schemes).bind fun st1 =>
    st1.loop.bind fun n =>
    (callTree make g sx st1).bind fun st2 => subLoop make g st2 (acc ++ [(n, sx.schemes)]) sxs

/-- A child of the suite, mkstatic.py:724-758 -/
def childStep (make : Bool) (st : PSt) (c : Child) : Option PSt :=
  c.name.bind fun g =>
  let st := { st with tree := dset st.tree g [] }
  match c.tag with
  | .init => some { st with
      schemes := st.schemes ++ [c.text], subroutines := st.subroutines ++ [c.text ++ "_".toList ++ "init".toList]
      groups := st.groups ++ [⟨some "init".toList, .init, [(1, [c.text])]⟩] }
  | .finalize => some { st with
      schemes := st.schemes ++ [c.text], subroutines := st.subroutines ++ [c.text ++ "_".toList ++ "finalize".toList]
      groups := st.groups ++ [⟨some "finalize".toList, .finalize, [(1, [c.text])]⟩] }
  | .group => (subLoop make g st [] c.subs).map fun r =>
      { r.1 with groups := r.1.groups ++ [⟨some g, .group, r.2⟩] }

/-- The loop over the children, mkstatic.py:724-758 -/
def childLoop (make : Bool) : PSt → List Child → Option PSt
  | st, [] => some st
  | st, c :: cs => (childStep make st c).bind fun st' => childLoop make st' cs

/-- The name of the suite fits the name of the file and is not too long, mkstatic.py:696-712; SUITE_NAME_MAX_CHARS, 31 -/
def suiteNameOk (x : SuiteXml) : Bool :=
  (x.file == x.name ++ ".xml".toList || x.file == "suite_".toList ++ x.name ++ ".xml".toList) && decide (x.name.length ≤ 37)

/-- Suite.parse, mkstatic.py:683-765 -/
def parseSuite (make : Bool) (x : SuiteXml) : Option (Option Suite) :=
  if suiteNameOk x then
    (childLoop make ⟨[], [], [], [], none⟩ x.children).map fun st =>
      some ⟨x.name, st.schemes.eraseDups, st.subroutines.eraseDups, st.groups, st.tree⟩
  else some none

/-! ## Filtering -/

/-- check_schemes_in_suites, ccpp_prebuild.py:355-366 -/
def checkSchemes (arguments : List Str) (suites : List Suite) : Bool :=
  suites.all fun s => s.groups.all fun g => g.subs.all fun sub => sub.2.all fun n => arguments.contains n

/-- An item of a container: `item[:item.find('_')] + ' ' + item[item.find('_')+1:]`; without underscore `find` is -1,
common.py:152 -/
def decodeItem (i : Str) : Str :=
  if '_' ∈ i then beforeUnderscore i ++ ' ' :: afterUnderscore i else i.dropLast ++ ' ' :: i

/-- `' '.join` (Python library). -/
def joinSp : List Str → Str
  | [] => []
  | [x] => x
  | x :: xs => x ++ ' ' :: joinSp xs

/-- decode_container, common.py:144-153 -/
def decodeContainer (c : Str) : Option Str :=
  let items := splitOn ' ' c
  if items.length ≤ 3 then some (joinSp (items.map decodeItem)) else none

/-- `s.find(p)`, none for -1 (Python library). -/
def find (p : Str) : Str → Option Nat
  | [] => if p = [] then some 0 else none
  | c :: s => if startsWith p (c :: s) then some 0 else (find p s).map (· + 1)

/-- The name of the subroutine in a decoded container: from `find(...) + len('SUBROUTINE') + 1` on; `find` is -1 if there is
none, ccpp_prebuild.py:382 -/
def subroutineOf (c : Str) : Str :=
  match find "SUBROUTINE".toList c with
  | some i => c.drop (i + 11)
  | none => c.drop 10

/-- `str.replace(p, r)` for non-empty `p`: all non-overlapping occurrences from the left; the first argument bounds the number
of steps (Python library). -/
def replaceFuel : Nat → Str → Str → Str → Str
  | 0, _, _, s => s
  | _ + 1, _, _, [] => []
  | n + 1, p, r, c :: s => match dropPrefix? p (c :: s) with
    | some t => r ++ replaceFuel n p r t
    | none => c :: replaceFuel n p r s

/-- `str.replace` (Python library). -/
def replace (p r s : Str) : Str := replaceFuel (s.length + 1) p r s

/-- The loop over the stages, ccpp_prebuild.py:384-385 -/
def abbreviate (s : Str) : Str := stages.foldl (fun s g => replace g.1 g.2 s) s

/-- Whether a request belongs to a subroutine of a suite, ccpp_prebuild.py:381-389; a container that is None or has more than
three items is an error -/
def called (suites : List Suite) (v : Var) : Option Bool :=
  (v.container.bind decodeContainer).map fun c => suites.any fun s => s.subroutines.contains (abbreviate (subroutineOf c))

/-- The loop over the requests of a name, ccpp_prebuild.py:380-391 -/
def keepVar (suites : List Suite) : List Var → Option Bool
  | [] => some false
  | v :: vs => (called suites v).bind fun b => if b then some true else keepVar suites vs

/-- The loop over the names, ccpp_prebuild.py:378-395 -/
def filterNames (suites : List Suite) (d : Dict) : List Str → Option Dict
  | [] => some []
  | k :: ks => match get d k with
    | none => none
    | some l => (keepVar suites l).bind fun b => (filterNames suites d ks).map fun r => if b then (k, l) :: r else r

/-- filter_metadata: the variables, ccpp_prebuild.py:368-395 -/
def filterDict (suites : List Suite) (d : Dict) : Option Dict := filterNames suites d (RV.sorted (keys d))

/-- filter_metadata: argument lists, dependencies and files of the schemes, ccpp_prebuild.py:396-412 -/
def filterBy (suites : List Suite) (d : List (Str × α)) : List (Str × α) :=
  d.filter fun e => suites.any fun s => s.schemes.contains e.1

/-- generate_list_of_schemes_and_dependencies_to_compile, ccpp_prebuild.py:425-434; the order of the set is not modelled -/
def toCompile (files : List (Str × Str)) (deps1 deps2 : List (Str × List Str)) : List Str :=
  (files.map (·.2) ++ deps1.flatMap (·.2) ++ deps2.flatMap (·.2)).eraseDups

/-- collect_physics_subroutines, filter_metadata, add_ccpp_suite_variables and compare_metadata, ccpp_prebuild.py:769-802 -/
def matchSuites (define : Dict) (suites : List Suite) (files : List (List (List Var))) : Option (Bool × List Str × Dict) :=
  (collect [] files).bind fun req => (filterDict suites req).bind fun f => compare define (addSuiteFrom f suiteVars)

end Ccpp.PB
