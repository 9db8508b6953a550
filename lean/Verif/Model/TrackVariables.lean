import Verif.Model.MetadataFile
import Verif.Model.PrebuildSuite
import Verif.Model.PrebuildArgs
/-!
# Model of ccpp_track_variables

`find_scheme_names` (scripts/metadata_table.py:226-263), `create_metadata_filename_dict` and `create_var_graph`
(scripts/ccpp_track_variables.py:65-158).

A raised exception is `none`.  Parameters: the files of the directory in the order of `glob.glob`, and `read`, the result of
`parse_metadata_file` for a file name (see C62).  Simplification: reading a file twice gives the same tables.
-/
namespace Ccpp.TV
open FDecl (Str)
open MF (Table Val)

/-- The value of the names among the properties of a line, metadata_table.py:243-251 -/
def nameValues (es : List (Str × Str)) : List Str := es.filterMap fun e => if e.1 = "name".toList then some e.2 else none

/-- The two loops of find_scheme_names, metadata_table.py:231-262.  The first argument says whether the inner loop is running; the outer loop
looks again at the line that ended the inner one.  At the end of the file the inner loop reads one line too much (IndexError): the test at 257
comes one line late. -/
def findNames : Bool → List Str → Option (List Str)
  | true, [] => none
  | false, [] => some []
  | true, l :: ls =>
    if (strip l).head? = some '[' then findNames (MF.tableStart l) ls
    else if (strip l).isEmpty then findNames true ls
    else (MF.configLine (strip l)).bind fun es => (findNames true ls).map fun ns => nameValues es ++ ns
  | false, l :: ls => findNames (MF.tableStart l) ls

/-- `d[k] = v` (Python library). -/
def assign (d : List (Str × Str)) (k v : Str) : List (Str × Str) := (k, v) :: d

/-- create_metadata_filename_dict, ccpp_track_variables.py:65-82: the last file with a name counts. -/
def fileDict : List (Str × Str) → List (Str × List Str) → Option (List (Str × Str))
  | d, [] => some d
  | d, f :: fs => (findNames false f.2).bind fun ns => fileDict (ns.foldl (fun d n => assign d n f.1) d) fs

/-- A property that is a text, or nothing, ccpp_track_variables.py:127-134 -/
def textProp (p : MF.Props) (k : String) : Str :=
  match p k.toList with
  | some (.text s) => s
  | _ => []

/-- The loop over the variables of a section: the intent of the variable, and the names that contain the text, ccpp_track_variables.py:125-137 -/
def scanVars (var : Str) : List Str → List MF.Props → Option Str × List Str
  | found, [] => (none, found)
  | found, p :: ps =>
    if var = textProp p "standard_name" then (some (textProp p "intent"), [])
    else scanVars var (if PA.inText var (textProp p "standard_name") then found ++ [textProp p "standard_name"] else found) ps

/-- What is collected: the entries of the group, and `partial_matches`, ccpp_track_variables.py:96-103 -/
structure St where
  entries : List (Str × Str)
  partials : List (Str × List Str)

/-- One section, ccpp_track_variables.py:123-149; the empty text found counts as nothing found, 138 -/
def doSection (var : Str) (st : St) (s : MF.Section) : St :=
  match scanVars var [] s.vars with
  | (some i, _) => if var.isEmpty then st else { st with entries := st.entries ++ [(s.title, i)] }
  | (none, []) => st
  | (none, f) => { st with partials := PB.dset st.partials s.title f }

/-- One table: only that with the name of the scheme, ccpp_track_variables.py:118-149 -/
def doTable (var scheme : Str) (st : St) (t : Table) : St :=
  if t.name = some scheme then t.sects.foldl (doSection var) st else st

/-- One scheme of the call tree, ccpp_track_variables.py:104-149 -/
def doScheme (dict : List (Str × Str)) (read : Str → Option (List Table)) (var : Str) (st : St) (scheme : Str) : Option St :=
  (dict.lookup scheme).bind fun f => (read f).map fun ts => ts.foldl (doTable var scheme) st

/-- The loop over the groups, ccpp_track_variables.py:99-149 -/
def groups (dict : List (Str × Str)) (read : Str → Option (List Table)) (var : Str) :
    List (Str × List Str) → List (Str × List Str) → Option (List (Str × List (Str × Str)) × List (Str × List Str))
  | ps, [] => some ([], ps)
  | ps, g :: gs =>
    (g.2.foldlM (doScheme dict read var) ⟨[], ps⟩).bind fun st =>
      (groups dict read var st.partials gs).map fun r => ((g.1, st.entries) :: r.1, r.2)

/-- The result: success, the graph, and the partial matches that are printed, ccpp_track_variables.py:83-158 -/
structure Result where
  success : Bool
  graph : List (Str × List (Str × Str))
  partials : List (Str × List Str)

/-- create_var_graph, ccpp_track_variables.py:83-158; an empty directory is an error, 71-73 -/
def track (files : List (Str × List Str)) (read : Str → Option (List Table)) (tree : List (Str × List Str)) (var : Str) : Option Result :=
  if files.isEmpty then none
  else (fileDict [] files).bind fun dict => (groups dict read var [] tree).map fun r =>
    let ok := r.1.any fun g => !g.2.isEmpty
    ⟨ok, r.1, if ok then [] else r.2⟩

end Ccpp.TV
