# Formal model of NCAR/ccpp-framework in Lean 4

## Layout

* `lean/Verif/Model/*.lean` – executable models of the code, one file per source
  module. Every definition cites the file and lines of `/repo` it models and
  says what was simplified.
* `lean/Verif/Spec/*.lean` – small specifications written without reference to
  the models (grammars, stacks, finite maps, permutations…), where a property
  cannot be stated in a line or two of plain Lean.
* `lean/Verif/Lemmas/*.lean` – helper lemmas.
* `lean/Verif/Props/*.lean` – property theorems only, each with a non-vacuity
  `example` beside it.
* `properties.jsonl`, `MANIFEST.json` – list of properties, and which theorems
  settle which. `seeded/LOG.jsonl` – the mutation log.

Modelling conventions: strings are `List Char`; Python exceptions are `Except`
or `Option`; Fortran error codes are values; a Python object mutated in place
is a function returning the new value; a loop is a fold, structural recursion,
or (when the code may fail to terminate) a fuelled recursion with a theorem
about every fuel.

## Plan per property (written before the proofs)

| id | modelled | proof plan |
|----|----------|------------|
| C01 | PreprocStack and process_line on classified directives | invariant by induction on directive lists; refinement to a list-stack spec |
| C02 | same | spec "first true branch"; expected false for true #elif followed by another branch: negation witness, and partial theorem |
| C03 | same | induction on balanced directive blocks |
| C04 | transition regexes as suffix tables, function_match | suffix characterisation, for all strings |
| C05 | StateMachine dictionary | map refinement |
| C06 | interpreter of the generated group subroutine (state check, body, state set) | simulation with a path automaton, induction on histories |
| C07 | tree of schemes, code emitted by write, interpreter | structural induction on trees |
| C08 | same as C06 | expected false (state set is unconditional): witness + partial for rejected calls |
| C09 | allocation status of suite variables in the interpreter | invariant by induction on histories |
| C10–C12 | hash table as array of bucket chains, 32-bit hash, iterator | refinement to an association list; iterator trace = concatenation of chains |
| C13 | same | expected false: for every fuel the loop leaves the table bounds; witness |
| C14–C18 | ccpp_model_constituents_t as a record over the hash-table model | invariants over call histories; C18 expected false |
| C19 | two directories as finite maps | case analysis; expected false (inverted comparison) : witness + partial |
| C20 | abstract file system, create_file_list with work list | invariants; termination measure |
| C21, C22 | write, find_best_break, _in_quote on List Char | induction on remaining text |
| C23 | CodeBlock lines as template pieces | induction |
| C24, C25 | ParseObject cursor, ContextRegion list | invariants |
| C26, C27 | check_balanced_paren, check_fortran_id… as list functions | refinement to grammars |
| C28–C31 | VarCompatObj decision logic, permutation computation, index transforms | algebra; expected disagreements get witnesses |
| C32 | the conversion table over ℚ | finite table, each conversion affine, for all values |
| C33–C37 | VarDictionary as ordered association list + local-name map | invariants over histories |
| C38 | match_dimensions loop | loop invariant |
| C39 | CCPPFrameworkEnv kind parsing | fold |
| C40 | generator producing a statement list + interpreter of those statements | symbolic execution for arbitrary sets |
| C41–C43 | `_preproc_item_value`, `process_if_line`'s condition trees, directive recognition and the `#define` table | evaluation of condition trees against a propositional spec; line classification against a token-level spec; disagreements get witnesses |
| C44 | thread check in the generated group subroutine | interpreter of the emitted code |
| C45, C46 | generated host cap (suite/part dispatch), phase calls | case analysis on arbitrary suite tables; histories |
| C47 | ParseObject.add_syntax_err | invariant on the error counter |
| C48–C50 | fortran_list_match, the `error` flag of every checker, check_dimensions | grammars as independent predicates, refinement |
| C51, C52 | tendency unit rule; code emitted before and after a scheme call and an interpreter for it | symbolic execution for arbitrary memories |
| C53 | CCPPFrameworkEnv preprocessor definitions | fold, equality of the three input forms |
| C54 | suite analysis: call lists, host/suite/group dictionaries, promotion, loop substitution; interpreter of call histories | acceptance criterion by induction over the scheme list; "no undefined read" by invariant over histories |

No property of this list is considered inexpressible; floating point (C32) is
modelled over the rationals.

| id | modelled | proof plan |
|----|----------|------------|
| C55 | index loop of line_statements | loop invariant against a context automaton |
| C56 | scan_free_line, read_file loop with in-place line rewriting | simulation with a two-function reader (lines / continued lines); token-level comparison by a lexer state |
| C57 | FortranWriter model composed with the reader model | shape of written lines, then induction over statements |
| C58 | `Ftype.reassemble_parens` on arbitrary texts; the specification says which commas are top-level | induction over the comma-separated pieces; uniqueness of the parts |
| C59 | `parse_fortran_var_decl` with all it calls (type factory, kind and length selectors, attributes, items); the specification is a grammar relating text and meaning | each nonterminal of the grammar is read back by the function that reads it; composed for the statement |
| C60 | `parse_scheme_metadata` on statement lists per line; the specification classifies statements (header, declaration with intent, quiet, internal procedures, end) | regular expressions as chains of words (kw ↔ Begins); loop = fold over statements; the dictionary fold gives exactly the permutation condition |
| C61 | `check_fortran_against_metadata` on arbitrary tables; the specification says when two argument lists agree | lemma per comparison function, then positions of all arguments from the lookup; tables by permutation |
| C62 | `parse_metadata_file` on logical lines, with the checks of values and of `Var` as parameters (`Env`); the specification has a grammar of the text and, separately, the meaning of the documents | splitting of the lines into pieces at the start lines; inversion of every line form; both directions |
| C63 | the same model | from C62: the values of a key written once; files that violate it by evaluation |
| C64 | XML elements, objects, scheme library, analysis (vertical loops), generated statements with their execution (Model/SuiteCalls.lean) | the library is a permutation-free grouping of the headers; induction over the nested elements relates objects, parts, statements and executions to `intended` |
| C65 | serialisation by ElementTree, the writer's regular expressions and loop, an XML reader for such files (Model/XmlFile.lean) | mutual induction over the tree: the loop cuts the serialised text into the tags and texts of `out`, the reader puts them together again |
| C66 | generate_ccpp_datatable as an element tree, written and read by the functions of C65, and all list reports (Model/DataTable.lean) | the table of fine data in closed form; the reports do not see the changes made by writing and reading (norm); searches by name are unique; sorted sets by uniqueness |
| C67 | DDTLibrary, VarDDT and HostModel construction, look-up and call_string without loop variables (Model/HostModel.lean) | the recursion adds the references of the paths (closed form of paths, bound on depth removed by monotonicity); acceptance by invariants of the two dictionaries; references by induction on `PathRef` |
| C68 | bookkeeping of find_variable, variable_locations (Model/HostModel.lean) | names used = closure of requests under indices, by induction on the bound; last assignment of modules by distinct local names |
| C69 | merging of the requests, comparison with the host (Model/PrebuildMatch.lean) | dictionaries represent lists of requests; loop invariants; exact conditions for success, exact result |
| C70 | Suite.parse, the filters (Model/PrebuildSuite.lean) | loops as concatenations; `str.replace` on clean names; the filtered dictionary is again a dictionary of requests, so C69 applies |
| C71 | gather_variable_definitions, convert_local_name_from_new_metadata (Model/PrebuildNames.lean) | text of a reference ↔ its structure; generic correctness of the collecting loops; invariant of the dictionary by induction on the depth of the recursion; final names grow with the depth and are functional |
| C72 | API.write, Suite.write, Group.write as programs and their execution (Model/StaticApi.lean) | statements of a subcycle against the planned calls; a function of a group cap in closed form; functions found by their names; simulation of the state the host expects; invariant for all histories |
| C73 | the operations on files of main, the generate_*_makefile functions and the write functions as a program; complete and stopped runs; `filecmp`; `rm` with words and patterns (Model/PrebuildFiles.lean) | specification of one update, of a triple, of lists of updates with their flags, composed for the whole run; induction over programs for stopped runs, over histories |
| C74 | extract_parents_and_indices_from_local_name as a loop on texts (Model/PrebuildRefs.lean); the collection of arguments: additions, two rounds, the two rules for intents, the fallback of the init stage, merging in the suite, order of arguments (Model/PrebuildArgs.lean) | a pushdown automaton of references and a scan of the runs at the begin of an index, both invariant under removal of an innermost group; for the collection one invariant (records of all variables so far, intents only widen, closedness under bounds) through visits, rounds, calls |
| C75 | the tables of temporary variables and pointers, the statements before and after every call, the actual arguments (Model/PrebuildValues.lean), and the execution of these statements in a memory with host variables in blocks, allocatable temporaries, and pointers that may be null, associated or dangling | one lemma per argument (what its statements do), frames that show that arguments do not disturb each other, the invariant between calls that nothing is allocated and all pointers are null; names by their numbers |
| C76 | extract_dimensions_from_local_name as loops on texts, bounds, merging of subscripts, removal of the old subscripts, shapes of temporary arrays, value of the debug test (Model/PrebuildSections.lean) | depth of parentheses from the right for the last component, commas split and joined again, an occurrence of balanced subscripts cannot overlap the end; the specification is a structured reference and its text |
| C77 | findall of the regular expression as a scanner on texts (dots match everything), the loop over its matches, the normalisation of white space, the if statements (Model/Conditions.lean) | maximal munch of every element in its context gives back the elements; for arbitrary texts induction on the length, every accepted match is an element; the specification is a list of elements and its text |
| C78 | the two loops of find_scheme_names over the lines, the dictionary of files, the loops over groups, schemes, tables, sections and variables (Model/TrackVariables.lean) | the lines of a file in the sense of C62 (FileText) are cut into tables, headers and sections; induction on them shows that the second parser finds the same names; the report by induction on the call tree, with a chosen table for every scheme |
| C79 | joining of lines, the two scans (modules, subroutines) with their state, the upward search, the table lines, merging of variables (Model/SchemeTables.lean) | a file is a structure (modules, items, entry points) with a rendering; the scans are characterized by induction on the structure for every state; each statement test is shown equivalent to a grammar on words; the upward search is characterized by the last line that mentions the mark |
| C80 | the loop over tables, sections and variables with its tests and conversions, the containers, os.path.join (Model/ReadMetadata.lean) | the nested loops are one fold over the variables of the table; the conversion of one variable is characterized by a record of equations; for the dimensions an invariant of the metadata parser (C62) is proved |
| C81 | modules, type definitions, the state machine for tables, merging of entries (Model/VariableTables.lean) | the scans over a structured file (modules, types, lines) are computed by induction over the structure; the tables are an inductive relation on the lines, shown equivalent to the state machine (both directions) and functional; entries reuse the representation lemma of C79 |
| C82 | constituent dictionary of a suite, constituent variables of the host cap, generated copy and registration routines (Model/HostConst.lean) | the registrations refine a fold over lists (first of every name wins, attributes compared); with the refinement lemmas of C10/C14 for the hash table and lock_table this gives the locked table; the Python loops are computed with the list of first occurrences; the two sides are composed |
| C83 | debug checks: the generated statements as data with their text and their meaning in Fortran (bounds, sections, elements, return) (Model/DebugCheck.lean) | the metadata size of a dimension is a relation of its own (Spec); induction over the dimensions gives size and subscripts; a simulation between states that differ in internal variables gives the independence of the checks |
| C84 | check_fortran_literal, check_default_value with Python split, int and float on ASCII text (Model/Literals.lean) | grammars of Fortran constants as a specification (Spec/Literals.lean); splitting at underscores and delimiters by induction gives exact characterisations of the accepted texts, compared with the grammar |
| C85 | regular expressions as data with a derivative matcher (Model/Regex.lean) and the seven checkers over the transcribed patterns (Model/RefCheck.lean) | the matcher is proved equal to the language of the expression (Props/Regex.lean); the languages are proved equal to grammars (Spec/RefCheck.lean); splitting a reference at parenthesis and commas is proved to give the name and the subscripts |
| C86 | `VariableProperty.valid_value`, the property table, `parse_variable` from its keys and values on and the constructor of `Var` over a dictionary (Model/VarEntry.lean); float() is a parameter | the first reading of each property is proved equal to a relation between text and value (Spec/VarEntry.lean `Means`); the loop to the last entries; the second check, with all properties, to `Coherent`; composed to an equivalence for the whole variable |
| C87 | the loops of `parse_host_model_files` and `parse_scheme_files`, `find_associated_fortran_file`, `duplicate_item_error` (Model/CapgenFiles.lean) over the metadata reader of C62; a Fortran file is a parameter: what it registers, or disagreement with the sections | invariant of the state after each file (dictionaries, known and registered types); case distinction for the next file; induction over the files. Order: meaning of a file is monotone in the known types |
| C88 | `delete_pathnames_from_file`, `clean_capgen` with the path functions of the library (Model/CapgenClean.lean); the file system is a set of files with a map from paths to files | lines, parts of paths and steps through directories are given by relations in the specification; induction over lines and parts. Violation: every line of the pretty-printed XML ends with `>` (induction over the printer of C82) |
| C89 | the reader of Fortran files, function by function, on the statements of C56: parse_fortran_file, parse_module, parse_specification, parse_preamble_data, parse_type_def, parse_program, fortran_type_definition, regions (Model/FortranFile.lean), with parse_scheme_metadata of C60 and declarations of C59 | the specification describes well-formed files by their statements (Spec/FortranFile.lean); each loop is followed from state to state over each part (`Reaches`), composition over parts, sections, routines, modules. End: every call of a loop leaves less to read. Violations by computation on concrete files and, for files without module, for all of them |
| C90 | write_def and write_ptr_def: the text of the statement, character by character (Model/VarText.lean) | the statement is a declaration in the sense of the grammar of C59 (Spec/FortranDecl.lean), with attributes given by the relation `Wanted` (Spec/VarText.lean); text lemmas for each shape of attributes, then case analysis; reading back by C59_declaration_partial |
| C91 | handle_array_ref, call_dimstring, call_string with loop variables (Model/VarRef.lean), with the regular expression of C85 | specification by relations on names, subscripts and texts (Spec/VarRef.lean: Fill, AllDims, Entry, ArgDim); equivalences by induction on the subscripts; the dimensions fit the hypothesis of C90 |
| C92 | add_variable_dimensions and get_dim_stdnames (Model/DimSources.lean) on the dictionaries of C33-C37; the order of the set is an argument | specification of names, presence and provision in terms of stored entries (Spec/DimSources.lean); invariant of the loop by induction on the order; uniqueness up to permutation |
| C93 | forward_transform and reverse_transform as texts (Model/TransformText.lean), on the decisions of VarCompatObj (Model/VarCompat.lean) and the table of unit conversions (Model/Units.lean) | Fortran expressions with text, value, kind and references (Spec/TransformText.lean); every template of the table is the text of an expression with the coefficients of C32 (kernel evaluation of the table), lifted to all names, kinds and values by proof |
| C94 | create_argument_list_wrapped(_explicit) as texts (Model/ArgWrap.lean) | what the compiler sees after removing continuations and blanks (Spec/ArgWrap.lean); induction over the list with the length of the current line as invariant |
| C95 | _format_line and table_entry_pretty_print (Model/PrettyPrint.lean) | words and lines of a text (Spec/PrettyPrint.lean); induction over the recursion of _format_line and over the tree |
| C96 | registration and output of loop substitutions as texts (Model/LoopActions.lean) | meaning of the three kinds of assignments and execution (Spec/LoopActions.lean); invariant over the history: what a substitution requires is an argument or computed before it |
| C97 | the lines of the prototype metadata file (Model/ProtoMeta.lean) | relation of documents (see C62) to tables (Spec/ProtoMeta.lean), with the counter of invented names; induction over variables, sections, tables; blank separator lines belong to the part before them |
| C98 | statements of the inspection routines as texts (Model/Inspect.lean) | small-step meaning of the Fortran statements and of the if construct (Spec/Inspect.lean); induction over suites and list elements |
| C99 | read_file and scan_fixed_line for fixed form (Model/FixedForm.lean); the preprocessor's verdict on a line is an input (it is C03) | the files of the specification as inductive relations (Spec/FixedForm.lean, contexts from C02); induction over the relation with the state of the loop |
| C100 | the regular expression as the last place, the loop by well-founded recursion (Model/LongName.lean) | place by place (Spec/LongName.lean); invariant of the loop |
| C101 | the filters and searches behind one physics routine of the host cap (Model/HostCall.lean); the text of a reference is a parameter (it is C67), the constructs around calls are C45, use statements C68 | relations between arguments, variables and actual arguments (Spec/HostCall.lean); induction over arguments and parts |
| C102 | the texts written by the nine classes for make, cmake and the shell (Model/Snippets.lean), with str.replace and rstrip | how the three languages read a text: lines, joined lines, words, comments, commands (Spec/Snippets.lean); induction over the files, and a lemma on where a replaced pattern can occur (at most before an equals sign) |
| C103 | the loop of parse_preproc_line over the characters of a line, with the regular expression for defined (Model/CondText.lean); evaluation is C42's model; ast.parse is an input | texts of C conditions and of Python expressions as inductive relations, levels or / and / unary (Spec/CondText.lean); induction over the C text: what it is translated to, whatever follows, is a Python text of the same formula |
| C104 | create_arguments_module_use_var_defs and the declarations of mkcap.Var (Model/PrebuildDecls.lean) | grammar of the declarations, of bounds and of imports, and of the blocks of local pointers as relations (Spec/PrebuildDecls.lean); the two passes are one loop over scalars, then arrays; invariant of the loop: imported names are distinct, each has its statement, and they are the needed ones |
| C105 | the declarations and allocations of Group.write, allocate_dim_str and the names in call_string (Model/GroupLocals.lean) | what each variable needs as an inductive relation, shapes and bounds as relations on texts, allocation as runs on a heap (Spec/GroupLocals.lean); the collection loop is shown to be filters of the dictionary, then invariant of the loop over the copies |
| C106 | Var.intrinsic_elements and Var.children (Model/LeafElements.lean) | references, leaves and intrinsic elements as inductive relations (Spec/LeafElements.lean); induction over the depth of the recursion, and over the relations for success |
| C107 | find_schema_version, find_schema_file, the search in validate_xml_file (Model/SchemaVersion.lean) | values of digit sequences as an inductive relation, versions and paths as predicates (Spec/SchemaVersion.lean); decimal digits have their value, so different versions have different files |
| C108 | the statements of create_kinds_file, the comparison of kinds (Model/KindsFile.lean) | legality and exports of a module of renaming use statements (Spec/KindsFile.lean), with names ignoring case |
| C109 | MetadataSection.to_html (Model/HtmlTable.lean) | how the page is read: cells, rows and page as inductive relations (Spec/HtmlTable.lean), with one reading only |
| C110 | escape_tex, the entries of the requests (Model/LatexDoc.lean) | what a source is typeset as, as an inductive relation with one result only (Spec/LatexDoc.lean) |
| C111 | the choice of the suite definition files of prebuild (Model/PrebuildSdfs.lean) | words, paths and chosen files as relations (Spec/PrebuildSdfs.lean); the result is an iff with List.Forall2 over the names |
| C112 | ParseContext and context_string (Model/SourcePlace.lean) | last part of a path, text of a place, line after steps (Spec/SourcePlace.lean); the reading is unique |
| C113 | the error variables and the call string of the constituent routines (Model/ErrorVars.lean) | keyword arguments as an inductive relation, variables known by standard name (Spec/ErrorVars.lean) |
<!--ROWS-->

## Trusted base

* Lean 4.33.0's kernel. No axioms of our own; the theorems use at most
  `propext`, `Classical.choice` and `Quot.sound`. `AXIOMS.md` lists, theorem by
  theorem, which ones (generated by `tools/mkaxioms.py` from `#print axioms`).
* Faithfulness of the models, by reading: the code was not run. Every model
  definition cites the lines it transcribes (`tools/citecheck.py` finds
  definitions without a citation).
* The meaning given to Python and Fortran in the models: Python strings are
  lists of characters, `re` matches are written out as list functions (the
  regular expression is quoted beside each), dictionaries are association
  lists in insertion order, exceptions end the run; Fortran character
  comparison ignores trailing blanks, `allocate` of an allocated array and a
  reference to an unallocated one are errors, default integers are 32 bit two's
  complement (hash function) and otherwise unbounded.
* Reals are rationals (unit conversions, constituents). The order of Python set
  iteration, the log output and the texts of error messages are not modelled
  unless a property is about them.

## What is modelled, and what is not

| model file | code | left out |
|---|---|---|
| Text | helpers for Python `str` methods | – |
| Preproc, PreprocExpr | parse_tools/preprocess.py (stack, directives, condition evaluation), the directive part of read_file in fortran_tools/parse_fortran_file.py | the Python `ast` parser: a condition is given as its syntax tree |
| StateMachine | state_machine.py, ccpp_state_machine.py | general regular expressions: the five transition expressions are written out |
| SuiteCap, HostCap | code emitted by suite_objects.py, ccpp_suite.py, host_cap.py for one phase, and an interpreter for it | text layout of the emitted code, argument lists (but see SchemeTransform), OpenMP |
| HashTable | src/ccpp_hash_table.F90 | pointer representation: chains are lists |
| Constituents | src/ccpp_constituent_prop_mod.F90: property objects, model constituents object, copy in/out | min/max/default and thermo properties only as far as C14–C18 need them |
| FileUtils | file_utils.py | the file system is a finite map, no permission errors |
| FortranWriter, CodeBlock | fortran_tools/fortran_write.py, code_block.py | the licence text, `include` |
| ParseObject, ParseContext | parse_tools/parse_object.py, parse_source.py | log output |
| Checkers | parse_tools/parse_checkers.py: balanced parentheses, lists, identifiers, standard names, dimensions | check_units, registry checks |
| Units | conversion_tools/unit_conversion.py, the unit part of VarCompatObj | rounding |
| VarCompat, MatchDims | var_props.py VarCompatObj and dimension transforms; suite_objects.py dimension matching | kinds beyond name comparison and `len=` |
| SchemeTransform | code emitted around a scheme call in suite_objects.py and an interpreter for it | array shapes: an array is a function of its indices |
| FrameworkEnv | framework_env.py: kinds, preprocessor definitions | argument parsing |
| VarDictionary | metavar.py VarDictionary; Var.adjust_intent and name generation | ordered-dict ordering beyond insertion |
| ReqVars | ccpp_suite.py: the generated `ccpp_physics_suite_variables` and an interpreter for it | – |
| DataFlow | ccpp_suite.py, suite_objects.py: analysis of a suite, acceptance, promotion, and an interpreter for call histories | DDT members, unit conversion (C52), debug checks |
| FortranLines | fortran_tools/parse_fortran_file.py: line_statements, read_statements, scan_free_line, read_file (free form) | fixed form; the preprocessor's verdict per line is an input (Preproc) |
- `Model/FortranDecl.lean`: `scripts/fortran_tools/parse_fortran.py` 75-283 (Ftype), 290-440 (FtypeCharacter), 445-520 (FtypeTypeDecl), 571-628 (ftype_factory), 639-827 (parse_fortran_var_decl). Not modelled: kinds with quotation marks, non-ASCII letter case, the construction of FortranVar objects, messages.
- `Model/FortranMeta.lean`: `scripts/ccpp_capgen.py` 154-456, `scripts/metadata_table.py` 1044-1133. Property values are inputs (as returned by `get_prop_value`); message texts are not modelled.
- `Model/FortranScheme.lean`: `scripts/fortran_tools/parse_fortran_file.py` 36-52, 462-477, 617-750. Not modelled: log messages, region bookkeeping, the conversion of variables to a VarDictionary.
- `Model/MetadataFile.lean`: metadata_table.py: parse_metadata_file and everything it calls, except the property values (var_props.py), `Var` and `VarDictionary.add_variable`, which are parameters (`Env`), messages, `skip_ddt_check` and the run environment.
- `Model/SuiteCalls.lean`: ccpp_suite.py: the scheme library (API.__init__), Suite.parse, Suite.analyze (groups of phases), and suite_objects.py: new_suite_object, Group, TimeSplit, Subcycle, VerticalLoop, Scheme (structure, use statements, calls). The analysis of variables is a parameter (`Vars`): which vertical indices a routine needs and the extent of a loop.
- `Model/XmlFile.lean`: xml_tools.py:21-25, 225-338 and the parts of xml.etree.ElementTree (tostring, parse) that matter for files written by it; line-end normalisation, characters forbidden in XML, comments, processing instructions and CDATA sections are not modelled.
- `Model/DataTable.lean`: ccpp_datafile.py:247-740, 847-1184 (generate_ccpp_datatable and all list reports); the objects of capgen are seen through the properties used there; command-line parsing and `show` are not modelled.
- `Model/HostModel.lean`: ddt_library.py:25-301 and host_model.py:19-287 with the parts of metavar.py they use (call_string only for loop_vars None); loop_subst requests, array references' parents, contexts and messages are not modelled.
- `Model/PrebuildMatch.lean`: mkcap.py:22-42, 98-106, 197-235; metadata_parser.py:71-103, 245-247, 699-744; ccpp_prebuild.py:328-356, 415-423, 436-537. Long names, messages and the scanning of the Fortran source are not modelled.
- `Model/PrebuildSuite.lean`: mkstatic.py:683-765; ccpp_prebuild.py:355-434, 769-802; common.py:144-153. The XML document is given as its elements.
- `Model/PrebuildNames.lean`: ccpp_prebuild.py:207-326; common.py:108-128, 155-167; metadata_parser.py:380-434 (collection of variables). Scanning of the Fortran source, dependencies and messages are not modelled.
- `Model/StaticApi.lean`: mkstatic.py:280-322, 420-478, 834-888, 965-1044, 1080-1123 (selection of the routines), 1843-1948. Arguments, allocation, unit conversion, messages and debugging tests are not modelled; a scheme is a function from all calls so far to an error code.
- Model/PrebuildFiles.lean: files, disk, clock; the operations of a run in their order; `filecmp.cmp` with its shallow comparison; stopped runs; clean_files with the shell's words and `*`; the texts of the snippets for schemes. Not modelled: directories, permissions, symbolic links, quotes and other special characters of the shell, the texts of caps (given).
- `Model/PrebuildRefs.lean`, `Model/PrebuildArgs.lean`: mkstatic.py:69-108, 182-206, 842-856, 1062-1342, 1906-1908. The scheme's metadata is reduced to standard name and intent per call; conditions are given as lists of names; objects are values (mkstatic.py:1274 changes the local name of a shared object, which has no effect on the search); kinds, types and declarations are not modelled.
- `Model/PrebuildValues.lean`: mkstatic.py:1554-1860, ccpp_prebuild.py:476-487, mkcap.py:339-361. Statements are constructors, not texts; sections are the subject of C76; an array is a list of columns; one thread is modelled.
- `Model/PrebuildSections.lean`: mkstatic.py:110-149, 1346-1553, 1588-1638. Bounds are never empty texts; numbers in shapes of blocked arrays keep their text.
- `Model/Conditions.lean`: common.py:41-44, fortran_conditional.py:10-13, metadata_parser.py:200-211, mkstatic.py:1181-1213, metavar.py:985-1030, the if statements at mkstatic.py:1698-1709 and suite_objects.py:1590-1618. ASCII texts; a dictionary of ccpp_capgen includes its parents.
- `Model/TrackVariables.lean`: metadata_table.py:226-263, ccpp_track_variables.py:65-158. The list of files is a parameter (glob), the result of parse_metadata_file is a parameter restricted by FileOk to what C62 gives; not modelled: parse_suite (C73), import_config, logging.
- `Model/SchemeTables.lean`: metadata_parser.py:516-781. read_new_metadata and Var.compatible are parameters; not modelled: dependencies, debug logging, the last line number of a subroutine.
- `Model/ReadMetadata.lean`: metadata_parser.py:104-250, common.py:130-142. The parsed tables are given as records of the values of get_prop_value; not modelled: the cache of parsed files, the test that the file exists.
- `Model/VariableTables.lean`: metadata_parser.py:252-513, parse_fortran.py:533-564. Not modelled: dependencies, logging.
- `Model/HostConst.lean`: constituents.py:49-118, 196-249, 251-396 (values, not text), 484-604, 686-698; host_cap.py:270-492. Not modelled: the generated text itself, reparsing of the metadata table, allocation failures.
- `Model/DebugCheck.lean`: suite_objects.py:1298-1588, 1767-1769. Not modelled: update_group_call_list_variable and the declaration of internal variables (the names passed to them are), comments and empty lines of the text. Fortran semantics of size, sections, subscripts and if constructs are part of the model.
- `Model/Literals.lean`: parse_checkers.py:229, 560-794. Text is ASCII; int and float of Python are modelled by their grammars.
- `Model/Regex.lean`: Python regular expressions without groups, as a language (backtracking order does not matter for a yes/no answer). `Model/RefCheck.lean`: parse_checkers.py:15-61, 205-230, 309-556, 803-943, 1071-1081. Text is ASCII.
- `Model/VarEntry.lean`: var_props.py:675-765, metavar.py:169-377 and 443-451, metadata_table.py:846-958 for one variable, using the checkers of C27, C50, C84 and C85. Not modelled: the texts of messages, the limit of errors (C47), properties of type int (there are none).
- `Model/CapgenFiles.lean`: ccpp_capgen.py:97-120, 457-580. The Fortran parser and the comparison (C59-C61) are a parameter here; the host model object is C67.
- `Model/CapgenClean.lean`: ccpp_capgen.py:54-95, 582-595. Log messages are reduced to success or errors; directories and permissions are not modelled (a path is a removable file or nothing).
- `Model/FortranFile.lean`: parse_fortran_file.py:34-52, 487-613, 747-994; parse_fortran.py:524-556, 630-635; parse_source.py:160-200, 303-340; metavar.py:1658-1690. Messages and log calls are not modelled; of a table, the kind, name, module and variables are kept; standard names (which are made new for each variable) are not modelled. Loops get fuel, C89_ends shows that it is enough.
- `Model/VarText.lean`: metavar.py:772-780, 1032-1157. The result of call_dimstring is a parameter, which must be a list of dimensions.
- `Model/VarRef.lean`: metavar.py:533-674, 694-749. A dictionary is a pair of functions (find_variable with the call_string of the variable found; find_loop_dim_match).
- `Model/DimSources.lean`: metavar.py:940-956, 1719-1769. Contexts and source types of variables are parameters; find_variable is that of the base class (C34).
- `Model/TransformText.lean`: var_props.py:1002-1090 (texts of the conversions). Rounding of floating-point numbers is not modelled.
- `Model/ArgWrap.lean`: mkstatic.py:151-180.
- `Model/PrettyPrint.lean`: ccpp_datafile.py:735-866.
- `Model/LoopActions.lean`: metavar.py:1285-1491, 2076-2104 and their use in suite_objects.py (413-531, 842-885, 2209-2219, 2573-2580). Of add_call_list_variable only the names are modelled (not intents, dimensions, phases or compatibility).
- `Model/ProtoMeta.lean`: ccpp_fortran_to_metadata.py:85-160 and unique_standard_name, parse_source.py:16-36. The end of lines is not modelled (lists of lines).
- `Model/Inspect.lean`: ccpp_suite.py:767-814, 1134-1184, 504-512, 487-492, suite_objects.py:324-330. Declarations, blank lines and indentation are not modelled; in the specification a message is never too long for its variable.
- `Model/FixedForm.lean`: parse_fortran_file.py:34, 41, 129-218, 343-449 (fixed form only); the preprocessor is an input; white space of a regular expression's blank is the blank only.
- `Model/LongName.lean`: var_props.py:26, 132-181.
- `Model/HostCall.lean`: host_cap.py:65-79, 495-534, 604-790 (lists only), host_model.py:207-228, 310-320, metavar.py:86-88, 1575-1609, 1619-1692, suite_objects.py:108-150.
- `Model/Snippets.lean`: mkcap.py:428-818 (texts of the snippets; creating directories and opening files not).
- `Model/CondText.lean`: preprocess.py:14, 136-191; the Python parser is an input, the theorem says which of its inputs is one expression.
- `Model/PrebuildDecls.lean`: mkstatic.py:63-66, 182-262, mkcap.py:96-104, 237-390; kinds that are None are empty texts; print_debug and the other print methods are not modelled.
- `Model/GroupLocals.lean`: suite_objects.py:117-165 (names only), 2311-2336, 2360-2463, 2508-2535, 2582-2595, 2616-2631; the compatibility test of variables with the same local name is a parameter; order of the statements is not represented.
- `Model/LeafElements.lean`: metavar.py:782-845, 880-891; variables are trees, VarDDT.intrinsic_elements (ddt_library.py:72-81) is not modelled.
- `Model/SchemaVersion.lean`: xml_tools.py:124-174, 191-210; texts of messages and xmllint are not modelled; a version with braces in a part that is no integer can make the formatting of the message (line 149) raise another exception.
- `Model/KindsFile.lean`: ccpp_capgen.py:120-141 (the statements only, not the frame and comments of the file), var_props.py:1123-1134.
- `Model/HtmlTable.lean`: metadata_table.py:624-635, 1221-1249; the writing of the file and its name are not modelled; a replacement field other than the name of the argument itself is taken as an error.
- `Model/LatexDoc.lean`: common.py:169-174, mkdoc.py:130-135; the frame of the document, the other rows of its tables and decode_container are not modelled.
- `Model/PrebuildSdfs.lean`: ccpp_prebuild.py:57-60, 165-205, 747-756, common.py:76; the reading of a file is a parameter, log messages are not modelled.
- `Model/SourcePlace.lean`: parse_source.py:48-111, 218-285, 298-303; the tests of the types of the arguments are not modelled, copies of contexts neither.
- `Model/ErrorVars.lean`: metavar.py:1841-1872, constituents.py:120-132, 162-194; a variable is its standard name, local name and intent, and find_variable is a parameter.
<!--MODELS-->

Not modelled at all: the CMake files, mkdoc.py other than what C110 covers, metadata2html.py other than the pages (C109), the parts
of ccpp_prebuild.py, mkcap.py and mkstatic.py not listed above, the track-variables tool, XML schema validation
(an external `xmllint` run), the doctest code.

## Where the code does not have the property

Each of these is a theorem with a concrete witness (suffix `_violated`, or the
name given); the property keeps its full statement in `properties.jsonl` and
has status `partial`.

* C02: after a true `#elif` a later `#elif`/`#else` is taken as well.
* C07: writing a group with a subcycle never ends (`Subcycle.loop` calls itself, suite_objects.py:2034-2042).
* C08: a failing scheme still advances the suite state. C09: with debug checks, unallocated variables are referenced.
* C13: starting an iterator on an empty hash table runs past its end. C14: a preset constituent index breaks the layout and the error is lost. C15: lock_table before initialise crashes. C16: names over 256 characters are cut. C18: a reset object stays data-locked.
* C19: without overwrite the comparison is inverted. C20: one file under two spellings is listed twice.
* C21: lines of line_max + 1 characters. C22: words cut, comments continued, literals damaged. C23: preprocessor lines are indented.
* C25: a refused leave still pops. C26: an unmatched `)` before the first `(`. C27: a final newline and non-ASCII letters are accepted.
* C28: character lengths are not compared. C29: a character variable without `len=` is not compatible with itself. C30: reordered dimensions without a horizontal one raise an internal error. C31: the index offset goes to the wrong position when the horizontal dimension moves.
* C33, C34: `ccpp_constant_one` is found everywhere; a removed variable cannot be added again. C35: `gen_unique`/`exists_ok` allow equal local names. C36: refusal of a protected variable depends on the order of uses. C37: long or upper-case prefixes give names that are not fresh. C38: extra available dimensions are ignored. C39: empty kind names are accepted. C40: the variable query writes outside its list.
* C41: `==` compares a string with a number; undefined symbols count as true. C42: operands after the second are ignored. C43: `#define X` and `#elif(` are not recognised. C44: thread 1 is let through. C46: a second register call allocates an allocated array. C48: nested items are torn apart. C49: `size(...)` depends on the error flag. C51: both directions.
* C52: results of required intent(out) arguments with a transform are lost; inactive optional arguments are referenced.
* C54: default values, empty subcycles, vertical loop bounds, arrays of the register and timestep phases, derived loop variables, and cycles without a time step each admit an accepted suite that reads an undefined value.
* C56: words on either side of a line end run together (`subroutine &` / `foo(x)`); a file ending in a continuation is accepted.
- C58/C59: character literals are not recognised in declarations (commas, parentheses and equal signs in them are taken as syntax); array constructors are torn apart; `character, intent(out) :: c`, `character(len=a_b) :: c` and `character*5 :: c` are refused; `realization = 2` is read as the declaration of `ization`; an intent outside schemes is refused or silently ignored depending on the logger; with a logger, a variable with unmatched parentheses gets the previous variable's dimensions.
- C61: the test `fdim in (':', fdim)` is always true, so dimension names are not compared (ccpp_capgen.py:237); `if find and mopt` skips the first argument and reads a property of None for a missing one (319); the metadata of a host is not compared with its module (260-267); the index of a metadata variable includes array references, the number of Fortran variables does not, so later variables are skipped (339); the message for an unknown dimension uses an unset variable (metadata_table.py:1113).
- C60: `scheme_name` is overwritten by every later match of the subroutine pattern (parse_fortran_file.py:659), so a bare `end`, a second statement on the last line or `subroutines = 3` give the table another name; an interface block ends the declarations; the pattern allows one prefix only; the intent pattern also matches in trailing comments
- C63: repeated keys in a block are accepted and the last one counts; `type = real` and `type = my_ddt` together give both types; text after `[ccpp-arg-table]` or `[ccpp-table-properties]` on the same line is ignored; an empty table without name and type is accepted; a derived type with a component of its own type is refused because it is registered after its section (metadata_table.py:711-713).
- C64: the vertical loop index is entered in the group, so a second scheme that needs it is called once and outside of a loop (suite_objects.py:735-741, 1924-1927); `has_item` compares a routine title with scheme names (ccpp_suite.py:441), so the scheme `x_init` hides the init routine of `x`; the property Subcycle.loop evaluates itself (2034-2042), so every subcycle is refused; the tuple from function_match is compared with phase names (ccpp_suite.py:241-252), so `<init>` and the like are refused; groups with equal names are accepted; a routine that needs two vertical indices ends in unbounded recursion.
- C65: simple_tag_re does not match an empty element with a slash in an attribute value and beg_tag_re does not match a tag of one letter without attributes (xml_tools.py:23-25), so such trees cannot be written (CCPPError 'No output found').
- C66: the dictionary of a suite names a parent (`<file>_constituents`) that is not written, so a group of this name makes _is_variable_protected loop for ever (ccpp_datafile.py:523-555, ccpp_suite.py:108); _find_var_dictionary takes the first dictionary of a name, and full group names of different suites can coincide (suite_objects.py:2149); parent.find(sch_name) searches for a tag with the name of the scheme (ccpp_datafile.py:925), so each use gets its own entry and a scheme called `scheme` finds a wrong one.
- C67: isinstance(var, Var) is true for every VarDDT, so the new object always gets the new field itself (ddt_library.py:37-43) and nested paths lose their middle; the dictionary of components refuses equal local names of different types (metavar.py:1700-1708); a recursive type recurses for ever (ddt_library.py:276-300); VarDDT.call_string writes the local name of the variable itself without translation (ddt_library.py:102-111); __loop_vars is replaced for every host table with loop variables (host_model.py:84-93).
- C68: variable_locations returns local names, array sections included (host_model.py:190-199), which are written after only: (host_cap.py:559-562); find_variable calls itself for indices without a check (host_model.py:247-253) and ignores those of the parent's local name.
- C69: merge_dictionaries compares only the first requests (metadata_parser.py:86), compare_metadata only the first request with the host (ccpp_prebuild.py:457), and `compatible` is not transitive for assumed lengths; ranks stand for dimensions (mkcap.py:197-213).
- C70: filter_metadata replaces the names of stages everywhere in the name of a subroutine (ccpp_prebuild.py:384-385); Suite.parse records `x_finalize` for a finalize element, which the filter looks up as `x_final` (mkstatic.py:730); all requests of a kept name are kept (ccpp_prebuild.py:391); `attrib['name']` is read for all children (mkstatic.py:726); `loop` is set in the loop over the schemes (mkstatic.py:746); `_call_tree[name] = []` resets the tree (mkstatic.py:726).
- C72: the test blocks set the error code of the host but not `ierr` (mkstatic.py:1008-1028), and the API then assigns `ierr` to the error code (mkstatic.py:315); `initialized = .false.` is an assignment to the whole array (mkstatic.py:1042); `subcycle.loop > 1` is the condition for a loop (mkstatic.py:1885); init and finalize elements have only one stage, but the flags of their caps are set and cleared by two (mkstatic.py:1087-1090); the clause `else` is written also without groups (mkstatic.py:450).
- C73: only the makefile is compared (ccpp_prebuild.py:633, 670, 707), so a cmakefile or sourcefile that is missing or old stays so; the makefile of the schemes lists only four endings (mkcap.py:588-595), the cmakefile all files; `filecmp.cmp` is shallow; `static_api_cmakefile` is not in the list of clean_files (ccpp_prebuild.py:144-160) and names are not quoted (ccpp_prebuild.py:162).
- C74: the arguments of a call are collected with their own intents only (mkstatic.py:1223-1232), so an `intent(out)` argument that is also a condition or dimension is never widened; a parent takes the intent of its only component (mkstatic.py:1300); the list of additions is extended during the second round but never visited again (mkstatic.py:1219-1220); the inverse look up table has one entry per local name (mkstatic.py:1066-1068); the instance of ccpp_t is added only in the init stage without schemes (mkstatic.py:1906).
- C75: pointers are associated only together with the conversion before the call and nullified only with the one after it (mkstatic.py:1751-1770), so conditional variables with intent(out) or intent(in) and units to convert are not handled; the section is appended to the formula (mkstatic.py:1752); temporary variables are shared by host name within one call.
- C76: equal texts of bounds are written as an index (mkstatic.py:1457-1459); ranges of the local name are replaced, not composed (1496-1499); `replace` removes every occurrence (1543, 1753, 1830); CCPP_LOOP_EXTENT is tested instead of the horizontal one (1447); the debug test compares a section with its own bounds (1537).
- C77: `findall` skips what it does not match, and nothing compares the matches with the text (mkstatic.py:1190, metavar.py:1010), so `-`, `+`, `*`, `.` of reals are lost; the regular expression has operators in lower case only (common.py:41-44); `T` and `F` are used for constants (metadata_parser.py:206, mkstatic.py:1181); suite_objects.py:1600 has no parentheses.
- C78: `metadata_dict[scheme] = scheme_fn` (ccpp_track_variables.py:80) keeps the last file without a message; find_scheme_names reads physical lines, so a continued line ends in a backslash item without `=` (metadata_table.py:243), and its test for the end of the file comes after the next line was read (240, 257).
- C79: `words[j].lower() == 'subroutine'` only as the first word (metadata_parser.py:610), so `pure subroutine` is not seen; `subroutine_name.endswith(ccpp_stage)` is case-sensitive (617) and tries timestep_init first; `arg_table_` + name is searched as a part of a word (674); a comment ending in `&` is joined (555).
- C80: `'horizontal_dimension' in dimensions` (metadata_parser.py:191, 198) compares with whole entries, which are ranges `ccpp_constant_one:horizontal_dimension` (metadata_table.py:909-920); a table that is not found is not an error (125-160).
- C81: metadata_parser.py:444-447 (any line without `|` is a blank table), 448-463 (old tables: the exception is commented out), no test that a table is finished (377-478), 299-310 (comments not removed), parse_fortran.py:552 (`split(' ', 1)`), 342 (`type,extends (a)` taken for a declaration).
- C82: host_cap.py:315-317 (a name seen before is skipped before its dimensions are checked), 321 against constituents.py:297 (`in` against `startswith`), 354 (IndexError), constituents.py:196-249 (checks do not return), 583 (lock of an empty table), 695 (reset keeps data_locked).
- C83: suite_objects.py:1563 (only the product of the extents is compared), 1542-1543 (metadata bounds as subscripts of an assumed-shape argument), 1583-1584 (no guard for empty arrays), 1419 (section of the loop bounds without a check of the bounds), 1565 (size of the whole array in the message), 1357-1374 (numbers as dimensions), 1335-1338 (internal names).
- C84: parse_checkers.py:690 (case of the kind in the value; empty kind after an underscore), 673-681 (split at every underscore, also in a string), 712 (any delimiter, IndexError), 664 (IndexError), 725-727 (ParseInternalError for derived types), 229 (pattern without end).
- C85: parse_checkers.py:17 (repetition of word_word instead of word(_word)+), 21 (\\s instead of a blank), 210, 218 and 862 ($ before a newline), 217-221 ({0,6}), 383 (length of numbers), 229 (no end of the pattern), 538 (case), 859-862 (empty), 847 (None), 440 (literal check of a derived type).
- C86: var_props.py:758 (no check of empty values), 683-690 (ValueError of float()), metadata_table.py:912 (pval unbound), 885-892 and metavar.py:303-316 (two types, kind of a derived type), metadata_table.py:936 (duplicates), 944 (exception outside of the try), parse_checkers.py:129-137 (size(...) without its closing parenthesis).
- C87: ccpp_capgen.py:502 and 565 (`table_dict[header.title]`: `header` is the variable of the other loop; MetadataTable has no `context`), 500 and 510 (names compared with case).
- C88: ccpp_capgen.py:60-80 (the data table has been XML since ccpp_datafile.py writes it, but is read as a list of paths): `--clean` removes the data table and none of the generated files.
- C89: parse_fortran_file.py:920-932 (the statement after the announcement of a scheme is dropped, so `subroutine` directly after it is lost), 994 (`additional_routines` is unbound without a module, and holds those of the last module only), 797-800 with 910 (`end module` is consumed by parse_specification, then the module goes on), 35, 37 (`end module`, `end program` need a blank behind them), parse_source.py:330 (names compared with letter case), 939-955 (the second internal subroutine is taken for a routine of the module).
- C90: metavar.py:1082-1085 (target of the caller is only looked at for allocatable variables; suite_objects.py:2511 asks for scalars too), 1080 and 1093 (optional is forgotten), 1081 (intent is forgotten), 1086 (allocatable scalars), 1112-1116 with 1085 and 1097 (target twice).
- C91: metavar.py:629-653 (a number is looked up as a standard name; call_string at 713-718 accepts it).
- C92: metavar.py:1731, 1745 (`if to_dict` is false for an empty dictionary), 1729 (iteration over a set of strings), 1746-1748 (exists_ok=True skips the test of local names), 1711-1717 (remove_variable keeps the local name).
- C93: var_props.py:1031-1033, 1076-1078 (`real` for every type), 939-945 (kinds of integers and logicals are "convertible"), 972-976 (units of integers are "convertible").
- C96: suite_objects.py:2216 with metavar.py:1377-1387 (new name unique in the group's dictionary, not in its call list); suite_objects.py:2573-2580 (calculations before the schemes, also if a scheme creates the bound).
- C97: ccpp_fortran_to_metadata.py:116-144 (the dictionary of local names has only the variables already written).
- C98: ccpp_suite.py:487-492 (groups are recognised as run groups by their names only).
- C99: parse_fortran_file.py:34, 381 (comment with ! in column 6), 405-409 (a statement with a comment is not remembered), 183-216 (columns after 72 are scanned).
- C101: host_cap.py:745-775 (sizes of the arrays of all suites in the branch of one suite), 617-628 (one variable for two suites with the same scheme), 656-683 (suite_name and suite_part are not reserved).
- C102: mkcap.py:588-595 (other endings than .F, .F90, .f, .f90 are in no variable for make).
- C103: preprocess.py:155-163 (no blanks around and, or, not: `!A` is the name notA, `A&&B` the name AandB; `!=` becomes `not=`).
- C104: mkstatic.py:198-229 (a bound inside an array argument can be used before its declaration), mkstatic.py:253-261 (the derived type of a local variable is not imported), mkstatic.py:240-245 (the name of a pointer type does not tell a missing kind from `default_kind`).
- C105: suite_objects.py:148 against 2416 (pointers are declared with the local name of the group and passed with that of the scheme), 2404-2408 (an optional scalar has no pointer), 2452-2461 (copies with the same name share one declaration).
- C106: metavar.py:843 overwrites the elements of a derived type with the name of the variable (and 810 would add the characters of a name one by one); 830 does not pass the dictionary of types to the references.
- C108: framework_env.py:153-166 accepts any text as the specification of a kind, and compares names with case: an expression gives a module that is no Fortran, and two spellings of a name give two clashing exports.
- C109: metadata_table.py:1241 formats a value that the f-string has inserted already: a value with a brace raises an exception (or two braces are shown as one); markup in values is not escaped.
- C110: common.py:169-174 escapes three characters only, so that `^`, `#`, `$`, braces and backslashes in metadata are taken as commands; mkdoc.py:134 cuts the word `none` away.
<!--VIOLATIONS-->

## Mutation tests

`seeded/LOG.jsonl` has one line per edited model (`seeded/muts/*.py` hold the
edits, `tools/mut.py` applies each to a copy outside `/verif` and rebuilds).
Survivors led to the theorems listed as tightened there.
