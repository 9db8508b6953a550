#!/usr/bin/env python3
"""Source of properties.jsonl (one P(...) per property)."""
import json, os
OUT = []
def P(id, title, statement, quantifier, why, anchors):
    OUT.append(dict(id=id, title=title, statement=statement, quantifier=quantifier,
                    why_tests_cant=why, anchors=anchors))

P("C01", "Preprocessor conditionals nest properly",
  "While a Fortran file is read, the set of open #if/#ifdef/#ifndef regions behaves as a stack: each opening directive opens exactly one region, each #endif closes the innermost one, an #endif (or #else/#elif) with nothing open is reported as an error, and a line is passed on to the parser iff every open region is currently in a true branch.",
  "every sequence of directives, of any length and nesting depth, and every truth value of their conditions",
  "nesting depth and directive order are unbounded; tests only try a few shapes",
  ["scripts/parse_tools/preprocess.py: PreprocStack.enter_region, exit_region, modify_region, in_true_region, process_line"])
P("C02", "At most one branch of a conditional is taken",
  "In #if c0 / #elif c1 / ... / #else / #endif, the lines that are passed on are exactly those of the first branch whose condition is true (the #else branch if none is).",
  "every number of #elif branches and every assignment of truth values to the conditions",
  "the number of branches is unbounded; 2^n assignments",
  ["scripts/parse_tools/preprocess.py: PreprocStack.modify_region, process_line"])
P("C03", "Inactive preprocessor regions have no effect",
  "A #define or #undef changes the definition set only if every enclosing region is in its true branch; inside an inactive region no directive sequence, however nested, makes text active or changes a definition until that region's own #else/#elif/#endif.",
  "every directive sequence inside an inactive region, every prior stack and definition set",
  "arbitrary nested content",
  ["scripts/parse_tools/preprocess.py: PreprocStack.process_line, add_define, remove_define"])
P("C04", "Scheme names map to at most one phase, by suffix",
  "function_match on a scheme subroutine name returns a (scheme, suffix, phase) with name = scheme ++ '_' ++ suffix, suffix one of the spellings of that phase, and the timestep_* spellings are never read as the plain init/final phases; it returns no match iff no such decomposition with a legal identifier prefix exists.",
  "every identifier string",
  "infinite set of names, the answer depends on regular expression order",
  ["scripts/state_machine.py: StateMachine.function_match, transition_match", "scripts/ccpp_state_machine.py: CCPP_STATE_MACH"])
P("C05", "The state machine never overwrites a transition",
  "add_transition with a name already present raises and leaves the machine unchanged; otherwise initial_state/final_state/transition_regex of every older transition are unchanged and the new one is stored.",
  "every machine reachable by add_transition and every new transition",
  "all histories of additions",
  ["scripts/state_machine.py: StateMachine.add_transition, __setitem__, __delitem__"])
P("C06", "Generated suite caps enforce the CCPP phase order",
  "For any sequence of calls the host makes to the subroutines of a generated suite cap, a call runs scheme code iff the suite state equals the phase's required state; otherwise it returns errcode 1, runs nothing and leaves state and data unchanged. Consequently every sequence of calls accepted without error is a path of register* (initialize (timestep_initial run* timestep_final)* finalize)*.",
  "every finite sequence of phase calls, in any order, with any scheme behaviour",
  "unbounded call histories",
  ["scripts/ccpp_suite.py: Suite.check_suite_state, set_suite_state, write", "scripts/suite_objects.py: Group.write", "scripts/ccpp_state_machine.py"])
P("C07", "A scheme error stops the rest of the group call",
  "Within one call of a generated group subroutine, schemes execute in suite-definition order (subcycles repeated), and once a scheme sets a nonzero error code no later scheme of that call is executed and the error code is returned to the host.",
  "every tree of schemes / subcycles / time-split parts and every error behaviour of the schemes",
  "unbounded trees, and errors at any point",
  ["scripts/suite_objects.py: Scheme.write, Subcycle.write, TimeSplit.write, VerticalLoop.write, Group.write"])
P("C08", "A failed phase does not advance the suite state",
  "If a phase call returns a nonzero error code, the suite state afterwards equals the state before the call.",
  "every call history and every error behaviour of the schemes",
  "errors can occur in any scheme of any call",
  ["scripts/suite_objects.py: Group.write (self._set_state.write)", "scripts/ccpp_suite.py: Suite.set_suite_state"])
P("C09", "Suite variables are allocated exactly while needed",
  "For any sequence of calls, the generated allocate/deallocate statements for suite-owned variables never allocate an allocated variable nor deallocate an unallocated one; every run-persistent variable is allocated exactly when the state is not 'uninitialized' and every timestep-persistent one exactly when the state is 'in_time_step'.",
  "every call history, including rejected calls and failing schemes, and every set of suite variables",
  "memory-safety over unbounded histories",
  ["scripts/suite_objects.py: Group.write, manage_variable", "scripts/ccpp_suite.py: Suite.write"])
P("C10", "The hash table behaves as a finite map",
  "After any sequence of add_hash_key calls on an initialised table, table_value(key) returns the value first successfully added under that key (comparing keys without trailing blanks) or reports 'No entry'; adding an existing key is reported and changes nothing; num_values is the number of distinct keys.",
  "every sequence of additions, every key string, every table size and key offset",
  "collision patterns depend on key contents and table size",
  ["src/ccpp_hash_table.F90: hash_table_add_hash_key, hash_table_table_value, hash_table_num_values"])
P("C11", "Hash indices are always inside the table",
  "key_hash returns an index between 1 and table_size for every string, so the out-of-bounds branch is unreachable for an initialised table.",
  "every string, key offset and requested table size, with 32-bit integer wrap-around",
  "all strings",
  ["src/ccpp_hash_table.F90: hash_table_key_hash, hash_table_initialize_table"])
P("C12", "Iterating a hash table visits every entry exactly once",
  "Starting an iterator on a table holding at least one entry and calling next until it is no longer valid yields every stored value exactly once and terminates.",
  "every table reachable by additions (any collision chains)",
  "all collision patterns",
  ["src/ccpp_hash_table.F90: hash_iterator_initialize, hash_iterator_next_entry, hash_iterator_is_valid, hash_iterator_value"])
P("C13", "Starting an iterator on an empty table terminates",
  "hash_iterator_initialize returns with an invalid iterator when the table holds no entry, without reading outside the table.",
  "every initialised table without entries",
  "non-termination cannot be observed by a finite test",
  ["src/ccpp_hash_table.F90: hash_iterator_initialize"])
P("C14", "Constituent indices are a packed bijection with advected first",
  "After a successful lock_table the registered constituents occupy indices 1..n bijectively, the advected ones occupy exactly 1..num_advected, const_index(standard_name) of every registered constituent is the position of its metadata, and unknown names give -1 / an error.",
  "every set of registered constituents, in any order of registration and any hash collisions",
  "indices depend on hash order",
  ["src/ccpp_constituent_prop_mod.F90: ccp_model_const_table_lock, ccp_model_const_index, ccp_model_const_add_metadata"])
P("C15", "The constituent object enforces its life cycle",
  "Metadata can be added only between initialise and lock_table; field data can be created only after lock_table and only once; copy-in/out only work when both are locked; each violation returns an error or no-op and leaves the object unchanged.",
  "every sequence of calls on the object",
  "unbounded call histories",
  ["src/ccpp_constituent_prop_mod.F90: ccp_model_const_okay_to_add, ccp_model_const_add_metadata, ccp_model_const_data_lock, ccp_model_const_locked"])
P("C16", "Re-registering a constituent is idempotent or rejected",
  "Adding a constituent whose standard name is already registered with the same advected / thermo_active / water_species / units leaves the registry unchanged and reports success; with any of them different it leaves the registry unchanged and reports an error.",
  "every registry state and every constituent",
  "all registries",
  ["src/ccpp_constituent_prop_mod.F90: ccp_model_const_add_metadata, ccp_is_match"])
P("C17", "Constituent copy-in and copy-out are inverse on the selected fields",
  "copy_out of an array followed by copy_in with the same selection returns that array; copy_out changes only selected constituents; the number of fields transferred is num_constituents for that selection.",
  "every locked object, every selection pattern and every array",
  "all selections, sizes and contents",
  ["src/ccpp_constituent_prop_mod.F90: ccp_model_const_copy_in_3d, ccp_model_const_copy_out_3d, ccp_model_const_is_match, ccp_model_const_num_match"])
P("C18", "A reset constituent object can be used again",
  "After reset and initialise, the object accepts metadata, can be locked and behaves like a fresh object.",
  "every prior history of the object",
  "all histories before the reset",
  ["src/ccpp_constituent_prop_mod.F90: ccp_model_const_reset, ccp_model_const_initialize"])
P("C19", "Generated files reach the output directory",
  "After move_modified_files(src, dest, overwrite, remove_src) returns without error, every file generated in src is present in dest with the generated contents; files of dest with other names are untouched; nothing happens when src and dest are the same.",
  "every pair of directory contents and both values of the flags",
  "all file-system contents",
  ["scripts/file_utils.py: move_modified_files"])
P("C20", "Expanding file lists is duplicate free and complete",
  "create_file_list returns no file twice, only files with an allowed suffix, and every such file reachable through directories, globs and nested list files; list files may be nested (also cyclically) without affecting termination.",
  "every directory structure and every nesting of list files",
  "arbitrary nesting and cycles",
  ["scripts/file_utils.py: create_file_list, read_pathnames_from_file"])
P("C21", "Generated Fortran lines respect the line limit",
  "Every physical line FortranWriter.write emits for a statement is at most line_max characters long.",
  "every statement string, indent level, line_fill and line_max",
  "all statement lengths and break positions",
  ["scripts/fortran_tools/fortran_write.py: FortranWriter.write, find_best_break, _in_quote"])
P("C22", "Line breaking preserves the statement",
  "Removing continuation marks and the inserted indentation from the lines emitted by FortranWriter.write gives back the statement's text.",
  "every statement string and writer configuration",
  "all break positions",
  ["scripts/fortran_tools/fortran_write.py: FortranWriter.write"])
P("C23", "Code templates are fully substituted",
  "CodeBlock.write raises if any {name} used in any line of the block is missing from the supplied dictionary and otherwise writes every line, in order, with every occurrence substituted and the indentation base+relative (unindented for preprocessor lines).",
  "every template and every dictionary",
  "all templates and dictionaries",
  ["scripts/code_block.py: CodeBlock.__init__, write"])
P("C24", "Reading a source file line by line loses nothing",
  "ParseObject.next_line returns the lines of the region in order, joins a line ending in a backslash with its successor, always makes progress, and after the last line returns no line; reset_pos and write_line accept exactly the valid positions.",
  "every list of lines and every sequence of next_line/reset/peek calls",
  "all call sequences",
  ["scripts/parse_tools/parse_object.py: ParseObject.next_line, curr_line, peek_line, reset_pos, write_line"])
P("C25", "Parse regions must be balanced",
  "enter_region/leave_region calls succeed exactly as pushes and pops of a stack of (type, name): leaving succeeds only if the innermost open region has the given type (and name when supplied), re-entering an open type is rejected unless nesting is allowed, and in_region answers from that stack.",
  "every sequence of enter/leave calls",
  "unbounded nesting",
  ["scripts/parse_tools/parse_source.py: ContextRegion, ParseContext.enter_region, leave_region, in_region"])
P("C26", "Parenthesis matching finds the matching close",
  "check_balanced_paren(s, start) returns (i,j) iff i is the first '(' outside character literals at or after start and j is its matching ')', where text inside quotes does not count; otherwise (-1,-1) or an error.",
  "every string and start position",
  "arbitrary nesting depth",
  ["scripts/parse_tools/parse_checkers.py: check_balanced_paren"])
P("C27", "Identifiers accepted by the checkers are legal Fortran names",
  "check_fortran_id accepts s iff s is a letter followed by letters, digits or underscores, of at most max_len characters when max_len is positive; check_cf_standard_name accepts exactly the names over letters, digits, underscore starting with a letter, and returns them in lower case.",
  "every string and maximum length",
  "all strings",
  ["scripts/parse_tools/parse_checkers.py: check_fortran_id, check_cf_standard_name, check_local_name, fortran_list_match"])
P("C28", "Character kinds only match when lengths match",
  "Two character variables are reported equivalent (no conversion needed) only if their kind selectors denote the same length.",
  "every pair of kind strings",
  "all pairs of selectors",
  ["scripts/var_props.py: VarCompatObj.char_kind_check, VarCompatObj.__init__"])
P("C29", "Variable compatibility is decided consistently",
  "Comparing two variables is reflexive (a variable is equivalent to itself), equivalence implies that no unit, kind or dimension conversion is recorded, incompatible standard names/types are always rejected, and the verdict does not depend on the order of the two variables.",
  "every pair of variables and every kind/unit environment",
  "all pairs of metadata",
  ["scripts/var_props.py: VarCompatObj.__init__, equiv, compat, incompat_reason"])
P("C30", "Dimension permutations are mutually inverse",
  "When two variables have the same dimensions in different order, the recorded forward and reverse permutations are inverse bijections mapping each dimension of one onto the same dimension of the other.",
  "every pair of dimension lists of any rank",
  "all ranks and permutations",
  ["scripts/var_props.py: VarCompatObj._get_dim_transforms, DimTransform"])
P("C31", "Pre- and post-scheme array transforms are inverse",
  "The index expressions generated to copy a host array into the scheme's local array and back address the same elements: applying the reverse then the forward transform returns every element to its original position, including horizontal-offset and vertical-flip adjustments.",
  "every pair of dimension lists, index, extent and flip flag",
  "all index values",
  ["scripts/var_props.py: DimTransform.forward_transform, reverse_transform, VarCompatObj.forward_transform, reverse_transform"])
P("C32", "Unit conversions are invertible and consistent",
  "For every supported pair of units the conversion in each direction exists, composing the two gives the identity, and chains of conversions agree with direct ones.",
  "every supported pair of units and every real value",
  "all values",
  ["scripts/conversion_tools/unit_conversion.py", "scripts/var_props.py: VarCompatObj._get_unit_convstrs"])
P("C33", "A dictionary holds one variable per standard name",
  "After any sequence of add_variable/remove_variable calls, a variable dictionary holds at most one variable per standard name; add of a present name raises unless exists_ok, and then leaves the entry in place (only its intent may widen); find_variable returns exactly the stored entry.",
  "every sequence of operations",
  "unbounded histories",
  ["scripts/metavar.py: VarDictionary.add_variable, remove_variable, find_variable"])
P("C34", "Variable lookup is by innermost scope",
  "find_variable with any_scope returns the variable of the innermost dictionary (in the parent chain) that contains the standard name, and None iff no dictionary in the chain does; without any_scope only the dictionary itself is consulted.",
  "every chain of dictionaries",
  "arbitrary chain length",
  ["scripts/metavar.py: VarDictionary.find_variable", "scripts/suite_objects.py: SuiteObject.find_variable"])
P("C35", "Argument lists have distinct local names",
  "After any sequence of additions with gen_unique, no two variables of a call list have the same (case-insensitive) local name.",
  "every sequence of additions",
  "unbounded histories",
  ["scripts/metavar.py: VarDictionary.add_variable, new_internal_variable_name", "scripts/suite_objects.py: CallList.add_vars"])
P("C36", "Merging uses of a variable yields the correct intent",
  "When several uses of the same variable are merged into one argument, the final intent is 'in' if all uses are 'in', 'out' if all are 'out' and 'inout' otherwise, independently of the order of the uses, and a protected variable is never given intent out or inout.",
  "every sequence of uses",
  "order independence over unbounded sequences",
  ["scripts/metavar.py: Var.adjust_intent, VarDictionary.add_variable"])
P("C37", "Internally generated variable names are fresh",
  "new_internal_variable_name returns a legal name (at most max_len characters) that is not the local name of any variable already in the dictionary (case-insensitively).",
  "every dictionary and prefix",
  "all dictionaries",
  ["scripts/metavar.py: VarDictionary.new_internal_variable_name"])
P("C38", "Dimension matching returns a correct permutation",
  "match_dimensions(need, have) reports a match only if have is, up to the allowed horizontal/vertical substitutions, a permutation of need, and the permutation it returns maps each needed dimension to its matching available dimension.",
  "every pair of dimension lists",
  "all ranks and orders",
  ["scripts/suite_objects.py: SuiteObject.match_dimensions, dim_match, horiz_dim_match"])
P("C39", "Kind specifications are stored faithfully",
  "The framework environment accepts exactly kind specifications of the form name=spec, maps each name to its last specification, always defines kind_phys, and rejects all others with an error.",
  "every list of kind specifications",
  "all lists",
  ["scripts/framework_env.py: CCPPFrameworkEnv.__init__, kind_spec, kind_types"])
P("C40", "The generated variable query returns the right list",
  "The generated ccpp_physics_suite_variables subroutine returns, for each combination of its optional flags, each standard name required by the suite with the requested intents exactly once, and never writes outside the list it allocates.",
  "every collection of input/inout/output variables and every flag combination",
  "all variable sets",
  ["scripts/ccpp_suite.py: API.write_req_vars_sub, write_var_set_loop"])
P("C41", "Comparing a preprocessor definition with a number",
  "If a preprocessor symbol is defined with a value denoting an integer m, then '#if NAME op n' (op one of < <= > >= == !=) selects its branch exactly when m op n holds; a symbol that is not defined counts as 0.",
  "every definition table, symbol, integer value and literal",
  "all integers and symbols",
  ["scripts/parse_tools/preprocess.py: PreprocStack, PreprocStack.process_if_line"])
P("C42", "Preprocessor conditions have their propositional truth value",
  "A condition built from defined(X), !, && and || (any nesting, any number of operands) selects its branch exactly when the propositional formula over 'X is defined' is true.",
  "every formula and every set of definitions",
  "formulas are unbounded",
  ["scripts/parse_tools/preprocess.py: PreprocStack, PreprocStack.process_if_line"])
P("C43", "Preprocessor directives are recognised",
  "#define NAME VALUE / #define NAME / #undef NAME / #if / #elif lines are recognised with any amount of white space that the C preprocessor allows, and update the definitions accordingly.",
  "every line",
  "all spellings of a line",
  ["scripts/parse_tools/preprocess.py: PreprocStack.process_line"])
P("C44", "Non-run phases cannot be run from a threaded region",
  "A call of a register, init, timestep_init, timestep_final or finalize subroutine from any thread of an OpenMP parallel region other than the master is refused with error code 1 and runs no scheme.",
  "every suite, state and thread number",
  "thread numbers and schedules are unbounded",
  ["scripts/suite_objects.py: Group.__thread_check, Group.write"])
P("C45", "The host cap dispatches to exactly the named suite and part",
  "A call <host>_ccpp_physics_<stage>(suite_name[, suite_part]) runs exactly the group subroutine of that suite (and part), trailing blanks in the names being irrelevant, returns its error code and leaves all other suites untouched; if no such suite or part exists it returns error code 1 and changes nothing.",
  "every list of suites and parts, every name and every program state",
  "all names and suite collections",
  ["scripts/host_cap.py: write_host_cap, suite_part_list"])
P("C46", "Every phase call allowed by the suite state succeeds",
  "Any call sequence that the suite state machine allows (in particular calling register more than once before initialize) can be executed by the generated host cap without an allocation failure.",
  "every allowed call sequence",
  "unbounded histories",
  ["scripts/host_cap.py: write_host_cap", "scripts/constituents.py: ConstituentVarDict.write_host_routines"])
P("C47", "The number of syntax errors collected is limited",
  "However many syntax errors are reported while a file is read, the first 32 are stored, the 33rd ends the reading (no further line is returned), and another one raises an exception.",
  "every file and every number of errors",
  "unbounded number of errors",
  ["scripts/parse_tools/parse_object.py: ParseObject.add_syntax_err"])
P("C48", "A parenthesised list is split into its items",
  "fortran_list_match('(i1, ..., in)') returns the items i1 ... in, stripped and in order (commas inside nested parentheses or literals belong to the item), and refuses a list with a blank item.",
  "every list of items",
  "items and list lengths are unbounded",
  ["scripts/parse_tools/parse_checkers.py: fortran_list_match"])
P("C49", "The error flag of a checker does not change its verdict",
  "A property checker called with error=True raises exactly when the same call with error=False does not return the value, and otherwise returns the same value.",
  "every checker and every text",
  "all strings",
  ["scripts/parse_tools/parse_checkers.py: check_fortran_id, check_cf_standard_name, check_dimensions"])
P("C50", "Dimension lists are accepted by their grammar",
  "check_dimensions(dims, error=True) accepts a list exactly if every dimension has at most two colons and every non-empty part is an integer or a Fortran name within the length limit.",
  "every list of strings and maximum length",
  "all strings",
  ["scripts/parse_tools/parse_checkers.py: check_dimensions"])
P("C51", "Tendency units are the state units per second",
  "A tendency variable is accepted against its state variable exactly if its units are '<state units> s-1'.",
  "every pair of unit strings",
  "all unit strings",
  ["scripts/var_props.py: VarCompatObj.__init__ (is_tend)"])
P("C52", "Automatic conversions around a scheme call preserve the argument's meaning",
  "When a scheme argument differs from the caller's variable in units, kind or vertical orientation, the scheme sees exactly the converted values of the caller's variable at the corresponding levels, after the call the caller's variable holds the scheme's results converted back, and an argument the scheme leaves alone is left unchanged; absent optional arguments stay absent.",
  "every intent, extent, orientation, pair of inverse conversions, array content and scheme behaviour",
  "all contents and scheme behaviours",
  ["scripts/suite_objects.py: Scheme.add_var_transform, Scheme.write_var_transform, Scheme.write, CallList.call_string"])
P("C53", "Preprocessor definitions are read the same from every input form",
  "The defined symbols are exactly those of the given items (optional -D prefix, optional =value, last one wins), whether the items are given as a list, a comma-separated string or a blank-separated string (for items free of the separators).",
  "every list of definition items",
  "all lists of strings",
  ["scripts/framework_env.py: CCPPFrameworkEnv.__init__, preproc_defs"])
P("C54", "A suite is accepted only if every value a scheme reads is provided before",
  "Capgen accepts a suite exactly if every argument a scheme reads is provided by the host, or by a scheme earlier in suite order (in the same group, or, except for loop variables, in an earlier group), can be derived from available loop variables in the run phase, or has a default value; and when the generated caps of an accepted suite are called in any legal order, no scheme reads a value that was never assigned.",
  "every suite (number of groups, nesting of subcycles, schemes and arguments), every host and every legal sequence of calls with any number of cycles, time steps and subcycle iterations",
  "suites and call histories are unbounded; a run-time check needs a Fortran compiler and sees one history",
  ["scripts/ccpp_suite.py: Suite.analyze, Suite.find_variable", "scripts/suite_objects.py: Scheme.analyze, SuiteObject.match_variable, Group.manage_variable, Group.register_action, Group.write", "scripts/metavar.py: VarLoopSubst"])
P("C55","A source line is cut into statements exactly at its separators",
 "A line of Fortran source is cut into statements at exactly those semicolons that are outside character literals and comments; the pieces put together again with semicolons are the line, empty pieces are dropped, and reading the next statements of a file skips only lines that have none.",
 "all source lines and all files", "Literals, doubled quotes, comments and semicolons combine without bound; a test fixes one line.",
 ["scripts/fortran_tools/parse_fortran_file.py: line_statements","scripts/fortran_tools/parse_fortran_file.py: read_statements"])
P("C56","A statement written over several lines is read as one statement",
 "Reading a free-form file puts every continued statement on its first line, with the same significant text as under the Fortran rules for continuation (inside a literal exactly, outside up to white space), empties its other lines, leaves every other line as it is, keeps the line numbers, and refuses files with illegal continuations or unfinished statements.",
 "all free-form files, with any interleaving of comments, preprocessor lines, literals and continuations", "The number of continuation lines and their contexts is unbounded.",
 ["scripts/fortran_tools/parse_fortran_file.py: read_file","scripts/fortran_tools/parse_fortran_file.py: scan_free_line"])
P("C57","Generated Fortran can be parsed again",
 "Statements written one after the other by the Fortran writer, however it breaks them into lines, are read back by the Fortran reader as the same statements in the same order (up to white space outside literals).",
 "all sequences of statements, indentation levels and line length settings", "Round trip of two unbounded transformations.",
 ["scripts/fortran_tools/fortran_write.py: FortranWriter.write","scripts/fortran_tools/parse_fortran_file.py: read_file"])
P("C58","A Fortran list is split exactly at its top-level commas",
 "A list of attributes or variables of a Fortran declaration is split into its items at exactly the commas outside parentheses and character literals; no item is lost, changed or split, empty items are dropped, and the list is refused exactly if its parentheses do not match.",
 "all texts and all nesting depths", "Nesting depth and list length are unbounded.",
 ["scripts/fortran_tools/parse_fortran.py: Ftype.reassemble_parens"])
P("C59","A declaration statement is read as exactly the variables it declares",
 "Parsing a Fortran declaration statement gives exactly the declared variables in order, each with the declared type, kind (or length), intent, optional and allocatable attributes, and with its own dimensions or else those of the dimension attribute; initial values, blanks, letter case and comments do not matter.",
 "all declaration statements: any intrinsic or derived type, any attributes, any number of variables, any dimension texts and initial values", "The statement grammar is unbounded (lists, nesting, spacing, case).",
 ["scripts/fortran_tools/parse_fortran.py: parse_fortran_var_decl, ftype_factory, Ftype.parse_attr_specs, Ftype.parse_kind_selector, FtypeCharacter, FtypeTypeDecl"])
P("C61","Metadata is accepted only if it agrees with the Fortran code",
 "Capgen accepts the metadata of a file exactly if metadata tables and Fortran tables correspond one to one by name and, for each pair, the arguments agree: for a scheme the same arguments in the same order with the same name (but for letter case), type, kind, intent, dimensions and optional attribute (only optional arguments may be added at the end), for modules and derived types every variable is declared with the same type, kind and dimensions; every disagreement is reported as an error.",
 "all metadata tables and all Fortran argument lists", "Argument lists and their combinations are unbounded; tests fix a few mismatches.",
 ["scripts/ccpp_capgen.py: check_fortran_against_metadata, compare_fheader_to_mheader, var_comp, dims_comp, find_var_in_list","scripts/metadata_table.py: MetadataSection.convert_dims_to_standard_names"])
P("C60","The Fortran argument table of a scheme is its dummy argument list with its declarations",
 "Reading a scheme subroutine gives a table with the name of the subroutine and exactly its dummy arguments in the order of the argument list, each with its own declaration; there is an error exactly if an argument is listed or declared twice, a declared argument is not listed, a listed argument is not declared with an intent, or the subroutine is not found. Local variables, other statements, comments, line structure and internal procedures do not matter, and reading goes on after the subroutine.",
 "all scheme sources: any argument list, any sequence of declarations and other statements, any division into lines", "Statement sequences and argument lists are unbounded.",
 ["scripts/fortran_tools/parse_fortran_file.py: parse_scheme_metadata, is_dummy_argument_statement, parse_use_statement, is_contains_statement, is_comment_statement"])
P("C62","A metadata file is read as exactly what it says",
 "Reading a metadata file returns exactly the tables, sections and variables written in it, in order, with the properties given by their entries (names, types, dependencies as absolute paths, dimensions as ranges, derived types); blanks, comments, letter case of keys, the division of entries into lines and continuation lines do not matter; every text that is not of the documented form is refused, as are invalid values, unknown keys, sections that do not belong to their table, unknown derived types and repeated table names; derived types are known in their own table and all later ones.",
 "all files, all numbers of tables, sections, variables and entries, and all sets of derived types known before", "The grammar of the file is unbounded, and the types known depend on all tables read before.",
 ["scripts/metadata_table.py: parse_metadata_file, MetadataTable.__init_from_file, MetadataSection.__init_from_file, parse_variable, variable_start, header_start, table_start, section_table_mismatch, check_array_reference, _parse_config_line, blank_metadata_line","scripts/parse_tools/parse_checkers.py: FORTRAN_SCALAR_REF"])
P("C63","Nothing written in an accepted metadata file is silently ignored",
 "In an accepted metadata file every entry has its effect: no entry is overridden by a later one, no text on the line of a table or section start is skipped, and every table has a name and a type.",
 "all accepted metadata files", "An entry may be masked by any later line; tests only contain well-behaved files.",
 ["scripts/metadata_table.py: MetadataTable.__init_from_file, MetadataSection.__init_from_file, parse_variable"])
P("C64","A suite cap calls exactly the routines the suite definition asks for, in that order",
 "For every suite definition file and every set of scheme metadata that is accepted, the generated cap has one subroutine per group and one per phase. The subroutine of a group calls the run routines of its schemes in the order of the file, subcycles repeated as often as written and level-by-level schemes once per level; the subroutine of a phase calls the routine of this phase of every scheme of the suite exactly once. Each subroutine imports exactly the routines it calls, and every suite that follows the documented format is accepted.",
 "all suite definitions (any nesting of groups, subcycles and time splits), all metadata, all values of loop bounds",
 "The calls depend on the combination of schemes, names, phases and nesting; tests run a few suites.",
 ["scripts/ccpp_suite.py: API.__init__, Suite.parse, Suite.analyze, Suite.write", "scripts/suite_objects.py: new_suite_object, Group, TimeSplit, Subcycle, VerticalLoop, Scheme.analyze, Scheme.write"])
P("C65","XML files are read back as they were written",
 "Whatever element tree is given to the pretty-printing writer, writing succeeds, and reading the file returns the same tree: the same tags, attributes with the same values, sub-elements in the same order and the same texts up to blanks at their ends; the text of an element without sub-elements is exactly the stripped text. All characters with a meaning in XML are preserved.",
 "all element trees: any depth, any attributes, any texts including special and non-ASCII characters", "The writer cuts the serialised text again with regular expressions; whether it finds all tags depends on every text and attribute value.",
 ["scripts/parse_tools/xml_tools.py: PrettyElementTree.write, beg_tag_re, end_tag_re, simple_tag_re, read_xml_file"])
P("C66","Reports about a data table say what capgen put into it",
 "Capgen writes a data table at the end of every run, and every request to ccpp_datafile about it returns exactly what the run had: the utility, host and suite files in order; the suites; every process with its scheme, listed once and sorted; the modules and the dependencies, each once and sorted; the variables of a suite with the requested intent, each once and sorted, without those protected in the host, the suite or the group if these are to be excluded; the host variables. Every request ends.",
 "all runs: all suites, groups, nested objects, variables, headers and files; all requests, separators and settings", "The table is searched by names and tags, so the answer depends on all other names in the table.",
 ["scripts/ccpp_datafile.py: generate_ccpp_datatable, datatable_report, _retrieve_ccpp_files, _retrieve_process_list, _retrieve_module_list, _retrieve_dependencies, _find_var_dictionary, _retrieve_suite_list, _retrieve_suite_group_names, _is_variable_protected, _retrieve_variable_list, _new_var_entry, _new_scheme_entry, _new_variable_dictionary"])
P("C67","Every component of the derived types of a host model can be requested and is referred to correctly",
 "A host model is accepted exactly if its types have distinct names and are known, no type contains itself, its tables are module or host tables, standard names are distinct over all variables and all components at all depths, and local names are distinct where Fortran requires it. Every variable and every component is then found under its standard name and nothing else is, and the reference written for it in a call is the Fortran path to it, with the indices of array references replaced by their references. The loop variables of all host tables are known.",
 "all libraries of derived types (nested to any depth), all tables of all kinds, all variables, with or without the constituents object", "Names clash across tables and types, types nest to any depth, and indices refer to other references.",
 ["scripts/ddt_library.py: VarDDT, VarDDT.call_string, DDTLibrary.__init__, DDTLibrary.check_ddt_type, DDTLibrary.collect_ddt_fields", "scripts/host_model.py: HostModel.__init__, HostModel.add_variable, HostModel.find_variable", "scripts/metavar.py: Var.call_string, VarDictionary.add_variable, VarDictionary.find_variable"])
P("C68","The host cap imports exactly the module variables that it uses",
 "After any sequence of requests for host variables, the host cap imports a module variable from its module exactly if it was requested, a component of it was requested, or it is an index, directly or through other indices, of an array reference that was requested; variables of the cap itself are not imported. What is imported is a Fortran name. Every request ends.",
 "all host models, all sequences of requests", "The set of imports depends on the whole history of requests and, through indices, on other variables.",
 ["scripts/host_model.py: HostModel.find_variable, HostModel.variable_locations, HostModel.host_variable_module", "scripts/host_cap.py: write_host_cap"])
P("C69","Prebuild matches every requested variable with the variable of the host",
 "ccpp_prebuild succeeds exactly if every table of a scheme is legal, all requests of a standard name agree with each other and with the one variable of the host of this name (type, kind, dimensions), and all units that differ can be converted in the directions of the intent. Every request then has the local name of the host variable as target and exactly the needed conversions, and the modules of the matched variables are listed once each. The verdict does not depend on the order of the files.",
 "all host dictionaries and all collections of scheme files: any number of tables, any requests", "Agreement is checked pairwise along the way the dictionaries are merged; tests cover only few orders and combinations.",
 ["scripts/ccpp_prebuild.py: collect_physics_subroutines, add_ccpp_suite_variables, compare_metadata", "scripts/metadata_parser.py: merge_dictionaries, parse_scheme_tables", "scripts/mkcap.py: Var.compatible, Var.convert_to, Var.convert_from"])
P("C70","Prebuild uses exactly the schemes that the suites call",
 "Every suite definition file with a fitting name is read as it is written: its groups, subcycles with their numbers of loops, schemes, and the sequence of calls. The suites are accepted exactly if all their schemes are known. Exactly the variables that a called scheme requests are matched with the host, so that a scheme in no suite has no effect; exactly the argument lists, files and dependencies of the called schemes are kept and compiled, each once.",
 "all suite definitions, all schemes with any names, all requests", "The selection works by manipulating names, so it depends on every name of a scheme.",
 ["scripts/mkstatic.py: Suite.parse", "scripts/ccpp_prebuild.py: check_schemes_in_suites, filter_metadata, generate_list_of_schemes_and_dependencies_to_compile", "scripts/common.py: decode_container, CCPP_STAGES"])
P("C71","Prebuild gives every variable of the host its full Fortran name",
 "With configured prefixes, ccpp_prebuild accepts the variables of the host exactly if their standard names are distinct, the error variables are as they should be, and every variable has a final name: its module is not configured and the local name stays, or its type is configured and every standard name in an index of its local name is a variable with a final name. The result has every variable once, sorted by standard name, with the local name replaced by the final name: the prefix, a percent sign, and the local name, in which every standard name in an index is replaced by the final name of its variable and literals and colons stay. The final name is unique and does not depend on the order of files, tables and variables. Variables that are indices of each other are refused.",
 "all hosts: any files, tables, variables, local names with any number of indices and ranges, any configured prefixes; any recursion depth", "A name depends through its indices on other names, to any depth, and the dictionary is updated while it is read.",
 ["scripts/ccpp_prebuild.py: gather_variable_definitions, convert_local_name_from_new_metadata", "scripts/common.py: decode_container_as_dict, split_var_name_and_array_reference", "scripts/metadata_parser.py: parse_variable_tables, merge_dictionaries"])
P("C72","The static API of prebuild executes exactly what the suites say",
 "After any history of calls by the host for any instances, a call of the static API for a stage of a suite, or of one group of it, calls exactly the routines of the called groups that exist for this stage, in the order of the suite, in the run stage every subcycle as often as it says with its loop counter and extent, until the first error, whose code is returned. An initialised group is not initialised again; a group that is not initialised is neither run (error code 1) nor finalised; finalising concerns only the instance of the call. Unknown suites and groups are an error and call nothing.",
 "all suites, groups, subcycles, schemes; all error behaviours of the schemes depending on all earlier calls; all histories of calls for all instances", "The effect of a call depends on the whole history through the flags saved in the caps.",
 ["scripts/mkstatic.py: API.write, Suite.write, Group.write, Group.initialized_test_blocks, Group.initialized_set_blocks"])
P("C73","After a run of prebuild all its files are right, whatever happened before",
 "A complete run of ccpp_prebuild ends without exception, and then every file that it generates (tables, caps, static API, include files, the three kinds of snippets for make, cmake and shell) has exactly the text of this run, on whatever disk it started: after any sequence of other runs, each of which may have stopped anywhere, also in the middle of writing a file. Files that are no outputs are not touched. If nothing changed, no file but the two tables is written again, not even its time changes; if a cap changed, the API is written again. clean removes all generated files and nothing else.",
 "all outputs (any number of suites and groups, any texts), all disks, all histories of complete and stopped runs", "The result depends on the disk that earlier, possibly stopped runs left behind.",
 ["scripts/ccpp_prebuild.py: main, generate_typedefs_makefile, generate_schemes_makefile, generate_caps_makefile, clean_files", "scripts/mkstatic.py: API.write, API.write_includefile, Suite.write, Group.write", "scripts/mkcap.py: SchemesMakefile.write, SchemesCMakefile.write"])
P("C74","The caps of prebuild declare every host variable that they use, with the right intent",
 "For every stage, the cap of a group has a dummy argument for every host variable that is passed to a scheme, or of which a component is passed, with an intent that allows what the schemes do; for every variable in the indices of these, to any depth; and for every variable that the cap reads itself: dimensions, conditions, loop bounds, and the bounds of its dummy arguments, with an intent that allows reading. It can write a variable only if a scheme writes it or a component of it, and what no scheme writes keeps its value. Every argument is declared once, scalars before arrays, and is the variable of the host that has this name. The cap of the suite covers the caps of its groups and no more.",
 "all hosts, all local names of any depth, all groups with any sequence of calls, all intents, all suites", "Intents are merged along the whole sequence of calls and variables enter through indices, dimensions and conditions of other variables.",
 ["scripts/mkstatic.py: extract_parents_and_indices_from_local_name, Group.write, Suite.write, create_arguments_module_use_var_defs"])
P("C75","Prebuild hands every scheme the host's values and returns its results to the host",
 "Around every call, the code that prebuild generates (temporary variables, copies between blocks and whole arrays, unit conversions, pointers for variables that may not be allocated) has this effect: the scheme gets the values of the variables of the host in its own units, in the run phase those of the current block and in all other phases those of all blocks in their order; a variable that is not active is not present. Afterwards the host has the results in its own units in the same blocks; variables with intent(in), inactive variables, other blocks and all other variables are unchanged. No uninitialised, deallocated or doubly allocated memory is used, in any call of any sequence. Without blocks in the run phase the effect does not depend on how the columns are partitioned into blocks. The local variables of a cap have different names.",
 "all groups with any sequence of calls, any arguments, intents, units, conditions; all schemes; all hosts with any values and block sizes; all contents of uninitialised memory", "What a scheme sees and leaves behind depends on all values, all block sizes and all earlier calls, which share temporary variables and pointers.",
 ["scripts/mkstatic.py: Group.write", "scripts/ccpp_prebuild.py: compare_metadata", "scripts/mkcap.py: Var.print_def_pointer, Var.print_def_local"])
P("C76","Prebuild passes exactly the section of an array that the scheme asks for",
 "In a call, an array of the host is passed as its local name, in which the whole dimensions are replaced in order by the ranges that the dimensions of the scheme's metadata say, with the host's names for the bounds, and all indices stay; in the run phase the horizontal dimension is the range of columns that the host says if the host variable has all columns, and all columns of the block otherwise. Temporary variables for unit conversions have exactly these dimensions without the indices; the array for blocked data has all dimensions, and a block is copied to the subscripts with its columns in the place of the horizontal dimension. An exception is raised exactly if a dimension is unknown to the host, does not belong to the phase, or the numbers of dimensions differ. The tests of the debug mode fail exactly if an array is too small.",
 "all hosts, all local names of any depth with any indices, all dimensions of schemes, all phases", "Sections are composed from texts of two sources; every combination of indices, ranges and bounds must fit.",
 ["scripts/mkstatic.py: extract_dimensions_from_local_name, Group.write"])
P("C77","Conditions of variables keep their meaning in the caps",
 "The condition under which a variable of the host is active (attribute active) appears in the caps of ccpp_prebuild and ccpp_capgen element by element as it was written, with the local name of the host for every standard name, one blank or the same blanks between elements, in an if statement; every variable in it is listed as needed. It is accepted exactly if all its names are known variables. A text that is accepted and loses no character was a condition.",
 "all conditions: any sequence of names, integers, logical and relational operators, parentheses, white space; all texts; all hosts", "The condition is taken apart by a regular expression that silently skips what it does not know, so every text must be considered.",
 ["scripts/common.py: FORTRAN_CONDITIONAL_REGEX", "scripts/parse_tools/fortran_conditional.py: FORTRAN_CONDITIONAL_REGEX", "scripts/metadata_parser.py: read_new_metadata", "scripts/mkstatic.py: Group.write", "scripts/metavar.py: Var.conditional", "scripts/suite_objects.py: Scheme.associate_optional_var, Scheme.assign_pointer_to_var"])
P("C78","The report of ccpp_track_variables is complete",
 "For a directory of metadata files, ccpp_track_variables reports for every group of the suite, in the order of the suite, exactly the sections of the tables of its schemes that have the variable, each with the intent of the variable; it is a success iff there is one, and otherwise all sections with names that contain the text are printed and no others. It fails exactly if a scheme of the suite has no table in the directory. The order in which the files are listed does not matter.",
 "all directories of readable metadata files, call trees and texts", "The files are searched for names by a second, independent parser, which must agree with the parser of metadata on every file.",
 ["scripts/ccpp_track_variables.py: create_metadata_filename_dict, create_var_graph", "scripts/metadata_table.py: find_scheme_names, parse_metadata_file"])
P("C79","Every entry point in a Fortran file is found with its table",
 "ccpp_prebuild accepts a Fortran file exactly if above each entry point (a subroutine called by the module and a stage) there is no argument table, an empty one, or one whose metadata can be read and has all mandatory variables, and all uses of a variable in the file are compatible. It then returns the entry points of the file, module by module and in order, each with the standard names of its table, and for each standard name its uses in order. Comments, continued lines, helper subroutines and letter case of keywords do not matter. A line that mentions the table of an entry point below it and is not the first line of a table is refused.",
 "all Fortran files made of modules with entry points, other subroutines and other lines; all metadata tables, compatibility relations and lists of mandatory variables", "Files are of any length and layout, and the scan keeps state across lines, subroutines and modules.",
 ["scripts/metadata_parser.py: parse_scheme_tables", "scripts/common.py: CCPP_STAGES"])
P("C80","The variables of a metadata table reach ccpp_prebuild unchanged",
 "Reading the table of a scheme, a module or a type for ccpp_prebuild gives one variable for each variable of the table, in order, with the same standard name, long name, units, local name, dimensions and intent, the type in lower case, the kind (none for derived types), the condition normalized to T, F or a text with single blanks, and a container from which module, scheme and subroutine can be recovered; and the dependencies with their path. It is refused exactly if a standard name occurs twice, a scheme uses horizontal_loop_extent in an init or finalize phase or horizontal_dimension in a run phase (as variable or as dimension), a scheme has a condition, a host variable is optional or has the dimension horizontal_dimension, or the file has no such table.",
 "all metadata files, modules, tables and schemes", "Tables have any number of variables with any properties.",
 ["scripts/metadata_parser.py: read_new_metadata", "scripts/common.py: encode_container, decode_container_as_dict"])
P("C81","The host variables of a Fortran file are those of its tables",
 "Searching a Fortran file of modules, programs and derived types for host variables gives, for each standard name, the entries in the tables of the file, in order, and nothing else. A table stands inside a module and has the name of the module or of a type defined in it; the file is refused if a table has another name, is inside another table, or cannot be read, if an entry contradicts a mandatory variable or an earlier entry of the same name, if a module occurs twice or has no end, or if the types of a module are wrong: two of the same name, one inside another, an end without type or with another name.",
 "all Fortran files with modules, programs and type definitions, all contents of the metadata files", "Files have any number of modules, types, continued lines, comments and tables.",
 ["scripts/metadata_parser.py: parse_variable_tables", "scripts/fortran_tools/parse_fortran.py: FtypeTypeDecl.type_def_line"])
P("C82","Every constituent has its own slot in the host's array",
 "The host cap has one metadata entry per constituent of the suites, which refers to the slot of this constituent in the constituents array, and for a tendency to the slot of the constituent it belongs to. It is generated exactly if all constituents have supported dimensions and every tendency has a compatible constituent. Registration returns no error exactly if constituents of the same name agree and all are layer variables; then the table is locked, holds each name once, and the stored index of a name is the position of the constituent with this name.",
 "all suites, constituents, host and dynamic constituents, and all states of the constituents object", "Any number of suites, constituents and names; the registration runs at run time in the host model.",
 ["scripts/host_cap.py: add_constituent_vars", "scripts/constituents.py: ConstituentVarDict.find_variable, write_constituent_routines, write_host_routines"])
P("C83","Debug checks of a group report exactly the arrays that do not fit their metadata, and do no harm",
 "With --debug, a group returns error code 1 before a scheme exactly if the size of an active array that the scheme uses is not the size that the metadata give for this call, and the message has both sizes. The debug code does nothing for inactive variables, reads nothing that the scheme only writes, changes no variable of the model, refers to no element outside of an array, and can be written for every variable a scheme may use; its internal variables have legal names and the type of the variables assigned to them.",
 "all variables, dimensions, phases, conditions, array bounds and contents, and lists of checks", "Any array bounds, conditions, dimensions and dictionaries; the checks run in the generated Fortran.",
 ["scripts/suite_objects.py: Scheme.add_var_debug_check, Scheme.replace_horiz_dim_debug_check, Scheme.write_var_debug_check, Scheme.write"])
P("C84","A default value is accepted exactly if it is a Fortran constant of the declared type and kind",
 "The default value of a variable (and a protected constant) is accepted exactly if it is a Fortran constant of the declared type: an integer, a real with a decimal point, a logical, a string between quotes, or a complex number of two integers or two reals, with the declared kind exactly if one is declared. It is accepted unchanged, blanks around it do not matter, and every other value is rejected with a CCPPError or None.",
 "all values, types, kinds and property dictionaries", "Any text may be given as default value, type and kind.",
 ["scripts/parse_tools/parse_checkers.py: check_fortran_literal, check_default_value, FORTRAN_DP_RE"])
P("C85","Units, references, local names, types and diagnostic names are accepted exactly if they have the documented form",
 "The units of a variable are accepted exactly if they are 1, a blank-separated list of units with exponents, or words joined by underscores; a local name exactly if it is a Fortran name, a reference to an array with up to seven subscripts within the length limit, or (for a protected variable) a constant of its type; a type exactly if it is intrinsic or a registered derived type; a diagnostic name exactly if it is a name with at most one ${process} or ${scheme_name}, and never together with a fixed one. What is accepted is returned unchanged, what is rejected is a CCPPError or None. A substituted diagnostic name is a legal Fortran name.",
 "all texts, length limits, property dictionaries and registered derived types", "Any text may be written in a metadata file.",
 ["scripts/parse_tools/parse_checkers.py: check_units, check_fortran_ref, check_local_name, check_fortran_intrinsic, check_fortran_type, check_diagnostic_fixed, check_diagnostic_id, register_fortran_ddt_name"])
P("C86","A variable of a metadata table is accepted exactly if its entries are legal and fit together, and it gets exactly the values written",
 "A variable of a metadata table becomes a variable of the framework exactly if every entry is a known property with a legal value (or a known derived type), the local name is a name or an array section with as many colons as dimensions, all required properties are there and the properties fit together (intent of protected variables, dimensions, type, default value, one diagnostic name). Then it has exactly the properties written (standard names in lower case, dimensions as ranges from one, the type of a derived type), the last entry of a property counts, and the order of the entries does not matter otherwise. Everything else is recorded as a syntax error.",
 "all local names, all lists of entries, all sets of known and registered derived types, all readings of numbers, scheme or host tables", "Properties interact: every check is done on the text first and again with all properties together; tests cover single properties.",
 ["scripts/metadata_table.py: MetadataSection.parse_variable, check_array_reference", "scripts/metavar.py: Var.__init__, Var.get_prop", "scripts/var_props.py: VariableProperty.valid_value"])
P("C87","The metadata files of a host or of the schemes are read together, without duplicates",
 "capgen accepts a list of metadata files (of the host, or of the schemes) exactly if every file can be read with the derived types of the tables before it, its Fortran file (the first of .F90, .f90, .F, .f that exists beside it) exists and agrees with it, and no two tables have the same name and no two sections the same title. The result is all tables and sections in the order of the files. A file that cannot be read is named in the error; of a duplicate table or section both files are named. The order of the files does not matter as long as derived types come before their use.",
 "all lists of metadata files, all file contents, all collections of Fortran files, all registered types", "Duplicates and types combine over all files in all orders; tests use a handful of files.",
 ["scripts/ccpp_capgen.py: parse_host_model_files, parse_scheme_files, duplicate_item_error, find_associated_fortran_file", "scripts/metadata_table.py: parse_metadata_file"])
P("C88","Cleaning removes exactly the generated files",
 "capgen --clean reads the output file of the last run and removes exactly the files listed in it (one path per line, blank lines and comments apart, relative paths from the directory of the file) and the file itself; it reports success if and only if all of them could be removed, each once; nothing else is removed. After a run of capgen, cleaning removes the files generated by the run.",
 "all contents of the file, all file systems, all directories, all data tables capgen writes", "Which files remain depends on every line of any file in any file system; tests do not call the option at all.",
 ["scripts/ccpp_capgen.py: delete_pathnames_from_file, clean_capgen"])
P("C89","Every table of a Fortran file is found",
 "Reading a Fortran file gives, in the order of the source, a table for exactly each derived type, module and scheme that is announced by an arg_table comment, with exactly its members, module variables or arguments, in the module it belongs to; the subroutines without table are listed by name; reading ends for every file, with this result or an exception.",
 "all files (all lists of statements), all modules, types and subroutines in them", "The loops call each other and put statements back; the result depends on every order of announcements, types, contains and end statements of an unbounded file.",
 ["scripts/fortran_tools/parse_fortran_file.py: parse_fortran_file, parse_module, parse_specification, parse_preamble_data, parse_type_def, parse_program", "scripts/fortran_tools/parse_fortran.py: fortran_type_definition, check_fortran_type_definition", "scripts/parse_tools/parse_source.py: ParseContext.enter_region, leave_region"])
P("C90","The declaration written for a variable declares it",
 "For every variable and every wish of the caller, the statement that is written is a Fortran declaration of exactly this variable: its type and kind (class for polymorphic ones), as many dimensions as it has (colons if it is allocatable or an argument), and exactly the attributes that are wanted, each once: the intent of an argument (in, if the variable is protected), optional, allocatable and target; reading the statement with the parser of Fortran files gives these properties back; nothing is written for the constants of the framework, and an error is raised exactly if an argument has no intent, a protected variable is to be allocatable, or a dimension is not known.",
 "all variables (type, kind, name, rank, attributes), all arguments of the writer", "The attributes and the padding depend on each other in many combinations, with text of any length.",
 ["scripts/metavar.py: Var.write_def, Var.write_ptr_def, Var.array_ref", "scripts/fortran_tools/parse_fortran.py: parse_fortran_var_decl"])
P("C91","References to variables have the right subscripts",
 "A variable whose local name is an array reference has exactly the subscripts of the reference, with its dimensions in the places of the colons, and is refused exactly if the numbers of colons and dimensions differ; the text written for it as an argument, or for its dimensions, is its name with one entry for each subscript: the loop substitution if there is one, otherwise each standard name replaced by the variable of the first dictionary that has it, numbers and empty bounds unchanged; an error is raised exactly if some name has no variable; the dimensions written in a declaration can be declared.",
 "all local names, dimensions, dictionaries and loop substitutions", "The text depends on all subscripts and all dictionaries, of any number and size.",
 ["scripts/metavar.py: Var.handle_array_ref, Var.call_dimstring, Var.call_string"])
P("C92","Every dimension of a variable gets a source",
 "When the dimensions of a variable are added to a dictionary or to a requested other dictionary (the call list of a group), exactly the names in its dimensions that neither has and that an enclosing dictionary provides from a source that is not excluded are added, each once, to the requested dictionary; nothing else changes; the returned text is empty exactly if every name has a source, and otherwise names those that have none, and a variable found in an excluded source; afterwards every dimension with a source is found; nothing is raised; the arguments have distinct names; and the same input always gives the same result.",
 "all nested dictionaries, variables, dimensions, excluded sources and orders of the set of names", "The names, the depth of nesting and the order in which a set is iterated (it depends on the hash seed of the process) are unbounded.",
 ["scripts/metavar.py: VarDictionary.add_variable_dimensions, Var.get_dim_stdnames", "scripts/suite_objects.py: Group.manage_variable", "scripts/ccpp_suite.py: Suite.find_variable"])
P("C93","The statement written for a conversion computes it",
 "For every two compatible variables, the statement that is written before and after a scheme call is a Fortran assignment to the one variable (or section) of a value that is computed from the other one only, is the same quantity in the units of the assigned variable, and has its kind, with all literals of this kind; the statements for the two directions undo each other.",
 "all pairs of compatible variables, kinds, kind tables, names and subscripts, and all values", "The statement must be right for every value, kind and name and both directions.",
 ["scripts/var_props.py: VarCompatObj.forward_transform, VarCompatObj.reverse_transform", "scripts/conversion_tools/unit_conversion.py"])
P("C94","A continued argument list is the argument list",
 "For every list of names of arguments, the list that prebuild writes into a call or a subroutine statement, with its continuation lines, is for the compiler the list of all arguments, in their order, separated by commas (in the explicit form with every name as its keyword, and with a final comma exactly if more arguments follow), and if no name is repeated and every name has at most 63 characters no line has more than 219 characters; in general no line is longer than 91 characters plus the longest entry.",
 "all lists of arguments, of any length, and both forms of the list", "An argument that is lost, doubled or cut at one of the breaks shows only for lists of one particular length.",
 ["scripts/mkstatic.py: create_argument_list_wrapped, create_argument_list_wrapped_explicit"])
P("C95","A pretty-printed datatable shows the whole table",
 "For every element of a datatable, every indentation and every line length, the printed text consists of exactly the words of the element: the opening tag with its attributes, the printed children and the text in order, and the closing tag. With a positive line length every line fits into it or is a single piece without blanks, every line begins with the indentation of its element, and a line is broken only if it is too long and then as late as possible; without a line length no line is broken.",
 "all trees of elements, of any depth, all names, values and texts, indentations and line lengths", "A word lost at a break, or a line that is too long, needs one particular combination of lengths.",
 ["scripts/ccpp_datafile.py: table_entry_pretty_print, _format_line"])
P("C96","A group computes the loop bounds it was not given",
 "For every history of scalars that the schemes of a run-phase group need, if the analysis succeeds then the loop calculations at the start of the group are Fortran assignments that never fail to be written, and executing them, for all values of the arguments, leaves every argument unchanged and gives every loop variable that the group had to add its value: the extent is end - begin + 1, the begin is 1 and the end is the extent.",
 "all histories of needed variables, all sets of variables of the host model and their names, all values of the arguments", "An order of needs in which a bound is used before it is computed, or a clash of names, is not met by particular suites.",
 ["scripts/metavar.py: VarLoopSubst", "scripts/suite_objects.py: SuiteObject.add_variable_to_call_tree, Group.register_action, Group.write"])
P("C97","A prototype metadata file describes the parsed Fortran",
 "For every list of tables obtained from Fortran files whose texts can occur in a metadata file, the prototype file that is written is a well-formed metadata file (in the sense of C62) that consists of one table for every run of tables of one name, with their sections in order, and in each section every variable with its name, standard name, units (or the request to enter them), type and kind in lower case (a derived type unchanged), intent in schemes, and dimensions in which each part is the standard name of the variable it names, or an invented name whose number is counted up each time.",
 "all lists of tables, sections and variables", "Missing separators, merged tables or dimensions are properties of all combinations, not of one sample file.",
 ["scripts/ccpp_fortran_to_metadata.py: write_metadata_file", "scripts/parse_tools/parse_source.py: unique_standard_name"])
P("C98","The inspection routines list the suites, their parts and their schemes",
 "For all suite definitions and every value of the argument suite_name: executing the generated routine for the parts returns exactly the names of the groups of the suite definition file with that name, the routine for the schemes returns exactly the names of all schemes that the suite calls, each once, with error code zero and an empty message; if there is no such suite the list stays unallocated, the error code is one and the message names the suite; and the routine for the suites returns all suites in their order.",
 "all lists of suites with their groups, subcycles and schemes, all values and lengths of the arguments", "The generated Fortran is a program for arbitrary arguments; a sample suite shows one branch.",
 ["scripts/ccpp_suite.py: API.write_inspection_routines, API.write_suite_part_list_sub, API.write_suite_schemes_sub, API.write_var_set_loop, Suite.part_list", "scripts/suite_objects.py: SuiteObject.schemes"])
P("C99","Statements of fixed-form files are put together",
 "For every fixed-form Fortran file whose statements are written as the standard requires: after reading, the first line of every statement holds this line followed by the text from column 7 on of all its continuation lines in order, also across comments, blank lines, hidden lines and character literals that continue, the continuation lines and the lines hidden by the preprocessor are empty, every other line is unchanged, and no line moves.",
 "all fixed-form files, with any number of statements, continuation lines, comments and hidden lines", "The state (character context, last statement) is carried through the whole file; tests read a few files in free form.",
 ["scripts/fortran_tools/parse_fortran_file.py: read_file, scan_fixed_line"])
P("C100","Long names come from standard names in one way",
 "For every standard name of a variable without a long name, computing the default long name ends, and the long name has the same length; its first character is the capital of the first character of the standard name; at every later place an underscore has become a blank, a p that stands between two digits has become a decimal point - also when such places overlap - and every other character is unchanged; without a standard name the run ends with an error.",
 "all standard names", "The replacement is a loop over a backtracking regular expression; the only test has two separate places.",
 ["scripts/var_props.py: standard_name_to_long_name, _REAL_SUBST_RE", "scripts/metavar.py: Var long_name"])
P("C101","Every call of a suite part in the host cap is complete and every variable in it is accessible",
 "For every host model, set of constituents, list of suites and phase: the physics routine is written exactly if every argument of every part is known and run-time constituents are returned by register routines only, with names that can be declared together. Every call then passes, by keyword and in order, for every dummy argument of the part the host variable with the same standard name, or the constituent if the host has none; every host variable that a call can refer to is a module variable or a dummy argument of the routine; the dummy arguments are the names of suite and part and exactly the host variables without a module, loop variables in the run phase only, with intent in exactly for protected and loop variables, and have distinct names; the register routine counts for each suite exactly the constituents that the suite returns.",
 "all host models, constituents, suites, parts and phases", "The lists are computed from the host model, the parts and the phase by separate filters that must agree for all of them.",
 ["scripts/host_cap.py: write_host_cap, suite_part_call_list, suite_part_list", "scripts/host_model.py: HostModel.call_list, HostModel.find_variable", "scripts/metavar.py: VarDictionary.variable_list, VarDictionary.include_var_in_list"])
P("C102","make, cmake and a shell read from the generated snippets exactly the generated files",
 "For every list of file names without special characters: make, reading the snippet written for caps or for type definitions, defines one variable whose words are exactly the files in order; cmake reads one set command with the variable and exactly the files in order; a shell reads comments, empty lines and one export whose value is the files with semicolons between them (also for the empty list). For schemes, make defines four variables, for the endings .F, .F90, .f and .f90, and each holds exactly the files with its ending, in order.",
 "all lists of file names (any length, any plain names)", "The texts are built by concatenation, stripping and four successive replacements in one header, whose patterns must not occur in text that an earlier replacement inserted.",
 ["scripts/mkcap.py: CapsMakefile, CapsCMakefile, CapsSourcefile, SchemesMakefile, SchemesCMakefile, SchemesSourcefile, TypedefsMakefile, TypedefsCMakefile, TypedefsSourcefile"])
P("C103","The text of a preprocessor condition is read as C reads it",
 "For every text of a condition built from defined NAME, defined(NAME), !, && and || and parentheses, with any blanks that C allows, the text that is handed to the Python parser is one expression (not indented, its keywords separated from words), and the result of the line is the value of the formula in C.",
 "all texts of conditions (any nesting, any blanks) and all tables of definitions", "The translation replaces substrings of a line one by one; whether the result has the structure of the formula depends on what stands next to each of them.",
 ["scripts/parse_tools/preprocess.py: parse_preproc_line, PreprocStack.process_line"])
P("C104","Declarations in the caps of ccpp_prebuild",
 "In every subroutine of a group or suite cap, each argument is declared with the type, kind, intent, optional attribute and rank of its metadata and with its lower bounds; scalars are declared before arrays; every variable a bound refers to is declared before; each local variable is declared, and each local pointer has a type that can point to its variable, defined once; each kind and each derived type that is used is imported by exactly one statement, and nothing else is imported; a bound, kind or type that is not known is an error.",
 "all dictionaries of variables, all metadata of the host, all lists of local variables and pointers", "The order and the imports depend on which variables occur together in a cap.",
 ["scripts/mkstatic.py: create_arguments_module_use_var_defs", "scripts/mkcap.py: Var.dimstring_local_names, Var.print_module_use, Var.print_def_intent, Var.print_def_local"])
P("C105","Local variables of a group of the suite cap",
 "In every subroutine of a group of the suite cap, what is passed to the schemes is a dummy argument or a declared local variable: each scalar, array, optional array and conversion copy that belongs to the group is declared exactly once with the type and rank of its metadata; each array is allocated once before the calls, with the bounds of its metadata, and none is allocated after the calls; each pointer that is passed for an optional variable is declared with the type and rank of the variable and nullified after the calls.",
 "all dictionaries of constants, of variables and of arguments of the group, all lists of conversion copies, all arguments of schemes", "Which declarations are written depends on the interplay of four dictionaries; allocation is a history of the subroutine.",
 ["scripts/suite_objects.py: Group.write, Group.allocate_dim_str, CallList.call_string"])
P("C106","The elements of a variable",
 "The elements that are listed for a variable are its leaves of intrinsic type: those below its array references (or, if it has none, below those of the variable it was cloned from, or of the variable with its standard name in the dictionary of the host), otherwise those of the components of its derived type, otherwise the variable itself; they are found exactly if all derived types are known.",
 "all variables with references nested to any depth, all chains of clones, all dictionaries of types and of variables", "References and derived types nest to any depth.",
 ["scripts/metavar.py: Var.intrinsic_elements, Var.children"])
P("C107","The version of an XML file chooses its schema",
 "The version of an XML file is accepted exactly if it is two integers with a period between them, the first one positive and the second one not negative; everything else is an error. The schema is the given file, or else the file root_vA_B.xsd of the version in the given or the standard directory, which must exist; different versions have different files.",
 "all attributes, names of schemas, directories and sets of files", "Versions are texts of any length.",
 ["scripts/parse_tools/xml_tools.py: find_schema_version, find_schema_file, validate_xml_file"])
P("C108","The kinds module and the comparison of kinds",
 "The generated kinds file is a legal module that exports exactly the requested kinds, each with the value of its entity of ISO_FORTRAN_ENV. Between two variables no conversion of kind is requested only if their kinds have equal values, and one is requested if the values differ.",
 "all kind specifications, pairs of kinds and values of the entities of ISO_FORTRAN_ENV", "There are infinitely many names and specifications.",
 ["scripts/ccpp_capgen.py: create_kinds_file", "scripts/framework_env.py: kind_spec, kind_types", "scripts/var_props.py: VarCompatObj._get_kind_convstrs"])
P("C109","The HTML page of a metadata table shows its variables",
 "The HTML page made from a metadata table is read as one table that has a row for each variable, in order, and in each row a cell for each listed property, in order, with the value of the property (n/a if it has none, the dimensions in parentheses). There is no page exactly if the table has no variables.",
 "all tables, variables and values of properties", "Values are arbitrary texts.",
 ["scripts/metadata_table.py: MetadataSection.to_html", "scripts/metadata2html.py: convert_to_html"])
P("C110","The LaTeX document shows the texts of the metadata",
 "A text of the metadata that is put into the LaTeX document is typeset as itself, and the list of the schemes that request a variable has one entry for each request, which is typeset as the name of the subroutine that requests it.",
 "all texts, containers and lists of requests", "Texts are arbitrary.",
 ["scripts/common.py: escape_tex", "scripts/mkdoc.py: metadata_to_latex"])
P("C111","The suites of a run of prebuild",
 "A run of prebuild goes on exactly if there are names of suites (the given ones, or else all .xml files of the directory) and the file of each of them is there and can be read; the suites are then those of these files, in order. The file of a suite is the one with its name, or only if there is none, the one with the old name suite_NAME.",
 "all arguments, directories, sets of files and contents", "There are infinitely many sets of files and arguments.",
 ["scripts/ccpp_prebuild.py: parse_arguments, get_all_suites, parse_suites, main", "scripts/common.py: SUITE_DEFINITION_FILENAME_PATTERN"])
P("C112","The places in messages",
 "A message about a place ends with the name of the file (or its last part) and, after a colon, the number of the line counted from one, where a parser that starts at a line and goes on by steps has arrived; without a line it ends with the file alone. The text before it says whether there is a line. File and line can be read from the text if file names have no colons.",
 "all files, starts and sequences of steps", "There are infinitely many places.",
 ["scripts/parse_tools/parse_source.py: context_string, ParseContext"])
P("C113","The error variables of the constituent routines",
 "A call of a constituent routine of a suite is written exactly if the suite has an error code and an error message; it passes those of the caller by keyword to the arguments that the suite knows by these standard names. The two variables become output variables and are initialised to no error.",
 "all dictionaries and names of variables", "There are infinitely many dictionaries.",
 ["scripts/metavar.py: find_error_variables", "scripts/constituents.py: ConstituentVarDict.__errcode_names, __errcode_callstr, __init_err_var"])
#MORE
with open(os.path.join(os.path.dirname(__file__), '..', 'properties.jsonl'), 'w') as f:
    for o in OUT:
        f.write(json.dumps(o) + '\n')
print(len(OUT))
