#!/usr/bin/env python3
"""Regenerates MANIFEST.json and lean/Verif.lean."""
import json, os, glob
ROOT = os.path.join(os.path.dirname(os.path.abspath(__file__)), '..')
C = []
def M(prop, status, ns, theorems, note=""):
    C.append({"property": prop, "status": status,
              "theorems": ["Ccpp." + (t if "." in t else ns + "." + t) for t in theorems.split()], "note": note})
M("C01", "proved", "Preproc", "C01_depth C01_wellformed")
M("C02", "partial", "Preproc", "C02_first_true_branch_partial C02_violated", "False in general: a true #elif does not stop a later #elif/#else from being taken; proved for chains where at most one condition can hold.")
M("C03", "proved", "Preproc", "C03_inactive")
M("C41", "partial", "Preproc", "C41_order_partial C41_nonzero C41_eq_violated C41_valueless_symbol_crashes C41_undefined_violated", "== and != compare a string with an int; an undefined symbol counts as true instead of 0.")
M("C42", "partial", "Preproc", "C42_condition_truth_partial C42_violated", "Operands after the second are ignored.")
M("C43", "partial", "Preproc", "C43_recognised_partial C43_definitions C43_define_partial C43_violated", "#define without a value and #elif( are not recognised.")
M("C04", "proved", "SM", "C04_function_match C04_no_match C04_timestep")
M("C05", "proved", "SM", "C05_add C05_del C05_distinct")
M("C06", "proved", "Cap", "C06_reject C06_accept C06_path C06_all_ok_path C06_path_accepted")
M("C07", "partial", "Cap", "C07_order_and_stop_partial C07_subcycle_violated", "Groups with a subcycle cannot be written at all (infinite recursion in the loop property).")
M("C08", "partial", "Cap", "C08_state_kept_partial C08_violated", "False: a failing scheme still advances the suite state.")
M("C09", "partial", "Cap", "C09_allocation_partial C09_violated_debug", "False with debug checks.")
M("C44", "partial", "Cap", "C44_thread_check_partial C44_violated", "Thread 1 is let through.")
M("C45", "proved", "Cap", "C45_dispatch C45_unknown")
M("C46", "partial", "Cap", "C46_register_partial C46_violated", "Second register call allocates an allocated array.")
M("C10", "proved", "Hash", "C10_finite_map C10_duplicate_rejected")
M("C11", "proved", "Hash", "C11_hash_in_bounds C11_hash_trim")
M("C12", "proved", "Hash", "C12_iterate_all")
M("C13", "partial", "Hash", "C13_start_partial C13_violated", "False: on an empty table the iterator start reads past the end of the table; proved for tables with an entry.")
M("C14", "partial", "Const", "C14_packed_partial C14_lock_succeeds C14_lock_fails C14_preset_index_violated", "Proved for constituents whose index was not set before the lock; with a preset index the error is lost and the layout is wrong.")
M("C15", "partial", "Const", "C15_lifecycle_partial C15_lock_data C15_violated", "lock_table before initialize crashes instead of being rejected; re-use after data creation is C18.")
M("C16", "partial", "Const", "C16_reregister_partial C16_new_name C16_long_name_violated", "Names and units of at most 256 characters.")
M("C17", "proved", "Const", "C17_copy_in C17_levels C17_inverse C17_frame C17_too_small")
M("C18", "partial", "Const", "C18_reuse_partial C18_violated", "False after lock_data: data_locked is never cleared.")
M("C19", "partial", "Files", "C19_delivered_partial C19_frame C19_same_directory C19_duplicate_refused C19_succeeds C19_violated", "False without overwrite when a differing file exists in dest: the comparison is inverted, the stale file stays and the generated one is deleted.")
M("C20", "partial", "Files", "C20_exact_partial C20_suffix C20_terminates C20_alias_violated", "Duplicate free in terms of paths; two spellings of the absolute path of one file are both listed.")
M("C21", "partial", "FW", "C21_line_limit_partial C21_default C21_violated", "Proved with line_max + 1; a line of line_max + 1 characters does occur.")
M("C22", "partial", "FW", "C22_preserved_partial C22_literal_two_lines C22_word_cut_violated C22_exact_fit_violated C22_comment_violated C22_literal_violated", "Proved for statements with a break point in every stretch of w characters and no comment, and for a character literal cut once; four ways in which other statements are damaged or crash the writer.")
M("C24", "proved", "PO", "C24_next_line C24_end C24_curr_line C24_read_all C24_whole_file C24_reset C24_write_line")
M("C47", "proved", "PO", "C47_error_limit")
M("C25", "partial", "Ctx", "C25_enter C25_leave C25_in_region C25_balanced C25_failed_leave_violated C25_in_region_unnamed", "A refused leave still pops the region stack; region_str is not modelled.")
M("C23", "partial", "CB", "C23_write_partial C23_missing C23_missing_nothing_written C23_partial_output C23_preproc_indent_violated", "Substitution and the error for missing names are proved for all templates; preprocessor lines are not written unindented.")
M("C26", "partial", "Chk", "C26_found_partial C26_unbalanced C26_none C26_error C26_violated", "Exact characterisation; differs from the property only if an unmatched ')' precedes the first '('.")
M("C27", "partial", "Chk", "C27_fortran_id_partial C27_newline_violated C27_standard_name_partial C27_unicode_violated", "Exact for text without a final newline (and, for standard names, ASCII).")
M("C48", "partial", "Chk", "C48_list_partial C48_blank_item C48_nested_violated", "Proved for items without nested parentheses and literals; nested items are torn apart.")
M("C49", "partial", "Chk", "C49_flag_partial C49_dimensions_partial C49_dimensions_violated", "Proved for names, and for dimensions without a part that starts with size; check_dimensions treats size(...) differently.")
M("C50", "proved", "Chk", "C50_dimensions C50_parts")
M("C28", "partial", "VC", "char_kind_supported_partial char_kind_ignores_length charKindCheck_iff", "Violated: lengths are not compared (the checker returns a Boolean). Proved: accepted iff both kinds are one len= entry.")
M("C29", "partial", "VC", "kind_recorded reflexive_partial character_not_reflexive names_types_rejected equiv_sound equiv_with_dimension_transform verdict_symmetric Units.verdict_symmetric", "Violated: a character variable without len= is not compatible with itself; equivalent may come with a dimension transform or vertical flip. Rejection, soundness and symmetry proved.")
M("C30", "partial", "VC", "horizontal_names vertical_names permutations_inverse reordered_accepted different_rejected reordered_without_horizontal dim_error_iff", "Fully proved whenever a transform is recorded; missing: reordered dimensions without a horizontal one raise an internal error.")
M("C31", "partial", "VC", "forward_same_element_partial forward_wrong_position reverse_same_element_partial reverse_wrong_position roundtrip_plain roundtrip_offset_partial roundtrip_flip_partial", "Violated when the horizontal dimension changes position: the offset goes to the wrong index (proved for all such transforms).")
M("C32", "proved", "Units", "unit_text conversion_correct chain_agrees both_directions conversion_symmetric spelling_collision degree_constant_accurate", "Values are rationals; rounding of Fortran reals is not modelled.")
M("C51", "partial", "VC", "tendency_units_partial tendency_missing_per_second tendency_of_rate_rejected tendency_trailing_text", "Violated both ways.")
M("C52", "partial", "TR", "intent_in_converted intent_inout_converted unchanged_argument intent_out_result_lost intent_out_violated intent_out_optional inactive_optional_error", "Proved for intent in and inout and for active optional intent out; violated for required intent(out) (result lost) and for inactive optional arguments (unallocated variable is referenced).")
M("C39", "partial", "Env", "kinds_rejected_iff kind_lookup kind_types_ok empty_kind_accepted", "Fully proved with name and spec allowed to be blank; missing: an empty name or specification is accepted.")
M("C53", "proved", "Env", "defs_of_list defs_comma defs_space stray_comma")
M("C33", "partial", "VD", "one_per_name add_present_raises add_present_keeps add_absent remove_exact find_exact_partial C33_violated", "Proved for all histories and names other than ccpp_constant_one; violated for that name, and a removed variable cannot be added again.")
M("C34", "partial", "VD", "find_innermost find_none find_own_scope find_const C34_violated", "Fully proved for every name but ccpp_constant_one, which is found in every dictionary. The lookup of suites and groups, which adds promotion, is modelled for C54.")
M("C35", "partial", "VD", "distinct_local_partial C35_violated", "Proved for additions without gen_unique and exists_ok; false with either.")
M("C36", "partial", "VD", "merged_intent merged_intent_order protected_stays_in C36_violated", "Intents fully proved; missing: whether a protected variable is refused depends on the order of the uses.")
M("C37", "partial", "VD", "newName_length newName_fresh_partial newName_total C37_violated", "Proved for lower-case prefixes that leave room for the digits; false otherwise.")
M("C38", "partial", "MD", "loop_dimensions VC.horizontal_names VC.vertical_names match_sound match_sound_vertical match_permutation matchVariable_in_order match_complete C38_violated", "Injective matching proved for all dimension lists, a permutation for equal ranks; false for different ranks: extra available dimensions are ignored.")
M("C40","partial","RV","query_correct_partial query_none_partial collect_exact collect_refused leaves_correct C40_violated",
  "Proved for all collections in which names of arrays, elements and leaves are separate (Separate) and, for output-only queries with elements, without a leaf that is both input and output of different groups; for suites of leaf variables it is proved without those hypotheses (leaves_correct). False in general: C40_violated gives four ways in which the generated query writes outside its list or leaves an element unset.")
M("C54","partial","DF","derived_variables C54_accepts_iff C54_defined_before_use_partial C54_default_violated C54_subcycle_violated C54_vertical_violated C54_timestep_array_violated C54_register_array_violated C54_loop_variable_violated C54_no_timestep_violated",
  "The acceptance criterion is fully proved. Freedom from undefined reads is proved for suites whose reads have a source that assigns (no default values, derived loop variables computed from host variables, arrays used while they are allocated) and for histories in which every subcycle makes an iteration and every cycle a time step; each of these conditions is shown to be necessary by an accepted suite that reads an undefined value. (Subcycles are executed as intended; at present capgen cannot write them, see C07.)")
M("C55","proved","FL","C55_statements C55_nonempty C55_single C55_read C55_read_end")
M("C56","partial","FL","C56_exact C56_continuation_partial C56_lines_kept C56_violated C56_unfinished_accepted",
  "The result is characterised exactly for every file; it agrees with the Fortran rules when continuation lines are Separated. Violated: words run together when a continuation line starts in column 1 or a blank precedes the first mark; an unfinished statement is accepted. Fixed form is not modelled.")
M("C57","partial","FL","C57_roundtrip_partial", "For statements the writer preserves (C22): breakable, no comment, closed quotes.")
M("C58","partial","FDecl","C58_items C58_unique C58_refused C58_roundtrip C58_violated",
  "Split and refusal are characterised exactly for every text, counting all commas and parentheses. Violated: those in character literals are counted too, and a closing parenthesis before its opening one is accepted.")
M("C59","partial","FDecl","C59_declaration_partial C59_example C59_declaration_violated C59_stale_dimensions",
  "Proved for every statement of the grammar in Spec/FortranDecl.lean (with or without double colon; character with len= and a length without underscore). Violated outside it: see C59_declaration_violated.")
M("C61","partial","FM","C61_tables C61_table_types C61_scheme_partial C61_scheme_sound C61_module_partial C61_host_violated C61_accepts_violated C61_after_reference_violated C61_report_violated C61_example",
  "Pairing fully proved; acceptance of scheme, module and ddt tables characterised exactly, with rank in place of dimensions. Violated: dimension names are never compared, the optional attribute of the first argument is not checked, host tables are not compared, references to array elements switch the comparison off, and some disagreements end in a Python exception.")
M("C60","partial","FSub","C60_scheme_partial C60_not_found C60_example C60_example_runs C60_scheme_violated",
  "Proved for every source whose statements are comments, declarations of the grammar of C59 with intent, or other statements that do not begin like a program unit (Quiet), with or without internal procedures. Violated: an interface block, a bare end, a second statement on the line of the end, a variable name beginning with subroutine, two prefixes, an argument without intent, and a comment with an intent (C60_scheme_violated).")
M("C62","proved","MF","C62_metadata_file C62_example C62_example_meets")
M("C63","partial","MF","C63_effect_partial C63_violated C63_recursive_refused",
  "Proved for entries whose key is written once in its block. Violated otherwise: the first of two entries with the same key is ignored, a local_name entry replaces the name in brackets, text after a table or section start is ignored, a table without name and type is accepted.")
M("C64","partial","Seq","C64_subroutines C64_run_partial C64_phase_partial C64_imports C64_accepted C64_example C64_example_meets C64_example_subcycle C64_vertical_violated C64_skipped_violated C64_subcycle_violated C64_suite_routine_violated C64_names_violated C64_two_indices_violated",
  "Subroutines, imports and acceptance are fully proved; the calls are proved when no two calls of a group need a loop over the same vertical index and no scheme is named like a routine. Violated: see the _violated theorems (second level-by-level scheme called once, x_init hides the init routine of x, subcycles and suite routines refused, duplicate group names, two vertical indices).")
M("C65","partial","XF","C65_read_back C65_written_partial C65_example C65_example_text C65_violated_slash C65_violated_letter",
  "Every file that is written is read back as the same tree (fully proved); writing succeeds exactly for the writable trees. Violated otherwise: an element without text and sub-elements is refused if an attribute value contains a slash (a suite without groups, its file name), and so is an element with a tag of one letter without attributes.")
M("C66","partial","DT","C66_reports_partial C66_refused C66_paths exSuites_ok exSuites_distinct C66_violated_endless C66_violated_twins C66_violated_repeated C66_violated_scheme C66_violated_empty",
 "Proved for all data with metadata headers for all routines, fine names and at least one filled group per suite in which the names of dictionaries do not coincide, for all requests, through the text of the file (C65). The code violates the rest: a group called constituents of a suite x in x.xml makes the request for variables endless, groups a + b_c and a_b + c are confused, a process is listed once per use, a scheme called scheme and a suite without filled groups give no table. The table printed by show is not modelled here.")
M("C67","partial","HM","C67_accepted_iff C67_lookup C67_reference_partial C67_bound ex_built ex_paths ex_shallow ex_ref C67_nested_violated ex_nested C67_same_component_violated ex_same C67_self_violated C67_root_index_violated C67_loops_violated",
 "Acceptance and look-up are proved for all hosts (C67_accepted_iff, C67_lookup); references for hosts without components of components and without components of array elements (C67_reference_partial). The code violates the rest: a path to a component of a component lacks its middle, two types may not have components of the same name, a type that contains itself leads to endless recursion, the index of an array element with components stays a standard name, and a second host table replaces the loop variables of the first.")
M("C68","partial","HM","C68_imports_partial C68_ends ex_imports C68_section_violated ex_section C68_self_index_violated C68_root_index_violated",
 "Which variables are imported is proved for all hosts and requests (C68_imports_partial; local names are not the number 1), and that requests end if indices do not depend on themselves (C68_ends). The code violates the rest: array sections are imported with their indices, an index naming itself is endless, and indices of array elements with components are not imported.")
M("C69","partial","PB","C69_accepted_iff C69_result C69_agree_partial C69_length_violated C69_order_violated C69_dimensions_violated ex_matched",
 "Success and result are characterised exactly for all hosts and scheme files. The code violates the property: only the first requests of the files are compared with each other and only the first with the host, and an assumed length agrees with every length, so a request of another length than that of the host is accepted and the verdict depends on the order of the files; of the dimensions only the number is compared.")
M("C70","partial","PB","C70_parse_partial C70_filter_partial C70_accepted_partial C70_result_partial C70_schemes_iff C70_kept_schemes C70_compile ex_filtered C70_name_violated C70_finalize_violated C70_uncalled_violated C70_init_name_violated C70_empty_violated C70_tree_violated",
 "Proved for suite definitions in which every child has a name and every subcycle a scheme, without a finalize element, and schemes with clean names. The code violates the rest: the variables of a called scheme with finalize in its name and of a finalize element are dropped; a scheme in no suite can make the run fail; an init element without name attribute is an exception; an empty subcycle is an exception or takes the loop number of its predecessor; of two groups of the same name only the second is in the call tree.")
M("C71","proved","PB","C71_accepted_iff C71_result C71_unique C71_order C71_cycle ex_names",
 "For hosts in which every variable has a module (and a type), and local names in configured modules are names or array references whose indices are literals, standard names, colons, and ranges of these (TextsOk); at least one module is configured. Acceptance means some depth of the recursion suffices.")
M("C72","partial","SA","C72_ideal_partial C72_calls C72_history C72_switch ex_hyps ex_proper C72_order_violated C72_instances_violated C72_loop_violated C72_elements_violated C72_finalize_element_violated C72_switch_violated",
 "The exact behaviour is proved for caps with different names, subcycles of at least one loop, suites without init and finalize elements, and hosts that keep the order and finalise only when no other instance is initialised; what may be called, and the error codes, are proved for all histories. The code violates the rest: a run before init returns error code 0; finalize of one instance makes all instances uninitialised; loop=0 runs once; the scheme of a finalize element is never called and that of an init element only once; a suite with only such elements gives an API that does not compile.")
M("C73","partial","PF","C73_run_partial C73_history C73_recovers C73_completed_partial C73_again C73_changed C73_clean_partial C73_lost_violated C73_stopped_violated C73_dependency_violated C73_clock_violated C73_clean_cmake_violated C73_clean_blank_violated",
  "Proved for all outputs with names that are apart, all disks and all histories with stopped runs: tables, caps, API, include files and makefiles are right after every complete run, nothing else is touched, an unchanged output changes no file, a changed cap renews the API. The cmakefiles and sourcefiles are right exactly if the makefile was not already right while they were wrong; so the full claim is false in the code: after a stop between the renames, or when only files with other endings than the four are added, they stay wrong forever. Also false with a coarse clock (filecmp is shallow), and clean leaves the cmake include file and mishandles blanks.")
M("C74","partial","PA","C74_names C74_arguments C74_needed_partial C74_bounds_partial C74_writes C74_shared C74_once C74_scalars C74_instance_partial C74_variable_partial C74_suite hostX_ok hostX_dims hostX_flat C74_condition_violated C74_component_violated C74_bounds_violated C74_same_name_violated C74_instance_violated",
 "Proved for all hosts whose local names are references and all calls: what is passed and all indices are declared with covering intents, nothing else is writable, no name twice, the suite covers its groups. What the cap reads is readable unless the variable itself is an intent(out) argument so far; bounds are declared if the dimensions are (components of) scalars; the ccpp_t instance is inout if two components of it are arguments; the variable is the right one if local names are distinct. The code violates the rest: an intent(out) argument that is a condition in the same call is read; a host variable with a single intent(out) component is declared intent(out); bounds of bounds of bounds are undeclared; of two host variables of the same local name the wrong one is passed; the loop counter is set in an undeclared instance.")
M("C75","partial","PV","C75_values_partial C75_accepted C75_determined C75_partition C75_names exGroup_ok exScheme_ok C75_out_violated C75_out_host_violated C75_in_violated C75_formula_violated C75_formulas C75_condition_violated C75_shared_violated C75_local_names_violated",
 "Proved for all groups, hosts, block sizes, schemes and junk values if the arguments of a call are different variables, conditions do not depend on what the call changes, and every argument is handled: a variable with condition and unit conversion has intent(inout) or is copied from blocks, and the formula for an array ends in the variable. The code violates the rest: with intent(out) the pointer is never associated, so the scheme does not get the argument and the host gets junk; with intent(in) the pointer dangles after the call; K to C and nine other formulas give wrong Fortran for arrays; two standard names for one variable allocate twice; a host variable called nb, ib or tmpvar_1 clashes.")
M("C76","partial","SC","C76_section_partial C76_alloc_partial C76_deblocked exHost_ok exRef_ok exReq_ok C76_debug_violated C76_debug_empty_violated C76_equal_violated C76_range_violated C76_repeated_violated C76_parent_violated C76_phase_violated C76_text_violated",
 "The section, the exceptions and the shapes are characterised exactly for all hosts and all local names whose subscripts are whole dimensions or indices (with subscripts of their own) and whose last subscripts do not occur twice, for dimensions with different bounds. The code violates the rest: equal bounds give an element instead of an array; ranges in local names are dropped; of a(i)%b(i) both subscripts are removed; a section in a parent is not recognised; the extent of a block is accepted outside the run phase; arrays of texts are passed whole; and the tests of the debug mode can never fail for a wrong size.")
M("C77","partial","CD","C77_prebuild_partial C77_capgen C77_accepted C77_solid C77_prebuild_if C77_capgen_if_partial cond_ok ex_cond C77_sign_violated C77_real_violated C77_arithmetic_violated C77_case_violated C77_letter_violated C77_capgen_if_violated",
 "Proved for all conditions of names, integers, operators in lower case, parentheses and white space; for all texts it is proved which characters can be lost. The code violates the rest: signs, decimal points and arithmetic operators are silently dropped (a > -1 becomes a > 1, a > 1.5 becomes a > 15); operators in capitals are refused; the condition T means true even if t is a variable; ccpp_capgen writes an if statement without parentheses if the condition has none.")
M("C78","partial","TV","findNames_file C78_track_partial C78_unknown C78_order_partial exFiles_ok C78_example C78_order_violated C78_continued_violated C78_end_violated",
 "Proved for all directories of metadata files in the sense of C62 without continued lines, whose tables have one name each and whose last table has a section: the second parser finds the names of the tables, the report is complete and sound for a choice of one table per scheme, and independent of the order of files if every scheme has one table. The code violates the rest: with a scheme in two files the report depends on the order of glob; a continued line among the properties of a table, and a file that ends with the properties of a table, are read by the parser but raise an exception in the search for names.")
M("C79","partial","ST","words_iff joinLines_logical logical_exists C79_accept_partial C79_result_partial C79_malformed C79_twice_module C79_wrong C79_wrong_example exFile_ok exLogical C79_example C79_example_mandatory C79_pure_violated C79_case_violated C79_timestep_violated C79_endmodule_violated C79_endcase_violated C79_comment_violated C79_mark_violated C79_modulefunction_violated",
 "Proved for all well-formed files: subroutines without prefix, stages in lower case, ends with a blank and the same case, module names not ending in _timestep for init and finalize; marks are searched as parts of words. The code violates the rest: entry points with a prefix (pure) or in capitals are silently dropped; foo_timestep_init of a scheme foo_timestep, endmodule, ends in other case and module functions raise exceptions; a comment ending in & hides the next line; the table of foo_run_extra is taken for foo_run.")
M("C80","partial","RM","convert_iff C80_accept_partial C80_result C80_container C80_dims_are_ranges C80_dims_violated C80_missing_violated C80_example C80_example_refused",
 "Proved for all files: exactly which tables are accepted and what is returned. The code violates the rest: the metadata parser turns every dimension into a range (C80_dims_are_ranges), so the tests for horizontal_dimension and horizontal_loop_extent as dimensions never fire; a table that the file does not have is accepted and has no variables, so a misspelt table drops all arguments.")
M("C81","partial","VT","C81_accept_partial C81_result C81_unique C81_wrong C81_twice_module C81_endless_module C81_blank_violated C81_old_violated C81_unfinished_violated C81_fortran_violated C81_example C81_refusals C81_wrong_example",
 "Proved for all well-formed files: exactly which are accepted and with which entries; and the refusals. The code violates the rest: any line without bar after the first line of a table makes it an empty table, so a misspelt \\htmlinclude drops all variables; a table in the old format is accepted without its variables; an unfinished table is accepted; correct Fortran is refused (a comment directly after a name, a tab after type, other case, endtype, type,extends (a) :: b).")
M("C82","partial","HC","C82_dictionary C82_loop_dims C82_accept_partial C82_entries C82_register C82_cap_register C82_slots C82_example_cap C82_example_reg C82_example_slots C82_example_conflict C82_second_suite_violated C82_dims_violated C82_tendency_name_violated C82_index_violated C82_empty_violated C82_again_violated C82_copy C82_copy_violated",
 "Proved for all suites and all host and dynamic constituents that were not registered before, names and units up to 256 characters, at least one constituent. The code violates the rest: the dimensions of a second variable of the same name are never compared; a name with tendency_of_ inside is a tendency for the cap and a constituent for the registration; tendency_of without underscore is an IndexError; without any constituent the registration reads outside the hash table; after cleanup no registration succeeds once field data existed; the copy routine reads outside its array for a wrong index.")
M("C83","partial","DC","C83_inactive C83_out C83_check_argument C83_check_own C83_frame C83_block C83_reads_argument C83_reads_own C83_written_iff C83_added C83_internal_types_partial C83_internal_legal C83_example_text C83_shape_violated C83_lower_bound_violated C83_empty_violated C83_own_columns_violated C83_message_violated C83_number_violated C83_horizontal_missing_violated C83_internal_types_violated C83_internal_legal_violated",
 "Proved: the check of an argument compares the total size, the check of a group or suite variable the size of the section of this call; inactive variables and the model are not touched, the checks of a scheme are independent; first and last element are inside if the shape matches, nothing is empty and the lower bounds of arguments are 1. The code violates the rest: transposed arrays pass; lower bounds other than 1 and calls without columns lead to references outside the array; the columns of suite variables are not checked; the message gives the size of the whole array; numbers as dimensions make --debug fail; internal variables clash for derived types and have illegal names for len=*.")
M("C84","partial","Lit","C84_integer C84_real C84_logical C84_character C84_complex C84_total C84_character_index C84_complex_index C84_other_type C84_default_untyped C84_default_iff C84_default_error C84_complete_partial C84_sound_partial C84_character_complete_partial C84_example C84_example_spec C84_underscore_violated C84_kind_case_violated C84_character_underscore_violated C84_character_length_violated C84_delimiter_violated C84_crash_violated C84_double_violated",
 "Proved: exactly which texts are accepted for each type, the exact conditions of IndexError and ParseInternalError, default values, and both directions of the property for the values free of the defects. The code violates the rest: a trailing underscore without kind and blanks before the underscore are accepted; kinds in upper case, strings with an underscore and all strings of kind len=n are rejected; any character delimits a string; empty strings and incomplete complex values end in IndexError, derived types in ParseInternalError; double precisionxyz is real.")
M("C85","partial","RC","C85_units C85_units_reject C85_ref C85_ref_reject C85_local_name C85_type C85_intrinsic C85_register C85_diagnostic C85_diagnostic_fixed C85_diagnostic_exclusive C85_diagnostic_legal_partial C85_example_units C85_example_ref C85_example_ref_spec C85_example_units_spec C85_example_local_name C85_example_type C85_example_diagnostic C85_example_diagnostic_spec C85_one_letter_violated C85_separator_violated C85_newline_violated C85_subscripts_violated C85_double_violated C85_double_example C85_case_violated C85_empty_diagnostic_violated C85_crash_violated",
 "Proved: exactly which texts each checker accepts, in terms of grammars; acceptance returns the text unchanged; registration of derived types; the two kinds of diagnostic names exclude each other; substitution gives legal names unless the text is empty or ends in a newline. The code deviates from the documented form: a one-letter word between underscores is not a unit; tabs and newlines separate units but two blanks do not; a newline at the end of names and references is accepted; the length limit of names is applied to numbers; at most 7 subscripts; double precisionxyz is a type; derived types are case sensitive; the empty diagnostic name; ParseInternalError, IndexError and TypeError for some values.")
M("C86","partial","VE","C86_accept C86_values C86_order C86_invariant C86_reported_partial C86_example C86_example_clean C86_example_section C86_example_reported C86_empty_violated C86_unknown_violated C86_mass_violated C86_two_types_violated C86_duplicate_violated C86_kind_violated C86_crash_violated C86_text_violated",
 "Proved for all entries without a newline at the end: acceptance if and only if the entries are legal, the name fits and the properties are coherent; the exact dictionary of an accepted variable; independence of the order; invariants of accepted variables; everything else is reported unless one of the crashes below happens. The code deviates: empty standard names, units and local names are accepted; an unknown property is an UnboundLocalError if it comes first; a molar mass that is not a number is a ValueError and nan is accepted; two types give a mixture; duplicates are silent; the kind of a derived type is lost; exceptions for names that do not fit, protected derived types, default values of derived types, size(a,1).")
M("C87","partial","CF","C87_accept C87_refused C87_duplicate C87_crash C87_types C87_order C87_order_example C87_example C87_example_meets C87_table_violated C87_table_violated_example C87_case_violated",
 "Proved for all lists of files: acceptance if and only if all files can be read and all names differ, with the exact result; a refused file is the first that cannot be read; a duplicate section is reported with both files; every derived type used has a table before; independence of the order of files. The code violates the report of duplicate tables: for every such list (C87_table_violated) the code that should write the message raises a KeyError, AttributeError or UnboundLocalError instead; and names that differ only in case are not found to be the same.")
M("C88","partial","CG","C88_list C88_list_total C88_datatable_violated C88_generated_violated C88_example_datatable C88_example_list",
 "Proved for all texts and file systems: exactly the listed files and the file itself are removed, and success means that all were there, each listed once. The second sentence is violated for every data table: capgen writes XML, every line of which is taken as a path ending with >, so no generated file is removed, only the data table, errors are reported, and a second cleaning finds no data table (C88_generated_violated).")
M("C89","partial","FFile","C89_file_partial C89_ends C89_no_module_violated C89_file_violated C89_example",
 "C89_ends: for every file. C89_file_partial: for every well-formed file with one statement per line, of modules with contains (but for the last), with any number of sections, types, declarations, schemes and subroutines. Missing because the code violates it: files without module are refused (C89_no_module_violated), a table directly followed by its subroutine is refused or taken for the next one, a module without contains cannot be followed by another, END MODULE without name or in other letter case, subroutines of all but the last module are lost, internal subroutines are listed, two tables of the same scheme are not noticed, END PROGRAM without name (C89_file_violated).")
M("C90","partial","VText","C90_declares C90_attributes_partial C90_read_partial C90_constant C90_error C90_pointer C90_pointer_null C90_target_violated C90_optional_violated C90_intent_violated C90_twice_violated C90_example C90_example_handled",
 "C90_declares: for all variables, the type, kind, name and dimensions are right, no attribute is unwanted, target of the variable and intent are there. C90_attributes_partial: exactly the wanted attributes, each once, in the cases Handled. Missing because the code violates it: the caller's wish for a target is ignored unless allocatable (C90_target_violated), optional is dropped for protected arguments and allocatable outputs (C90_optional_violated), the intent of a dummy argument that is to be allocatable (C90_intent_violated), target twice and allocatable scalars (C90_twice_violated). The writer's breaking of lines is in other properties.")
M("C91","partial","VRef","C91_subscripts C91_mismatch C91_dimensions C91_colons C91_argument C91_declarable C91_number_violated C91_example C91_example_named",
 "Each function is characterised by an equivalence, for all local names that are plain or array references of at most seven subscripts. Missing because the code violates it: numbers as bounds are errors in lists of dimensions (C91_number_violated). The text of a variable found in a dictionary is a parameter (its own reference; the recursion for call_string without loop variables is in the host-model property).")
M("C92","partial","DimS","mem_dimStdnames C92_sources_partial C92_empty_partial C92_order_partial C92_example C92_example_excluded C92_empty_target_violated C92_reproducible_violated C92_local_name_violated C92_removed_violated",
 "Proved for all orders of the set, for a requested dictionary that is not empty and whose registered local names belong to its variables. Missing because the code violates it: an empty requested dictionary counts as none (C92_empty_target_violated); the order of the arguments depends on the hash seed (C92_reproducible_violated; up to this order the result is unique, C92_order_partial); an added dimension can have the local name of another argument (C92_local_name_violated); after a removal an internal error is raised (C92_removed_violated).")
M("C93","partial","TText","C93_forward_partial C93_reverse_partial C93_undo C93_example_exists C93_example_both C93_example_units C93_complex_violated C93_integer_kind_violated C93_integer_units_violated",
 "Proved for all real variables with kinds (the parser gives every real variable a kind) and exact arithmetic: text, references, kind and value of both statements. Missing because the code violates it: complex variables lose the imaginary part (C93_complex_violated), integer and logical variables are converted with real, with an empty kind if none is given (C93_integer_kind_violated), integers in other units are truncated (C93_integer_units_violated).")
M("C94","proved","ArgW","C94_list C94_explicit C94_lines C94_lines_explicit C94_limit C94_repeated_violated",
 "C94_repeated_violated shows that the hypothesis of distinct names is needed for the length of the lines: the last argument is recognised by its text.")
M("C95","proved","Pretty","C95_words C95_table C95_children C95_lines C95_table_lines C95_children_lines C95_indented C95_fills C95_no_wrap",
 "The bound of the lines is for names, values and texts without ends of lines. Quotes do not protect blanks (in_squote and in_dquote are never set in the code); the property does not claim this.")
M("C96","partial","LoopAct","C96_partial C96_names C96_meaning C96_deterministic C96_name_violated C96_created_violated",
 "Proved for groups whose arguments have distinct local names, none of which is the name of a computed variable, and whose loop bounds are not created by schemes of the group; the names of the computed variables are distinct (C96_names). Missing because the code violates it: the name of the computed variable is compared with the group's own variables only, so it may be that of an argument, which is then overwritten (C96_name_violated); a bound that a scheme of the group creates is read before the scheme sets it (C96_created_violated).")
M("C97","partial","Proto","C97_prototype_partial C97_later_violated",
 "Proved with dimensions that are declared before their use (or invented names for the others). Missing because the code violates it: a dimension that is declared after the array is written with an invented name instead of its standard name (C97_later_violated).")
M("C98","partial","Inspect","C98_parts_partial C98_schemes C98_suites C98_reserved_violated",
 "Schemes and suites are proved; parts are proved for suites in which no group has the name of a phase. Missing because the code violates it: a group with such a name (initialize) is not listed (C98_reserved_violated).")
M("C99","partial","Fixed","C99_fixed_form_partial C99_bang_violated C99_comment_violated C99_column_violated",
 "Proved for files whose continued lines have no comment, with no ! in column 6 and no text after column 72, where the white space at the end of lines is not part of a character literal. Missing because the code violates it: a ! in column 6 hides the line (C99_bang_violated); a line with a comment that is continued loses its continuation to the statement before, or raises an exception (C99_comment_violated); an apostrophe after column 72 is an error (C99_column_violated).")
M("C100","proved","LongName","C100_long_name C100_missing C100_example",
 "Characters are ASCII without line ends, as the checks of standard names require.")
M("C101","partial","HCall","C101_accept C101_calls C101_dummies C101_access C101_sizes_partial C101_example C101_sizes_violated C101_shared_violated C101_names_violated",
 "Acceptance, calls, dummy arguments and access are proved in full; the sizes for one suite with run-time constituents. Missing because the code violates it: with two such suites the register routine takes sizes of arrays that are not allocated (C101_sizes_violated), two suites cannot share a scheme with run-time constituents (C101_shared_violated), and a host variable with the local name suite_name gives two dummy arguments of one name (C101_names_violated).")
M("C102","partial","Snip","C102_caps C102_typedefs C102_schemes_partial C102_ending_violated",
 "Proved for all lists of plain file names. Missing because the code violates it: a scheme file with an ending other than .F, .F90, .f, .f90 is in the lists for cmake and the shell, but in no variable for make (C102_ending_violated).")
M("C103","partial","CondT","C103_partial C103_not_indented C103_not_violated C103_and_violated",
 "Proved for conditions with a blank or parenthesis after every && and ||, no two adjacent exclamation marks, chains of two operands (for longer ones see C42_violated), no comparisons, and symbols that are not keywords of Python. Missing because the code violates it: '!A' becomes the name notA and is always true (C103_not_violated), 'A&&B' becomes the name AandB and is always true (C103_and_violated), 'defined(A)&&defined(B)' and 'A != 1' become texts that Python cannot read.")
M("C104","partial","Decls","C104_partial C104_scalars_first C104_complete C104_rejected C104_order_violated C104_type_violated C104_pointer_violated",
 "Proved: all declarations of arguments and local variables, scalars before arrays, the exact imports of the arguments and of the kinds of local variables, success and errors; pointers if names of their types are distinct for distinct type, kind and rank. Missing because the code violates it: a lower bound that is in an array argument can be used before the array is declared (C104_order_violated), the derived type of a local variable or pointer is not imported (C104_type_violated), the pointers of real and real(default_kind) share a type (C104_pointer_violated).")
M("C105","partial","GL","C105_partial C105_declared C105_allocated C105_nullified C105_names C105_copies C105_complete C105_pointer_violated C105_scalar_violated C105_copy_violated",
 "Proved: the exact declarations, distinct names, shapes of the allocations, no array allocated afterwards, pointers nullified, success; what is passed is declared if an optional variable has the same local name in the scheme as in the group and the optional variables of the group are arrays the host does not pass. Missing because the code violates it: pointers are declared with the local name of the group but passed with the name of the scheme (C105_pointer_violated), an optional scalar of the group has no pointer (C105_scalar_violated), two copies with the same name share one declaration (C105_copy_violated).")
M("C106","partial","LE","C106_partial C106_elements C106_unique C106_complete C106_ddt_violated C106_reference_violated",
 "Proved: for variables of intrinsic type the elements are exactly the intrinsic leaves; for all variables they are the leaves below the references or else the own name; the result does not depend on the depth of the recursion; when they are found. Missing because the code violates it: a variable of derived type reports its own name and not its components (C106_ddt_violated); a reference of derived type is an error although the type is known (C106_reference_violated).")
M("C107","proved","SV","C107_version C107_rejected C107_decimal C107_distinct C107_schema",
 "Integers are those of Python (blanks around them, a sign and single underscores are accepted). The texts of the messages are not modelled.")
M("C108","partial","KF","C108_partial C108_conversion_partial C108_needed_partial C108_spec_violated C108_case_violated C108_spelling_violated",
 "Missing because the code violates it: an expression as specification is accepted but gives an illegal module; kinds differing only in case give a module whose names clash; a kind spelled in another case is compared by its text.")
M("C109","partial","HT","C109_partial C109_skipped C109_unique C109_brace_violated C109_markup_violated",
 "Missing because the code violates it: values are formatted twice, so that a value with a brace stops the program or is shown changed, and markup in a value is not escaped.")
M("C110","partial","LX","C110_partial C110_unique C110_requested_partial C110_special_violated C110_none_violated",
 "Missing because the code violates it: only three of the special characters are escaped (units with ^ are not typeset), and a request without a container gets an empty entry. The order of the entries and the rest of the document are not covered.")
M("C111","proved","SD","C111_suites C111_chosen_unique C111_names_unique",
 "File names with newlines are excluded. The reading of a file is a parameter (it is the subject of other claims).")
M("C112","proved","PL","C112_text C112_none C112_readable C112_last_unique",
 "Steps are not negative. Names that are no texts and lines that are no integers (exceptions) are not covered.")
M("C113","proved","EV","C113_call C113_keywords C113_variables C113_init",
 "find_variable is a parameter that finds variables by their standard names.")
#MORE
C.sort(key=lambda c: c["property"])
json.dump({"claims": C}, open(os.path.join(ROOT, "MANIFEST.json"), "w"), indent=1)
fs = sorted(os.path.relpath(f, os.path.join(ROOT, "lean"))[:-5].replace("/", ".")
            for f in glob.glob(os.path.join(ROOT, "lean/Verif/**/*.lean"), recursive=True))
open(os.path.join(ROOT, "lean/Verif.lean"), "w").write("".join("import %s\n" % f for f in fs))
print(len(C), len(fs))
