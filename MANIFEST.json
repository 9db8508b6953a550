{
 "claims": [
  {
   "property": "C01",
   "status": "proved",
   "theorems": [
    "Ccpp.Preproc.C01_depth",
    "Ccpp.Preproc.C01_wellformed"
   ],
   "note": ""
  },
  {
   "property": "C02",
   "status": "partial",
   "theorems": [
    "Ccpp.Preproc.C02_first_true_branch_partial",
    "Ccpp.Preproc.C02_violated"
   ],
   "note": "False in general: a true #elif does not stop a later #elif/#else from being taken; proved for chains where at most one condition can hold."
  },
  {
   "property": "C03",
   "status": "proved",
   "theorems": [
    "Ccpp.Preproc.C03_inactive"
   ],
   "note": ""
  },
  {
   "property": "C04",
   "status": "proved",
   "theorems": [
    "Ccpp.SM.C04_function_match",
    "Ccpp.SM.C04_no_match",
    "Ccpp.SM.C04_timestep"
   ],
   "note": ""
  },
  {
   "property": "C05",
   "status": "proved",
   "theorems": [
    "Ccpp.SM.C05_add",
    "Ccpp.SM.C05_del",
    "Ccpp.SM.C05_distinct"
   ],
   "note": ""
  },
  {
   "property": "C06",
   "status": "proved",
   "theorems": [
    "Ccpp.Cap.C06_reject",
    "Ccpp.Cap.C06_accept",
    "Ccpp.Cap.C06_path",
    "Ccpp.Cap.C06_all_ok_path",
    "Ccpp.Cap.C06_path_accepted"
   ],
   "note": ""
  },
  {
   "property": "C07",
   "status": "partial",
   "theorems": [
    "Ccpp.Cap.C07_order_and_stop_partial",
    "Ccpp.Cap.C07_subcycle_violated"
   ],
   "note": "Groups with a subcycle cannot be written at all (infinite recursion in the loop property)."
  },
  {
   "property": "C08",
   "status": "partial",
   "theorems": [
    "Ccpp.Cap.C08_state_kept_partial",
    "Ccpp.Cap.C08_violated"
   ],
   "note": "False: a failing scheme still advances the suite state."
  },
  {
   "property": "C09",
   "status": "partial",
   "theorems": [
    "Ccpp.Cap.C09_allocation_partial",
    "Ccpp.Cap.C09_violated_debug"
   ],
   "note": "False with debug checks."
  },
  {
   "property": "C10",
   "status": "proved",
   "theorems": [
    "Ccpp.Hash.C10_finite_map",
    "Ccpp.Hash.C10_duplicate_rejected"
   ],
   "note": ""
  },
  {
   "property": "C100",
   "status": "proved",
   "theorems": [
    "Ccpp.LongName.C100_long_name",
    "Ccpp.LongName.C100_missing",
    "Ccpp.LongName.C100_example"
   ],
   "note": "Characters are ASCII without line ends, as the checks of standard names require."
  },
  {
   "property": "C101",
   "status": "partial",
   "theorems": [
    "Ccpp.HCall.C101_accept",
    "Ccpp.HCall.C101_calls",
    "Ccpp.HCall.C101_dummies",
    "Ccpp.HCall.C101_access",
    "Ccpp.HCall.C101_sizes_partial",
    "Ccpp.HCall.C101_example",
    "Ccpp.HCall.C101_sizes_violated",
    "Ccpp.HCall.C101_shared_violated",
    "Ccpp.HCall.C101_names_violated"
   ],
   "note": "Acceptance, calls, dummy arguments and access are proved in full; the sizes for one suite with run-time constituents. Missing because the code violates it: with two such suites the register routine takes sizes of arrays that are not allocated (C101_sizes_violated), two suites cannot share a scheme with run-time constituents (C101_shared_violated), and a host variable with the local name suite_name gives two dummy arguments of one name (C101_names_violated)."
  },
  {
   "property": "C102",
   "status": "partial",
   "theorems": [
    "Ccpp.Snip.C102_caps",
    "Ccpp.Snip.C102_typedefs",
    "Ccpp.Snip.C102_schemes_partial",
    "Ccpp.Snip.C102_ending_violated"
   ],
   "note": "Proved for all lists of plain file names. Missing because the code violates it: a scheme file with an ending other than .F, .F90, .f, .f90 is in the lists for cmake and the shell, but in no variable for make (C102_ending_violated)."
  },
  {
   "property": "C103",
   "status": "partial",
   "theorems": [
    "Ccpp.CondT.C103_partial",
    "Ccpp.CondT.C103_not_indented",
    "Ccpp.CondT.C103_not_violated",
    "Ccpp.CondT.C103_and_violated"
   ],
   "note": "Proved for conditions with a blank or parenthesis after every && and ||, no two adjacent exclamation marks, chains of two operands (for longer ones see C42_violated), no comparisons, and symbols that are not keywords of Python. Missing because the code violates it: '!A' becomes the name notA and is always true (C103_not_violated), 'A&&B' becomes the name AandB and is always true (C103_and_violated), 'defined(A)&&defined(B)' and 'A != 1' become texts that Python cannot read."
  },
  {
   "property": "C104",
   "status": "partial",
   "theorems": [
    "Ccpp.Decls.C104_partial",
    "Ccpp.Decls.C104_scalars_first",
    "Ccpp.Decls.C104_complete",
    "Ccpp.Decls.C104_rejected",
    "Ccpp.Decls.C104_order_violated",
    "Ccpp.Decls.C104_type_violated",
    "Ccpp.Decls.C104_pointer_violated"
   ],
   "note": "Proved: all declarations of arguments and local variables, scalars before arrays, the exact imports of the arguments and of the kinds of local variables, success and errors; pointers if names of their types are distinct for distinct type, kind and rank. Missing because the code violates it: a lower bound that is in an array argument can be used before the array is declared (C104_order_violated), the derived type of a local variable or pointer is not imported (C104_type_violated), the pointers of real and real(default_kind) share a type (C104_pointer_violated)."
  },
  {
   "property": "C105",
   "status": "partial",
   "theorems": [
    "Ccpp.GL.C105_partial",
    "Ccpp.GL.C105_declared",
    "Ccpp.GL.C105_allocated",
    "Ccpp.GL.C105_nullified",
    "Ccpp.GL.C105_names",
    "Ccpp.GL.C105_copies",
    "Ccpp.GL.C105_complete",
    "Ccpp.GL.C105_pointer_violated",
    "Ccpp.GL.C105_scalar_violated",
    "Ccpp.GL.C105_copy_violated"
   ],
   "note": "Proved: the exact declarations, distinct names, shapes of the allocations, no array allocated afterwards, pointers nullified, success; what is passed is declared if an optional variable has the same local name in the scheme as in the group and the optional variables of the group are arrays the host does not pass. Missing because the code violates it: pointers are declared with the local name of the group but passed with the name of the scheme (C105_pointer_violated), an optional scalar of the group has no pointer (C105_scalar_violated), two copies with the same name share one declaration (C105_copy_violated)."
  },
  {
   "property": "C106",
   "status": "partial",
   "theorems": [
    "Ccpp.LE.C106_partial",
    "Ccpp.LE.C106_elements",
    "Ccpp.LE.C106_unique",
    "Ccpp.LE.C106_complete",
    "Ccpp.LE.C106_ddt_violated",
    "Ccpp.LE.C106_reference_violated"
   ],
   "note": "Proved: for variables of intrinsic type the elements are exactly the intrinsic leaves; for all variables they are the leaves below the references or else the own name; the result does not depend on the depth of the recursion; when they are found. Missing because the code violates it: a variable of derived type reports its own name and not its components (C106_ddt_violated); a reference of derived type is an error although the type is known (C106_reference_violated)."
  },
  {
   "property": "C107",
   "status": "proved",
   "theorems": [
    "Ccpp.SV.C107_version",
    "Ccpp.SV.C107_rejected",
    "Ccpp.SV.C107_decimal",
    "Ccpp.SV.C107_distinct",
    "Ccpp.SV.C107_schema"
   ],
   "note": "Integers are those of Python (blanks around them, a sign and single underscores are accepted). The texts of the messages are not modelled."
  },
  {
   "property": "C108",
   "status": "partial",
   "theorems": [
    "Ccpp.KF.C108_partial",
    "Ccpp.KF.C108_conversion_partial",
    "Ccpp.KF.C108_needed_partial",
    "Ccpp.KF.C108_spec_violated",
    "Ccpp.KF.C108_case_violated",
    "Ccpp.KF.C108_spelling_violated"
   ],
   "note": "Missing because the code violates it: an expression as specification is accepted but gives an illegal module; kinds differing only in case give a module whose names clash; a kind spelled in another case is compared by its text."
  },
  {
   "property": "C109",
   "status": "partial",
   "theorems": [
    "Ccpp.HT.C109_partial",
    "Ccpp.HT.C109_skipped",
    "Ccpp.HT.C109_unique",
    "Ccpp.HT.C109_brace_violated",
    "Ccpp.HT.C109_markup_violated"
   ],
   "note": "Missing because the code violates it: values are formatted twice, so that a value with a brace stops the program or is shown changed, and markup in a value is not escaped."
  },
  {
   "property": "C11",
   "status": "proved",
   "theorems": [
    "Ccpp.Hash.C11_hash_in_bounds",
    "Ccpp.Hash.C11_hash_trim"
   ],
   "note": ""
  },
  {
   "property": "C110",
   "status": "partial",
   "theorems": [
    "Ccpp.LX.C110_partial",
    "Ccpp.LX.C110_unique",
    "Ccpp.LX.C110_requested_partial",
    "Ccpp.LX.C110_special_violated",
    "Ccpp.LX.C110_none_violated"
   ],
   "note": "Missing because the code violates it: only three of the special characters are escaped (units with ^ are not typeset), and a request without a container gets an empty entry. The order of the entries and the rest of the document are not covered."
  },
  {
   "property": "C111",
   "status": "proved",
   "theorems": [
    "Ccpp.SD.C111_suites",
    "Ccpp.SD.C111_chosen_unique",
    "Ccpp.SD.C111_names_unique"
   ],
   "note": "File names with newlines are excluded. The reading of a file is a parameter (it is the subject of other claims)."
  },
  {
   "property": "C112",
   "status": "proved",
   "theorems": [
    "Ccpp.PL.C112_text",
    "Ccpp.PL.C112_none",
    "Ccpp.PL.C112_readable",
    "Ccpp.PL.C112_last_unique"
   ],
   "note": "Steps are not negative. Names that are no texts and lines that are no integers (exceptions) are not covered."
  },
  {
   "property": "C113",
   "status": "proved",
   "theorems": [
    "Ccpp.EV.C113_call",
    "Ccpp.EV.C113_keywords",
    "Ccpp.EV.C113_variables",
    "Ccpp.EV.C113_init"
   ],
   "note": "find_variable is a parameter that finds variables by their standard names."
  },
  {
   "property": "C12",
   "status": "proved",
   "theorems": [
    "Ccpp.Hash.C12_iterate_all"
   ],
   "note": ""
  },
  {
   "property": "C13",
   "status": "partial",
   "theorems": [
    "Ccpp.Hash.C13_start_partial",
    "Ccpp.Hash.C13_violated"
   ],
   "note": "False: on an empty table the iterator start reads past the end of the table; proved for tables with an entry."
  },
  {
   "property": "C14",
   "status": "partial",
   "theorems": [
    "Ccpp.Const.C14_packed_partial",
    "Ccpp.Const.C14_lock_succeeds",
    "Ccpp.Const.C14_lock_fails",
    "Ccpp.Const.C14_preset_index_violated"
   ],
   "note": "Proved for constituents whose index was not set before the lock; with a preset index the error is lost and the layout is wrong."
  },
  {
   "property": "C15",
   "status": "partial",
   "theorems": [
    "Ccpp.Const.C15_lifecycle_partial",
    "Ccpp.Const.C15_lock_data",
    "Ccpp.Const.C15_violated"
   ],
   "note": "lock_table before initialize crashes instead of being rejected; re-use after data creation is C18."
  },
  {
   "property": "C16",
   "status": "partial",
   "theorems": [
    "Ccpp.Const.C16_reregister_partial",
    "Ccpp.Const.C16_new_name",
    "Ccpp.Const.C16_long_name_violated"
   ],
   "note": "Names and units of at most 256 characters."
  },
  {
   "property": "C17",
   "status": "proved",
   "theorems": [
    "Ccpp.Const.C17_copy_in",
    "Ccpp.Const.C17_levels",
    "Ccpp.Const.C17_inverse",
    "Ccpp.Const.C17_frame",
    "Ccpp.Const.C17_too_small"
   ],
   "note": ""
  },
  {
   "property": "C18",
   "status": "partial",
   "theorems": [
    "Ccpp.Const.C18_reuse_partial",
    "Ccpp.Const.C18_violated"
   ],
   "note": "False after lock_data: data_locked is never cleared."
  },
  {
   "property": "C19",
   "status": "partial",
   "theorems": [
    "Ccpp.Files.C19_delivered_partial",
    "Ccpp.Files.C19_frame",
    "Ccpp.Files.C19_same_directory",
    "Ccpp.Files.C19_duplicate_refused",
    "Ccpp.Files.C19_succeeds",
    "Ccpp.Files.C19_violated"
   ],
   "note": "False without overwrite when a differing file exists in dest: the comparison is inverted, the stale file stays and the generated one is deleted."
  },
  {
   "property": "C20",
   "status": "partial",
   "theorems": [
    "Ccpp.Files.C20_exact_partial",
    "Ccpp.Files.C20_suffix",
    "Ccpp.Files.C20_terminates",
    "Ccpp.Files.C20_alias_violated"
   ],
   "note": "Duplicate free in terms of paths; two spellings of the absolute path of one file are both listed."
  },
  {
   "property": "C21",
   "status": "partial",
   "theorems": [
    "Ccpp.FW.C21_line_limit_partial",
    "Ccpp.FW.C21_default",
    "Ccpp.FW.C21_violated"
   ],
   "note": "Proved with line_max + 1; a line of line_max + 1 characters does occur."
  },
  {
   "property": "C22",
   "status": "partial",
   "theorems": [
    "Ccpp.FW.C22_preserved_partial",
    "Ccpp.FW.C22_literal_two_lines",
    "Ccpp.FW.C22_word_cut_violated",
    "Ccpp.FW.C22_exact_fit_violated",
    "Ccpp.FW.C22_comment_violated",
    "Ccpp.FW.C22_literal_violated"
   ],
   "note": "Proved for statements with a break point in every stretch of w characters and no comment, and for a character literal cut once; four ways in which other statements are damaged or crash the writer."
  },
  {
   "property": "C23",
   "status": "partial",
   "theorems": [
    "Ccpp.CB.C23_write_partial",
    "Ccpp.CB.C23_missing",
    "Ccpp.CB.C23_missing_nothing_written",
    "Ccpp.CB.C23_partial_output",
    "Ccpp.CB.C23_preproc_indent_violated"
   ],
   "note": "Substitution and the error for missing names are proved for all templates; preprocessor lines are not written unindented."
  },
  {
   "property": "C24",
   "status": "proved",
   "theorems": [
    "Ccpp.PO.C24_next_line",
    "Ccpp.PO.C24_end",
    "Ccpp.PO.C24_curr_line",
    "Ccpp.PO.C24_read_all",
    "Ccpp.PO.C24_whole_file",
    "Ccpp.PO.C24_reset",
    "Ccpp.PO.C24_write_line"
   ],
   "note": ""
  },
  {
   "property": "C25",
   "status": "partial",
   "theorems": [
    "Ccpp.Ctx.C25_enter",
    "Ccpp.Ctx.C25_leave",
    "Ccpp.Ctx.C25_in_region",
    "Ccpp.Ctx.C25_balanced",
    "Ccpp.Ctx.C25_failed_leave_violated",
    "Ccpp.Ctx.C25_in_region_unnamed"
   ],
   "note": "A refused leave still pops the region stack; region_str is not modelled."
  },
  {
   "property": "C26",
   "status": "partial",
   "theorems": [
    "Ccpp.Chk.C26_found_partial",
    "Ccpp.Chk.C26_unbalanced",
    "Ccpp.Chk.C26_none",
    "Ccpp.Chk.C26_error",
    "Ccpp.Chk.C26_violated"
   ],
   "note": "Exact characterisation; differs from the property only if an unmatched ')' precedes the first '('."
  },
  {
   "property": "C27",
   "status": "partial",
   "theorems": [
    "Ccpp.Chk.C27_fortran_id_partial",
    "Ccpp.Chk.C27_newline_violated",
    "Ccpp.Chk.C27_standard_name_partial",
    "Ccpp.Chk.C27_unicode_violated"
   ],
   "note": "Exact for text without a final newline (and, for standard names, ASCII)."
  },
  {
   "property": "C28",
   "status": "partial",
   "theorems": [
    "Ccpp.VC.char_kind_supported_partial",
    "Ccpp.VC.char_kind_ignores_length",
    "Ccpp.VC.charKindCheck_iff"
   ],
   "note": "Violated: lengths are not compared (the checker returns a Boolean). Proved: accepted iff both kinds are one len= entry."
  },
  {
   "property": "C29",
   "status": "partial",
   "theorems": [
    "Ccpp.VC.kind_recorded",
    "Ccpp.VC.reflexive_partial",
    "Ccpp.VC.character_not_reflexive",
    "Ccpp.VC.names_types_rejected",
    "Ccpp.VC.equiv_sound",
    "Ccpp.VC.equiv_with_dimension_transform",
    "Ccpp.VC.verdict_symmetric",
    "Ccpp.Units.verdict_symmetric"
   ],
   "note": "Violated: a character variable without len= is not compatible with itself; equivalent may come with a dimension transform or vertical flip. Rejection, soundness and symmetry proved."
  },
  {
   "property": "C30",
   "status": "partial",
   "theorems": [
    "Ccpp.VC.horizontal_names",
    "Ccpp.VC.vertical_names",
    "Ccpp.VC.permutations_inverse",
    "Ccpp.VC.reordered_accepted",
    "Ccpp.VC.different_rejected",
    "Ccpp.VC.reordered_without_horizontal",
    "Ccpp.VC.dim_error_iff"
   ],
   "note": "Fully proved whenever a transform is recorded; missing: reordered dimensions without a horizontal one raise an internal error."
  },
  {
   "property": "C31",
   "status": "partial",
   "theorems": [
    "Ccpp.VC.forward_same_element_partial",
    "Ccpp.VC.forward_wrong_position",
    "Ccpp.VC.reverse_same_element_partial",
    "Ccpp.VC.reverse_wrong_position",
    "Ccpp.VC.roundtrip_plain",
    "Ccpp.VC.roundtrip_offset_partial",
    "Ccpp.VC.roundtrip_flip_partial"
   ],
   "note": "Violated when the horizontal dimension changes position: the offset goes to the wrong index (proved for all such transforms)."
  },
  {
   "property": "C32",
   "status": "proved",
   "theorems": [
    "Ccpp.Units.unit_text",
    "Ccpp.Units.conversion_correct",
    "Ccpp.Units.chain_agrees",
    "Ccpp.Units.both_directions",
    "Ccpp.Units.conversion_symmetric",
    "Ccpp.Units.spelling_collision",
    "Ccpp.Units.degree_constant_accurate"
   ],
   "note": "Values are rationals; rounding of Fortran reals is not modelled."
  },
  {
   "property": "C33",
   "status": "partial",
   "theorems": [
    "Ccpp.VD.one_per_name",
    "Ccpp.VD.add_present_raises",
    "Ccpp.VD.add_present_keeps",
    "Ccpp.VD.add_absent",
    "Ccpp.VD.remove_exact",
    "Ccpp.VD.find_exact_partial",
    "Ccpp.VD.C33_violated"
   ],
   "note": "Proved for all histories and names other than ccpp_constant_one; violated for that name, and a removed variable cannot be added again."
  },
  {
   "property": "C34",
   "status": "partial",
   "theorems": [
    "Ccpp.VD.find_innermost",
    "Ccpp.VD.find_none",
    "Ccpp.VD.find_own_scope",
    "Ccpp.VD.find_const",
    "Ccpp.VD.C34_violated"
   ],
   "note": "Fully proved for every name but ccpp_constant_one, which is found in every dictionary. The lookup of suites and groups, which adds promotion, is modelled for C54."
  },
  {
   "property": "C35",
   "status": "partial",
   "theorems": [
    "Ccpp.VD.distinct_local_partial",
    "Ccpp.VD.C35_violated"
   ],
   "note": "Proved for additions without gen_unique and exists_ok; false with either."
  },
  {
   "property": "C36",
   "status": "partial",
   "theorems": [
    "Ccpp.VD.merged_intent",
    "Ccpp.VD.merged_intent_order",
    "Ccpp.VD.protected_stays_in",
    "Ccpp.VD.C36_violated"
   ],
   "note": "Intents fully proved; missing: whether a protected variable is refused depends on the order of the uses."
  },
  {
   "property": "C37",
   "status": "partial",
   "theorems": [
    "Ccpp.VD.newName_length",
    "Ccpp.VD.newName_fresh_partial",
    "Ccpp.VD.newName_total",
    "Ccpp.VD.C37_violated"
   ],
   "note": "Proved for lower-case prefixes that leave room for the digits; false otherwise."
  },
  {
   "property": "C38",
   "status": "partial",
   "theorems": [
    "Ccpp.MD.loop_dimensions",
    "Ccpp.VC.horizontal_names",
    "Ccpp.VC.vertical_names",
    "Ccpp.MD.match_sound",
    "Ccpp.MD.match_sound_vertical",
    "Ccpp.MD.match_permutation",
    "Ccpp.MD.matchVariable_in_order",
    "Ccpp.MD.match_complete",
    "Ccpp.MD.C38_violated"
   ],
   "note": "Injective matching proved for all dimension lists, a permutation for equal ranks; false for different ranks: extra available dimensions are ignored."
  },
  {
   "property": "C39",
   "status": "partial",
   "theorems": [
    "Ccpp.Env.kinds_rejected_iff",
    "Ccpp.Env.kind_lookup",
    "Ccpp.Env.kind_types_ok",
    "Ccpp.Env.empty_kind_accepted"
   ],
   "note": "Fully proved with name and spec allowed to be blank; missing: an empty name or specification is accepted."
  },
  {
   "property": "C40",
   "status": "partial",
   "theorems": [
    "Ccpp.RV.query_correct_partial",
    "Ccpp.RV.query_none_partial",
    "Ccpp.RV.collect_exact",
    "Ccpp.RV.collect_refused",
    "Ccpp.RV.leaves_correct",
    "Ccpp.RV.C40_violated"
   ],
   "note": "Proved for all collections in which names of arrays, elements and leaves are separate (Separate) and, for output-only queries with elements, without a leaf that is both input and output of different groups; for suites of leaf variables it is proved without those hypotheses (leaves_correct). False in general: C40_violated gives four ways in which the generated query writes outside its list or leaves an element unset."
  },
  {
   "property": "C41",
   "status": "partial",
   "theorems": [
    "Ccpp.Preproc.C41_order_partial",
    "Ccpp.Preproc.C41_nonzero",
    "Ccpp.Preproc.C41_eq_violated",
    "Ccpp.Preproc.C41_valueless_symbol_crashes",
    "Ccpp.Preproc.C41_undefined_violated"
   ],
   "note": "== and != compare a string with an int; an undefined symbol counts as true instead of 0."
  },
  {
   "property": "C42",
   "status": "partial",
   "theorems": [
    "Ccpp.Preproc.C42_condition_truth_partial",
    "Ccpp.Preproc.C42_violated"
   ],
   "note": "Operands after the second are ignored."
  },
  {
   "property": "C43",
   "status": "partial",
   "theorems": [
    "Ccpp.Preproc.C43_recognised_partial",
    "Ccpp.Preproc.C43_definitions",
    "Ccpp.Preproc.C43_define_partial",
    "Ccpp.Preproc.C43_violated"
   ],
   "note": "#define without a value and #elif( are not recognised."
  },
  {
   "property": "C44",
   "status": "partial",
   "theorems": [
    "Ccpp.Cap.C44_thread_check_partial",
    "Ccpp.Cap.C44_violated"
   ],
   "note": "Thread 1 is let through."
  },
  {
   "property": "C45",
   "status": "proved",
   "theorems": [
    "Ccpp.Cap.C45_dispatch",
    "Ccpp.Cap.C45_unknown"
   ],
   "note": ""
  },
  {
   "property": "C46",
   "status": "partial",
   "theorems": [
    "Ccpp.Cap.C46_register_partial",
    "Ccpp.Cap.C46_violated"
   ],
   "note": "Second register call allocates an allocated array."
  },
  {
   "property": "C47",
   "status": "proved",
   "theorems": [
    "Ccpp.PO.C47_error_limit"
   ],
   "note": ""
  },
  {
   "property": "C48",
   "status": "partial",
   "theorems": [
    "Ccpp.Chk.C48_list_partial",
    "Ccpp.Chk.C48_blank_item",
    "Ccpp.Chk.C48_nested_violated"
   ],
   "note": "Proved for items without nested parentheses and literals; nested items are torn apart."
  },
  {
   "property": "C49",
   "status": "partial",
   "theorems": [
    "Ccpp.Chk.C49_flag_partial",
    "Ccpp.Chk.C49_dimensions_partial",
    "Ccpp.Chk.C49_dimensions_violated"
   ],
   "note": "Proved for names, and for dimensions without a part that starts with size; check_dimensions treats size(...) differently."
  },
  {
   "property": "C50",
   "status": "proved",
   "theorems": [
    "Ccpp.Chk.C50_dimensions",
    "Ccpp.Chk.C50_parts"
   ],
   "note": ""
  },
  {
   "property": "C51",
   "status": "partial",
   "theorems": [
    "Ccpp.VC.tendency_units_partial",
    "Ccpp.VC.tendency_missing_per_second",
    "Ccpp.VC.tendency_of_rate_rejected",
    "Ccpp.VC.tendency_trailing_text"
   ],
   "note": "Violated both ways."
  },
  {
   "property": "C52",
   "status": "partial",
   "theorems": [
    "Ccpp.TR.intent_in_converted",
    "Ccpp.TR.intent_inout_converted",
    "Ccpp.TR.unchanged_argument",
    "Ccpp.TR.intent_out_result_lost",
    "Ccpp.TR.intent_out_violated",
    "Ccpp.TR.intent_out_optional",
    "Ccpp.TR.inactive_optional_error"
   ],
   "note": "Proved for intent in and inout and for active optional intent out; violated for required intent(out) (result lost) and for inactive optional arguments (unallocated variable is referenced)."
  },
  {
   "property": "C53",
   "status": "proved",
   "theorems": [
    "Ccpp.Env.defs_of_list",
    "Ccpp.Env.defs_comma",
    "Ccpp.Env.defs_space",
    "Ccpp.Env.stray_comma"
   ],
   "note": ""
  },
  {
   "property": "C54",
   "status": "partial",
   "theorems": [
    "Ccpp.DF.derived_variables",
    "Ccpp.DF.C54_accepts_iff",
    "Ccpp.DF.C54_defined_before_use_partial",
    "Ccpp.DF.C54_default_violated",
    "Ccpp.DF.C54_subcycle_violated",
    "Ccpp.DF.C54_vertical_violated",
    "Ccpp.DF.C54_timestep_array_violated",
    "Ccpp.DF.C54_register_array_violated",
    "Ccpp.DF.C54_loop_variable_violated",
    "Ccpp.DF.C54_no_timestep_violated"
   ],
   "note": "The acceptance criterion is fully proved. Freedom from undefined reads is proved for suites whose reads have a source that assigns (no default values, derived loop variables computed from host variables, arrays used while they are allocated) and for histories in which every subcycle makes an iteration and every cycle a time step; each of these conditions is shown to be necessary by an accepted suite that reads an undefined value. (Subcycles are executed as intended; at present capgen cannot write them, see C07.)"
  },
  {
   "property": "C55",
   "status": "proved",
   "theorems": [
    "Ccpp.FL.C55_statements",
    "Ccpp.FL.C55_nonempty",
    "Ccpp.FL.C55_single",
    "Ccpp.FL.C55_read",
    "Ccpp.FL.C55_read_end"
   ],
   "note": ""
  },
  {
   "property": "C56",
   "status": "partial",
   "theorems": [
    "Ccpp.FL.C56_exact",
    "Ccpp.FL.C56_continuation_partial",
    "Ccpp.FL.C56_lines_kept",
    "Ccpp.FL.C56_violated",
    "Ccpp.FL.C56_unfinished_accepted"
   ],
   "note": "The result is characterised exactly for every file; it agrees with the Fortran rules when continuation lines are Separated. Violated: words run together when a continuation line starts in column 1 or a blank precedes the first mark; an unfinished statement is accepted. Fixed form is not modelled."
  },
  {
   "property": "C57",
   "status": "partial",
   "theorems": [
    "Ccpp.FL.C57_roundtrip_partial"
   ],
   "note": "For statements the writer preserves (C22): breakable, no comment, closed quotes."
  },
  {
   "property": "C58",
   "status": "partial",
   "theorems": [
    "Ccpp.FDecl.C58_items",
    "Ccpp.FDecl.C58_unique",
    "Ccpp.FDecl.C58_refused",
    "Ccpp.FDecl.C58_roundtrip",
    "Ccpp.FDecl.C58_violated"
   ],
   "note": "Split and refusal are characterised exactly for every text, counting all commas and parentheses. Violated: those in character literals are counted too, and a closing parenthesis before its opening one is accepted."
  },
  {
   "property": "C59",
   "status": "partial",
   "theorems": [
    "Ccpp.FDecl.C59_declaration_partial",
    "Ccpp.FDecl.C59_example",
    "Ccpp.FDecl.C59_declaration_violated",
    "Ccpp.FDecl.C59_stale_dimensions"
   ],
   "note": "Proved for every statement of the grammar in Spec/FortranDecl.lean (with or without double colon; character with len= and a length without underscore). Violated outside it: see C59_declaration_violated."
  },
  {
   "property": "C60",
   "status": "partial",
   "theorems": [
    "Ccpp.FSub.C60_scheme_partial",
    "Ccpp.FSub.C60_not_found",
    "Ccpp.FSub.C60_example",
    "Ccpp.FSub.C60_example_runs",
    "Ccpp.FSub.C60_scheme_violated"
   ],
   "note": "Proved for every source whose statements are comments, declarations of the grammar of C59 with intent, or other statements that do not begin like a program unit (Quiet), with or without internal procedures. Violated: an interface block, a bare end, a second statement on the line of the end, a variable name beginning with subroutine, two prefixes, an argument without intent, and a comment with an intent (C60_scheme_violated)."
  },
  {
   "property": "C61",
   "status": "partial",
   "theorems": [
    "Ccpp.FM.C61_tables",
    "Ccpp.FM.C61_table_types",
    "Ccpp.FM.C61_scheme_partial",
    "Ccpp.FM.C61_scheme_sound",
    "Ccpp.FM.C61_module_partial",
    "Ccpp.FM.C61_host_violated",
    "Ccpp.FM.C61_accepts_violated",
    "Ccpp.FM.C61_after_reference_violated",
    "Ccpp.FM.C61_report_violated",
    "Ccpp.FM.C61_example"
   ],
   "note": "Pairing fully proved; acceptance of scheme, module and ddt tables characterised exactly, with rank in place of dimensions. Violated: dimension names are never compared, the optional attribute of the first argument is not checked, host tables are not compared, references to array elements switch the comparison off, and some disagreements end in a Python exception."
  },
  {
   "property": "C62",
   "status": "proved",
   "theorems": [
    "Ccpp.MF.C62_metadata_file",
    "Ccpp.MF.C62_example",
    "Ccpp.MF.C62_example_meets"
   ],
   "note": ""
  },
  {
   "property": "C63",
   "status": "partial",
   "theorems": [
    "Ccpp.MF.C63_effect_partial",
    "Ccpp.MF.C63_violated",
    "Ccpp.MF.C63_recursive_refused"
   ],
   "note": "Proved for entries whose key is written once in its block. Violated otherwise: the first of two entries with the same key is ignored, a local_name entry replaces the name in brackets, text after a table or section start is ignored, a table without name and type is accepted."
  },
  {
   "property": "C64",
   "status": "partial",
   "theorems": [
    "Ccpp.Seq.C64_subroutines",
    "Ccpp.Seq.C64_run_partial",
    "Ccpp.Seq.C64_phase_partial",
    "Ccpp.Seq.C64_imports",
    "Ccpp.Seq.C64_accepted",
    "Ccpp.Seq.C64_example",
    "Ccpp.Seq.C64_example_meets",
    "Ccpp.Seq.C64_example_subcycle",
    "Ccpp.Seq.C64_vertical_violated",
    "Ccpp.Seq.C64_skipped_violated",
    "Ccpp.Seq.C64_subcycle_violated",
    "Ccpp.Seq.C64_suite_routine_violated",
    "Ccpp.Seq.C64_names_violated",
    "Ccpp.Seq.C64_two_indices_violated"
   ],
   "note": "Subroutines, imports and acceptance are fully proved; the calls are proved when no two calls of a group need a loop over the same vertical index and no scheme is named like a routine. Violated: see the _violated theorems (second level-by-level scheme called once, x_init hides the init routine of x, subcycles and suite routines refused, duplicate group names, two vertical indices)."
  },
  {
   "property": "C65",
   "status": "partial",
   "theorems": [
    "Ccpp.XF.C65_read_back",
    "Ccpp.XF.C65_written_partial",
    "Ccpp.XF.C65_example",
    "Ccpp.XF.C65_example_text",
    "Ccpp.XF.C65_violated_slash",
    "Ccpp.XF.C65_violated_letter"
   ],
   "note": "Every file that is written is read back as the same tree (fully proved); writing succeeds exactly for the writable trees. Violated otherwise: an element without text and sub-elements is refused if an attribute value contains a slash (a suite without groups, its file name), and so is an element with a tag of one letter without attributes."
  },
  {
   "property": "C66",
   "status": "partial",
   "theorems": [
    "Ccpp.DT.C66_reports_partial",
    "Ccpp.DT.C66_refused",
    "Ccpp.DT.C66_paths",
    "Ccpp.DT.exSuites_ok",
    "Ccpp.DT.exSuites_distinct",
    "Ccpp.DT.C66_violated_endless",
    "Ccpp.DT.C66_violated_twins",
    "Ccpp.DT.C66_violated_repeated",
    "Ccpp.DT.C66_violated_scheme",
    "Ccpp.DT.C66_violated_empty"
   ],
   "note": "Proved for all data with metadata headers for all routines, fine names and at least one filled group per suite in which the names of dictionaries do not coincide, for all requests, through the text of the file (C65). The code violates the rest: a group called constituents of a suite x in x.xml makes the request for variables endless, groups a + b_c and a_b + c are confused, a process is listed once per use, a scheme called scheme and a suite without filled groups give no table. The table printed by show is not modelled here."
  },
  {
   "property": "C67",
   "status": "partial",
   "theorems": [
    "Ccpp.HM.C67_accepted_iff",
    "Ccpp.HM.C67_lookup",
    "Ccpp.HM.C67_reference_partial",
    "Ccpp.HM.C67_bound",
    "Ccpp.HM.ex_built",
    "Ccpp.HM.ex_paths",
    "Ccpp.HM.ex_shallow",
    "Ccpp.HM.ex_ref",
    "Ccpp.HM.C67_nested_violated",
    "Ccpp.HM.ex_nested",
    "Ccpp.HM.C67_same_component_violated",
    "Ccpp.HM.ex_same",
    "Ccpp.HM.C67_self_violated",
    "Ccpp.HM.C67_root_index_violated",
    "Ccpp.HM.C67_loops_violated"
   ],
   "note": "Acceptance and look-up are proved for all hosts (C67_accepted_iff, C67_lookup); references for hosts without components of components and without components of array elements (C67_reference_partial). The code violates the rest: a path to a component of a component lacks its middle, two types may not have components of the same name, a type that contains itself leads to endless recursion, the index of an array element with components stays a standard name, and a second host table replaces the loop variables of the first."
  },
  {
   "property": "C68",
   "status": "partial",
   "theorems": [
    "Ccpp.HM.C68_imports_partial",
    "Ccpp.HM.C68_ends",
    "Ccpp.HM.ex_imports",
    "Ccpp.HM.C68_section_violated",
    "Ccpp.HM.ex_section",
    "Ccpp.HM.C68_self_index_violated",
    "Ccpp.HM.C68_root_index_violated"
   ],
   "note": "Which variables are imported is proved for all hosts and requests (C68_imports_partial; local names are not the number 1), and that requests end if indices do not depend on themselves (C68_ends). The code violates the rest: array sections are imported with their indices, an index naming itself is endless, and indices of array elements with components are not imported."
  },
  {
   "property": "C69",
   "status": "partial",
   "theorems": [
    "Ccpp.PB.C69_accepted_iff",
    "Ccpp.PB.C69_result",
    "Ccpp.PB.C69_agree_partial",
    "Ccpp.PB.C69_length_violated",
    "Ccpp.PB.C69_order_violated",
    "Ccpp.PB.C69_dimensions_violated",
    "Ccpp.PB.ex_matched"
   ],
   "note": "Success and result are characterised exactly for all hosts and scheme files. The code violates the property: only the first requests of the files are compared with each other and only the first with the host, and an assumed length agrees with every length, so a request of another length than that of the host is accepted and the verdict depends on the order of the files; of the dimensions only the number is compared."
  },
  {
   "property": "C70",
   "status": "partial",
   "theorems": [
    "Ccpp.PB.C70_parse_partial",
    "Ccpp.PB.C70_filter_partial",
    "Ccpp.PB.C70_accepted_partial",
    "Ccpp.PB.C70_result_partial",
    "Ccpp.PB.C70_schemes_iff",
    "Ccpp.PB.C70_kept_schemes",
    "Ccpp.PB.C70_compile",
    "Ccpp.PB.ex_filtered",
    "Ccpp.PB.C70_name_violated",
    "Ccpp.PB.C70_finalize_violated",
    "Ccpp.PB.C70_uncalled_violated",
    "Ccpp.PB.C70_init_name_violated",
    "Ccpp.PB.C70_empty_violated",
    "Ccpp.PB.C70_tree_violated"
   ],
   "note": "Proved for suite definitions in which every child has a name and every subcycle a scheme, without a finalize element, and schemes with clean names. The code violates the rest: the variables of a called scheme with finalize in its name and of a finalize element are dropped; a scheme in no suite can make the run fail; an init element without name attribute is an exception; an empty subcycle is an exception or takes the loop number of its predecessor; of two groups of the same name only the second is in the call tree."
  },
  {
   "property": "C71",
   "status": "proved",
   "theorems": [
    "Ccpp.PB.C71_accepted_iff",
    "Ccpp.PB.C71_result",
    "Ccpp.PB.C71_unique",
    "Ccpp.PB.C71_order",
    "Ccpp.PB.C71_cycle",
    "Ccpp.PB.ex_names"
   ],
   "note": "For hosts in which every variable has a module (and a type), and local names in configured modules are names or array references whose indices are literals, standard names, colons, and ranges of these (TextsOk); at least one module is configured. Acceptance means some depth of the recursion suffices."
  },
  {
   "property": "C72",
   "status": "partial",
   "theorems": [
    "Ccpp.SA.C72_ideal_partial",
    "Ccpp.SA.C72_calls",
    "Ccpp.SA.C72_history",
    "Ccpp.SA.C72_switch",
    "Ccpp.SA.ex_hyps",
    "Ccpp.SA.ex_proper",
    "Ccpp.SA.C72_order_violated",
    "Ccpp.SA.C72_instances_violated",
    "Ccpp.SA.C72_loop_violated",
    "Ccpp.SA.C72_elements_violated",
    "Ccpp.SA.C72_finalize_element_violated",
    "Ccpp.SA.C72_switch_violated"
   ],
   "note": "The exact behaviour is proved for caps with different names, subcycles of at least one loop, suites without init and finalize elements, and hosts that keep the order and finalise only when no other instance is initialised; what may be called, and the error codes, are proved for all histories. The code violates the rest: a run before init returns error code 0; finalize of one instance makes all instances uninitialised; loop=0 runs once; the scheme of a finalize element is never called and that of an init element only once; a suite with only such elements gives an API that does not compile."
  },
  {
   "property": "C73",
   "status": "partial",
   "theorems": [
    "Ccpp.PF.C73_run_partial",
    "Ccpp.PF.C73_history",
    "Ccpp.PF.C73_recovers",
    "Ccpp.PF.C73_completed_partial",
    "Ccpp.PF.C73_again",
    "Ccpp.PF.C73_changed",
    "Ccpp.PF.C73_clean_partial",
    "Ccpp.PF.C73_lost_violated",
    "Ccpp.PF.C73_stopped_violated",
    "Ccpp.PF.C73_dependency_violated",
    "Ccpp.PF.C73_clock_violated",
    "Ccpp.PF.C73_clean_cmake_violated",
    "Ccpp.PF.C73_clean_blank_violated"
   ],
   "note": "Proved for all outputs with names that are apart, all disks and all histories with stopped runs: tables, caps, API, include files and makefiles are right after every complete run, nothing else is touched, an unchanged output changes no file, a changed cap renews the API. The cmakefiles and sourcefiles are right exactly if the makefile was not already right while they were wrong; so the full claim is false in the code: after a stop between the renames, or when only files with other endings than the four are added, they stay wrong forever. Also false with a coarse clock (filecmp is shallow), and clean leaves the cmake include file and mishandles blanks."
  },
  {
   "property": "C74",
   "status": "partial",
   "theorems": [
    "Ccpp.PA.C74_names",
    "Ccpp.PA.C74_arguments",
    "Ccpp.PA.C74_needed_partial",
    "Ccpp.PA.C74_bounds_partial",
    "Ccpp.PA.C74_writes",
    "Ccpp.PA.C74_shared",
    "Ccpp.PA.C74_once",
    "Ccpp.PA.C74_scalars",
    "Ccpp.PA.C74_instance_partial",
    "Ccpp.PA.C74_variable_partial",
    "Ccpp.PA.C74_suite",
    "Ccpp.PA.hostX_ok",
    "Ccpp.PA.hostX_dims",
    "Ccpp.PA.hostX_flat",
    "Ccpp.PA.C74_condition_violated",
    "Ccpp.PA.C74_component_violated",
    "Ccpp.PA.C74_bounds_violated",
    "Ccpp.PA.C74_same_name_violated",
    "Ccpp.PA.C74_instance_violated"
   ],
   "note": "Proved for all hosts whose local names are references and all calls: what is passed and all indices are declared with covering intents, nothing else is writable, no name twice, the suite covers its groups. What the cap reads is readable unless the variable itself is an intent(out) argument so far; bounds are declared if the dimensions are (components of) scalars; the ccpp_t instance is inout if two components of it are arguments; the variable is the right one if local names are distinct. The code violates the rest: an intent(out) argument that is a condition in the same call is read; a host variable with a single intent(out) component is declared intent(out); bounds of bounds of bounds are undeclared; of two host variables of the same local name the wrong one is passed; the loop counter is set in an undeclared instance."
  },
  {
   "property": "C75",
   "status": "partial",
   "theorems": [
    "Ccpp.PV.C75_values_partial",
    "Ccpp.PV.C75_accepted",
    "Ccpp.PV.C75_determined",
    "Ccpp.PV.C75_partition",
    "Ccpp.PV.C75_names",
    "Ccpp.PV.exGroup_ok",
    "Ccpp.PV.exScheme_ok",
    "Ccpp.PV.C75_out_violated",
    "Ccpp.PV.C75_out_host_violated",
    "Ccpp.PV.C75_in_violated",
    "Ccpp.PV.C75_formula_violated",
    "Ccpp.PV.C75_formulas",
    "Ccpp.PV.C75_condition_violated",
    "Ccpp.PV.C75_shared_violated",
    "Ccpp.PV.C75_local_names_violated"
   ],
   "note": "Proved for all groups, hosts, block sizes, schemes and junk values if the arguments of a call are different variables, conditions do not depend on what the call changes, and every argument is handled: a variable with condition and unit conversion has intent(inout) or is copied from blocks, and the formula for an array ends in the variable. The code violates the rest: with intent(out) the pointer is never associated, so the scheme does not get the argument and the host gets junk; with intent(in) the pointer dangles after the call; K to C and nine other formulas give wrong Fortran for arrays; two standard names for one variable allocate twice; a host variable called nb, ib or tmpvar_1 clashes."
  },
  {
   "property": "C76",
   "status": "partial",
   "theorems": [
    "Ccpp.SC.C76_section_partial",
    "Ccpp.SC.C76_alloc_partial",
    "Ccpp.SC.C76_deblocked",
    "Ccpp.SC.exHost_ok",
    "Ccpp.SC.exRef_ok",
    "Ccpp.SC.exReq_ok",
    "Ccpp.SC.C76_debug_violated",
    "Ccpp.SC.C76_debug_empty_violated",
    "Ccpp.SC.C76_equal_violated",
    "Ccpp.SC.C76_range_violated",
    "Ccpp.SC.C76_repeated_violated",
    "Ccpp.SC.C76_parent_violated",
    "Ccpp.SC.C76_phase_violated",
    "Ccpp.SC.C76_text_violated"
   ],
   "note": "The section, the exceptions and the shapes are characterised exactly for all hosts and all local names whose subscripts are whole dimensions or indices (with subscripts of their own) and whose last subscripts do not occur twice, for dimensions with different bounds. The code violates the rest: equal bounds give an element instead of an array; ranges in local names are dropped; of a(i)%b(i) both subscripts are removed; a section in a parent is not recognised; the extent of a block is accepted outside the run phase; arrays of texts are passed whole; and the tests of the debug mode can never fail for a wrong size."
  },
  {
   "property": "C77",
   "status": "partial",
   "theorems": [
    "Ccpp.CD.C77_prebuild_partial",
    "Ccpp.CD.C77_capgen",
    "Ccpp.CD.C77_accepted",
    "Ccpp.CD.C77_solid",
    "Ccpp.CD.C77_prebuild_if",
    "Ccpp.CD.C77_capgen_if_partial",
    "Ccpp.CD.cond_ok",
    "Ccpp.CD.ex_cond",
    "Ccpp.CD.C77_sign_violated",
    "Ccpp.CD.C77_real_violated",
    "Ccpp.CD.C77_arithmetic_violated",
    "Ccpp.CD.C77_case_violated",
    "Ccpp.CD.C77_letter_violated",
    "Ccpp.CD.C77_capgen_if_violated"
   ],
   "note": "Proved for all conditions of names, integers, operators in lower case, parentheses and white space; for all texts it is proved which characters can be lost. The code violates the rest: signs, decimal points and arithmetic operators are silently dropped (a > -1 becomes a > 1, a > 1.5 becomes a > 15); operators in capitals are refused; the condition T means true even if t is a variable; ccpp_capgen writes an if statement without parentheses if the condition has none."
  },
  {
   "property": "C78",
   "status": "partial",
   "theorems": [
    "Ccpp.TV.findNames_file",
    "Ccpp.TV.C78_track_partial",
    "Ccpp.TV.C78_unknown",
    "Ccpp.TV.C78_order_partial",
    "Ccpp.TV.exFiles_ok",
    "Ccpp.TV.C78_example",
    "Ccpp.TV.C78_order_violated",
    "Ccpp.TV.C78_continued_violated",
    "Ccpp.TV.C78_end_violated"
   ],
   "note": "Proved for all directories of metadata files in the sense of C62 without continued lines, whose tables have one name each and whose last table has a section: the second parser finds the names of the tables, the report is complete and sound for a choice of one table per scheme, and independent of the order of files if every scheme has one table. The code violates the rest: with a scheme in two files the report depends on the order of glob; a continued line among the properties of a table, and a file that ends with the properties of a table, are read by the parser but raise an exception in the search for names."
  },
  {
   "property": "C79",
   "status": "partial",
   "theorems": [
    "Ccpp.ST.words_iff",
    "Ccpp.ST.joinLines_logical",
    "Ccpp.ST.logical_exists",
    "Ccpp.ST.C79_accept_partial",
    "Ccpp.ST.C79_result_partial",
    "Ccpp.ST.C79_malformed",
    "Ccpp.ST.C79_twice_module",
    "Ccpp.ST.C79_wrong",
    "Ccpp.ST.C79_wrong_example",
    "Ccpp.ST.exFile_ok",
    "Ccpp.ST.exLogical",
    "Ccpp.ST.C79_example",
    "Ccpp.ST.C79_example_mandatory",
    "Ccpp.ST.C79_pure_violated",
    "Ccpp.ST.C79_case_violated",
    "Ccpp.ST.C79_timestep_violated",
    "Ccpp.ST.C79_endmodule_violated",
    "Ccpp.ST.C79_endcase_violated",
    "Ccpp.ST.C79_comment_violated",
    "Ccpp.ST.C79_mark_violated",
    "Ccpp.ST.C79_modulefunction_violated"
   ],
   "note": "Proved for all well-formed files: subroutines without prefix, stages in lower case, ends with a blank and the same case, module names not ending in _timestep for init and finalize; marks are searched as parts of words. The code violates the rest: entry points with a prefix (pure) or in capitals are silently dropped; foo_timestep_init of a scheme foo_timestep, endmodule, ends in other case and module functions raise exceptions; a comment ending in & hides the next line; the table of foo_run_extra is taken for foo_run."
  },
  {
   "property": "C80",
   "status": "partial",
   "theorems": [
    "Ccpp.RM.convert_iff",
    "Ccpp.RM.C80_accept_partial",
    "Ccpp.RM.C80_result",
    "Ccpp.RM.C80_container",
    "Ccpp.RM.C80_dims_are_ranges",
    "Ccpp.RM.C80_dims_violated",
    "Ccpp.RM.C80_missing_violated",
    "Ccpp.RM.C80_example",
    "Ccpp.RM.C80_example_refused"
   ],
   "note": "Proved for all files: exactly which tables are accepted and what is returned. The code violates the rest: the metadata parser turns every dimension into a range (C80_dims_are_ranges), so the tests for horizontal_dimension and horizontal_loop_extent as dimensions never fire; a table that the file does not have is accepted and has no variables, so a misspelt table drops all arguments."
  },
  {
   "property": "C81",
   "status": "partial",
   "theorems": [
    "Ccpp.VT.C81_accept_partial",
    "Ccpp.VT.C81_result",
    "Ccpp.VT.C81_unique",
    "Ccpp.VT.C81_wrong",
    "Ccpp.VT.C81_twice_module",
    "Ccpp.VT.C81_endless_module",
    "Ccpp.VT.C81_blank_violated",
    "Ccpp.VT.C81_old_violated",
    "Ccpp.VT.C81_unfinished_violated",
    "Ccpp.VT.C81_fortran_violated",
    "Ccpp.VT.C81_example",
    "Ccpp.VT.C81_refusals",
    "Ccpp.VT.C81_wrong_example"
   ],
   "note": "Proved for all well-formed files: exactly which are accepted and with which entries; and the refusals. The code violates the rest: any line without bar after the first line of a table makes it an empty table, so a misspelt \\htmlinclude drops all variables; a table in the old format is accepted without its variables; an unfinished table is accepted; correct Fortran is refused (a comment directly after a name, a tab after type, other case, endtype, type,extends (a) :: b)."
  },
  {
   "property": "C82",
   "status": "partial",
   "theorems": [
    "Ccpp.HC.C82_dictionary",
    "Ccpp.HC.C82_loop_dims",
    "Ccpp.HC.C82_accept_partial",
    "Ccpp.HC.C82_entries",
    "Ccpp.HC.C82_register",
    "Ccpp.HC.C82_cap_register",
    "Ccpp.HC.C82_slots",
    "Ccpp.HC.C82_example_cap",
    "Ccpp.HC.C82_example_reg",
    "Ccpp.HC.C82_example_slots",
    "Ccpp.HC.C82_example_conflict",
    "Ccpp.HC.C82_second_suite_violated",
    "Ccpp.HC.C82_dims_violated",
    "Ccpp.HC.C82_tendency_name_violated",
    "Ccpp.HC.C82_index_violated",
    "Ccpp.HC.C82_empty_violated",
    "Ccpp.HC.C82_again_violated",
    "Ccpp.HC.C82_copy",
    "Ccpp.HC.C82_copy_violated"
   ],
   "note": "Proved for all suites and all host and dynamic constituents that were not registered before, names and units up to 256 characters, at least one constituent. The code violates the rest: the dimensions of a second variable of the same name are never compared; a name with tendency_of_ inside is a tendency for the cap and a constituent for the registration; tendency_of without underscore is an IndexError; without any constituent the registration reads outside the hash table; after cleanup no registration succeeds once field data existed; the copy routine reads outside its array for a wrong index."
  },
  {
   "property": "C83",
   "status": "partial",
   "theorems": [
    "Ccpp.DC.C83_inactive",
    "Ccpp.DC.C83_out",
    "Ccpp.DC.C83_check_argument",
    "Ccpp.DC.C83_check_own",
    "Ccpp.DC.C83_frame",
    "Ccpp.DC.C83_block",
    "Ccpp.DC.C83_reads_argument",
    "Ccpp.DC.C83_reads_own",
    "Ccpp.DC.C83_written_iff",
    "Ccpp.DC.C83_added",
    "Ccpp.DC.C83_internal_types_partial",
    "Ccpp.DC.C83_internal_legal",
    "Ccpp.DC.C83_example_text",
    "Ccpp.DC.C83_shape_violated",
    "Ccpp.DC.C83_lower_bound_violated",
    "Ccpp.DC.C83_empty_violated",
    "Ccpp.DC.C83_own_columns_violated",
    "Ccpp.DC.C83_message_violated",
    "Ccpp.DC.C83_number_violated",
    "Ccpp.DC.C83_horizontal_missing_violated",
    "Ccpp.DC.C83_internal_types_violated",
    "Ccpp.DC.C83_internal_legal_violated"
   ],
   "note": "Proved: the check of an argument compares the total size, the check of a group or suite variable the size of the section of this call; inactive variables and the model are not touched, the checks of a scheme are independent; first and last element are inside if the shape matches, nothing is empty and the lower bounds of arguments are 1. The code violates the rest: transposed arrays pass; lower bounds other than 1 and calls without columns lead to references outside the array; the columns of suite variables are not checked; the message gives the size of the whole array; numbers as dimensions make --debug fail; internal variables clash for derived types and have illegal names for len=*."
  },
  {
   "property": "C84",
   "status": "partial",
   "theorems": [
    "Ccpp.Lit.C84_integer",
    "Ccpp.Lit.C84_real",
    "Ccpp.Lit.C84_logical",
    "Ccpp.Lit.C84_character",
    "Ccpp.Lit.C84_complex",
    "Ccpp.Lit.C84_total",
    "Ccpp.Lit.C84_character_index",
    "Ccpp.Lit.C84_complex_index",
    "Ccpp.Lit.C84_other_type",
    "Ccpp.Lit.C84_default_untyped",
    "Ccpp.Lit.C84_default_iff",
    "Ccpp.Lit.C84_default_error",
    "Ccpp.Lit.C84_complete_partial",
    "Ccpp.Lit.C84_sound_partial",
    "Ccpp.Lit.C84_character_complete_partial",
    "Ccpp.Lit.C84_example",
    "Ccpp.Lit.C84_example_spec",
    "Ccpp.Lit.C84_underscore_violated",
    "Ccpp.Lit.C84_kind_case_violated",
    "Ccpp.Lit.C84_character_underscore_violated",
    "Ccpp.Lit.C84_character_length_violated",
    "Ccpp.Lit.C84_delimiter_violated",
    "Ccpp.Lit.C84_crash_violated",
    "Ccpp.Lit.C84_double_violated"
   ],
   "note": "Proved: exactly which texts are accepted for each type, the exact conditions of IndexError and ParseInternalError, default values, and both directions of the property for the values free of the defects. The code violates the rest: a trailing underscore without kind and blanks before the underscore are accepted; kinds in upper case, strings with an underscore and all strings of kind len=n are rejected; any character delimits a string; empty strings and incomplete complex values end in IndexError, derived types in ParseInternalError; double precisionxyz is real."
  },
  {
   "property": "C85",
   "status": "partial",
   "theorems": [
    "Ccpp.RC.C85_units",
    "Ccpp.RC.C85_units_reject",
    "Ccpp.RC.C85_ref",
    "Ccpp.RC.C85_ref_reject",
    "Ccpp.RC.C85_local_name",
    "Ccpp.RC.C85_type",
    "Ccpp.RC.C85_intrinsic",
    "Ccpp.RC.C85_register",
    "Ccpp.RC.C85_diagnostic",
    "Ccpp.RC.C85_diagnostic_fixed",
    "Ccpp.RC.C85_diagnostic_exclusive",
    "Ccpp.RC.C85_diagnostic_legal_partial",
    "Ccpp.RC.C85_example_units",
    "Ccpp.RC.C85_example_ref",
    "Ccpp.RC.C85_example_ref_spec",
    "Ccpp.RC.C85_example_units_spec",
    "Ccpp.RC.C85_example_local_name",
    "Ccpp.RC.C85_example_type",
    "Ccpp.RC.C85_example_diagnostic",
    "Ccpp.RC.C85_example_diagnostic_spec",
    "Ccpp.RC.C85_one_letter_violated",
    "Ccpp.RC.C85_separator_violated",
    "Ccpp.RC.C85_newline_violated",
    "Ccpp.RC.C85_subscripts_violated",
    "Ccpp.RC.C85_double_violated",
    "Ccpp.RC.C85_double_example",
    "Ccpp.RC.C85_case_violated",
    "Ccpp.RC.C85_empty_diagnostic_violated",
    "Ccpp.RC.C85_crash_violated"
   ],
   "note": "Proved: exactly which texts each checker accepts, in terms of grammars; acceptance returns the text unchanged; registration of derived types; the two kinds of diagnostic names exclude each other; substitution gives legal names unless the text is empty or ends in a newline. The code deviates from the documented form: a one-letter word between underscores is not a unit; tabs and newlines separate units but two blanks do not; a newline at the end of names and references is accepted; the length limit of names is applied to numbers; at most 7 subscripts; double precisionxyz is a type; derived types are case sensitive; the empty diagnostic name; ParseInternalError, IndexError and TypeError for some values."
  },
  {
   "property": "C86",
   "status": "partial",
   "theorems": [
    "Ccpp.VE.C86_accept",
    "Ccpp.VE.C86_values",
    "Ccpp.VE.C86_order",
    "Ccpp.VE.C86_invariant",
    "Ccpp.VE.C86_reported_partial",
    "Ccpp.VE.C86_example",
    "Ccpp.VE.C86_example_clean",
    "Ccpp.VE.C86_example_section",
    "Ccpp.VE.C86_example_reported",
    "Ccpp.VE.C86_empty_violated",
    "Ccpp.VE.C86_unknown_violated",
    "Ccpp.VE.C86_mass_violated",
    "Ccpp.VE.C86_two_types_violated",
    "Ccpp.VE.C86_duplicate_violated",
    "Ccpp.VE.C86_kind_violated",
    "Ccpp.VE.C86_crash_violated",
    "Ccpp.VE.C86_text_violated"
   ],
   "note": "Proved for all entries without a newline at the end: acceptance if and only if the entries are legal, the name fits and the properties are coherent; the exact dictionary of an accepted variable; independence of the order; invariants of accepted variables; everything else is reported unless one of the crashes below happens. The code deviates: empty standard names, units and local names are accepted; an unknown property is an UnboundLocalError if it comes first; a molar mass that is not a number is a ValueError and nan is accepted; two types give a mixture; duplicates are silent; the kind of a derived type is lost; exceptions for names that do not fit, protected derived types, default values of derived types, size(a,1)."
  },
  {
   "property": "C87",
   "status": "partial",
   "theorems": [
    "Ccpp.CF.C87_accept",
    "Ccpp.CF.C87_refused",
    "Ccpp.CF.C87_duplicate",
    "Ccpp.CF.C87_crash",
    "Ccpp.CF.C87_types",
    "Ccpp.CF.C87_order",
    "Ccpp.CF.C87_order_example",
    "Ccpp.CF.C87_example",
    "Ccpp.CF.C87_example_meets",
    "Ccpp.CF.C87_table_violated",
    "Ccpp.CF.C87_table_violated_example",
    "Ccpp.CF.C87_case_violated"
   ],
   "note": "Proved for all lists of files: acceptance if and only if all files can be read and all names differ, with the exact result; a refused file is the first that cannot be read; a duplicate section is reported with both files; every derived type used has a table before; independence of the order of files. The code violates the report of duplicate tables: for every such list (C87_table_violated) the code that should write the message raises a KeyError, AttributeError or UnboundLocalError instead; and names that differ only in case are not found to be the same."
  },
  {
   "property": "C88",
   "status": "partial",
   "theorems": [
    "Ccpp.CG.C88_list",
    "Ccpp.CG.C88_list_total",
    "Ccpp.CG.C88_datatable_violated",
    "Ccpp.CG.C88_generated_violated",
    "Ccpp.CG.C88_example_datatable",
    "Ccpp.CG.C88_example_list"
   ],
   "note": "Proved for all texts and file systems: exactly the listed files and the file itself are removed, and success means that all were there, each listed once. The second sentence is violated for every data table: capgen writes XML, every line of which is taken as a path ending with >, so no generated file is removed, only the data table, errors are reported, and a second cleaning finds no data table (C88_generated_violated)."
  },
  {
   "property": "C89",
   "status": "partial",
   "theorems": [
    "Ccpp.FFile.C89_file_partial",
    "Ccpp.FFile.C89_ends",
    "Ccpp.FFile.C89_no_module_violated",
    "Ccpp.FFile.C89_file_violated",
    "Ccpp.FFile.C89_example"
   ],
   "note": "C89_ends: for every file. C89_file_partial: for every well-formed file with one statement per line, of modules with contains (but for the last), with any number of sections, types, declarations, schemes and subroutines. Missing because the code violates it: files without module are refused (C89_no_module_violated), a table directly followed by its subroutine is refused or taken for the next one, a module without contains cannot be followed by another, END MODULE without name or in other letter case, subroutines of all but the last module are lost, internal subroutines are listed, two tables of the same scheme are not noticed, END PROGRAM without name (C89_file_violated)."
  },
  {
   "property": "C90",
   "status": "partial",
   "theorems": [
    "Ccpp.VText.C90_declares",
    "Ccpp.VText.C90_attributes_partial",
    "Ccpp.VText.C90_read_partial",
    "Ccpp.VText.C90_constant",
    "Ccpp.VText.C90_error",
    "Ccpp.VText.C90_pointer",
    "Ccpp.VText.C90_pointer_null",
    "Ccpp.VText.C90_target_violated",
    "Ccpp.VText.C90_optional_violated",
    "Ccpp.VText.C90_intent_violated",
    "Ccpp.VText.C90_twice_violated",
    "Ccpp.VText.C90_example",
    "Ccpp.VText.C90_example_handled"
   ],
   "note": "C90_declares: for all variables, the type, kind, name and dimensions are right, no attribute is unwanted, target of the variable and intent are there. C90_attributes_partial: exactly the wanted attributes, each once, in the cases Handled. Missing because the code violates it: the caller's wish for a target is ignored unless allocatable (C90_target_violated), optional is dropped for protected arguments and allocatable outputs (C90_optional_violated), the intent of a dummy argument that is to be allocatable (C90_intent_violated), target twice and allocatable scalars (C90_twice_violated). The writer's breaking of lines is in other properties."
  },
  {
   "property": "C91",
   "status": "partial",
   "theorems": [
    "Ccpp.VRef.C91_subscripts",
    "Ccpp.VRef.C91_mismatch",
    "Ccpp.VRef.C91_dimensions",
    "Ccpp.VRef.C91_colons",
    "Ccpp.VRef.C91_argument",
    "Ccpp.VRef.C91_declarable",
    "Ccpp.VRef.C91_number_violated",
    "Ccpp.VRef.C91_example",
    "Ccpp.VRef.C91_example_named"
   ],
   "note": "Each function is characterised by an equivalence, for all local names that are plain or array references of at most seven subscripts. Missing because the code violates it: numbers as bounds are errors in lists of dimensions (C91_number_violated). The text of a variable found in a dictionary is a parameter (its own reference; the recursion for call_string without loop variables is in the host-model property)."
  },
  {
   "property": "C92",
   "status": "partial",
   "theorems": [
    "Ccpp.DimS.mem_dimStdnames",
    "Ccpp.DimS.C92_sources_partial",
    "Ccpp.DimS.C92_empty_partial",
    "Ccpp.DimS.C92_order_partial",
    "Ccpp.DimS.C92_example",
    "Ccpp.DimS.C92_example_excluded",
    "Ccpp.DimS.C92_empty_target_violated",
    "Ccpp.DimS.C92_reproducible_violated",
    "Ccpp.DimS.C92_local_name_violated",
    "Ccpp.DimS.C92_removed_violated"
   ],
   "note": "Proved for all orders of the set, for a requested dictionary that is not empty and whose registered local names belong to its variables. Missing because the code violates it: an empty requested dictionary counts as none (C92_empty_target_violated); the order of the arguments depends on the hash seed (C92_reproducible_violated; up to this order the result is unique, C92_order_partial); an added dimension can have the local name of another argument (C92_local_name_violated); after a removal an internal error is raised (C92_removed_violated)."
  },
  {
   "property": "C93",
   "status": "partial",
   "theorems": [
    "Ccpp.TText.C93_forward_partial",
    "Ccpp.TText.C93_reverse_partial",
    "Ccpp.TText.C93_undo",
    "Ccpp.TText.C93_example_exists",
    "Ccpp.TText.C93_example_both",
    "Ccpp.TText.C93_example_units",
    "Ccpp.TText.C93_complex_violated",
    "Ccpp.TText.C93_integer_kind_violated",
    "Ccpp.TText.C93_integer_units_violated"
   ],
   "note": "Proved for all real variables with kinds (the parser gives every real variable a kind) and exact arithmetic: text, references, kind and value of both statements. Missing because the code violates it: complex variables lose the imaginary part (C93_complex_violated), integer and logical variables are converted with real, with an empty kind if none is given (C93_integer_kind_violated), integers in other units are truncated (C93_integer_units_violated)."
  },
  {
   "property": "C94",
   "status": "proved",
   "theorems": [
    "Ccpp.ArgW.C94_list",
    "Ccpp.ArgW.C94_explicit",
    "Ccpp.ArgW.C94_lines",
    "Ccpp.ArgW.C94_lines_explicit",
    "Ccpp.ArgW.C94_limit",
    "Ccpp.ArgW.C94_repeated_violated"
   ],
   "note": "C94_repeated_violated shows that the hypothesis of distinct names is needed for the length of the lines: the last argument is recognised by its text."
  },
  {
   "property": "C95",
   "status": "proved",
   "theorems": [
    "Ccpp.Pretty.C95_words",
    "Ccpp.Pretty.C95_table",
    "Ccpp.Pretty.C95_children",
    "Ccpp.Pretty.C95_lines",
    "Ccpp.Pretty.C95_table_lines",
    "Ccpp.Pretty.C95_children_lines",
    "Ccpp.Pretty.C95_indented",
    "Ccpp.Pretty.C95_fills",
    "Ccpp.Pretty.C95_no_wrap"
   ],
   "note": "The bound of the lines is for names, values and texts without ends of lines. Quotes do not protect blanks (in_squote and in_dquote are never set in the code); the property does not claim this."
  },
  {
   "property": "C96",
   "status": "partial",
   "theorems": [
    "Ccpp.LoopAct.C96_partial",
    "Ccpp.LoopAct.C96_names",
    "Ccpp.LoopAct.C96_meaning",
    "Ccpp.LoopAct.C96_deterministic",
    "Ccpp.LoopAct.C96_name_violated",
    "Ccpp.LoopAct.C96_created_violated"
   ],
   "note": "Proved for groups whose arguments have distinct local names, none of which is the name of a computed variable, and whose loop bounds are not created by schemes of the group; the names of the computed variables are distinct (C96_names). Missing because the code violates it: the name of the computed variable is compared with the group's own variables only, so it may be that of an argument, which is then overwritten (C96_name_violated); a bound that a scheme of the group creates is read before the scheme sets it (C96_created_violated)."
  },
  {
   "property": "C97",
   "status": "partial",
   "theorems": [
    "Ccpp.Proto.C97_prototype_partial",
    "Ccpp.Proto.C97_later_violated"
   ],
   "note": "Proved with dimensions that are declared before their use (or invented names for the others). Missing because the code violates it: a dimension that is declared after the array is written with an invented name instead of its standard name (C97_later_violated)."
  },
  {
   "property": "C98",
   "status": "partial",
   "theorems": [
    "Ccpp.Inspect.C98_parts_partial",
    "Ccpp.Inspect.C98_schemes",
    "Ccpp.Inspect.C98_suites",
    "Ccpp.Inspect.C98_reserved_violated"
   ],
   "note": "Schemes and suites are proved; parts are proved for suites in which no group has the name of a phase. Missing because the code violates it: a group with such a name (initialize) is not listed (C98_reserved_violated)."
  },
  {
   "property": "C99",
   "status": "partial",
   "theorems": [
    "Ccpp.Fixed.C99_fixed_form_partial",
    "Ccpp.Fixed.C99_bang_violated",
    "Ccpp.Fixed.C99_comment_violated",
    "Ccpp.Fixed.C99_column_violated"
   ],
   "note": "Proved for files whose continued lines have no comment, with no ! in column 6 and no text after column 72, where the white space at the end of lines is not part of a character literal. Missing because the code violates it: a ! in column 6 hides the line (C99_bang_violated); a line with a comment that is continued loses its continuation to the statement before, or raises an exception (C99_comment_violated); an apostrophe after column 72 is an error (C99_column_violated)."
  }
 ]
}