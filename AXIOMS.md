# Axioms per theorem (`#print axioms`, regenerate with tools/mkaxioms.py)

## C01 (proved)
* `Ccpp.Preproc.C01_depth`: propext
* `Ccpp.Preproc.C01_wellformed`: propext
## C02 (partial)
* `Ccpp.Preproc.C02_first_true_branch_partial`: propext
* `Ccpp.Preproc.C02_violated`: propext
## C03 (proved)
* `Ccpp.Preproc.C03_inactive`: propext, Quot.sound
## C04 (proved)
* `Ccpp.SM.C04_function_match`: propext, Classical.choice, Quot.sound
* `Ccpp.SM.C04_no_match`: propext, Classical.choice, Quot.sound
* `Ccpp.SM.C04_timestep`: propext, Classical.choice, Quot.sound
## C05 (proved)
* `Ccpp.SM.C05_add`: propext, Classical.choice, Quot.sound
* `Ccpp.SM.C05_del`: propext, Classical.choice, Quot.sound
* `Ccpp.SM.C05_distinct`: propext, Classical.choice, Quot.sound
## C06 (proved)
* `Ccpp.Cap.C06_reject`: propext, Classical.choice, Quot.sound
* `Ccpp.Cap.C06_accept`: propext, Classical.choice, Quot.sound
* `Ccpp.Cap.C06_path`: propext, Classical.choice, Quot.sound
* `Ccpp.Cap.C06_all_ok_path`: propext, Classical.choice, Quot.sound
* `Ccpp.Cap.C06_path_accepted`: propext, Classical.choice, Quot.sound
## C07 (partial)
* `Ccpp.Cap.C07_order_and_stop_partial`: propext, Classical.choice, Quot.sound
* `Ccpp.Cap.C07_subcycle_violated`: propext, Quot.sound
## C08 (partial)
* `Ccpp.Cap.C08_state_kept_partial`: propext, Classical.choice, Quot.sound
* `Ccpp.Cap.C08_violated`: propext, Classical.choice, Quot.sound
## C09 (partial)
* `Ccpp.Cap.C09_allocation_partial`: propext, Classical.choice, Quot.sound
* `Ccpp.Cap.C09_violated_debug`: propext, Classical.choice, Quot.sound
## C10 (proved)
* `Ccpp.Hash.C10_finite_map`: propext, Classical.choice, Quot.sound
* `Ccpp.Hash.C10_duplicate_rejected`: propext, Classical.choice, Quot.sound
## C100 (proved)
* `Ccpp.LongName.C100_long_name`: propext, Classical.choice, Quot.sound
* `Ccpp.LongName.C100_missing`: propext, Classical.choice, Quot.sound
* `Ccpp.LongName.C100_example`: propext, Classical.choice, Quot.sound
## C101 (partial)
* `Ccpp.HCall.C101_accept`: propext, Classical.choice, Quot.sound
* `Ccpp.HCall.C101_calls`: propext, Classical.choice, Quot.sound
* `Ccpp.HCall.C101_dummies`: propext, Classical.choice, Quot.sound
* `Ccpp.HCall.C101_access`: propext, Classical.choice, Quot.sound
* `Ccpp.HCall.C101_sizes_partial`: propext, Classical.choice, Quot.sound
* `Ccpp.HCall.C101_example`: propext, Classical.choice, Quot.sound
* `Ccpp.HCall.C101_sizes_violated`: propext, Classical.choice, Quot.sound
* `Ccpp.HCall.C101_shared_violated`: propext, Classical.choice, Quot.sound
* `Ccpp.HCall.C101_names_violated`: propext, Classical.choice, Quot.sound
## C102 (partial)
* `Ccpp.Snip.C102_caps`: propext, Classical.choice, Quot.sound
* `Ccpp.Snip.C102_typedefs`: propext, Classical.choice, Quot.sound
* `Ccpp.Snip.C102_schemes_partial`: propext, Classical.choice, Quot.sound
* `Ccpp.Snip.C102_ending_violated`: propext, Classical.choice, Quot.sound
## C103 (partial)
* `Ccpp.CondT.C103_partial`: propext, Classical.choice, Quot.sound
* `Ccpp.CondT.C103_not_indented`: propext, Classical.choice, Quot.sound
* `Ccpp.CondT.C103_not_violated`: propext, Classical.choice, Quot.sound
* `Ccpp.CondT.C103_and_violated`: propext, Classical.choice, Quot.sound
## C104 (partial)
* `Ccpp.Decls.C104_partial`: propext, Classical.choice, Quot.sound
* `Ccpp.Decls.C104_scalars_first`: propext, Classical.choice, Quot.sound
* `Ccpp.Decls.C104_complete`: propext, Classical.choice, Quot.sound
* `Ccpp.Decls.C104_rejected`: propext, Classical.choice, Quot.sound
* `Ccpp.Decls.C104_order_violated`: propext, Classical.choice, Quot.sound
* `Ccpp.Decls.C104_type_violated`: propext, Classical.choice, Quot.sound
* `Ccpp.Decls.C104_pointer_violated`: propext, Classical.choice, Quot.sound
## C105 (partial)
* `Ccpp.GL.C105_partial`: propext, Classical.choice, Quot.sound
* `Ccpp.GL.C105_declared`: propext, Classical.choice, Quot.sound
* `Ccpp.GL.C105_allocated`: propext, Classical.choice, Quot.sound
* `Ccpp.GL.C105_nullified`: propext, Classical.choice, Quot.sound
* `Ccpp.GL.C105_names`: propext, Classical.choice, Quot.sound
* `Ccpp.GL.C105_copies`: propext, Classical.choice, Quot.sound
* `Ccpp.GL.C105_complete`: propext, Classical.choice, Quot.sound
* `Ccpp.GL.C105_pointer_violated`: propext, Classical.choice, Quot.sound
* `Ccpp.GL.C105_scalar_violated`: propext, Classical.choice, Quot.sound
* `Ccpp.GL.C105_copy_violated`: propext, Classical.choice, Quot.sound
## C106 (partial)
* `Ccpp.LE.C106_partial`: propext, Classical.choice, Quot.sound
* `Ccpp.LE.C106_elements`: propext, Classical.choice, Quot.sound
* `Ccpp.LE.C106_unique`: propext, Quot.sound
* `Ccpp.LE.C106_complete`: propext, Classical.choice, Quot.sound
* `Ccpp.LE.C106_ddt_violated`: propext, Classical.choice, Quot.sound
* `Ccpp.LE.C106_reference_violated`: propext, Classical.choice, Quot.sound
## C107 (proved)
* `Ccpp.SV.C107_version`: propext, Classical.choice, Quot.sound
* `Ccpp.SV.C107_rejected`: propext, Classical.choice, Quot.sound
* `Ccpp.SV.C107_decimal`: propext, Classical.choice, Quot.sound
* `Ccpp.SV.C107_distinct`: propext, Classical.choice, Quot.sound
* `Ccpp.SV.C107_schema`: propext, Classical.choice, Quot.sound
## C108 (partial)
* `Ccpp.KF.C108_partial`: propext, Classical.choice, Quot.sound
* `Ccpp.KF.C108_conversion_partial`: propext, Classical.choice, Quot.sound
* `Ccpp.KF.C108_needed_partial`: propext, Classical.choice, Quot.sound
* `Ccpp.KF.C108_spec_violated`: propext, Classical.choice, Quot.sound
* `Ccpp.KF.C108_case_violated`: propext, Classical.choice, Quot.sound
* `Ccpp.KF.C108_spelling_violated`: propext, Classical.choice, Quot.sound
## C109 (partial)
* `Ccpp.HT.C109_partial`: propext, Classical.choice, Quot.sound
* `Ccpp.HT.C109_skipped`: propext, Classical.choice, Quot.sound
* `Ccpp.HT.C109_unique`: propext, Classical.choice, Quot.sound
* `Ccpp.HT.C109_brace_violated`: propext, Classical.choice, Quot.sound
* `Ccpp.HT.C109_markup_violated`: propext, Classical.choice, Quot.sound
## C11 (proved)
* `Ccpp.Hash.C11_hash_in_bounds`: propext, Classical.choice, Quot.sound
* `Ccpp.Hash.C11_hash_trim`: propext, Classical.choice, Quot.sound
## C110 (partial)
* `Ccpp.LX.C110_partial`: propext, Quot.sound
* `Ccpp.LX.C110_unique`: propext
* `Ccpp.LX.C110_requested_partial`: propext, Classical.choice, Quot.sound
* `Ccpp.LX.C110_special_violated`: propext, Classical.choice, Quot.sound
* `Ccpp.LX.C110_none_violated`: propext, Classical.choice, Quot.sound
## C111 (proved)
* `Ccpp.SD.C111_suites`: propext, Classical.choice, Quot.sound
* `Ccpp.SD.C111_chosen_unique`: propext, Classical.choice, Quot.sound
* `Ccpp.SD.C111_names_unique`: propext, Classical.choice, Quot.sound
## C112 (proved)
* `Ccpp.PL.C112_text`: propext, Classical.choice, Quot.sound
* `Ccpp.PL.C112_none`: propext, Classical.choice, Quot.sound
* `Ccpp.PL.C112_readable`: propext, Classical.choice, Quot.sound
* `Ccpp.PL.C112_last_unique`: propext, Quot.sound
## C113 (proved)
* `Ccpp.EV.C113_call`: propext, Classical.choice, Quot.sound
* `Ccpp.EV.C113_keywords`: propext, Classical.choice, Quot.sound
* `Ccpp.EV.C113_variables`: propext, Classical.choice, Quot.sound
* `Ccpp.EV.C113_init`: propext, Classical.choice, Quot.sound
## C12 (proved)
* `Ccpp.Hash.C12_iterate_all`: propext, Classical.choice, Quot.sound
## C13 (partial)
* `Ccpp.Hash.C13_start_partial`: propext, Classical.choice, Quot.sound
* `Ccpp.Hash.C13_violated`: propext, Classical.choice, Quot.sound
## C14 (partial)
* `Ccpp.Const.C14_packed_partial`: propext, Classical.choice, Quot.sound
* `Ccpp.Const.C14_lock_succeeds`: propext, Classical.choice, Quot.sound
* `Ccpp.Const.C14_lock_fails`: propext, Classical.choice, Quot.sound
* `Ccpp.Const.C14_preset_index_violated`: propext, Classical.choice, Quot.sound
## C15 (partial)
* `Ccpp.Const.C15_lifecycle_partial`: propext, Classical.choice, Quot.sound
* `Ccpp.Const.C15_lock_data`: propext, Classical.choice, Quot.sound
* `Ccpp.Const.C15_violated`: propext, Classical.choice, Quot.sound
## C16 (partial)
* `Ccpp.Const.C16_reregister_partial`: propext, Classical.choice, Quot.sound
* `Ccpp.Const.C16_new_name`: propext, Classical.choice, Quot.sound
* `Ccpp.Const.C16_long_name_violated`: propext, Classical.choice, Quot.sound
## C17 (proved)
* `Ccpp.Const.C17_copy_in`: propext, Classical.choice, Quot.sound
* `Ccpp.Const.C17_levels`: propext, Classical.choice, Quot.sound
* `Ccpp.Const.C17_inverse`: propext, Classical.choice, Quot.sound
* `Ccpp.Const.C17_frame`: propext, Classical.choice, Quot.sound
* `Ccpp.Const.C17_too_small`: propext, Classical.choice, Quot.sound
## C18 (partial)
* `Ccpp.Const.C18_reuse_partial`: propext, Classical.choice, Quot.sound
* `Ccpp.Const.C18_violated`: propext, Classical.choice, Quot.sound
## C19 (partial)
* `Ccpp.Files.C19_delivered_partial`: propext, Quot.sound
* `Ccpp.Files.C19_frame`: propext, Quot.sound
* `Ccpp.Files.C19_same_directory`: propext, Quot.sound
* `Ccpp.Files.C19_duplicate_refused`: propext, Quot.sound
* `Ccpp.Files.C19_succeeds`: propext, Quot.sound
* `Ccpp.Files.C19_violated`: propext, Quot.sound
## C20 (partial)
* `Ccpp.Files.C20_exact_partial`: propext, Classical.choice, Quot.sound
* `Ccpp.Files.C20_suffix`: propext, Classical.choice, Quot.sound
* `Ccpp.Files.C20_terminates`: propext, Classical.choice, Quot.sound
* `Ccpp.Files.C20_alias_violated`: propext, Classical.choice, Quot.sound
## C21 (partial)
* `Ccpp.FW.C21_line_limit_partial`: propext, Classical.choice, Quot.sound
* `Ccpp.FW.C21_default`: propext, Classical.choice, Quot.sound
* `Ccpp.FW.C21_violated`: propext, Classical.choice, Quot.sound
## C22 (partial)
* `Ccpp.FW.C22_preserved_partial`: propext, Classical.choice, Quot.sound
* `Ccpp.FW.C22_literal_two_lines`: propext, Classical.choice, Quot.sound
* `Ccpp.FW.C22_word_cut_violated`: propext, Classical.choice, Quot.sound
* `Ccpp.FW.C22_exact_fit_violated`: propext, Classical.choice, Quot.sound
* `Ccpp.FW.C22_comment_violated`: propext, Classical.choice, Quot.sound
* `Ccpp.FW.C22_literal_violated`: propext, Classical.choice, Quot.sound
## C23 (partial)
* `Ccpp.CB.C23_write_partial`: propext, Classical.choice, Quot.sound
* `Ccpp.CB.C23_missing`: propext, Classical.choice, Quot.sound
* `Ccpp.CB.C23_missing_nothing_written`: propext, Classical.choice, Quot.sound
* `Ccpp.CB.C23_partial_output`: propext, Classical.choice, Quot.sound
* `Ccpp.CB.C23_preproc_indent_violated`: propext, Classical.choice, Quot.sound
## C24 (proved)
* `Ccpp.PO.C24_next_line`: propext, Classical.choice, Quot.sound
* `Ccpp.PO.C24_end`: propext, Quot.sound
* `Ccpp.PO.C24_curr_line`: propext, Classical.choice, Quot.sound
* `Ccpp.PO.C24_read_all`: propext, Classical.choice, Quot.sound
* `Ccpp.PO.C24_whole_file`: propext, Classical.choice, Quot.sound
* `Ccpp.PO.C24_reset`: propext, Quot.sound
* `Ccpp.PO.C24_write_line`: propext, Quot.sound
## C25 (partial)
* `Ccpp.Ctx.C25_enter`: propext, Quot.sound
* `Ccpp.Ctx.C25_leave`: propext, Quot.sound
* `Ccpp.Ctx.C25_in_region`: propext, Quot.sound
* `Ccpp.Ctx.C25_balanced`: propext, Classical.choice, Quot.sound
* `Ccpp.Ctx.C25_failed_leave_violated`: propext
* `Ccpp.Ctx.C25_in_region_unnamed`: propext
## C26 (partial)
* `Ccpp.Chk.C26_found_partial`: propext, Classical.choice, Quot.sound
* `Ccpp.Chk.C26_unbalanced`: propext, Classical.choice, Quot.sound
* `Ccpp.Chk.C26_none`: propext, Classical.choice, Quot.sound
* `Ccpp.Chk.C26_error`: propext, Quot.sound
* `Ccpp.Chk.C26_violated`: propext, Classical.choice, Quot.sound
## C27 (partial)
* `Ccpp.Chk.C27_fortran_id_partial`: propext, Classical.choice, Quot.sound
* `Ccpp.Chk.C27_newline_violated`: propext, Classical.choice, Quot.sound
* `Ccpp.Chk.C27_standard_name_partial`: propext, Classical.choice, Quot.sound
* `Ccpp.Chk.C27_unicode_violated`: propext
## C28 (partial)
* `Ccpp.VC.char_kind_supported_partial`: propext, Classical.choice, Quot.sound
* `Ccpp.VC.char_kind_ignores_length`: propext, Classical.choice, Quot.sound
* `Ccpp.VC.charKindCheck_iff`: propext, Classical.choice, Quot.sound
## C29 (partial)
* `Ccpp.VC.kind_recorded`: propext, Classical.choice, Quot.sound
* `Ccpp.VC.reflexive_partial`: propext, Classical.choice, Quot.sound
* `Ccpp.VC.character_not_reflexive`: propext, Classical.choice, Quot.sound
* `Ccpp.VC.names_types_rejected`: propext, Classical.choice, Quot.sound
* `Ccpp.VC.equiv_sound`: propext, Classical.choice, Quot.sound
* `Ccpp.VC.equiv_with_dimension_transform`: propext, Classical.choice, Quot.sound
* `Ccpp.VC.verdict_symmetric`: propext, Classical.choice, Quot.sound
* `Ccpp.Units.verdict_symmetric`: propext, Classical.choice, Quot.sound
## C30 (partial)
* `Ccpp.VC.horizontal_names`: propext, Classical.choice, Quot.sound
* `Ccpp.VC.vertical_names`: propext, Classical.choice, Quot.sound
* `Ccpp.VC.permutations_inverse`: propext, Classical.choice, Quot.sound
* `Ccpp.VC.reordered_accepted`: propext, Classical.choice, Quot.sound
* `Ccpp.VC.different_rejected`: propext, Classical.choice, Quot.sound
* `Ccpp.VC.reordered_without_horizontal`: propext, Classical.choice, Quot.sound
* `Ccpp.VC.dim_error_iff`: propext, Classical.choice, Quot.sound
## C31 (partial)
* `Ccpp.VC.forward_same_element_partial`: propext, Classical.choice, Quot.sound
* `Ccpp.VC.forward_wrong_position`: propext, Classical.choice, Quot.sound
* `Ccpp.VC.reverse_same_element_partial`: propext, Classical.choice, Quot.sound
* `Ccpp.VC.reverse_wrong_position`: propext, Classical.choice, Quot.sound
* `Ccpp.VC.roundtrip_plain`: propext, Classical.choice, Quot.sound
* `Ccpp.VC.roundtrip_offset_partial`: propext, Classical.choice, Quot.sound
* `Ccpp.VC.roundtrip_flip_partial`: propext, Classical.choice, Quot.sound
## C32 (proved)
* `Ccpp.Units.unit_text`: propext, Classical.choice, Quot.sound
* `Ccpp.Units.conversion_correct`: propext, Classical.choice, Quot.sound
* `Ccpp.Units.chain_agrees`: propext, Classical.choice, Quot.sound
* `Ccpp.Units.both_directions`: propext, Classical.choice, Quot.sound
* `Ccpp.Units.conversion_symmetric`: propext, Classical.choice, Quot.sound
* `Ccpp.Units.spelling_collision`: propext, Classical.choice, Quot.sound
* `Ccpp.Units.degree_constant_accurate`: propext, Classical.choice, Quot.sound
## C33 (partial)
* `Ccpp.VD.one_per_name`: propext, Classical.choice, Quot.sound
* `Ccpp.VD.add_present_raises`: propext, Classical.choice, Quot.sound
* `Ccpp.VD.add_present_keeps`: propext, Classical.choice, Quot.sound
* `Ccpp.VD.add_absent`: propext, Classical.choice, Quot.sound
* `Ccpp.VD.remove_exact`: propext
* `Ccpp.VD.find_exact_partial`: propext, Classical.choice, Quot.sound
* `Ccpp.VD.C33_violated`: propext, Classical.choice, Quot.sound
## C34 (partial)
* `Ccpp.VD.find_innermost`: propext, Classical.choice, Quot.sound
* `Ccpp.VD.find_none`: propext, Classical.choice, Quot.sound
* `Ccpp.VD.find_own_scope`: propext, Classical.choice, Quot.sound
* `Ccpp.VD.find_const`: propext, Classical.choice, Quot.sound
* `Ccpp.VD.C34_violated`: propext, Classical.choice, Quot.sound
## C35 (partial)
* `Ccpp.VD.distinct_local_partial`: propext, Classical.choice, Quot.sound
* `Ccpp.VD.C35_violated`: propext, Classical.choice, Quot.sound
## C36 (partial)
* `Ccpp.VD.merged_intent`: propext, Classical.choice, Quot.sound
* `Ccpp.VD.merged_intent_order`: propext, Classical.choice, Quot.sound
* `Ccpp.VD.protected_stays_in`: propext, Classical.choice, Quot.sound
* `Ccpp.VD.C36_violated`: propext, Classical.choice, Quot.sound
## C37 (partial)
* `Ccpp.VD.newName_length`: propext, Classical.choice, Quot.sound
* `Ccpp.VD.newName_fresh_partial`: propext, Classical.choice, Quot.sound
* `Ccpp.VD.newName_total`: propext, Classical.choice, Quot.sound
* `Ccpp.VD.C37_violated`: propext, Classical.choice, Quot.sound
## C38 (partial)
* `Ccpp.MD.loop_dimensions`: propext, Classical.choice, Quot.sound
* `Ccpp.VC.horizontal_names`: propext, Classical.choice, Quot.sound
* `Ccpp.VC.vertical_names`: propext, Classical.choice, Quot.sound
* `Ccpp.MD.match_sound`: propext, Classical.choice, Quot.sound
* `Ccpp.MD.match_sound_vertical`: propext, Classical.choice, Quot.sound
* `Ccpp.MD.match_permutation`: propext, Classical.choice, Quot.sound
* `Ccpp.MD.matchVariable_in_order`: propext, Classical.choice, Quot.sound
* `Ccpp.MD.match_complete`: propext, Classical.choice, Quot.sound
* `Ccpp.MD.C38_violated`: propext, Classical.choice, Quot.sound
## C39 (partial)
* `Ccpp.Env.kinds_rejected_iff`: propext, Classical.choice, Quot.sound
* `Ccpp.Env.kind_lookup`: propext, Classical.choice, Quot.sound
* `Ccpp.Env.kind_types_ok`: propext, Classical.choice, Quot.sound
* `Ccpp.Env.empty_kind_accepted`: propext, Classical.choice, Quot.sound
## C40 (partial)
* `Ccpp.RV.query_correct_partial`: propext, Classical.choice, Quot.sound
* `Ccpp.RV.query_none_partial`: propext, Classical.choice, Quot.sound
* `Ccpp.RV.collect_exact`: propext, Classical.choice, Quot.sound
* `Ccpp.RV.collect_refused`: propext, Classical.choice, Quot.sound
* `Ccpp.RV.leaves_correct`: propext, Classical.choice, Quot.sound
* `Ccpp.RV.C40_violated`: propext, Classical.choice, Quot.sound
## C41 (partial)
* `Ccpp.Preproc.C41_order_partial`: propext
* `Ccpp.Preproc.C41_nonzero`: propext
* `Ccpp.Preproc.C41_eq_violated`: propext
* `Ccpp.Preproc.C41_valueless_symbol_crashes`: propext
* `Ccpp.Preproc.C41_undefined_violated`: propext, Classical.choice, Quot.sound
## C42 (partial)
* `Ccpp.Preproc.C42_condition_truth_partial`: propext
* `Ccpp.Preproc.C42_violated`: propext
## C43 (partial)
* `Ccpp.Preproc.C43_recognised_partial`: propext, Classical.choice, Quot.sound
* `Ccpp.Preproc.C43_definitions`: propext, Classical.choice, Quot.sound
* `Ccpp.Preproc.C43_define_partial`: propext, Classical.choice, Quot.sound
* `Ccpp.Preproc.C43_violated`: propext, Classical.choice, Quot.sound
## C44 (partial)
* `Ccpp.Cap.C44_thread_check_partial`: propext, Classical.choice, Quot.sound
* `Ccpp.Cap.C44_violated`: propext, Classical.choice, Quot.sound
## C45 (proved)
* `Ccpp.Cap.C45_dispatch`: propext, Classical.choice, Quot.sound
* `Ccpp.Cap.C45_unknown`: propext, Classical.choice, Quot.sound
## C46 (partial)
* `Ccpp.Cap.C46_register_partial`: propext, Classical.choice, Quot.sound
* `Ccpp.Cap.C46_violated`: propext, Classical.choice, Quot.sound
## C47 (proved)
* `Ccpp.PO.C47_error_limit`: propext, Classical.choice, Quot.sound
## C48 (partial)
* `Ccpp.Chk.C48_list_partial`: propext, Quot.sound
* `Ccpp.Chk.C48_blank_item`: propext, Quot.sound
* `Ccpp.Chk.C48_nested_violated`: propext, Classical.choice, Quot.sound
## C49 (partial)
* `Ccpp.Chk.C49_flag_partial`: propext
* `Ccpp.Chk.C49_dimensions_partial`: propext, Classical.choice, Quot.sound
* `Ccpp.Chk.C49_dimensions_violated`: propext, Classical.choice, Quot.sound
## C50 (proved)
* `Ccpp.Chk.C50_dimensions`: propext, Classical.choice, Quot.sound
* `Ccpp.Chk.C50_parts`: propext, Quot.sound
## C51 (partial)
* `Ccpp.VC.tendency_units_partial`: propext, Classical.choice, Quot.sound
* `Ccpp.VC.tendency_missing_per_second`: propext, Classical.choice, Quot.sound
* `Ccpp.VC.tendency_of_rate_rejected`: propext, Classical.choice, Quot.sound
* `Ccpp.VC.tendency_trailing_text`: propext, Classical.choice, Quot.sound
## C52 (partial)
* `Ccpp.TR.intent_in_converted`: propext, Classical.choice, Quot.sound
* `Ccpp.TR.intent_inout_converted`: propext, Classical.choice, Quot.sound
* `Ccpp.TR.unchanged_argument`: propext, Classical.choice, Quot.sound
* `Ccpp.TR.intent_out_result_lost`: propext, Classical.choice, Quot.sound
* `Ccpp.TR.intent_out_violated`: propext, Classical.choice, Quot.sound
* `Ccpp.TR.intent_out_optional`: propext, Classical.choice, Quot.sound
* `Ccpp.TR.inactive_optional_error`: propext
## C53 (proved)
* `Ccpp.Env.defs_of_list`: propext, Classical.choice, Quot.sound
* `Ccpp.Env.defs_comma`: propext, Classical.choice, Quot.sound
* `Ccpp.Env.defs_space`: propext, Classical.choice, Quot.sound
* `Ccpp.Env.stray_comma`: propext, Classical.choice, Quot.sound
## C54 (partial)
* `Ccpp.DF.derived_variables`: propext
* `Ccpp.DF.C54_accepts_iff`: propext, Classical.choice, Quot.sound
* `Ccpp.DF.C54_defined_before_use_partial`: propext, Classical.choice, Quot.sound
* `Ccpp.DF.C54_default_violated`: propext
* `Ccpp.DF.C54_subcycle_violated`: propext, Quot.sound
* `Ccpp.DF.C54_vertical_violated`: propext
* `Ccpp.DF.C54_timestep_array_violated`: propext
* `Ccpp.DF.C54_register_array_violated`: propext
* `Ccpp.DF.C54_loop_variable_violated`: propext
* `Ccpp.DF.C54_no_timestep_violated`: propext
## C55 (proved)
* `Ccpp.FL.C55_statements`: propext, Classical.choice, Quot.sound
* `Ccpp.FL.C55_nonempty`: propext, Quot.sound
* `Ccpp.FL.C55_single`: propext, Classical.choice, Quot.sound
* `Ccpp.FL.C55_read`: propext, Quot.sound
* `Ccpp.FL.C55_read_end`: propext, Quot.sound
## C56 (partial)
* `Ccpp.FL.C56_exact`: propext, Classical.choice, Quot.sound
* `Ccpp.FL.C56_continuation_partial`: propext, Classical.choice, Quot.sound
* `Ccpp.FL.C56_lines_kept`: propext, Quot.sound
* `Ccpp.FL.C56_violated`: propext, Classical.choice, Quot.sound
* `Ccpp.FL.C56_unfinished_accepted`: propext, Classical.choice, Quot.sound
## C57 (partial)
* `Ccpp.FL.C57_roundtrip_partial`: propext, Classical.choice, Quot.sound
## C58 (partial)
* `Ccpp.FDecl.C58_items`: propext, Classical.choice, Quot.sound
* `Ccpp.FDecl.C58_unique`: propext, Quot.sound
* `Ccpp.FDecl.C58_refused`: propext, Classical.choice, Quot.sound
* `Ccpp.FDecl.C58_roundtrip`: propext, Classical.choice, Quot.sound
* `Ccpp.FDecl.C58_violated`: propext, Classical.choice, Quot.sound
## C59 (partial)
* `Ccpp.FDecl.C59_declaration_partial`: propext, Classical.choice, Quot.sound
* `Ccpp.FDecl.C59_example`: propext, Classical.choice, Quot.sound
* `Ccpp.FDecl.C59_declaration_violated`: propext, Classical.choice, Quot.sound
* `Ccpp.FDecl.C59_stale_dimensions`: propext, Classical.choice, Quot.sound
## C60 (partial)
* `Ccpp.FSub.C60_scheme_partial`: propext, Classical.choice, Quot.sound
* `Ccpp.FSub.C60_not_found`: propext, Classical.choice, Quot.sound
* `Ccpp.FSub.C60_example`: propext, Classical.choice, Quot.sound
* `Ccpp.FSub.C60_example_runs`: propext, Classical.choice, Quot.sound
* `Ccpp.FSub.C60_scheme_violated`: propext, Classical.choice, Quot.sound
## C61 (partial)
* `Ccpp.FM.C61_tables`: propext, Classical.choice, Quot.sound
* `Ccpp.FM.C61_table_types`: propext, Classical.choice, Quot.sound
* `Ccpp.FM.C61_scheme_partial`: propext, Classical.choice, Quot.sound
* `Ccpp.FM.C61_scheme_sound`: propext, Classical.choice, Quot.sound
* `Ccpp.FM.C61_module_partial`: propext, Classical.choice, Quot.sound
* `Ccpp.FM.C61_host_violated`: propext, Classical.choice, Quot.sound
* `Ccpp.FM.C61_accepts_violated`: propext, Classical.choice, Quot.sound
* `Ccpp.FM.C61_after_reference_violated`: propext, Classical.choice, Quot.sound
* `Ccpp.FM.C61_report_violated`: propext, Classical.choice, Quot.sound
* `Ccpp.FM.C61_example`: propext, Classical.choice, Quot.sound
## C62 (proved)
* `Ccpp.MF.C62_metadata_file`: propext, Classical.choice, Quot.sound
* `Ccpp.MF.C62_example`: propext, Classical.choice, Quot.sound
* `Ccpp.MF.C62_example_meets`: propext, Classical.choice, Quot.sound
## C63 (partial)
* `Ccpp.MF.C63_effect_partial`: propext, Classical.choice, Quot.sound
* `Ccpp.MF.C63_violated`: propext, Classical.choice, Quot.sound
* `Ccpp.MF.C63_recursive_refused`: propext, Classical.choice, Quot.sound
## C64 (partial)
* `Ccpp.Seq.C64_subroutines`: propext, Classical.choice, Quot.sound
* `Ccpp.Seq.C64_run_partial`: propext, Classical.choice, Quot.sound
* `Ccpp.Seq.C64_phase_partial`: propext, Classical.choice, Quot.sound
* `Ccpp.Seq.C64_imports`: propext, Classical.choice, Quot.sound
* `Ccpp.Seq.C64_accepted`: propext, Classical.choice, Quot.sound
* `Ccpp.Seq.C64_example`: propext, Classical.choice, Quot.sound
* `Ccpp.Seq.C64_example_meets`: propext, Classical.choice, Quot.sound
* `Ccpp.Seq.C64_example_subcycle`: propext, Classical.choice, Quot.sound
* `Ccpp.Seq.C64_vertical_violated`: propext, Classical.choice, Quot.sound
* `Ccpp.Seq.C64_skipped_violated`: propext, Classical.choice, Quot.sound
* `Ccpp.Seq.C64_subcycle_violated`: propext, Classical.choice, Quot.sound
* `Ccpp.Seq.C64_suite_routine_violated`: propext, Classical.choice, Quot.sound
* `Ccpp.Seq.C64_names_violated`: propext, Classical.choice, Quot.sound
* `Ccpp.Seq.C64_two_indices_violated`: propext, Classical.choice, Quot.sound
## C65 (partial)
* `Ccpp.XF.C65_read_back`: propext, Classical.choice, Quot.sound
* `Ccpp.XF.C65_written_partial`: propext, Classical.choice, Quot.sound
* `Ccpp.XF.C65_example`: propext, Classical.choice, Quot.sound
* `Ccpp.XF.C65_example_text`: propext, Classical.choice, Quot.sound
* `Ccpp.XF.C65_violated_slash`: propext, Classical.choice, Quot.sound
* `Ccpp.XF.C65_violated_letter`: propext, Classical.choice, Quot.sound
## C66 (partial)
* `Ccpp.DT.C66_reports_partial`: propext, Classical.choice, Quot.sound
* `Ccpp.DT.C66_refused`: propext, Classical.choice, Quot.sound
* `Ccpp.DT.C66_paths`: propext, Classical.choice, Quot.sound
* `Ccpp.DT.exSuites_ok`: propext, Classical.choice, Quot.sound
* `Ccpp.DT.exSuites_distinct`: propext, Classical.choice, Quot.sound
* `Ccpp.DT.C66_violated_endless`: propext, Classical.choice, Quot.sound
* `Ccpp.DT.C66_violated_twins`: propext, Classical.choice, Quot.sound
* `Ccpp.DT.C66_violated_repeated`: propext, Classical.choice, Quot.sound
* `Ccpp.DT.C66_violated_scheme`: propext, Classical.choice, Quot.sound
* `Ccpp.DT.C66_violated_empty`: propext, Classical.choice, Quot.sound
## C67 (partial)
* `Ccpp.HM.C67_accepted_iff`: propext, Classical.choice, Quot.sound
* `Ccpp.HM.C67_lookup`: propext, Classical.choice, Quot.sound
* `Ccpp.HM.C67_reference_partial`: propext, Classical.choice, Quot.sound
* `Ccpp.HM.C67_bound`: propext, Classical.choice, Quot.sound
* `Ccpp.HM.ex_built`: propext, Classical.choice, Quot.sound
* `Ccpp.HM.ex_paths`: propext, Classical.choice, Quot.sound
* `Ccpp.HM.ex_shallow`: propext, Classical.choice, Quot.sound
* `Ccpp.HM.ex_ref`: propext, Classical.choice, Quot.sound
* `Ccpp.HM.C67_nested_violated`: propext, Classical.choice, Quot.sound
* `Ccpp.HM.ex_nested`: propext, Classical.choice, Quot.sound
* `Ccpp.HM.C67_same_component_violated`: propext, Classical.choice, Quot.sound
* `Ccpp.HM.ex_same`: propext, Classical.choice, Quot.sound
* `Ccpp.HM.C67_self_violated`: propext, Classical.choice, Quot.sound
* `Ccpp.HM.C67_root_index_violated`: propext, Classical.choice, Quot.sound
* `Ccpp.HM.C67_loops_violated`: propext, Classical.choice, Quot.sound
## C68 (partial)
* `Ccpp.HM.C68_imports_partial`: propext, Classical.choice, Quot.sound
* `Ccpp.HM.C68_ends`: propext, Classical.choice, Quot.sound
* `Ccpp.HM.ex_imports`: propext, Classical.choice, Quot.sound
* `Ccpp.HM.C68_section_violated`: propext, Classical.choice, Quot.sound
* `Ccpp.HM.ex_section`: propext, Classical.choice, Quot.sound
* `Ccpp.HM.C68_self_index_violated`: propext, Classical.choice, Quot.sound
* `Ccpp.HM.C68_root_index_violated`: propext, Classical.choice, Quot.sound
## C69 (partial)
* `Ccpp.PB.C69_accepted_iff`: propext, Classical.choice, Quot.sound
* `Ccpp.PB.C69_result`: propext, Classical.choice, Quot.sound
* `Ccpp.PB.C69_agree_partial`: propext, Classical.choice, Quot.sound
* `Ccpp.PB.C69_length_violated`: propext, Classical.choice, Quot.sound
* `Ccpp.PB.C69_order_violated`: propext, Classical.choice, Quot.sound
* `Ccpp.PB.C69_dimensions_violated`: propext, Classical.choice, Quot.sound
* `Ccpp.PB.ex_matched`: propext, Classical.choice, Quot.sound
## C70 (partial)
* `Ccpp.PB.C70_parse_partial`: propext, Classical.choice, Quot.sound
* `Ccpp.PB.C70_filter_partial`: propext, Classical.choice, Quot.sound
* `Ccpp.PB.C70_accepted_partial`: propext, Classical.choice, Quot.sound
* `Ccpp.PB.C70_result_partial`: propext, Classical.choice, Quot.sound
* `Ccpp.PB.C70_schemes_iff`: propext, Classical.choice, Quot.sound
* `Ccpp.PB.C70_kept_schemes`: propext, Classical.choice, Quot.sound
* `Ccpp.PB.C70_compile`: propext, Classical.choice, Quot.sound
* `Ccpp.PB.ex_filtered`: propext, Classical.choice, Quot.sound
* `Ccpp.PB.C70_name_violated`: propext, Classical.choice, Quot.sound
* `Ccpp.PB.C70_finalize_violated`: propext, Classical.choice, Quot.sound
* `Ccpp.PB.C70_uncalled_violated`: propext, Classical.choice, Quot.sound
* `Ccpp.PB.C70_init_name_violated`: propext, Classical.choice, Quot.sound
* `Ccpp.PB.C70_empty_violated`: propext, Classical.choice, Quot.sound
* `Ccpp.PB.C70_tree_violated`: propext, Classical.choice, Quot.sound
## C71 (proved)
* `Ccpp.PB.C71_accepted_iff`: propext, Classical.choice, Quot.sound
* `Ccpp.PB.C71_result`: propext, Classical.choice, Quot.sound
* `Ccpp.PB.C71_unique`: propext, Classical.choice, Quot.sound
* `Ccpp.PB.C71_order`: propext, Classical.choice, Quot.sound
* `Ccpp.PB.C71_cycle`: propext, Classical.choice, Quot.sound
* `Ccpp.PB.ex_names`: propext, Classical.choice, Quot.sound
## C72 (partial)
* `Ccpp.SA.C72_ideal_partial`: propext, Classical.choice, Quot.sound
* `Ccpp.SA.C72_calls`: propext, Classical.choice, Quot.sound
* `Ccpp.SA.C72_history`: propext
* `Ccpp.SA.C72_switch`: propext, Classical.choice, Quot.sound
* `Ccpp.SA.ex_hyps`: propext, Classical.choice, Quot.sound
* `Ccpp.SA.ex_proper`: propext, Classical.choice, Quot.sound
* `Ccpp.SA.C72_order_violated`: propext, Classical.choice, Quot.sound
* `Ccpp.SA.C72_instances_violated`: propext, Classical.choice, Quot.sound
* `Ccpp.SA.C72_loop_violated`: propext, Classical.choice, Quot.sound
* `Ccpp.SA.C72_elements_violated`: propext, Classical.choice, Quot.sound
* `Ccpp.SA.C72_finalize_element_violated`: propext, Classical.choice, Quot.sound
* `Ccpp.SA.C72_switch_violated`: propext, Classical.choice, Quot.sound
## C73 (partial)
* `Ccpp.PF.C73_run_partial`: propext, Classical.choice, Quot.sound
* `Ccpp.PF.C73_history`: propext, Classical.choice, Quot.sound
* `Ccpp.PF.C73_recovers`: propext, Classical.choice, Quot.sound
* `Ccpp.PF.C73_completed_partial`: propext, Classical.choice, Quot.sound
* `Ccpp.PF.C73_again`: propext, Classical.choice, Quot.sound
* `Ccpp.PF.C73_changed`: propext, Classical.choice, Quot.sound
* `Ccpp.PF.C73_clean_partial`: propext, Classical.choice, Quot.sound
* `Ccpp.PF.C73_lost_violated`: propext, Classical.choice, Quot.sound
* `Ccpp.PF.C73_stopped_violated`: propext, Classical.choice, Quot.sound
* `Ccpp.PF.C73_dependency_violated`: propext, Classical.choice, Quot.sound
* `Ccpp.PF.C73_clock_violated`: propext, Classical.choice, Quot.sound
* `Ccpp.PF.C73_clean_cmake_violated`: propext, Classical.choice, Quot.sound
* `Ccpp.PF.C73_clean_blank_violated`: propext, Classical.choice, Quot.sound
## C74 (partial)
* `Ccpp.PA.C74_names`: propext, Classical.choice, Quot.sound
* `Ccpp.PA.C74_arguments`: propext, Classical.choice, Quot.sound
* `Ccpp.PA.C74_needed_partial`: propext, Classical.choice, Quot.sound
* `Ccpp.PA.C74_bounds_partial`: propext, Classical.choice, Quot.sound
* `Ccpp.PA.C74_writes`: propext, Classical.choice, Quot.sound
* `Ccpp.PA.C74_shared`: propext, Classical.choice, Quot.sound
* `Ccpp.PA.C74_once`: propext, Classical.choice, Quot.sound
* `Ccpp.PA.C74_scalars`: propext, Classical.choice, Quot.sound
* `Ccpp.PA.C74_instance_partial`: propext, Classical.choice, Quot.sound
* `Ccpp.PA.C74_variable_partial`: propext
* `Ccpp.PA.C74_suite`: propext, Classical.choice, Quot.sound
* `Ccpp.PA.hostX_ok`: propext, Classical.choice, Quot.sound
* `Ccpp.PA.hostX_dims`: propext, Classical.choice, Quot.sound
* `Ccpp.PA.hostX_flat`: propext, Classical.choice, Quot.sound
* `Ccpp.PA.C74_condition_violated`: propext, Classical.choice, Quot.sound
* `Ccpp.PA.C74_component_violated`: propext, Classical.choice, Quot.sound
* `Ccpp.PA.C74_bounds_violated`: propext, Classical.choice, Quot.sound
* `Ccpp.PA.C74_same_name_violated`: propext, Classical.choice, Quot.sound
* `Ccpp.PA.C74_instance_violated`: propext, Classical.choice, Quot.sound
## C75 (partial)
* `Ccpp.PV.C75_values_partial`: propext, Classical.choice, Quot.sound
* `Ccpp.PV.C75_accepted`: propext, Classical.choice, Quot.sound
* `Ccpp.PV.C75_determined`: propext, Classical.choice, Quot.sound
* `Ccpp.PV.C75_partition`: propext, Classical.choice, Quot.sound
* `Ccpp.PV.C75_names`: propext, Classical.choice, Quot.sound
* `Ccpp.PV.exGroup_ok`: propext, Classical.choice, Quot.sound
* `Ccpp.PV.exScheme_ok`: propext, Classical.choice, Quot.sound
* `Ccpp.PV.C75_out_violated`: propext, Classical.choice, Quot.sound
* `Ccpp.PV.C75_out_host_violated`: propext, Classical.choice, Quot.sound
* `Ccpp.PV.C75_in_violated`: propext, Classical.choice, Quot.sound
* `Ccpp.PV.C75_formula_violated`: propext, Classical.choice, Quot.sound
* `Ccpp.PV.C75_formulas`: propext, Classical.choice, Quot.sound
* `Ccpp.PV.C75_condition_violated`: propext, Classical.choice, Quot.sound
* `Ccpp.PV.C75_shared_violated`: propext, Classical.choice, Quot.sound
* `Ccpp.PV.C75_local_names_violated`: propext, Classical.choice, Quot.sound
## C76 (partial)
* `Ccpp.SC.C76_section_partial`: propext, Classical.choice, Quot.sound
* `Ccpp.SC.C76_alloc_partial`: propext, Classical.choice, Quot.sound
* `Ccpp.SC.C76_deblocked`: propext, Classical.choice, Quot.sound
* `Ccpp.SC.exHost_ok`: propext, Classical.choice, Quot.sound
* `Ccpp.SC.exRef_ok`: propext, Classical.choice, Quot.sound
* `Ccpp.SC.exReq_ok`: propext, Classical.choice, Quot.sound
* `Ccpp.SC.C76_debug_violated`: propext, Quot.sound
* `Ccpp.SC.C76_debug_empty_violated`: none
* `Ccpp.SC.C76_equal_violated`: propext, Classical.choice, Quot.sound
* `Ccpp.SC.C76_range_violated`: propext, Classical.choice, Quot.sound
* `Ccpp.SC.C76_repeated_violated`: propext, Classical.choice, Quot.sound
* `Ccpp.SC.C76_parent_violated`: propext, Classical.choice, Quot.sound
* `Ccpp.SC.C76_phase_violated`: propext, Classical.choice, Quot.sound
* `Ccpp.SC.C76_text_violated`: propext, Classical.choice, Quot.sound
## C77 (partial)
* `Ccpp.CD.C77_prebuild_partial`: propext, Classical.choice, Quot.sound
* `Ccpp.CD.C77_capgen`: propext, Classical.choice, Quot.sound
* `Ccpp.CD.C77_accepted`: propext, Classical.choice, Quot.sound
* `Ccpp.CD.C77_solid`: propext, Classical.choice, Quot.sound
* `Ccpp.CD.C77_prebuild_if`: propext, Classical.choice, Quot.sound
* `Ccpp.CD.C77_capgen_if_partial`: propext, Classical.choice, Quot.sound
* `Ccpp.CD.cond_ok`: propext, Classical.choice, Quot.sound
* `Ccpp.CD.ex_cond`: propext, Classical.choice, Quot.sound
* `Ccpp.CD.C77_sign_violated`: propext, Classical.choice, Quot.sound
* `Ccpp.CD.C77_real_violated`: propext, Classical.choice, Quot.sound
* `Ccpp.CD.C77_arithmetic_violated`: propext, Classical.choice, Quot.sound
* `Ccpp.CD.C77_case_violated`: propext, Classical.choice, Quot.sound
* `Ccpp.CD.C77_letter_violated`: propext, Classical.choice, Quot.sound
* `Ccpp.CD.C77_capgen_if_violated`: propext, Classical.choice, Quot.sound
## C78 (partial)
* `Ccpp.TV.findNames_file`: propext, Classical.choice, Quot.sound
* `Ccpp.TV.C78_track_partial`: propext, Classical.choice, Quot.sound
* `Ccpp.TV.C78_unknown`: propext, Classical.choice, Quot.sound
* `Ccpp.TV.C78_order_partial`: propext, Classical.choice, Quot.sound
* `Ccpp.TV.exFiles_ok`: propext, Classical.choice, Quot.sound
* `Ccpp.TV.C78_example`: propext, Classical.choice, Quot.sound
* `Ccpp.TV.C78_order_violated`: propext, Classical.choice, Quot.sound
* `Ccpp.TV.C78_continued_violated`: propext, Classical.choice, Quot.sound
* `Ccpp.TV.C78_end_violated`: propext, Classical.choice, Quot.sound
## C79 (partial)
* `Ccpp.ST.words_iff`: propext, Quot.sound
* `Ccpp.ST.joinLines_logical`: propext, Quot.sound
* `Ccpp.ST.logical_exists`: propext, Classical.choice, Quot.sound
* `Ccpp.ST.C79_accept_partial`: propext, Classical.choice, Quot.sound
* `Ccpp.ST.C79_result_partial`: propext, Classical.choice, Quot.sound
* `Ccpp.ST.C79_malformed`: propext, Classical.choice, Quot.sound
* `Ccpp.ST.C79_twice_module`: propext, Classical.choice, Quot.sound
* `Ccpp.ST.C79_wrong`: propext, Classical.choice, Quot.sound
* `Ccpp.ST.C79_wrong_example`: propext, Classical.choice, Quot.sound
* `Ccpp.ST.exFile_ok`: propext, Classical.choice, Quot.sound
* `Ccpp.ST.exLogical`: propext, Classical.choice, Quot.sound
* `Ccpp.ST.C79_example`: propext, Classical.choice, Quot.sound
* `Ccpp.ST.C79_example_mandatory`: propext, Classical.choice, Quot.sound
* `Ccpp.ST.C79_pure_violated`: propext, Classical.choice, Quot.sound
* `Ccpp.ST.C79_case_violated`: propext, Classical.choice, Quot.sound
* `Ccpp.ST.C79_timestep_violated`: propext, Classical.choice, Quot.sound
* `Ccpp.ST.C79_endmodule_violated`: propext, Classical.choice, Quot.sound
* `Ccpp.ST.C79_endcase_violated`: propext, Classical.choice, Quot.sound
* `Ccpp.ST.C79_comment_violated`: propext, Classical.choice, Quot.sound
* `Ccpp.ST.C79_mark_violated`: propext, Classical.choice, Quot.sound
* `Ccpp.ST.C79_modulefunction_violated`: propext, Classical.choice, Quot.sound
## C80 (partial)
* `Ccpp.RM.convert_iff`: propext, Classical.choice, Quot.sound
* `Ccpp.RM.C80_accept_partial`: propext, Classical.choice, Quot.sound
* `Ccpp.RM.C80_result`: propext, Classical.choice, Quot.sound
* `Ccpp.RM.C80_container`: propext, Classical.choice, Quot.sound
* `Ccpp.RM.C80_dims_are_ranges`: propext, Classical.choice, Quot.sound
* `Ccpp.RM.C80_dims_violated`: propext, Classical.choice, Quot.sound
* `Ccpp.RM.C80_missing_violated`: propext, Classical.choice, Quot.sound
* `Ccpp.RM.C80_example`: propext, Classical.choice, Quot.sound
* `Ccpp.RM.C80_example_refused`: propext, Classical.choice, Quot.sound
## C81 (partial)
* `Ccpp.VT.C81_accept_partial`: propext, Classical.choice, Quot.sound
* `Ccpp.VT.C81_result`: propext, Classical.choice, Quot.sound
* `Ccpp.VT.C81_unique`: propext, Classical.choice, Quot.sound
* `Ccpp.VT.C81_wrong`: propext, Classical.choice, Quot.sound
* `Ccpp.VT.C81_twice_module`: propext, Classical.choice, Quot.sound
* `Ccpp.VT.C81_endless_module`: propext, Classical.choice, Quot.sound
* `Ccpp.VT.C81_blank_violated`: propext, Classical.choice, Quot.sound
* `Ccpp.VT.C81_old_violated`: propext, Classical.choice, Quot.sound
* `Ccpp.VT.C81_unfinished_violated`: propext, Classical.choice, Quot.sound
* `Ccpp.VT.C81_fortran_violated`: propext, Classical.choice, Quot.sound
* `Ccpp.VT.C81_example`: propext, Classical.choice, Quot.sound
* `Ccpp.VT.C81_refusals`: propext, Classical.choice, Quot.sound
* `Ccpp.VT.C81_wrong_example`: propext, Classical.choice, Quot.sound
## C82 (partial)
* `Ccpp.HC.C82_dictionary`: propext, Classical.choice, Quot.sound
* `Ccpp.HC.C82_loop_dims`: propext, Classical.choice, Quot.sound
* `Ccpp.HC.C82_accept_partial`: propext, Classical.choice, Quot.sound
* `Ccpp.HC.C82_entries`: propext, Classical.choice, Quot.sound
* `Ccpp.HC.C82_register`: propext, Classical.choice, Quot.sound
* `Ccpp.HC.C82_cap_register`: propext, Classical.choice, Quot.sound
* `Ccpp.HC.C82_slots`: propext, Classical.choice, Quot.sound
* `Ccpp.HC.C82_example_cap`: propext, Classical.choice, Quot.sound
* `Ccpp.HC.C82_example_reg`: propext, Classical.choice, Quot.sound
* `Ccpp.HC.C82_example_slots`: propext, Classical.choice, Quot.sound
* `Ccpp.HC.C82_example_conflict`: propext, Classical.choice, Quot.sound
* `Ccpp.HC.C82_second_suite_violated`: propext, Classical.choice, Quot.sound
* `Ccpp.HC.C82_dims_violated`: propext, Classical.choice, Quot.sound
* `Ccpp.HC.C82_tendency_name_violated`: propext, Classical.choice, Quot.sound
* `Ccpp.HC.C82_index_violated`: propext, Classical.choice, Quot.sound
* `Ccpp.HC.C82_empty_violated`: propext, Classical.choice, Quot.sound
* `Ccpp.HC.C82_again_violated`: propext, Classical.choice, Quot.sound
* `Ccpp.HC.C82_copy`: propext, Quot.sound
* `Ccpp.HC.C82_copy_violated`: propext, Quot.sound
## C83 (partial)
* `Ccpp.DC.C83_inactive`: propext, Classical.choice, Quot.sound
* `Ccpp.DC.C83_out`: propext, Classical.choice, Quot.sound
* `Ccpp.DC.C83_check_argument`: propext, Classical.choice, Quot.sound
* `Ccpp.DC.C83_check_own`: propext, Classical.choice, Quot.sound
* `Ccpp.DC.C83_frame`: propext, Classical.choice, Quot.sound
* `Ccpp.DC.C83_block`: propext, Classical.choice, Quot.sound
* `Ccpp.DC.C83_reads_argument`: propext, Classical.choice, Quot.sound
* `Ccpp.DC.C83_reads_own`: propext, Classical.choice, Quot.sound
* `Ccpp.DC.C83_written_iff`: propext, Classical.choice, Quot.sound
* `Ccpp.DC.C83_added`: propext, Classical.choice, Quot.sound
* `Ccpp.DC.C83_internal_types_partial`: propext, Classical.choice, Quot.sound
* `Ccpp.DC.C83_internal_legal`: propext, Classical.choice, Quot.sound
* `Ccpp.DC.C83_example_text`: propext, Classical.choice, Quot.sound
* `Ccpp.DC.C83_shape_violated`: propext, Classical.choice, Quot.sound
* `Ccpp.DC.C83_lower_bound_violated`: propext, Classical.choice, Quot.sound
* `Ccpp.DC.C83_empty_violated`: propext, Classical.choice, Quot.sound
* `Ccpp.DC.C83_own_columns_violated`: propext, Classical.choice, Quot.sound
* `Ccpp.DC.C83_message_violated`: propext, Classical.choice, Quot.sound
* `Ccpp.DC.C83_number_violated`: propext, Classical.choice, Quot.sound
* `Ccpp.DC.C83_horizontal_missing_violated`: propext, Classical.choice, Quot.sound
* `Ccpp.DC.C83_internal_types_violated`: propext, Classical.choice, Quot.sound
* `Ccpp.DC.C83_internal_legal_violated`: propext, Classical.choice, Quot.sound
## C84 (partial)
* `Ccpp.Lit.C84_integer`: propext, Classical.choice, Quot.sound
* `Ccpp.Lit.C84_real`: propext, Classical.choice, Quot.sound
* `Ccpp.Lit.C84_logical`: propext, Classical.choice, Quot.sound
* `Ccpp.Lit.C84_character`: propext, Classical.choice, Quot.sound
* `Ccpp.Lit.C84_complex`: propext, Classical.choice, Quot.sound
* `Ccpp.Lit.C84_total`: propext, Classical.choice, Quot.sound
* `Ccpp.Lit.C84_character_index`: propext, Classical.choice, Quot.sound
* `Ccpp.Lit.C84_complex_index`: propext, Classical.choice, Quot.sound
* `Ccpp.Lit.C84_other_type`: propext, Classical.choice, Quot.sound
* `Ccpp.Lit.C84_default_untyped`: propext, Classical.choice, Quot.sound
* `Ccpp.Lit.C84_default_iff`: propext, Classical.choice, Quot.sound
* `Ccpp.Lit.C84_default_error`: propext, Classical.choice, Quot.sound
* `Ccpp.Lit.C84_complete_partial`: propext, Classical.choice, Quot.sound
* `Ccpp.Lit.C84_sound_partial`: propext, Classical.choice, Quot.sound
* `Ccpp.Lit.C84_character_complete_partial`: propext, Classical.choice, Quot.sound
* `Ccpp.Lit.C84_example`: propext, Classical.choice, Quot.sound
* `Ccpp.Lit.C84_example_spec`: propext, Classical.choice, Quot.sound
* `Ccpp.Lit.C84_underscore_violated`: propext, Classical.choice, Quot.sound
* `Ccpp.Lit.C84_kind_case_violated`: propext, Classical.choice, Quot.sound
* `Ccpp.Lit.C84_character_underscore_violated`: propext, Classical.choice, Quot.sound
* `Ccpp.Lit.C84_character_length_violated`: propext, Classical.choice, Quot.sound
* `Ccpp.Lit.C84_delimiter_violated`: propext, Classical.choice, Quot.sound
* `Ccpp.Lit.C84_crash_violated`: propext, Classical.choice, Quot.sound
* `Ccpp.Lit.C84_double_violated`: propext, Classical.choice, Quot.sound
## C85 (partial)
* `Ccpp.RC.C85_units`: propext, Classical.choice, Quot.sound
* `Ccpp.RC.C85_units_reject`: none
* `Ccpp.RC.C85_ref`: propext, Classical.choice, Quot.sound
* `Ccpp.RC.C85_ref_reject`: propext
* `Ccpp.RC.C85_local_name`: propext, Classical.choice, Quot.sound
* `Ccpp.RC.C85_type`: propext, Classical.choice, Quot.sound
* `Ccpp.RC.C85_intrinsic`: propext, Classical.choice, Quot.sound
* `Ccpp.RC.C85_register`: propext, Classical.choice, Quot.sound
* `Ccpp.RC.C85_diagnostic`: propext, Classical.choice, Quot.sound
* `Ccpp.RC.C85_diagnostic_fixed`: propext, Classical.choice, Quot.sound
* `Ccpp.RC.C85_diagnostic_exclusive`: propext, Classical.choice, Quot.sound
* `Ccpp.RC.C85_diagnostic_legal_partial`: propext, Classical.choice, Quot.sound
* `Ccpp.RC.C85_example_units`: propext, Classical.choice, Quot.sound
* `Ccpp.RC.C85_example_ref`: propext, Classical.choice, Quot.sound
* `Ccpp.RC.C85_example_ref_spec`: propext, Classical.choice, Quot.sound
* `Ccpp.RC.C85_example_units_spec`: propext, Classical.choice, Quot.sound
* `Ccpp.RC.C85_example_local_name`: propext, Classical.choice, Quot.sound
* `Ccpp.RC.C85_example_type`: propext, Classical.choice, Quot.sound
* `Ccpp.RC.C85_example_diagnostic`: propext, Classical.choice, Quot.sound
* `Ccpp.RC.C85_example_diagnostic_spec`: propext, Classical.choice, Quot.sound
* `Ccpp.RC.C85_one_letter_violated`: propext, Classical.choice, Quot.sound
* `Ccpp.RC.C85_separator_violated`: propext, Classical.choice, Quot.sound
* `Ccpp.RC.C85_newline_violated`: propext, Classical.choice, Quot.sound
* `Ccpp.RC.C85_subscripts_violated`: propext, Classical.choice, Quot.sound
* `Ccpp.RC.C85_double_violated`: propext, Classical.choice, Quot.sound
* `Ccpp.RC.C85_double_example`: propext, Classical.choice, Quot.sound
* `Ccpp.RC.C85_case_violated`: propext, Classical.choice, Quot.sound
* `Ccpp.RC.C85_empty_diagnostic_violated`: propext, Classical.choice, Quot.sound
* `Ccpp.RC.C85_crash_violated`: propext, Classical.choice, Quot.sound
## C86 (partial)
* `Ccpp.VE.C86_accept`: propext, Classical.choice, Quot.sound
* `Ccpp.VE.C86_values`: propext, Classical.choice, Quot.sound
* `Ccpp.VE.C86_order`: propext, Classical.choice, Quot.sound
* `Ccpp.VE.C86_invariant`: propext, Classical.choice, Quot.sound
* `Ccpp.VE.C86_reported_partial`: propext, Classical.choice, Quot.sound
* `Ccpp.VE.C86_example`: propext, Classical.choice, Quot.sound
* `Ccpp.VE.C86_example_clean`: propext, Classical.choice, Quot.sound
* `Ccpp.VE.C86_example_section`: propext, Classical.choice, Quot.sound
* `Ccpp.VE.C86_example_reported`: propext, Classical.choice, Quot.sound
* `Ccpp.VE.C86_empty_violated`: propext, Classical.choice, Quot.sound
* `Ccpp.VE.C86_unknown_violated`: propext, Classical.choice, Quot.sound
* `Ccpp.VE.C86_mass_violated`: propext, Classical.choice, Quot.sound
* `Ccpp.VE.C86_two_types_violated`: propext, Classical.choice, Quot.sound
* `Ccpp.VE.C86_duplicate_violated`: propext, Classical.choice, Quot.sound
* `Ccpp.VE.C86_kind_violated`: propext, Classical.choice, Quot.sound
* `Ccpp.VE.C86_crash_violated`: propext, Classical.choice, Quot.sound
* `Ccpp.VE.C86_text_violated`: propext, Classical.choice, Quot.sound
## C87 (partial)
* `Ccpp.CF.C87_accept`: propext, Classical.choice, Quot.sound
* `Ccpp.CF.C87_refused`: propext, Classical.choice, Quot.sound
* `Ccpp.CF.C87_duplicate`: propext, Classical.choice, Quot.sound
* `Ccpp.CF.C87_crash`: propext, Classical.choice, Quot.sound
* `Ccpp.CF.C87_types`: propext, Classical.choice, Quot.sound
* `Ccpp.CF.C87_order`: propext, Classical.choice, Quot.sound
* `Ccpp.CF.C87_order_example`: propext, Classical.choice, Quot.sound
* `Ccpp.CF.C87_example`: propext, Classical.choice, Quot.sound
* `Ccpp.CF.C87_example_meets`: propext, Classical.choice, Quot.sound
* `Ccpp.CF.C87_table_violated`: propext, Classical.choice, Quot.sound
* `Ccpp.CF.C87_table_violated_example`: propext, Classical.choice, Quot.sound
* `Ccpp.CF.C87_case_violated`: propext, Classical.choice, Quot.sound
## C88 (partial)
* `Ccpp.CG.C88_list`: propext, Quot.sound
* `Ccpp.CG.C88_list_total`: propext, Quot.sound
* `Ccpp.CG.C88_datatable_violated`: propext, Classical.choice, Quot.sound
* `Ccpp.CG.C88_generated_violated`: propext, Classical.choice, Quot.sound
* `Ccpp.CG.C88_example_datatable`: propext, Classical.choice, Quot.sound
* `Ccpp.CG.C88_example_list`: propext, Classical.choice, Quot.sound
## C89 (partial)
* `Ccpp.FFile.C89_file_partial`: propext, Classical.choice, Quot.sound
* `Ccpp.FFile.C89_ends`: propext, Classical.choice, Quot.sound
* `Ccpp.FFile.C89_no_module_violated`: propext, Classical.choice, Quot.sound
* `Ccpp.FFile.C89_file_violated`: propext, Classical.choice, Quot.sound
* `Ccpp.FFile.C89_example`: propext, Classical.choice, Quot.sound
## C90 (partial)
* `Ccpp.VText.C90_declares`: propext, Classical.choice, Quot.sound
* `Ccpp.VText.C90_attributes_partial`: propext, Classical.choice, Quot.sound
* `Ccpp.VText.C90_read_partial`: propext, Classical.choice, Quot.sound
* `Ccpp.VText.C90_constant`: propext, Classical.choice, Quot.sound
* `Ccpp.VText.C90_error`: propext, Classical.choice, Quot.sound
* `Ccpp.VText.C90_pointer`: propext, Classical.choice, Quot.sound
* `Ccpp.VText.C90_pointer_null`: propext, Classical.choice, Quot.sound
* `Ccpp.VText.C90_target_violated`: propext, Classical.choice, Quot.sound
* `Ccpp.VText.C90_optional_violated`: propext, Classical.choice, Quot.sound
* `Ccpp.VText.C90_intent_violated`: propext, Classical.choice, Quot.sound
* `Ccpp.VText.C90_twice_violated`: propext, Classical.choice, Quot.sound
* `Ccpp.VText.C90_example`: propext, Classical.choice, Quot.sound
* `Ccpp.VText.C90_example_handled`: propext, Classical.choice, Quot.sound
## C91 (partial)
* `Ccpp.VRef.C91_subscripts`: propext, Classical.choice, Quot.sound
* `Ccpp.VRef.C91_mismatch`: propext, Classical.choice, Quot.sound
* `Ccpp.VRef.C91_dimensions`: propext, Classical.choice, Quot.sound
* `Ccpp.VRef.C91_colons`: propext, Classical.choice, Quot.sound
* `Ccpp.VRef.C91_argument`: propext, Classical.choice, Quot.sound
* `Ccpp.VRef.C91_declarable`: propext, Classical.choice, Quot.sound
* `Ccpp.VRef.C91_number_violated`: propext, Classical.choice, Quot.sound
* `Ccpp.VRef.C91_example`: propext, Classical.choice, Quot.sound
* `Ccpp.VRef.C91_example_named`: propext, Classical.choice, Quot.sound
## C92 (partial)
* `Ccpp.DimS.mem_dimStdnames`: propext, Classical.choice, Quot.sound
* `Ccpp.DimS.C92_sources_partial`: propext, Classical.choice, Quot.sound
* `Ccpp.DimS.C92_empty_partial`: propext, Classical.choice, Quot.sound
* `Ccpp.DimS.C92_order_partial`: propext, Classical.choice, Quot.sound
* `Ccpp.DimS.C92_example`: propext, Classical.choice, Quot.sound
* `Ccpp.DimS.C92_example_excluded`: propext, Classical.choice, Quot.sound
* `Ccpp.DimS.C92_empty_target_violated`: propext, Classical.choice, Quot.sound
* `Ccpp.DimS.C92_reproducible_violated`: propext, Classical.choice, Quot.sound
* `Ccpp.DimS.C92_local_name_violated`: propext, Classical.choice, Quot.sound
* `Ccpp.DimS.C92_removed_violated`: propext, Classical.choice, Quot.sound
## C93 (partial)
* `Ccpp.TText.C93_forward_partial`: propext, Classical.choice, Quot.sound
* `Ccpp.TText.C93_reverse_partial`: propext, Classical.choice, Quot.sound
* `Ccpp.TText.C93_undo`: propext, Classical.choice, Quot.sound
* `Ccpp.TText.C93_example_exists`: propext, Classical.choice, Quot.sound
* `Ccpp.TText.C93_example_both`: propext, Classical.choice, Quot.sound
* `Ccpp.TText.C93_example_units`: propext, Classical.choice, Quot.sound
* `Ccpp.TText.C93_complex_violated`: propext, Classical.choice, Quot.sound
* `Ccpp.TText.C93_integer_kind_violated`: propext, Classical.choice, Quot.sound
* `Ccpp.TText.C93_integer_units_violated`: propext, Classical.choice, Quot.sound
## C94 (proved)
* `Ccpp.ArgW.C94_list`: propext, Classical.choice, Quot.sound
* `Ccpp.ArgW.C94_explicit`: propext, Classical.choice, Quot.sound
* `Ccpp.ArgW.C94_lines`: propext, Classical.choice, Quot.sound
* `Ccpp.ArgW.C94_lines_explicit`: propext, Classical.choice, Quot.sound
* `Ccpp.ArgW.C94_limit`: propext, Classical.choice, Quot.sound
* `Ccpp.ArgW.C94_repeated_violated`: propext, Classical.choice, Quot.sound
## C95 (proved)
* `Ccpp.Pretty.C95_words`: propext, Classical.choice, Quot.sound
* `Ccpp.Pretty.C95_table`: propext, Classical.choice, Quot.sound
* `Ccpp.Pretty.C95_children`: propext, Classical.choice, Quot.sound
* `Ccpp.Pretty.C95_lines`: propext, Classical.choice, Quot.sound
* `Ccpp.Pretty.C95_table_lines`: propext, Classical.choice, Quot.sound
* `Ccpp.Pretty.C95_children_lines`: propext, Classical.choice, Quot.sound
* `Ccpp.Pretty.C95_indented`: propext, Classical.choice, Quot.sound
* `Ccpp.Pretty.C95_fills`: propext, Classical.choice, Quot.sound
* `Ccpp.Pretty.C95_no_wrap`: propext, Classical.choice, Quot.sound
## C96 (partial)
* `Ccpp.LoopAct.C96_partial`: propext, Classical.choice, Quot.sound
* `Ccpp.LoopAct.C96_names`: propext, Classical.choice, Quot.sound
* `Ccpp.LoopAct.C96_meaning`: propext, Classical.choice, Quot.sound
* `Ccpp.LoopAct.C96_deterministic`: propext, Classical.choice, Quot.sound
* `Ccpp.LoopAct.C96_name_violated`: propext, Classical.choice, Quot.sound
* `Ccpp.LoopAct.C96_created_violated`: propext, Classical.choice, Quot.sound
## C97 (partial)
* `Ccpp.Proto.C97_prototype_partial`: propext, Classical.choice, Quot.sound
* `Ccpp.Proto.C97_later_violated`: propext, Classical.choice, Quot.sound
## C98 (partial)
* `Ccpp.Inspect.C98_parts_partial`: propext, Classical.choice, Quot.sound
* `Ccpp.Inspect.C98_schemes`: propext, Classical.choice, Quot.sound
* `Ccpp.Inspect.C98_suites`: propext, Classical.choice, Quot.sound
* `Ccpp.Inspect.C98_reserved_violated`: propext, Classical.choice, Quot.sound
## C99 (partial)
* `Ccpp.Fixed.C99_fixed_form_partial`: propext, Classical.choice, Quot.sound
* `Ccpp.Fixed.C99_bang_violated`: propext, Classical.choice, Quot.sound
* `Ccpp.Fixed.C99_comment_violated`: propext, Classical.choice, Quot.sound
* `Ccpp.Fixed.C99_column_violated`: propext, Classical.choice, Quot.sound
