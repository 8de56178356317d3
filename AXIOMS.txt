C01_all_errors_reported [propext, Classical.choice, Quot.sound]
C01_validation [propext, Classical.choice, Quot.sound]
C01_validation_any_class [propext, Classical.choice, Quot.sound]
C02_new_is_strict [propext, Classical.choice, Quot.sound]
C02_strict_rejects_unknown [propext, Classical.choice, Quot.sound]
C03_unknown_keys_ignored [propext, Classical.choice, Quot.sound]
C04_at_every_depth [propext, Classical.choice, Quot.sound]
C04_only_declared_fields [propext, Classical.choice, Quot.sound]
C05_required_at_every_depth [propext, Classical.choice, Quot.sound]
C05_required_top [propext, Classical.choice, Quot.sound]
C06_new_ignores_required [propext, Classical.choice, Quot.sound]
C06_partial_is_optional [propext, Classical.choice, Quot.sound]
C07_any_run [propext, Classical.choice, Quot.sound]
C07_defaults_only_for_absent [propext, Classical.choice, Quot.sound]
C07_new_fills_in [propext, Classical.choice, Quot.sound]
C08_init_leaves_nothing_undefined [propext, Classical.choice, Quot.sound]
C08_new_initialises [propext, Classical.choice, Quot.sound]
C09_any_run [propext, Classical.choice, Quot.sound]
C09_name_precedence [propext, Classical.choice, Quot.sound]
C102_counterexample_hollow [propext, Classical.choice, Quot.sound]
C102_counterexample_setter [propext, Classical.choice, Quot.sound]
C102_crash_ends [propext, Classical.choice, Quot.sound]
C102_errors_reported [propext, Classical.choice, Quot.sound]
C102_every_value [propext, Classical.choice, Quot.sound]
C102_methods [propext, Classical.choice, Quot.sound]
C102_no_validators_after_error [propext, Classical.choice, Quot.sound]
C102_once [propext, Classical.choice, Quot.sound]
C102_order [propext, Classical.choice, Quot.sound]
C102_steady [propext, Classical.choice, Quot.sound]
C102_value [propext, Classical.choice, Quot.sound]
C102_watching [propext, Classical.choice, Quot.sound]
C102_witness_order [propext, Classical.choice, Quot.sound]
C107_fields [propext, Classical.choice, Quot.sound]
C107_recovery [propext, Classical.choice, Quot.sound]
C107_returns [propext, Classical.choice, Quot.sound]
C107_uninterrupted [propext, Classical.choice, Quot.sound]
C107_valid_layer [propext, Classical.choice, Quot.sound]
C107_valid_values [propext, Classical.choice, Quot.sound]
C108_before_or_after [propext, Classical.choice, Quot.sound]
C108_no_error [propext, Classical.choice, Quot.sound]
C108_other_fields [propext, Classical.choice, Quot.sound]
C108_reads [propext, Classical.choice, Quot.sound]
C109_not_lost [propext, Classical.choice, Quot.sound]
C109_one_order [propext, Classical.choice, Quot.sound]
C109_reads_own [propext, Classical.choice, Quot.sound]
C10_fields_independent [propext, Classical.choice, Quot.sound]
C113_convert_as_in_models [propext, Classical.choice, Quot.sound]
C113_convert_model_type [propext, Classical.choice, Quot.sound]
C113_convert_no_instance [propext, Classical.choice, Quot.sound]
C113_convert_poly [propext, Classical.choice, Quot.sound]
C113_convert_poly_instance [propext, Classical.choice, Quot.sound]
C113_export_as_in_models [propext, Classical.choice, Quot.sound]
C113_export_bare [propext, Classical.choice, Quot.sound]
C113_export_bare_model [propext, Classical.choice, Quot.sound]
C113_validate_as_in_models [propext, Classical.choice, Quot.sound]
C113_validate_model_list [propext, Classical.choice, Quot.sound]
C113_validate_model_type [propext, Classical.choice, Quot.sound]
C113_validate_poly [propext, Classical.choice, Quot.sound]
C11_any_run [propext, Classical.choice, Quot.sound]
C11_trusted_survives [propext, Classical.choice, Quot.sound]
C12_data_of_failed_import [propext, Classical.choice, Quot.sound]
C12_every_field [propext, Classical.choice, Quot.sound]
C12_failed_field [propext, Classical.choice, Quot.sound]
C12_validated_fields [propext, Classical.choice, Quot.sound]
C13_list_elementwise [propext, Classical.choice, Quot.sound]
C14_dict_valuewise [propext, Classical.choice, Quot.sound]
C15_error_tree_mirrors_data [propext, Classical.choice, Quot.sound]
C15_field_error_tree [propext, Classical.choice, Quot.sound]
C15_field_validation_tree [propext, Classical.choice, Quot.sound]
C15_validation_tree_mirrors_data [propext, Classical.choice, Quot.sound]
C16_conversion_idempotent [propext, Classical.choice, Quot.sound]
C16_counterexample_alias_clash [propext, Classical.choice, Quot.sound]
C16_counterexample_poly_validation [propext, Classical.choice, Quot.sound]
C16_field_idempotent [propext, Classical.choice, Quot.sound]
C17_validated_everywhere [propext, Classical.choice, Quot.sound]
C18_builtin_checks [propext, Classical.choice, Quot.sound]
C18_validators_all_run [propext, Classical.choice, Quot.sound]
C19_validation_restricts_conversion [propext, Classical.choice, Quot.sound]
C20_each_runs_once_in_order [propext, Quot.sound]
C20_methods_in_order [propext, Classical.choice, Quot.sound]
C20_model_validators [propext, Classical.choice, Quot.sound]
C20_other_exceptions_escape [propext, Classical.choice, Quot.sound]
C21_counterexample_convert_false [propext, Classical.choice, Quot.sound]
C21_counterexample_functional [propext, Classical.choice, Quot.sound]
C21_nested_validators_run [propext, Classical.choice, Quot.sound]
C22_compound_default_diverges [propext, Classical.choice, Quot.sound]
C22_depth_exists [propext, Quot.sound]
C22_import_terminates [propext, Classical.choice, Quot.sound]
C22_outcome_independent_of_stack [propext, Classical.choice, Quot.sound]
C23_whitelist_everywhere [propext, Classical.choice, Quot.sound]
C23_whitelist_never_leaks [propext, Classical.choice, Quot.sound]
C24_blacklist_removes_exactly [propext, Classical.choice, Quot.sound]
C25_role_lookup [propext, Classical.choice, Quot.sound]
C25_role_rule_everywhere [propext, Classical.choice, Quot.sound]
C26_add [propext]
C26_decision_by_membership [propext]
C26_equality [propext, Quot.sound]
C26_set_operators [propext, Quot.sound]
C26_sub [propext, Quot.sound]
C27_dict_entries [propext, Classical.choice, Quot.sound]
C27_levels_decide_presence [propext, Classical.choice, Quot.sound]
C27_list_items [propext, Classical.choice, Quot.sound]
C27_list_keeps_length [propext, Classical.choice, Quot.sound]
C28_level_monotone [propext, Classical.choice, Quot.sound]
C29_call_level_wins [propext, Classical.choice, Quot.sound]
C29_field_level_wins [propext, Classical.choice, Quot.sound]
C29_model_level_is_the_fields_default [propext, Classical.choice, Quot.sound]
C30_export_in_field_order [propext, Classical.choice, Quot.sound]
C30_export_succeeds [propext, Classical.choice, Quot.sound]
C30_nested_dict [propext, Classical.choice, Quot.sound]
C30_nested_instance [propext, Classical.choice, Quot.sound]
C31_imported_instance_is_json [propext, Classical.choice, Quot.sound]
C31_primitive_is_json [propext, Classical.choice, Quot.sound]
C32_counterexample_none_item [propext, Classical.choice, Quot.sound]
C32_counterexample_swapped_names [propext, Classical.choice, Quot.sound]
C32_export_import_round_trip [propext, Classical.choice, Quot.sound]
C32_imported_round_trip [propext, Classical.choice, Quot.sound]
C33_assignment_succeeds [propext, Classical.choice, Quot.sound]
C33_counterexample_lazy [propext, Classical.choice, Quot.sound]
C33_read_after_write [propext, Classical.choice, Quot.sound]
C34_counterexample_after_validation [propext, Classical.choice, Quot.sound]
C34_counterexample_resurfacing [propext, Classical.choice, Quot.sound]
C34_delete [propext, Classical.choice, Quot.sound]
C34_delete_exact [propext, Classical.choice, Quot.sound]
C34_never_validated [propext, Classical.choice, Quot.sound]
C35_counterexample_lazy [propext, Classical.choice, Quot.sound]
C35_failed_import_unchanged [propext, Classical.choice, Quot.sound]
C36_counterexample_empty_input [propext, Classical.choice, Quot.sound]
C36_import_into_lazy [propext, Classical.choice, Quot.sound]
C36_import_updates_given [propext, Classical.choice, Quot.sound]
C37_counterexample_input_never_used [propext, Classical.choice, Quot.sound]
C37_counterexample_never_used_any_class [propext, Classical.choice, Quot.sound]
C37_counterexample_new_value_ignored [propext, Classical.choice, Quot.sound]
C37_new_field [propext, Classical.choice, Quot.sound]
C37_new_field_any_class [propext, Classical.choice, Quot.sound]
C38_validate_twice [propext, Classical.choice, Quot.sound]
C39_any_class [propext, Classical.choice, Quot.sound]
C39_counterexample_defaults [propext, Classical.choice, Quot.sound]
C39_counterexample_nested [propext, Classical.choice, Quot.sound]
C39_failed_validation_keeps_valid [propext, Classical.choice, Quot.sound]
C40_any_class [propext, Classical.choice, Quot.sound]
C40_counterexample_crash [propext, Classical.choice, Quot.sound]
C40_counterexample_lazy [propext, Classical.choice, Quot.sound]
C40_counterexample_readonly [propext, Classical.choice, Quot.sound]
C40_serialize_only_valid [propext, Classical.choice, Quot.sound]
C41_counterexample_len [propext, Classical.choice, Quot.sound]
C41_counterexample_serializable [propext, Classical.choice, Quot.sound]
C41_counterexample_undefined [propext, Classical.choice, Quot.sound]
C41_keys_items_values [propext]
C41_reads_agree [propext, Classical.choice, Quot.sound]
C41_unknown_names [propext, Classical.choice, Quot.sound]
C42_counterexample_symmetry [propext, Classical.choice, Quot.sound]
C42_counterexample_transitivity [propext, Classical.choice, Quot.sound]
C42_equality [propext, Classical.choice, Quot.sound]
C42_value_equality [propext, Classical.choice, Quot.sound]
C66_chosen_is_candidate [propext, Classical.choice, Quot.sound]
C66_counterexample_falsy_value [propext, Classical.choice, Quot.sound]
C66_counterexample_listed_twice [propext, Classical.choice, Quot.sound]
C66_export [propext, Classical.choice, Quot.sound]
C66_failure_not_collected [propext]
C66_find_model [propext, Classical.choice, Quot.sound]
C66_import_class [propext, Classical.choice, Quot.sound]
C66_instances_unchecked [propext, Classical.choice, Quot.sound]
C66_unique_claim [propext, Classical.choice, Quot.sound]
C75_counterexample_leak [propext, Classical.choice, Quot.sound]
C75_nested_mapping [propext, Classical.choice, Quot.sound]
C75_outer_mapping_not_applied [propext, Classical.choice, Quot.sound]
C76_any_class [propext, Classical.choice, Quot.sound]
C76_counterexample_lazy [propext, Classical.choice, Quot.sound]
C76_validate_checks_current_values [propext, Classical.choice, Quot.sound]
C83_conversion_errors_reported [propext, Classical.choice, Quot.sound]
C83_crash [propext, Classical.choice, Quot.sound]
C83_plain_dict [propext, Classical.choice, Quot.sound]
C83_setters [propext, Classical.choice, Quot.sound]
C91_failed_access_unchanged [propext, Classical.choice, Quot.sound]
C91_rollback [propext, Classical.choice, Quot.sound]
C91_rollback_content [propext, Classical.choice, Quot.sound]
C91_serialize_rollback [propext, Classical.choice, Quot.sound]
C92_as_values [propext, Classical.choice, Quot.sound]
C92_counterexample_lazy [propext, Classical.choice, Quot.sound]
C92_counterexample_trusted [propext, Classical.choice, Quot.sound]
C92_input_unchanged [propext, Classical.choice, Quot.sound]
C92_instances_isolated [propext, Classical.choice, Quot.sound]
C95_argument [propext, Classical.choice, Quot.sound]
C95_calls [propext, Classical.choice, Quot.sound]
C95_counterexample_items [propext, Classical.choice, Quot.sound]
C95_counterexample_size [propext, Classical.choice, Quot.sound]
C95_failure [propext, Classical.choice, Quot.sound]
C95_only_permitted [propext, Classical.choice, Quot.sound]
C95_sequence [propext, Classical.choice, Quot.sound]
C95_standard [propext, Classical.choice, Quot.sound]
C95_watching [propext, Classical.choice, Quot.sound]
C96_counterexample_getter [propext, Classical.choice, Quot.sound]
C96_depth_exists [propext, Quot.sound]
C96_every_export_ends [propext, Classical.choice, Quot.sound]
C96_export_terminates [propext, Classical.choice, Quot.sound]
C96_outcome_independent_of_stack [propext, Classical.choice, Quot.sound]
C97_counterexample_data [propext, Classical.choice, Quot.sound]
C97_counterexample_error [propext, Classical.choice, Quot.sound]
C97_counterexample_shared [propext, Classical.choice, Quot.sound]
C97_counterexample_supplied [propext, Classical.choice, Quot.sound]
C97_factory_error [propext, Quot.sound]
C97_once [propext, Quot.sound]
C97_sequence [propext, Quot.sound]
C97_steady [propext, Classical.choice, Quot.sound]
EqGraph.C43_equal_iff_simulated [propext, Classical.choice, Quot.sound]
EqGraph.C43_no_residue [propext, Quot.sound]
EqGraph.C43_terminates [propext, Classical.choice, Quot.sound]
EqGraph.C43_thread_independent [propext, Classical.choice, Quot.sound]
EqGraph.C90_no_residue [propext, Classical.choice, Quot.sound]
EqGraph.C90_progress [propext, Classical.choice, Quot.sound]
EqGraph.C90_results [propext, Classical.choice, Quot.sound]
Exports.C104_complete [propext, Classical.choice, Quot.sound]
Exports.C104_crash_ends [propext, Classical.choice, Quot.sound]
Exports.C104_determined [propext, Classical.choice, Quot.sound]
Exports.C104_dropped [propext, Classical.choice, Quot.sound]
Exports.C104_errors [propext, Classical.choice, Quot.sound]
Exports.C104_getter_errors [propext, Classical.choice, Quot.sound]
Exports.C104_getters [propext, Classical.choice, Quot.sound]
Exports.C104_left_out [propext, Classical.choice, Quot.sound]
Exports.C104_once [propext, Classical.choice, Quot.sound]
Exports.C104_order [propext, Classical.choice, Quot.sound]
Exports.C104_reasons [propext, Classical.choice, Quot.sound]
Exports.C104_steady [propext, Classical.choice, Quot.sound]
Exports.C104_watching [propext, Classical.choice, Quot.sound]
Exports.Samples.C104_witness_events [propext, Classical.choice, Quot.sound]
Fresh.C93_counterexample_base [propext]
Fresh.C93_counterexample_failure [propext]
Fresh.C93_counterexample_poly [propext]
Fresh.C93_new [propext, Quot.sound]
Fresh.C93_no_alias [propext, Quot.sound]
Fresh.C93_nothing_changed [propext, Quot.sound]
Fresh.C93_own_change [propext, Quot.sound]
Fresh.C93_stays [propext, Quot.sound]
Fresh.C94_counterexample_base [propext]
Fresh.C94_new [propext, Quot.sound]
Fresh.C94_no_alias [propext, Quot.sound]
Fresh.C94_nothing_changed [propext, Quot.sound]
Fresh.C94_own_change [propext, Quot.sound]
Fresh.C94_snapshot [propext, Quot.sound]
ImportString.C105_agree [propext, Classical.choice, Quot.sound]
ImportString.C105_alone [propext, Classical.choice, Quot.sound]
ImportString.C105_counterexample_rebound [propext, Classical.choice, Quot.sound]
ImportString.C105_provenance [propext, Classical.choice, Quot.sound]
ImportString.C105_settled [propext, Classical.choice, Quot.sound]
ImportString.C105_wait_free [propext, Classical.choice, Quot.sound]
ImportString.C99_by_class [propext, Classical.choice, Quot.sound]
ImportString.C99_copy [propext, Classical.choice, Quot.sound]
ImportString.C99_copy_resolved [propext, Classical.choice, Quot.sound]
ImportString.C99_counterexample_bare [propext, Classical.choice, Quot.sound]
ImportString.C99_counterexample_base [propext, Classical.choice, Quot.sound]
ImportString.C99_counterexample_module [propext, Classical.choice, Quot.sound]
ImportString.C99_lazy [propext, Classical.choice, Quot.sound]
ImportString.C99_name_kept [propext, Classical.choice, Quot.sound]
ImportString.C99_names [propext, Classical.choice, Quot.sound]
ImportString.C99_own_name [propext, Classical.choice, Quot.sound]
ImportString.C99_resolution [propext, Classical.choice, Quot.sound]
ImportString.C99_stable [propext, Classical.choice, Quot.sound]
Lib.Atoms.C87_export_reads [propext, Classical.choice, Quot.sound]
Lib.Atoms.C87_filter [propext, Quot.sound]
Lib.Atoms.C87_instance [propext, Classical.choice, Quot.sound]
Lib.Atoms.C87_keys [propext, Quot.sound]
Lib.Atoms.C87_one_per_field [propext, Quot.sound]
Lib.Atoms.C87_setters [propext, Classical.choice, Quot.sound]
Lib.C106_alone [propext, Quot.sound]
Lib.C106_counterexample_mixed [propext]
Lib.C106_given_options [propext, Quot.sound]
Lib.C106_same_arguments [propext, Quot.sound]
Lib.C106_settled [propext, Quot.sound]
Lib.C106_some_call [propext, Quot.sound]
Lib.C68_comparison_total [propext, Classical.choice, Quot.sound]
Lib.C68_counterexample_comparison_raises [propext, Classical.choice, Quot.sound]
Lib.C68_counterexample_text [propext, Classical.choice, Quot.sound]
Lib.C68_equality [propext, Classical.choice, Quot.sound]
Lib.C68_equality_any [propext, Classical.choice, Quot.sound]
Lib.C68_equivalence [propext, Classical.choice, Quot.sound]
Lib.C68_hash [propext, Classical.choice, Quot.sound]
Lib.C68_order_irrelevant [propext, Classical.choice, Quot.sound]
Lib.C69_field_error [propext, Quot.sound]
Lib.C69_messages_preserved [propext]
Lib.C69_report [propext, Quot.sound]
Lib.C69_structure_preserved [propext, Quot.sound]
Lib.C70_branch [propext, Classical.choice, Quot.sound]
Lib.C70_call_options [propext, Quot.sound]
Lib.C70_defaults [propext, Quot.sound]
Lib.C70_second_call [propext, Quot.sound]
Lib.C70_write_once [propext, Quot.sound]
Lib.Callable.C81_arguments_in_order [propext, Classical.choice, Quot.sound]
Lib.Callable.C81_bound_with_context [propext, Quot.sound]
Lib.Callable.C81_context_by_keyword [propext, Classical.choice, Quot.sound]
Lib.Callable.C81_context_iff_declared [propext, Classical.choice, Quot.sound]
Lib.Callable.C81_counterexample_bound [propext, Classical.choice, Quot.sound]
Lib.Callable.C81_counterexample_prepared_twice [propext, Classical.choice, Quot.sound]
Lib.Callable.C81_counterexample_zero_keyword [propext]
Lib.Callable.C81_keyword_needs_a_context_parameter [propext, Quot.sound]
Lib.Callable.C81_varargs_without_context [propext]
Lib.DataObject.C111_attributes [propext, Quot.sound]
Lib.DataObject.C111_copy [propext, Quot.sound]
Lib.DataObject.C111_new [propext, Quot.sound]
Lib.DataObject.C111_only_target [propext, Quot.sound]
Lib.DataObject.C111_returns [propext]
Lib.DataObject.C111_to_dict [propext, Classical.choice, Quot.sound]
Lib.DataObject.C111_to_dict_cycle [propext]
Lib.DataObject.C111_to_dict_unique [propext]
Lib.DataObject.C112_copy [propext, Classical.choice, Quot.sound]
Lib.DataObject.C112_indistinct [propext, Classical.choice, Quot.sound]
Lib.DataObject.C112_itself [propext, Classical.choice, Quot.sound]
Lib.DataObject.C112_returns [propext, Classical.choice, Quot.sound]
Lib.DataObject.C112_symmetric [propext, Classical.choice, Quot.sound]
Lib.DataObject.C112_transitive [propext, Classical.choice, Quot.sound]
Lib.DataObject.Sample.C111_counterexample_shallow [propext]
Lib.DataObject.Sample.C111_counterexample_update [propext]
Lib.DataObject.SampleEq.C112_counterexample_circle [propext, Classical.choice, Quot.sound]
Lib.DataObject.SampleEq.C112_counterexample_order [propext, Classical.choice, Quot.sound]
Lib.ErrorHeap.C101_compound [propext, Quot.sound]
Lib.ErrorHeap.C101_constructed [propext, Classical.choice, Quot.sound]
Lib.ErrorHeap.C101_contents_fixed [propext, Classical.choice, Quot.sound]
Lib.ErrorHeap.C101_counterexample_lazy [propext]
Lib.ErrorHeap.C101_counterexample_list [propext]
Lib.ErrorHeap.C101_counterexample_report_written [propext]
Lib.ErrorHeap.C101_counterexample_reused_message [propext, Classical.choice, Quot.sound]
Lib.ErrorHeap.C101_counterexample_stale_hash [propext, Classical.choice, Quot.sound]
Lib.ErrorHeap.C101_equal_hashes [propext, Classical.choice, Quot.sound]
Lib.ErrorHeap.C101_hash_fixed [propext]
Lib.ErrorHeap.C101_hash_of_contents [propext, Classical.choice, Quot.sound]
Lib.ErrorHeap.C101_language [propext, Classical.choice, Quot.sound]
Lib.ErrorHeap.C101_report_fixed [propext, Classical.choice, Quot.sound]
Lib.ErrorHeap.C101_same_report [propext]
Lib.ErrorHeap.C101_structure_fixed [propext]
Lib.Machine.C74_can [propext, Classical.choice, Quot.sound]
Lib.Machine.C74_complete [propext, Classical.choice, Quot.sound]
Lib.Machine.C74_history [propext, Classical.choice, Quot.sound]
Lib.Machine.C74_step [propext, Classical.choice, Quot.sound]
Lib.Meta.C29_type_arguments [propext, Quot.sound]
Lib.Meta.C71_fields [propext, Classical.choice, Quot.sound]
Lib.Meta.C71_not_mro [propext]
Lib.Meta.C71_options [propext, Quot.sound]
Lib.Meta.C71_options_inherited [propext]
Lib.Meta.C71_order [propext, Classical.choice, Quot.sound]
Lib.Meta.C71_owner [propext, Classical.choice, Quot.sound]
Lib.Meta.C71_roles_not_merged [propext]
Lib.Meta.C71_validators [propext, Quot.sound]
Lib.Meta.C72_counterexample [propext]
Lib.Meta.C72_element_types [propext, Classical.choice, Quot.sound]
Lib.Meta.C72_fields [propext, Classical.choice, Quot.sound]
Lib.Meta.C72_history [propext, Classical.choice, Quot.sound]
Lib.Meta.C72_items [propext, Quot.sound]
Lib.Meta.C72_levels [propext, Classical.choice, Quot.sound]
Lib.Meta.C72_schemas [propext]
Lib.Meta.C85_class [propext, Classical.choice, Quot.sound]
Lib.Meta.C85_counterexample_shared [propext]
Lib.Meta.C85_history [propext, Classical.choice, Quot.sound]
Lib.Meta.C85_input_keys [propext, Classical.choice, Quot.sound]
Lib.Meta.C85_later_subclass [propext, Classical.choice, Quot.sound]
Lib.Meta.C85_objects [propext, Classical.choice, Quot.sound]
Lib.Meta.C85_own_names [propext, Classical.choice, Quot.sound]
Lib.Meta.C85_shared [propext, Classical.choice, Quot.sound]
Lib.Meta.C85_shared_append [propext, Classical.choice, Quot.sound]
Lib.Meta.C86_by_name [propext, Classical.choice, Quot.sound]
Lib.Meta.C86_counterexample_shared [propext]
Lib.Meta.C86_element [propext, Classical.choice, Quot.sound]
Lib.Meta.C86_field [propext, Classical.choice, Quot.sound]
Lib.Meta.C86_once [propext, Classical.choice, Quot.sound]
Lib.Meta.C86_subclass_keeps_base [propext]
Lib.MockObject.C77_counterexample_error [propext, Quot.sound]
Lib.MockObject.C77_counterexample_items [propext, Quot.sound]
Lib.MockObject.C77_counterexample_required [propext, Quot.sound]
Lib.MockObject.C77_error [propext, Classical.choice, Quot.sound]
Lib.MockObject.C77_fields [propext, Classical.choice, Quot.sound]
Lib.MockObject.C77_overrides [propext, Classical.choice, Quot.sound]
Lib.MockObject.C77_overrides_succeed [propext, Classical.choice, Quot.sound]
Lib.MockObject.C77_succeeds [propext, Classical.choice, Quot.sound]
Lib.MockObject.C77_terminates [propext, Classical.choice, Quot.sound]
Lib.MockObject.C77_values [propext, Quot.sound]
Lib.Serializable.C88_class [propext, Quot.sound]
Lib.Serializable.C88_counterexample_level [propext]
Lib.Serializable.C88_errors [propext, Quot.sound]
Lib.Serializable.C88_instance [propext, Classical.choice, Quot.sound]
Lib.Subclass.C82_counterexample_diamond [propext, Classical.choice, Quot.sound]
Lib.Subclass.C82_listed_once_iff [propext, Classical.choice, Quot.sound]
Lib.Subclass.C82_lists_the_descendants [propext, Classical.choice, Quot.sound]
Lib.Subclass.C82_one_entry_per_path [propext, Classical.choice, Quot.sound]
Lib.Subclass.C82_single_inheritance [propext, Classical.choice, Quot.sound]
Lib.Subclass.C82_unique_claim_single_inheritance [propext, Classical.choice, Quot.sound]
Lib.TypeClass.C80_counterexample_diamond [propext]
Lib.TypeClass.C80_counterexample_mixin [propext]
Lib.TypeClass.C80_instance_validators [propext]
Lib.TypeClass.C80_later_classes_change_nothing [propext, Quot.sound]
Lib.TypeClass.C80_messages [propext, Quot.sound]
Lib.TypeClass.C80_overriding [propext, Quot.sound]
Lib.TypeClass.C80_validator_order [propext, Quot.sound]
Lib.TypeClass.C80_validators_exactly [propext, Quot.sound]
Mocks.C103_built [propext, Classical.choice, Quot.sound]
Mocks.C103_counterexample_choices_of_items [propext, Classical.choice, Quot.sound]
Mocks.C103_counterexample_incomplete [propext, Classical.choice, Quot.sound]
Mocks.C103_counterexample_required_items [propext, Classical.choice, Quot.sound]
Mocks.C103_errors [propext, Classical.choice, Quot.sound]
Mocks.C103_mocks_acceptable [propext, Classical.choice, Quot.sound]
Mocks.C103_validates [propext, Classical.choice, Quot.sound]
Mocks.C103_values [propext, Classical.choice, Quot.sound]
Options.C100_counterexample_bases [propext, Classical.choice, Quot.sound]
Options.C100_counterexample_extras [propext, Classical.choice, Quot.sound]
Options.C100_counterexample_optionsclass [propext, Classical.choice, Quot.sound]
Options.C100_counterexample_private [propext, Classical.choice, Quot.sound]
Options.C100_counterexample_shared [propext, Classical.choice, Quot.sound]
Options.C100_dunder [propext, Classical.choice, Quot.sound]
Options.C100_extras_value [propext, Classical.choice, Quot.sound]
Options.C100_history [propext, Classical.choice, Quot.sound]
Options.C100_no_options [propext, Classical.choice, Quot.sound]
Options.C100_options [propext, Classical.choice, Quot.sound]
Options.C100_roles_own [propext, Classical.choice, Quot.sound]
Options.C100_roles_shared [propext, Classical.choice, Quot.sound]
Options.C100_unknown [propext, Classical.choice, Quot.sound]
Options.C100_unknown_inherited [propext, Classical.choice, Quot.sound]
Samples.C107_counterexample_invisible_assignment [propext, Classical.choice, Quot.sound]
Samples.C107_counterexample_lazy_loses [propext, Classical.choice, Quot.sound]
Samples.C107_counterexample_lazy_stuck [propext, Classical.choice, Quot.sound]
Samples.C107_counterexample_pending_lost [propext, Classical.choice, Quot.sound]
Samples.C107_counterexample_serialize_loses [propext, Classical.choice, Quot.sound]
Samples.C108_counterexample_key_error [propext, Classical.choice, Quot.sound]
Samples.C108_counterexample_lazy [propext, Classical.choice, Quot.sound]
Samples.C108_counterexample_torn [propext, Classical.choice, Quot.sound]
Samples.C109_counterexample_validate [propext, Classical.choice, Quot.sound]
Samples.C113_counterexample_export_format [propext, Classical.choice, Quot.sound]
Samples.C113_counterexample_poly_parent [propext, Classical.choice, Quot.sound]
Samples.C113_counterexample_validate_model [propext, Classical.choice, Quot.sound]
Types.C04_builtin_types [propext, Classical.choice, Quot.sound]
Types.C05_builtin_types [propext, Classical.choice, Quot.sound]
Types.C110_accepted [propext, Classical.choice, Quot.sound]
Types.C110_round_trip [propext, Classical.choice, Quot.sound]
Types.C110_same_digits [propext, Classical.choice, Quot.sound]
Types.C110_total [propext, Classical.choice, Quot.sound]
Types.C16_account [propext, Classical.choice, Quot.sound]
Types.C16_builtin_types [propext, Classical.choice, Quot.sound]
Types.C22_builtin_types [propext, Classical.choice, Quot.sound]
Types.C31_builtin_types [propext, Classical.choice, Quot.sound]
Types.C32_account [propext, Classical.choice, Quot.sound]
Types.C32_builtin_types [propext, Classical.choice, Quot.sound]
Types.C44_counterexample_infinity [propext, Classical.choice, Quot.sound]
Types.C44_int_conversion [propext, Classical.choice, Quot.sound]
Types.C44_int_refusal [propext, Classical.choice, Quot.sound]
Types.C45_decimal_nan [propext, Classical.choice, Quot.sound]
Types.C45_decimal_nan_text [propext, Classical.choice, Quot.sound]
Types.C45_int_range [propext, Classical.choice, Quot.sound]
Types.C45_nan [propext, Classical.choice, Quot.sound]
Types.C45_range [propext, Classical.choice, Quot.sound]
Types.C46_int_text [propext, Classical.choice, Quot.sound]
Types.C47_boolean [propext, Quot.sound]
Types.C47_boolean_idempotent [propext, Classical.choice, Quot.sound]
Types.C48_string_conversion [propext, Classical.choice, Quot.sound]
Types.C48_string_length [propext, Classical.choice, Quot.sound]
Types.C49_uuid_round_trip [propext, Classical.choice, Quot.sound]
Types.C50_counterexample_early_years [propext, Classical.choice, Quot.sound]
Types.C50_date_round_trip [propext, Classical.choice, Quot.sound]
Types.C50_iso_text [propext, Classical.choice, Quot.sound]
Types.C50_only_dates [propext, Classical.choice, Quot.sound]
Types.C51_counterexample_early_years [propext, Classical.choice, Quot.sound]
Types.C51_datetime_round_trip [propext, Classical.choice, Quot.sound]
Types.C51_default_round_trip [propext, Classical.choice, Quot.sound]
Types.C51_only_valid [propext, Classical.choice, Quot.sound]
Types.C51_utc_round_trip [propext, Classical.choice, Quot.sound]
Types.C52_converted_obeys_policy [propext, Classical.choice, Quot.sound]
Types.C52_reject_refuses_zoned [propext, Classical.choice, Quot.sound]
Types.C52_require_refuses_naive [propext, Classical.choice, Quot.sound]
Types.C52_validation_is_the_policy [propext]
Types.C53_converts [propext, Classical.choice, Quot.sound]
Types.C53_idempotent [propext, Classical.choice, Quot.sound]
Types.C53_same_instant [propext, Classical.choice, Quot.sound]
Types.C53_same_instant_text [propext, Classical.choice, Quot.sound]
Types.C54_counterexample_far_future [propext, Classical.choice, Quot.sound]
Types.C54_exports_seconds [propext, Classical.choice, Quot.sound]
Types.C54_timestamp_identity [propext, Classical.choice, Quot.sound]
Types.C54_timestamp_round_trip [propext, Classical.choice, Quot.sound]
Types.C55_counterexample_subsecond [propext, Classical.choice, Quot.sound]
Types.C55_out_of_range [propext, Classical.choice, Quot.sound]
Types.C55_seconds_truncate [propext, Classical.choice, Quot.sound]
Types.C55_subsecond [propext, Classical.choice, Quot.sound]
Types.C55_whole_units [propext, Classical.choice, Quot.sound]
Types.C56_decimal_round_trip [propext, Classical.choice, Quot.sound]
Types.C56_import_export_import [propext, Classical.choice, Quot.sound]
Types.C57_counterexample [propext, Classical.choice, Quot.sound]
Types.C57_hash_accepted [propext, Classical.choice, Quot.sound]
Types.C57_hash_accepts [propext, Classical.choice, Quot.sound]
Types.C58_ipv4_exact [propext, Classical.choice, Quot.sound]
Types.C59_ipv6_exact [propext, Classical.choice, Quot.sound]
Types.C60_accepts_addresses [propext, Classical.choice, Quot.sound]
Types.C60_counterexample_trailing_text [propext, Classical.choice, Quot.sound]
Types.C60_ip_exact [propext, Classical.choice, Quot.sound]
Types.C60_strict_types_refuse [propext, Classical.choice, Quot.sound]
Types.C61_counterexample_newline [propext, Classical.choice, Quot.sound]
Types.C61_counterexample_trailing_text [propext, Classical.choice, Quot.sound]
Types.C61_export_canonical [propext, Classical.choice, Quot.sound]
Types.C61_export_unique [propext, Classical.choice, Quot.sound]
Types.C61_mac_exact [propext, Classical.choice, Quot.sound]
Types.C62_bounds [propext, Classical.choice, Quot.sound]
Types.C62_conversion [propext, Classical.choice, Quot.sound]
Types.C62_dict_keys_ignored [propext, Classical.choice, Quot.sound]
Types.C63_fails_iff_none [propext, Classical.choice, Quot.sound]
Types.C63_first_available [propext, Classical.choice, Quot.sound]
Types.C63_int_text_breaks_validation [propext, Classical.choice, Quot.sound]
Types.C63_locale_names [propext, Classical.choice, Quot.sound]
Types.C64_alias [propext, Classical.choice, Quot.sound]
Types.C64_counterexample_nan [propext, Classical.choice, Quot.sound]
Types.C64_counterexample_value_is_name [propext, Classical.choice, Quot.sound]
Types.C64_name_roundtrip [propext, Classical.choice, Quot.sound]
Types.C64_only_members [propext, Classical.choice, Quot.sound]
Types.C64_value_roundtrip [propext, Classical.choice, Quot.sound]
Types.C65_all_refuse [propext, Classical.choice, Quot.sound]
Types.C65_conversion_error [propext, Classical.choice, Quot.sound]
Types.C65_counterexample_same_class [propext, Classical.choice, Quot.sound]
Types.C65_counterexample_validation_error [propext, Classical.choice, Quot.sound]
Types.C65_first_accepting [propext, Classical.choice, Quot.sound]
Types.C65_not_idempotent [propext, Classical.choice, Quot.sound]
Types.C65_own_validators_ignored [propext, Classical.choice, Quot.sound]
Types.C65_resolver [propext, Classical.choice, Quot.sound]
Types.C65_same_member [propext, Classical.choice, Quot.sound]
Types.C67_counterexample [propext, Classical.choice, Quot.sound]
Types.C67_counterexample_datetime [propext, Classical.choice, Quot.sound]
Types.C67_counterexample_union [propext, Classical.choice, Quot.sound]
Types.C67_datetime [propext, Classical.choice, Quot.sound]
Types.C67_datetime_text [propext, Classical.choice, Quot.sound]
Types.C67_float [propext, Classical.choice, Quot.sound]
Types.C67_int [propext, Classical.choice, Quot.sound]
Types.C67_other_types [propext, Classical.choice, Quot.sound]
Types.C67_text_types [propext, Classical.choice, Quot.sound]
Types.C67_timedelta [propext, Classical.choice, Quot.sound]
Types.C67_union [propext, Classical.choice, Quot.sound]
Types.C67_uuid [propext, Classical.choice, Quot.sound]
Types.C78_email_exact [propext, Classical.choice, Quot.sound]
Types.C78_email_refused [propext, Classical.choice, Quot.sound]
Types.C78_examples [propext, Classical.choice, Quot.sound]
Types.C79_examples [propext, Classical.choice, Quot.sound]
Types.C79_url_exact [propext, Classical.choice, Quot.sound]
Types.C79_url_refused [propext, Classical.choice, Quot.sound]
Types.C84_date_texts [propext, Classical.choice, Quot.sound]
Types.C84_datetime_texts [propext, Classical.choice, Quot.sound]
Types.C84_exactly [propext, Classical.choice, Quot.sound]
Types.C84_other_texts [propext, Classical.choice, Quot.sound]
Types.C89_counterexample_export [propext, Classical.choice, Quot.sound]
Types.C89_counterexample_two_lists [propext]
Types.C89_counterexample_two_models [propext, Classical.choice, Quot.sound]
Types.C89_decides [propext]
Types.C89_declines_iff [propext, Classical.choice, Quot.sound]
Types.C89_dict_declines [propext]
Types.C89_export [propext, Classical.choice, Quot.sound]
Types.C89_list_committed [propext]
Types.C89_list_declines [propext]
Types.C89_list_export_error [propext, Classical.choice, Quot.sound]
Types.C89_mapping_committed [propext]
Types.C89_members [propext, Quot.sound]
Types.C89_model_declines [propext]
Types.C89_model_export_fails [propext, Classical.choice, Quot.sound]
Types.C89_one_per_class [propext, Quot.sound]
Types.C89_poly_declines [propext, Quot.sound]
Types.C89_resolver [propext, Classical.choice, Quot.sound]
Types.C89_validate [propext, Classical.choice, Quot.sound]
Types.C89_validate_error [propext, Classical.choice, Quot.sound]
Types.C96_builtin_types [propext, Classical.choice, Quot.sound]
Types.C98_accepts [propext, Classical.choice, Quot.sound]
Types.C98_complete [propext, Classical.choice, Quot.sound]
Types.C98_counterexample_date [propext, Classical.choice, Quot.sound]
Types.C98_counterexample_early [propext, Classical.choice, Quot.sound]
Types.C98_counterexample_leap_day [propext, Classical.choice, Quot.sound]
Types.C98_counterexample_naive [propext, Classical.choice, Quot.sound]
Types.C98_counterexample_order [propext, Classical.choice, Quot.sound]
Types.C98_counterexample_run_together [propext, Classical.choice, Quot.sound]
Types.C98_counterexample_zone [propext, Classical.choice, Quot.sound]
Types.C98_date_field [propext, Classical.choice, Quot.sound]
Types.C98_datetime_field [propext, Classical.choice, Quot.sound]
Types.C98_datetime_reads [propext, Classical.choice, Quot.sound]
Types.C98_default_is_iso [propext, Classical.choice, Quot.sound]
Types.C98_every_spelling [propext, Classical.choice, Quot.sound]
Types.C98_exactly_the_spellings [propext, Classical.choice, Quot.sound]
Types.C98_format_text [propext]
Types.C98_no_formats [propext, Classical.choice, Quot.sound]
Types.C98_roundtrip [propext, Classical.choice, Quot.sound]
Types.C98_spelled [propext, Classical.choice, Quot.sound]
Types.C98_standard [propext, Classical.choice, Quot.sound]
Types.Mock.C73_addresses [propext, Classical.choice, Quot.sound]
Types.Mock.C73_counterexample_long_url [propext, Classical.choice, Quot.sound]
Types.Mock.C73_datetime [propext, Classical.choice, Quot.sound]
Types.Mock.C73_email [propext, Classical.choice, Quot.sound]
Types.Mock.C73_field [propext]
Types.Mock.C73_geo [propext, Classical.choice, Quot.sound]
Types.Mock.C73_hash [propext, Classical.choice, Quot.sound]
Types.Mock.C73_int [propext, Classical.choice, Quot.sound]
Types.Mock.C73_list [propext, Classical.choice, Quot.sound]
Types.Mock.C73_multilingual_never [propext, Classical.choice, Quot.sound]
Types.Mock.C73_negative_never [propext, Quot.sound]
Types.Mock.C73_never_negative [propext, Classical.choice, Quot.sound]
Types.Mock.C73_range [propext, Classical.choice, Quot.sound]
Types.Mock.C73_simple [propext, Classical.choice, Quot.sound]
Types.Mock.C73_string [propext, Classical.choice, Quot.sound]
Types.Mock.C73_template [propext, Classical.choice, Quot.sound]
Types.Mock.C73_url [propext, Classical.choice, Quot.sound]
Types.Mock.C73_url_bounded [propext, Classical.choice, Quot.sound]
