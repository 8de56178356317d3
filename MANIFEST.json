{"claims": [
 {"property": "C01", "status": "proved", "theorems": ["Verif.C01_all_errors_reported", "Verif.C01_validation_any_class", "Verif.C01_validation"], "note": ""},
 {"property": "C02", "status": "proved", "theorems": ["Verif.C02_strict_rejects_unknown", "Verif.C02_new_is_strict"], "note": ""},
 {"property": "C03", "status": "proved", "theorems": ["Verif.C03_unknown_keys_ignored"], "note": ""},
 {"property": "C04", "status": "proved", "theorems": ["Verif.Types.C04_builtin_types", "Verif.C04_at_every_depth", "Verif.C04_only_declared_fields"], "note": ""},
 {"property": "C05", "status": "proved", "theorems": ["Verif.Types.C05_builtin_types", "Verif.C05_required_at_every_depth", "Verif.C05_required_top"], "note": ""},
 {"property": "C06", "status": "proved", "theorems": ["Verif.C06_new_ignores_required", "Verif.C06_partial_is_optional"], "note": ""},
 {"property": "C07", "status": "proved", "theorems": ["Verif.C07_any_run", "Verif.C07_defaults_only_for_absent", "Verif.C07_new_fills_in"], "note": ""},
 {"property": "C08", "status": "proved", "theorems": ["Verif.C08_init_leaves_nothing_undefined", "Verif.C08_new_initialises"], "note": ""},
 {"property": "C09", "status": "proved", "theorems": ["Verif.C09_any_run", "Verif.C09_name_precedence"], "note": ""},
 {"property": "C10", "status": "proved", "theorems": ["Verif.C10_fields_independent"], "note": ""},
 {"property": "C11", "status": "proved", "theorems": ["Verif.C11_any_run", "Verif.C11_trusted_survives"], "note": ""},
 {"property": "C12", "status": "proved", "theorems": ["Verif.C12_every_field", "Verif.C12_validated_fields", "Verif.C12_data_of_failed_import", "Verif.C12_failed_field"], "note": ""},
 {"property": "C13", "status": "proved", "theorems": ["Verif.C13_list_elementwise"], "note": ""},
 {"property": "C14", "status": "proved", "theorems": ["Verif.C14_dict_valuewise"], "note": ""},
 {"property": "C15", "status": "proved", "theorems": ["Verif.C15_field_error_tree", "Verif.C15_error_tree_mirrors_data", "Verif.C15_field_validation_tree", "Verif.C15_validation_tree_mirrors_data"], "note": ""},
 {"property": "C16", "status": "proved", "theorems": ["Verif.Types.C16_builtin_types", "Verif.Types.C16_account", "Verif.C16_conversion_idempotent", "Verif.C16_field_idempotent", "Verif.C16_counterexample_alias_clash", "Verif.C16_counterexample_poly_validation"], "note": ""},
 {"property": "C17", "status": "proved", "theorems": ["Verif.C17_validated_everywhere"], "note": ""},
 {"property": "C18", "status": "proved", "theorems": ["Verif.C18_builtin_checks", "Verif.C18_validators_all_run"], "note": ""},
 {"property": "C19", "status": "proved", "theorems": ["Verif.C19_validation_restricts_conversion"], "note": ""},
 {"property": "C20", "status": "proved", "theorems": ["Verif.C20_methods_in_order", "Verif.C20_other_exceptions_escape", "Verif.C20_model_validators", "Verif.C20_each_runs_once_in_order"], "note": ""},
 {"property": "C21", "status": "proved", "theorems": ["Verif.C21_nested_validators_run", "Verif.C21_counterexample_functional", "Verif.C21_counterexample_convert_false"], "note": ""},
 {"property": "C22", "status": "proved", "theorems": ["Verif.Types.C22_builtin_types", "Verif.C22_outcome_independent_of_stack", "Verif.C22_import_terminates", "Verif.C22_depth_exists", "Verif.C22_compound_default_diverges"], "note": ""},
 {"property": "C23", "status": "proved", "theorems": ["Verif.C23_whitelist_never_leaks", "Verif.C23_whitelist_everywhere"], "note": ""},
 {"property": "C24", "status": "proved", "theorems": ["Verif.C24_blacklist_removes_exactly"], "note": ""},
 {"property": "C25", "status": "proved", "theorems": ["Verif.C25_role_lookup", "Verif.C25_role_rule_everywhere"], "note": ""},
 {"property": "C26", "status": "proved", "theorems": ["Verif.C26_decision_by_membership", "Verif.C26_add", "Verif.C26_sub", "Verif.C26_set_operators", "Verif.C26_equality"], "note": ""},
 {"property": "C27", "status": "proved", "theorems": ["Verif.C27_levels_decide_presence", "Verif.C27_list_items", "Verif.C27_dict_entries", "Verif.C27_list_keeps_length"], "note": ""},
 {"property": "C28", "status": "proved", "theorems": ["Verif.C28_level_monotone"], "note": ""},
 {"property": "C29", "status": "proved", "theorems": ["Verif.C29_call_level_wins", "Verif.C29_field_level_wins", "Verif.C29_model_level_is_the_fields_default", "Verif.Lib.Meta.C29_type_arguments"], "note": ""},
 {"property": "C30", "status": "proved", "theorems": ["Verif.C30_export_in_field_order", "Verif.C30_export_succeeds", "Verif.C30_nested_instance", "Verif.C30_nested_dict"], "note": ""},
 {"property": "C31", "status": "proved", "theorems": ["Verif.Types.C31_builtin_types", "Verif.C31_primitive_is_json", "Verif.C31_imported_instance_is_json"], "note": ""},
 {"property": "C32", "status": "proved", "theorems": ["Verif.Types.C32_builtin_types", "Verif.Types.C32_account", "Verif.C32_export_import_round_trip", "Verif.C32_imported_round_trip", "Verif.C32_counterexample_swapped_names", "Verif.C32_counterexample_none_item"], "note": ""},
 {"property": "C33", "status": "proved", "theorems": ["Verif.C33_read_after_write", "Verif.C33_assignment_succeeds", "Verif.C33_counterexample_lazy"], "note": ""},
 {"property": "C34", "status": "proved", "theorems": ["Verif.C34_delete", "Verif.C34_delete_exact", "Verif.C34_never_validated", "Verif.C34_counterexample_after_validation", "Verif.C34_counterexample_resurfacing"], "note": ""},
 {"property": "C35", "status": "proved", "theorems": ["Verif.C35_failed_import_unchanged", "Verif.C35_counterexample_lazy"], "note": ""},
 {"property": "C36", "status": "proved", "theorems": ["Verif.C36_import_updates_given", "Verif.C36_import_into_lazy", "Verif.C36_counterexample_empty_input"], "note": ""},
 {"property": "C37", "status": "proved", "theorems": ["Verif.C37_counterexample_new_value_ignored", "Verif.C37_counterexample_input_never_used", "Verif.C37_new_field", "Verif.C37_counterexample_never_used_any_class", "Verif.C37_new_field_any_class"], "note": ""},
 {"property": "C38", "status": "proved", "theorems": ["Verif.C38_validate_twice"], "note": ""},
 {"property": "C39", "status": "proved", "theorems": ["Verif.C39_failed_validation_keeps_valid", "Verif.C39_counterexample_defaults", "Verif.C39_counterexample_nested", "Verif.C39_any_class"], "note": ""},
 {"property": "C40", "status": "proved", "theorems": ["Verif.C40_serialize_only_valid", "Verif.C40_counterexample_lazy", "Verif.C40_counterexample_readonly", "Verif.C40_counterexample_crash", "Verif.C40_any_class"], "note": ""},
 {"property": "C41", "status": "proved", "theorems": ["Verif.C41_keys_items_values", "Verif.C41_reads_agree", "Verif.C41_unknown_names", "Verif.C41_counterexample_serializable", "Verif.C41_counterexample_len", "Verif.C41_counterexample_undefined"], "note": ""},
 {"property": "C42", "status": "proved", "theorems": ["Verif.C42_value_equality", "Verif.C42_equality", "Verif.C42_counterexample_symmetry", "Verif.C42_counterexample_transitivity"], "note": ""},
 {"property": "C43", "status": "proved", "theorems": ["Verif.EqGraph.C43_no_residue", "Verif.EqGraph.C43_thread_independent", "Verif.EqGraph.C43_terminates", "Verif.EqGraph.C43_equal_iff_simulated"], "note": ""},
 {"property": "C44", "status": "proved", "theorems": ["Verif.Types.C44_int_conversion", "Verif.Types.C44_int_refusal", "Verif.Types.C44_counterexample_infinity"], "note": ""},
 {"property": "C45", "status": "proved", "theorems": ["Verif.Types.C45_range", "Verif.Types.C45_int_range", "Verif.Types.C45_nan", "Verif.Types.C45_decimal_nan", "Verif.Types.C45_decimal_nan_text"], "note": ""},
 {"property": "C46", "status": "proved", "theorems": ["Verif.Types.C46_int_text"], "note": ""},
 {"property": "C47", "status": "proved", "theorems": ["Verif.Types.C47_boolean", "Verif.Types.C47_boolean_idempotent"], "note": ""},
 {"property": "C48", "status": "proved", "theorems": ["Verif.Types.C48_string_conversion", "Verif.Types.C48_string_length"], "note": ""},
 {"property": "C49", "status": "proved", "theorems": ["Verif.Types.C49_uuid_round_trip"], "note": ""},
 {"property": "C50", "status": "proved", "theorems": ["Verif.Types.C50_date_round_trip", "Verif.Types.C50_iso_text", "Verif.Types.C50_counterexample_early_years", "Verif.Types.C50_only_dates"], "note": ""},
 {"property": "C51", "status": "proved", "theorems": ["Verif.Types.C51_datetime_round_trip", "Verif.Types.C51_default_round_trip", "Verif.Types.C51_utc_round_trip", "Verif.Types.C51_counterexample_early_years", "Verif.Types.C51_only_valid"], "note": ""},
 {"property": "C52", "status": "proved", "theorems": ["Verif.Types.C52_converted_obeys_policy", "Verif.Types.C52_validation_is_the_policy", "Verif.Types.C52_reject_refuses_zoned", "Verif.Types.C52_require_refuses_naive"], "note": ""},
 {"property": "C53", "status": "proved", "theorems": ["Verif.Types.C53_same_instant", "Verif.Types.C53_same_instant_text", "Verif.Types.C53_converts", "Verif.Types.C53_idempotent"], "note": ""},
 {"property": "C54", "status": "proved", "theorems": ["Verif.Types.C54_timestamp_round_trip", "Verif.Types.C54_timestamp_identity", "Verif.Types.C54_exports_seconds", "Verif.Types.C54_counterexample_far_future"], "note": ""},
 {"property": "C55", "status": "proved", "theorems": ["Verif.Types.C55_whole_units", "Verif.Types.C55_out_of_range", "Verif.Types.C55_seconds_truncate", "Verif.Types.C55_counterexample_subsecond", "Verif.Types.C55_subsecond"], "note": ""},
 {"property": "C56", "status": "proved", "theorems": ["Verif.Types.C56_decimal_round_trip", "Verif.Types.C56_import_export_import"], "note": ""},
 {"property": "C57", "status": "proved", "theorems": ["Verif.Types.C57_hash_accepts", "Verif.Types.C57_hash_accepted", "Verif.Types.C57_counterexample"], "note": ""},
 {"property": "C58", "status": "proved", "theorems": ["Verif.Types.C58_ipv4_exact"], "note": ""},
 {"property": "C59", "status": "proved", "theorems": ["Verif.Types.C59_ipv6_exact"], "note": ""},
 {"property": "C60", "status": "proved", "theorems": ["Verif.Types.C60_ip_exact", "Verif.Types.C60_accepts_addresses", "Verif.Types.C60_counterexample_trailing_text", "Verif.Types.C60_strict_types_refuse"], "note": ""},
 {"property": "C61", "status": "proved", "theorems": ["Verif.Types.C61_mac_exact", "Verif.Types.C61_export_canonical", "Verif.Types.C61_export_unique", "Verif.Types.C61_counterexample_trailing_text", "Verif.Types.C61_counterexample_newline"], "note": ""},
 {"property": "C62", "status": "proved", "theorems": ["Verif.Types.C62_conversion", "Verif.Types.C62_bounds", "Verif.Types.C62_dict_keys_ignored"], "note": ""},
 {"property": "C63", "status": "proved", "theorems": ["Verif.Types.C63_first_available", "Verif.Types.C63_fails_iff_none", "Verif.Types.C63_locale_names", "Verif.Types.C63_int_text_breaks_validation"], "note": ""},
 {"property": "C64", "status": "proved", "theorems": ["Verif.Types.C64_name_roundtrip", "Verif.Types.C64_alias", "Verif.Types.C64_value_roundtrip", "Verif.Types.C64_only_members", "Verif.Types.C64_counterexample_value_is_name", "Verif.Types.C64_counterexample_nan"], "note": ""},
 {"property": "C65", "status": "proved", "theorems": ["Verif.Types.C65_first_accepting", "Verif.Types.C65_all_refuse", "Verif.Types.C65_conversion_error", "Verif.Types.C65_same_member", "Verif.Types.C65_resolver", "Verif.Types.C65_counterexample_same_class", "Verif.Types.C65_counterexample_validation_error", "Verif.Types.C65_not_idempotent", "Verif.Types.C65_own_validators_ignored"], "note": ""},
 {"property": "C66", "status": "proved", "theorems": ["Verif.C66_export", "Verif.C66_find_model", "Verif.C66_chosen_is_candidate", "Verif.C66_unique_claim", "Verif.C66_import_class", "Verif.C66_instances_unchecked", "Verif.C66_counterexample_listed_twice", "Verif.C66_failure_not_collected", "Verif.C66_counterexample_falsy_value"], "note": ""},
 {"property": "C67", "status": "proved", "theorems": ["Verif.Types.C67_text_types", "Verif.Types.C67_other_types", "Verif.Types.C67_union", "Verif.Types.C67_int", "Verif.Types.C67_float", "Verif.Types.C67_uuid", "Verif.Types.C67_timedelta", "Verif.Types.C67_datetime", "Verif.Types.C67_datetime_text", "Verif.Types.C67_counterexample_datetime", "Verif.Types.C67_counterexample", "Verif.Types.C67_counterexample_union"], "note": ""},
 {"property": "C68", "status": "proved", "theorems": ["Verif.Lib.C68_equality", "Verif.Lib.C68_equivalence", "Verif.Lib.C68_hash", "Verif.Lib.C68_order_irrelevant", "Verif.Lib.C68_equality_any", "Verif.Lib.C68_comparison_total", "Verif.Lib.C68_counterexample_text", "Verif.Lib.C68_counterexample_comparison_raises"], "note": ""},
 {"property": "C69", "status": "proved", "theorems": ["Verif.Lib.C69_messages_preserved", "Verif.Lib.C69_structure_preserved", "Verif.Lib.C69_report", "Verif.Lib.C69_field_error"], "note": ""},
 {"property": "C70", "status": "proved", "theorems": ["Verif.Lib.C70_write_once", "Verif.Lib.C70_defaults", "Verif.Lib.C70_branch", "Verif.Lib.C70_call_options", "Verif.Lib.C70_second_call"], "note": ""},
 {"property": "C71", "status": "proved", "theorems": ["Verif.Lib.Meta.C71_fields", "Verif.Lib.Meta.C71_order", "Verif.Lib.Meta.C71_owner", "Verif.Lib.Meta.C71_validators", "Verif.Lib.Meta.C71_options", "Verif.Lib.Meta.C71_options_inherited", "Verif.Lib.Meta.C71_not_mro", "Verif.Lib.Meta.C71_roles_not_merged"], "note": ""},
 {"property": "C72", "status": "proved", "theorems": ["Verif.Lib.Meta.C72_schemas", "Verif.Lib.Meta.C72_fields", "Verif.Lib.Meta.C72_element_types", "Verif.Lib.Meta.C72_levels", "Verif.Lib.Meta.C72_history", "Verif.Lib.Meta.C72_items", "Verif.Lib.Meta.C72_counterexample"], "note": ""},
 {"property": "C73", "status": "proved", "theorems": ["Verif.Types.Mock.C73_range", "Verif.Types.Mock.C73_string", "Verif.Types.Mock.C73_template", "Verif.Types.Mock.C73_hash", "Verif.Types.Mock.C73_simple", "Verif.Types.Mock.C73_datetime", "Verif.Types.Mock.C73_geo", "Verif.Types.Mock.C73_addresses", "Verif.Types.Mock.C73_int", "Verif.Types.Mock.C73_list", "Verif.Types.Mock.C73_field", "Verif.Types.Mock.C73_multilingual_never", "Verif.Types.Mock.C73_negative_never", "Verif.Types.Mock.C73_never_negative", "Verif.Types.Mock.C73_email", "Verif.Types.Mock.C73_url", "Verif.Types.Mock.C73_url_bounded", "Verif.Types.Mock.C73_counterexample_long_url"], "note": ""},
 {"property": "C74", "status": "proved", "theorems": ["Verif.Lib.Machine.C74_history", "Verif.Lib.Machine.C74_step", "Verif.Lib.Machine.C74_can", "Verif.Lib.Machine.C74_complete"], "note": ""},
 {"property": "C75", "status": "proved", "theorems": ["Verif.C75_nested_mapping", "Verif.C75_outer_mapping_not_applied", "Verif.C75_counterexample_leak"], "note": ""},
 {"property": "C76", "status": "proved", "theorems": ["Verif.C76_validate_checks_current_values", "Verif.C76_counterexample_lazy", "Verif.C76_any_class"], "note": ""},
 {"property": "C77", "status": "proved", "theorems": ["Verif.Lib.MockObject.C77_terminates", "Verif.Lib.MockObject.C77_succeeds", "Verif.Lib.MockObject.C77_error", "Verif.Lib.MockObject.C77_fields", "Verif.Lib.MockObject.C77_overrides", "Verif.Lib.MockObject.C77_overrides_succeed", "Verif.Lib.MockObject.C77_values", "Verif.Lib.MockObject.C77_counterexample_required", "Verif.Lib.MockObject.C77_counterexample_items", "Verif.Lib.MockObject.C77_counterexample_error"], "note": ""},
 {"property": "C78", "status": "proved", "theorems": ["Verif.Types.C78_email_exact", "Verif.Types.C78_email_refused", "Verif.Types.C78_examples"], "note": ""},
 {"property": "C79", "status": "proved", "theorems": ["Verif.Types.C79_url_exact", "Verif.Types.C79_url_refused", "Verif.Types.C79_examples"], "note": ""},
 {"property": "C80", "status": "proved", "theorems": ["Verif.Lib.TypeClass.C80_validator_order", "Verif.Lib.TypeClass.C80_validators_exactly", "Verif.Lib.TypeClass.C80_overriding", "Verif.Lib.TypeClass.C80_messages", "Verif.Lib.TypeClass.C80_later_classes_change_nothing", "Verif.Lib.TypeClass.C80_counterexample_diamond", "Verif.Lib.TypeClass.C80_counterexample_mixin", "Verif.Lib.TypeClass.C80_instance_validators"], "note": ""},
 {"property": "C81", "status": "proved", "theorems": ["Verif.Lib.Callable.C81_context_iff_declared", "Verif.Lib.Callable.C81_arguments_in_order", "Verif.Lib.Callable.C81_varargs_without_context", "Verif.Lib.Callable.C81_counterexample_bound", "Verif.Lib.Callable.C81_bound_with_context", "Verif.Lib.Callable.C81_context_by_keyword", "Verif.Lib.Callable.C81_keyword_needs_a_context_parameter", "Verif.Lib.Callable.C81_counterexample_zero_keyword", "Verif.Lib.Callable.C81_counterexample_prepared_twice"], "note": ""},
 {"property": "C82", "status": "proved", "theorems": ["Verif.Lib.Subclass.C82_one_entry_per_path", "Verif.Lib.Subclass.C82_lists_the_descendants", "Verif.Lib.Subclass.C82_listed_once_iff", "Verif.Lib.Subclass.C82_single_inheritance", "Verif.Lib.Subclass.C82_unique_claim_single_inheritance", "Verif.Lib.Subclass.C82_counterexample_diamond"], "note": ""},
 {"property": "C83", "status": "proved", "theorems": ["Verif.C83_setters", "Verif.C83_plain_dict", "Verif.C83_conversion_errors_reported", "Verif.C83_crash"], "note": ""},
 {"property": "C84", "status": "proved", "theorems": ["Verif.Types.C84_date_texts", "Verif.Types.C84_datetime_texts", "Verif.Types.C84_other_texts", "Verif.Types.C84_exactly"], "note": ""},
 {"property": "C85", "status": "proved", "theorems": ["Verif.Lib.Meta.C85_class", "Verif.Lib.Meta.C85_objects", "Verif.Lib.Meta.C85_later_subclass", "Verif.Lib.Meta.C85_own_names", "Verif.Lib.Meta.C85_input_keys", "Verif.Lib.Meta.C85_history", "Verif.Lib.Meta.C85_shared", "Verif.Lib.Meta.C85_shared_append", "Verif.Lib.Meta.C85_counterexample_shared"], "note": ""},
 {"property": "C86", "status": "proved", "theorems": ["Verif.Lib.Meta.C86_field", "Verif.Lib.Meta.C86_element", "Verif.Lib.Meta.C86_once", "Verif.Lib.Meta.C86_by_name", "Verif.Lib.Meta.C86_subclass_keeps_base", "Verif.Lib.Meta.C86_counterexample_shared"], "note": ""},
 {"property": "C87", "status": "proved", "theorems": ["Verif.Lib.Atoms.C87_keys", "Verif.Lib.Atoms.C87_one_per_field", "Verif.Lib.Atoms.C87_filter", "Verif.Lib.Atoms.C87_setters", "Verif.Lib.Atoms.C87_instance", "Verif.Lib.Atoms.C87_export_reads"], "note": ""},
 {"property": "C88", "status": "proved", "theorems": ["Verif.Lib.Serializable.C88_class", "Verif.Lib.Serializable.C88_instance", "Verif.Lib.Serializable.C88_errors", "Verif.Lib.Serializable.C88_counterexample_level"], "note": ""},
 {"property": "C89", "status": "proved", "theorems": ["Verif.Types.C89_members", "Verif.Types.C89_one_per_class", "Verif.Types.C89_decides", "Verif.Types.C89_declines_iff", "Verif.Types.C89_validate", "Verif.Types.C89_validate_error", "Verif.Types.C89_export", "Verif.Types.C89_list_declines", "Verif.Types.C89_dict_declines", "Verif.Types.C89_model_declines", "Verif.Types.C89_poly_declines", "Verif.Types.C89_mapping_committed", "Verif.Types.C89_list_committed", "Verif.Types.C89_model_export_fails", "Verif.Types.C89_list_export_error", "Verif.Types.C89_resolver", "Verif.Types.C89_counterexample_two_models", "Verif.Types.C89_counterexample_two_lists", "Verif.Types.C89_counterexample_export"], "note": ""},
 {"property": "C90", "status": "proved", "theorems": ["Verif.EqGraph.C90_results", "Verif.EqGraph.C90_progress", "Verif.EqGraph.C90_no_residue"], "note": ""},
 {"property": "C91", "status": "proved", "theorems": ["Verif.C91_rollback", "Verif.C91_rollback_content", "Verif.C91_serialize_rollback", "Verif.C91_failed_access_unchanged"], "note": ""},
 {"property": "C92", "status": "proved", "theorems": ["Verif.C92_as_values", "Verif.C92_input_unchanged", "Verif.C92_instances_isolated", "Verif.C92_counterexample_lazy", "Verif.C92_counterexample_trusted"], "note": ""},
 {"property": "C93", "status": "proved", "theorems": ["Verif.Fresh.C93_nothing_changed", "Verif.Fresh.C93_new", "Verif.Fresh.C93_no_alias", "Verif.Fresh.C93_stays", "Verif.Fresh.C93_own_change", "Verif.Fresh.C93_counterexample_base", "Verif.Fresh.C93_counterexample_poly", "Verif.Fresh.C93_counterexample_failure"], "note": ""},
 {"property": "C94", "status": "proved", "theorems": ["Verif.Fresh.C94_nothing_changed", "Verif.Fresh.C94_new", "Verif.Fresh.C94_no_alias", "Verif.Fresh.C94_snapshot", "Verif.Fresh.C94_own_change", "Verif.Fresh.C94_counterexample_base"], "note": ""},
 {"property": "C95", "status": "proved", "theorems": ["Verif.C95_watching", "Verif.C95_standard", "Verif.C95_only_permitted", "Verif.C95_calls", "Verif.C95_sequence", "Verif.C95_failure", "Verif.C95_argument", "Verif.C95_counterexample_items", "Verif.C95_counterexample_size"], "note": ""},
 {"property": "C96", "status": "proved", "theorems": ["Verif.C96_export_terminates", "Verif.C96_outcome_independent_of_stack", "Verif.C96_depth_exists", "Verif.C96_every_export_ends", "Verif.Types.C96_builtin_types", "Verif.C96_counterexample_getter"], "note": ""},
 {"property": "C97", "status": "proved", "theorems": ["Verif.C97_steady", "Verif.C97_sequence", "Verif.C97_once", "Verif.C97_factory_error", "Verif.C97_counterexample_shared", "Verif.C97_counterexample_supplied", "Verif.C97_counterexample_error", "Verif.C97_counterexample_data"], "note": ""},
 {"property": "C98", "status": "proved", "theorems": ["Verif.Types.C98_roundtrip", "Verif.Types.C98_complete", "Verif.Types.C98_accepts", "Verif.Types.C98_format_text", "Verif.Types.C98_date_field", "Verif.Types.C98_datetime_field", "Verif.Types.C98_standard", "Verif.Types.C98_no_formats", "Verif.Types.C98_default_is_iso", "Verif.Types.C98_counterexample_date", "Verif.Types.C98_counterexample_order", "Verif.Types.C98_counterexample_naive", "Verif.Types.C98_counterexample_leap_day", "Verif.Types.C98_counterexample_zone", "Verif.Types.C98_counterexample_early", "Verif.Types.C98_spelled", "Verif.Types.C98_datetime_reads", "Verif.Types.C98_every_spelling", "Verif.Types.C98_exactly_the_spellings", "Verif.Types.C98_counterexample_run_together"], "note": ""},
 {"property": "C99", "status": "proved", "theorems": ["Verif.ImportString.C99_resolution", "Verif.ImportString.C99_names", "Verif.ImportString.C99_stable", "Verif.ImportString.C99_lazy", "Verif.ImportString.C99_own_name", "Verif.ImportString.C99_copy", "Verif.ImportString.C99_copy_resolved", "Verif.ImportString.C99_by_class", "Verif.ImportString.C99_name_kept", "Verif.ImportString.C99_counterexample_module", "Verif.ImportString.C99_counterexample_bare", "Verif.ImportString.C99_counterexample_base"], "note": ""},
 {"property": "C100", "status": "proved", "theorems": ["Verif.Options.C100_options", "Verif.Options.C100_no_options", "Verif.Options.C100_unknown", "Verif.Options.C100_unknown_inherited", "Verif.Options.C100_roles_own", "Verif.Options.C100_roles_shared", "Verif.Options.C100_history", "Verif.Options.C100_counterexample_extras", "Verif.Options.C100_counterexample_private", "Verif.Options.C100_counterexample_bases", "Verif.Options.C100_counterexample_shared", "Verif.Options.C100_counterexample_optionsclass", "Verif.Options.C100_dunder", "Verif.Options.C100_extras_value"], "note": ""},
 {"property": "C101", "status": "proved", "theorems": ["Verif.Lib.ErrorHeap.C101_structure_fixed", "Verif.Lib.ErrorHeap.C101_report_fixed", "Verif.Lib.ErrorHeap.C101_contents_fixed", "Verif.Lib.ErrorHeap.C101_language", "Verif.Lib.ErrorHeap.C101_hash_fixed", "Verif.Lib.ErrorHeap.C101_hash_of_contents", "Verif.Lib.ErrorHeap.C101_equal_hashes", "Verif.Lib.ErrorHeap.C101_same_report", "Verif.Lib.ErrorHeap.C101_compound", "Verif.Lib.ErrorHeap.C101_counterexample_reused_message", "Verif.Lib.ErrorHeap.C101_counterexample_stale_hash", "Verif.Lib.ErrorHeap.C101_counterexample_list", "Verif.Lib.ErrorHeap.C101_counterexample_report_written", "Verif.Lib.ErrorHeap.C101_counterexample_lazy", "Verif.Lib.ErrorHeap.C101_constructed"], "note": ""},
 {"property": "C102", "status": "proved", "theorems": ["Verif.C102_steady", "Verif.C102_watching", "Verif.C102_order", "Verif.C102_once", "Verif.C102_crash_ends", "Verif.C102_errors_reported", "Verif.C102_no_validators_after_error", "Verif.C102_value", "Verif.C102_every_value", "Verif.C102_methods", "Verif.C102_witness_order", "Verif.C102_counterexample_setter", "Verif.C102_counterexample_hollow"], "note": ""},
 {"property": "C103", "status": "proved", "theorems": ["Verif.Mocks.C103_built", "Verif.Mocks.C103_validates", "Verif.Mocks.C103_errors", "Verif.Mocks.C103_mocks_acceptable", "Verif.Mocks.C103_counterexample_choices_of_items", "Verif.Mocks.C103_counterexample_required_items", "Verif.Mocks.C103_counterexample_incomplete", "Verif.Mocks.C103_values"], "note": ""},
 {"property": "C104", "status": "proved", "theorems": ["Verif.Exports.C104_steady", "Verif.Exports.C104_watching", "Verif.Exports.C104_order", "Verif.Exports.C104_once", "Verif.Exports.C104_reasons", "Verif.Exports.C104_complete", "Verif.Exports.C104_crash_ends", "Verif.Exports.C104_errors", "Verif.Exports.C104_getters", "Verif.Exports.C104_left_out", "Verif.Exports.C104_dropped", "Verif.Exports.C104_getter_errors", "Verif.Exports.C104_determined", "Verif.Exports.Samples.C104_witness_events"], "note": ""},
 {"property": "C105", "status": "proved", "theorems": ["Verif.ImportString.C105_provenance", "Verif.ImportString.C105_agree", "Verif.ImportString.C105_settled", "Verif.ImportString.C105_wait_free", "Verif.ImportString.C105_alone", "Verif.ImportString.C105_counterexample_rebound"], "note": ""},
 {"property": "C106", "status": "proved", "theorems": ["Verif.Lib.C106_same_arguments", "Verif.Lib.C106_given_options", "Verif.Lib.C106_some_call", "Verif.Lib.C106_settled", "Verif.Lib.C106_alone", "Verif.Lib.C106_counterexample_mixed"], "note": ""},
 {"property": "C107", "status": "proved", "theorems": ["Verif.C107_uninterrupted", "Verif.C107_returns", "Verif.C107_fields", "Verif.C107_valid_layer", "Verif.C107_valid_values", "Verif.C107_recovery", "Verif.Samples.C107_counterexample_pending_lost", "Verif.Samples.C107_counterexample_serialize_loses", "Verif.Samples.C107_counterexample_invisible_assignment", "Verif.Samples.C107_counterexample_lazy_loses", "Verif.Samples.C107_counterexample_lazy_stuck"], "note": ""},
 {"property": "C108", "status": "proved", "theorems": ["Verif.C108_reads", "Verif.C108_no_error", "Verif.C108_before_or_after", "Verif.C108_other_fields", "Verif.Samples.C108_counterexample_key_error", "Verif.Samples.C108_counterexample_torn", "Verif.Samples.C108_counterexample_lazy"], "note": ""},
 {"property": "C109", "status": "proved", "theorems": ["Verif.C109_one_order", "Verif.C109_not_lost", "Verif.C109_reads_own", "Verif.Samples.C109_counterexample_validate"], "note": ""},
 {"property": "C110", "status": "proved", "theorems": ["Verif.Types.C110_round_trip", "Verif.Types.C110_accepted", "Verif.Types.C110_same_digits", "Verif.Types.C110_total"], "note": ""},
 {"property": "C111", "status": "proved", "theorems": ["Verif.Lib.DataObject.C111_only_target", "Verif.Lib.DataObject.C111_copy", "Verif.Lib.DataObject.C111_returns", "Verif.Lib.DataObject.C111_attributes", "Verif.Lib.DataObject.C111_new", "Verif.Lib.DataObject.C111_to_dict", "Verif.Lib.DataObject.C111_to_dict_unique", "Verif.Lib.DataObject.C111_to_dict_cycle", "Verif.Lib.DataObject.Sample.C111_counterexample_update", "Verif.Lib.DataObject.Sample.C111_counterexample_shallow"], "note": ""},
 {"property": "C112", "status": "proved", "theorems": ["Verif.Lib.DataObject.C112_indistinct", "Verif.Lib.DataObject.C112_returns", "Verif.Lib.DataObject.C112_itself", "Verif.Lib.DataObject.C112_copy", "Verif.Lib.DataObject.C112_symmetric", "Verif.Lib.DataObject.C112_transitive", "Verif.Lib.DataObject.SampleEq.C112_counterexample_circle", "Verif.Lib.DataObject.SampleEq.C112_counterexample_order"], "note": ""},
 {"property": "C113", "status": "proved", "theorems": ["Verif.C113_convert_as_in_models", "Verif.C113_validate_as_in_models", "Verif.C113_convert_model_type", "Verif.C113_convert_no_instance", "Verif.C113_validate_model_type", "Verif.C113_validate_model_list", "Verif.C113_convert_poly_instance", "Verif.C113_convert_poly", "Verif.C113_validate_poly", "Verif.C113_export_as_in_models", "Verif.C113_export_bare", "Verif.C113_export_bare_model", "Verif.Samples.C113_counterexample_export_format", "Verif.Samples.C113_counterexample_validate_model", "Verif.Samples.C113_counterexample_poly_parent"], "note": ""}
]}
