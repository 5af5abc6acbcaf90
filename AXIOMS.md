# Axioms that the theorems of the manifest depend on

Output of `#print axioms` for every theorem that MANIFEST.json names. No other axioms occur.

* `Verif.Rbac.C01_sound_partial`: [propext, Classical.choice, Quot.sound]
* `Verif.Rbac.C01_violated`: [propext, Classical.choice, Quot.sound]
* `Verif.Rbac.C02_complete_partial`: [propext, Classical.choice, Quot.sound]
* `Verif.Rbac.C02_violated`: [propext, Classical.choice, Quot.sound]
* `Verif.Rbac.C02_violated_urls`: [propext, Classical.choice, Quot.sound]
* `Verif.Rbac.C03_deterministic_partial`: [propext, Classical.choice, Quot.sound]
* `Verif.Rbac.C03_violated`: [propext, Classical.choice, Quot.sound]
* `Verif.Rbac.C04_partition`: [propext, Classical.choice, Quot.sound]
* `Verif.Rbac.C04_independent`: [propext, Classical.choice, Quot.sound]
* `Verif.Rbac.C05_normal_form`: [propext, Classical.choice, Quot.sound]
* `Verif.Webhook.C06_client_config`: [propext, Classical.choice, Quot.sound]
* `Verif.Webhook.C06_rejects`: [propext, Classical.choice, Quot.sound]
* `Verif.Webhook.C07_limits_partial`: [propext, Classical.choice, Quot.sound]
* `Verif.Webhook.C07_violated`: [propext, Classical.choice, Quot.sound]
* `Verif.Webhook.C08_every_marker_once`: [propext, Classical.choice, Quot.sound]
* `Verif.Webhook.C08_accepts_iff`: [propext, Classical.choice, Quot.sound]
* `Verif.Webhook.C08_deterministic`: [propext, Classical.choice, Quot.sound]
* `Verif.Webhook.C09_rules_and_policies`: [propext, Classical.choice, Quot.sound]
* `Verif.Webhook.C09_rejects_matchPolicy`: [propext, Classical.choice, Quot.sound]
* `Verif.Webhook.C10_duplicates_rejected`: [propext, Classical.choice, Quot.sound]
* `Verif.Webhook.C10_names`: [propext, Classical.choice, Quot.sound]
* `Verif.Desc.C11_truncate_partial`: [propext, Quot.sound]
* `Verif.Desc.C11_ascii_exact`: [propext, Classical.choice, Quot.sound]
* `Verif.Desc.C11_violated`: [propext]
* `Verif.Desc.C12_every_description`: [propext, Quot.sound]
* `Verif.Markers.C13_lookup_plain`: [propext, Quot.sound]
* `Verif.Markers.C13_lookup_value`: [propext, Quot.sound]
* `Verif.Markers.C13_lookup_field`: [propext, Quot.sound]
* `Verif.Markers.C13_split`: [propext, Quot.sound]
* `Verif.Markers.C13_forms`: [propext, Quot.sound]
* `Verif.Markers.C14_value`: [propext, Classical.choice, Quot.sound]
* `Verif.Markers.C14_legacy`: [propext, Classical.choice, Quot.sound]
* `Verif.Markers.C14_anonymous`: [propext, Classical.choice, Quot.sound]
* `Verif.Markers.C14_named`: [propext, Classical.choice, Quot.sound]
* `Verif.Markers.C14_violated_negative`: [propext, Classical.choice, Quot.sound]
* `Verif.Markers.C14_violated_any`: [propext, Classical.choice, Quot.sound]
* `Verif.Markers.C14_legacy_any`: [propext, Classical.choice, Quot.sound]
* `Verif.Markers.C14_raw`: [propext, Classical.choice, Quot.sound]
* `Verif.Markers.C15_accepted_partial`: [propext, Classical.choice, Quot.sound]
* `Verif.Markers.C15_accepted_anonymous`: [propext, Classical.choice, Quot.sound]
* `Verif.Markers.C15_accepted_empty`: [propext, Classical.choice, Quot.sound]
* `Verif.Markers.C15_missing`: [propext, Classical.choice, Quot.sound]
* `Verif.Markers.C15_unknown`: [propext, Classical.choice, Quot.sound]
* `Verif.Markers.C15_leftover`: [propext, Classical.choice, Quot.sound]
* `Verif.Markers.C15_violated_duplicate`: [propext, Classical.choice, Quot.sound]
* `Verif.Markers.C15_violated_space`: [propext, Classical.choice, Quot.sound]
* `Verif.Markers.C15_violated_space_words`: [propext, Classical.choice, Quot.sound]
* `Verif.Markers.C15_violated_empty`: [propext, Classical.choice, Quot.sound]
* `Verif.Markers.C15_violated_int32`: [propext, Classical.choice, Quot.sound]
* `Verif.Markers.Collect.C16_no_panic`: [propext, Classical.choice, Quot.sound]
* `Verif.Markers.Collect.C16_count`: [propext, Classical.choice, Quot.sound]
* `Verif.Markers.Collect.C16_once`: [propext, Classical.choice, Quot.sound]
* `Verif.Markers.Collect.C16_only`: [propext, Classical.choice, Quot.sound]
* `Verif.Markers.Collect.C16_all_partial`: [propext, Classical.choice, Quot.sound]
* `Verif.Markers.Collect.C16_sound`: [propext, Classical.choice, Quot.sound]
* `Verif.Markers.Collect.C16_claimed`: [propext, Classical.choice, Quot.sound]
* `Verif.Markers.Collect.C16_package_only`: [propext, Classical.choice, Quot.sound]
* `Verif.Markers.Collect.C16_package`: [propext, Classical.choice, Quot.sound]
* `Verif.Markers.Collect.C16_package_doc`: [propext, Classical.choice, Quot.sound]
* `Verif.Markers.Collect.C16_values`: [propext, Quot.sound]
* `Verif.Markers.Collect.C16_unknown`: [propext]
* `Verif.Markers.Collect.Examples.C16_violated`: [propext, Classical.choice, Quot.sound]
* `Verif.Markers.Collect.C16_order`: [propext, Classical.choice, Quot.sound]
* `Verif.Markers.Doc.C17_lines`: [propext, Classical.choice, Quot.sound]
* `Verif.Markers.Doc.C17_no_marker`: [propext, Classical.choice, Quot.sound]
* `Verif.Markers.Doc.C17_markers_ignored`: [propext, Classical.choice, Quot.sound]
* `Verif.Markers.Doc.C17_line_comments`: [propext, Classical.choice, Quot.sound]
* `Verif.Markers.Doc.C17_decl`: [propext, Classical.choice, Quot.sound]
* `Verif.Markers.Doc.C17_comment`: [propext, Classical.choice, Quot.sound]
* `Verif.Markers.Cache.C18_values`: [propext, Quot.sound]
* `Verif.Markers.Cache.C18_cache`: [propext, Quot.sound]
* `Verif.Markers.Cache.C18_serial_partial`: [propext, Classical.choice, Quot.sound]
* `Verif.Markers.Cache.C18_violated`: [propext]
* `Verif.Markers.Cache.C18_violated_syntax`: [propext]
* `Verif.CrdGen.C19_storage_served`: [propext, Classical.choice, Quot.sound]
* `Verif.CrdGen.C19_single`: [propext, Classical.choice, Quot.sound]
* `Verif.CrdGen.C19_exactly_one_partial`: [propext, Classical.choice, Quot.sound]
* `Verif.CrdGen.C19_violated`: [propext, Classical.choice, Quot.sound]
* `Verif.CrdGen.C20_name`: [propext, Classical.choice, Quot.sound]
* `Verif.CrdGen.C20_sorted`: [propext, Classical.choice, Quot.sound]
* `Verif.CrdGen.C20_exists_partial`: [propext, Classical.choice, Quot.sound]
* `Verif.CrdGen.C20_names_partial`: [propext, Classical.choice, Quot.sound]
* `Verif.CrdGen.C22_versions_partial`: [propext, Classical.choice, Quot.sound]
* `Verif.CrdGen.C20_violated_duplicate`: [propext, Classical.choice, Quot.sound]
* `Verif.CrdGen.C20_violated_mixed`: [propext, Classical.choice, Quot.sound]
* `Verif.CrdGen.C21_order_partial`: [propext, Classical.choice, Quot.sound]
* `Verif.CrdGen.C21_violated_resource`: [propext, Classical.choice, Quot.sound]
* `Verif.CrdGen.C21_violated_skip`: [propext, Classical.choice, Quot.sound]
* `Verif.CrdGen.C22_frame`: [propext, Classical.choice, Quot.sound]
* `Verif.CrdGen.C22_violated_duplicate`: [propext, Classical.choice, Quot.sound]
* `Verif.CrdGen.C22_violated_silent`: [propext, Classical.choice, Quot.sound]
* `Verif.CrdGen.C23_crash_iff`: [propext, Classical.choice, Quot.sound]
* `Verif.CrdGen.C23_reported`: [propext, Classical.choice, Quot.sound]
* `Verif.CrdGen.C23_present`: [propext, Classical.choice, Quot.sound]
* `Verif.CrdGen.C23_violated`: [propext, Classical.choice, Quot.sound]
* `Verif.Crd.C24_rejected`: [propext, Classical.choice, Quot.sound]
* `Verif.Crd.C24_applied`: [propext, Classical.choice, Quot.sound]
* `Verif.Crd.C24_meaning`: [propext, Classical.choice, Quot.sound]
* `Verif.Crd.C25_deterministic_partial`: [propext, Classical.choice, Quot.sound]
* `Verif.Crd.C25_items_partial`: [propext, Classical.choice, Quot.sound]
* `Verif.Crd.C25_type_first`: [propext, Classical.choice, Quot.sound]
* `Verif.Crd.C25_default_wins`: [propext, Classical.choice, Quot.sound]
* `Verif.Crd.C25_violated_listType`: [propext, Classical.choice, Quot.sound]
* `Verif.Crd.C25_violated_mapType`: [propext, Classical.choice, Quot.sound]
* `Verif.Crd.C26_round_trip_partial`: [propext, Classical.choice, Quot.sound]
* `Verif.Crd.C26_exact`: [propext, Classical.choice, Quot.sound]
* `Verif.Crd.C26_injective_partial`: [propext, Classical.choice, Quot.sound]
* `Verif.Crd.C26_rejects`: [propext, Classical.choice, Quot.sound]
* `Verif.Crd.C26_violated`: [propext, Classical.choice, Quot.sound]
* `Verif.Crd.C26_violated_collision`: [propext, Classical.choice, Quot.sound]
* `Verif.Crd.C27_terminates`: [propext, Classical.choice, Quot.sound]
* `Verif.Crd.C27_no_references_partial`: [propext, Classical.choice, Quot.sound]
* `Verif.Crd.C27_no_panic`: [propext, Classical.choice, Quot.sound]
* `Verif.Crd.C27_violated`: [propext, Classical.choice, Quot.sound]
* `Verif.Crd.C28_flatten_preserves_partial`: [propext, Classical.choice, Quot.sound]
* `Verif.Crd.C28_violated_exclusive`: [propext, Classical.choice, Quot.sound]
* `Verif.Crd.C28_violated_nullable`: [propext, Classical.choice, Quot.sound]
* `Verif.Crd.C28_violated_additional`: [propext, Classical.choice, Quot.sound]
* `Verif.Crd.C28_violated_closed`: [propext, Classical.choice, Quot.sound]
* `Verif.Crd.C29_depth`: [propext, Classical.choice, Quot.sound]
* `Verif.Crd.C29_members`: [propext, Classical.choice, Quot.sound]
* `Verif.Crd.C29_required`: [propext, Classical.choice, Quot.sound]
* `Verif.Crd.C29_properties`: [propext, Classical.choice, Quot.sound]
* `Verif.Crd.C29_additional`: [propext, Classical.choice, Quot.sound]
* `Verif.Crd.C29_sorted`: [propext, Classical.choice, Quot.sound]
* `Verif.Crd.C29_sorted_below`: [propext, Classical.choice, Quot.sound]
* `Verif.Crd.C29_lookup`: [propext, Classical.choice, Quot.sound]
* `Verif.Crd.C30_property`: [propext, Classical.choice, Quot.sound]
* `Verif.Crd.C30_properties_complete`: [propext, Classical.choice, Quot.sound]
* `Verif.Crd.C30_required`: [propext, Classical.choice, Quot.sound]
* `Verif.Crd.C30_embedded`: [propext, Classical.choice, Quot.sound]
* `Verif.Crd.C30_untagged_reported`: [propext, Classical.choice, Quot.sound]
* `Verif.Crd.C30_documented`: [propext, Classical.choice, Quot.sound]
* `Verif.Crd.C30_required_are_properties_partial`: [propext, Classical.choice, Quot.sound]
* `Verif.Crd.C30_required_once`: [propext, Classical.choice, Quot.sound]
* `Verif.Crd.C30_violated_inline`: [propext, Classical.choice, Quot.sound]
* `Verif.Crd.C30_violated_unnamed`: [propext, Classical.choice, Quot.sound]
* `Verif.Crd.C31_types`: [propext, Classical.choice, Quot.sound]
* `Verif.Crd.C31_floats_rejected`: [propext, Classical.choice, Quot.sound]
* `Verif.Crd.C31_unencodable_rejected`: [propext, Classical.choice, Quot.sound]
* `Verif.Crd.C31_map_keys`: [propext, Classical.choice, Quot.sound]
* `Verif.Crd.C31_violated_uint8`: [propext, Classical.choice, Quot.sound]
* `Verif.Crd.C31_violated_aliasKey`: [propext, Classical.choice, Quot.sound]
* `Verif.CrdGen.C32_kinds`: [propext, Classical.choice, Quot.sound]
* `Verif.CrdGen.C32_order`: [propext, Classical.choice, Quot.sound]
* `Verif.CrdGen.C33_files_partial`: [propext, Classical.choice, Quot.sound]
* `Verif.CrdGen.C33_crds`: [propext, Classical.choice, Quot.sound]
* `Verif.CrdGen.C33_once_partial`: [propext, Classical.choice, Quot.sound]
* `Verif.CrdGen.C33_violated_skip`: [propext, Classical.choice, Quot.sound]
* `Verif.CrdGen.C33_violated_group`: [propext, Classical.choice, Quot.sound]
* `Verif.CrdGen.C33_violated_plural`: [propext, Classical.choice, Quot.sound]
* `Verif.CrdGen.C33_versions`: [propext, Classical.choice, Quot.sound]
* `Verif.Genall.C34_accepted`: [propext, Classical.choice, Quot.sound]
* `Verif.Genall.C34_result`: [propext, Quot.sound]
* `Verif.Genall.C34_error`: [propext, Quot.sound]
* `Verif.Genall.C34_no_crash_partial`: [propext]
* `Verif.Genall.C34_known`: [propext, Classical.choice, Quot.sound]
* `Verif.Genall.C34_found`: [propext, Classical.choice, Quot.sound]
* `Verif.Genall.C34_addressed`: [propext, Classical.choice, Quot.sound]
* `Verif.Genall.C34_tool_no_crash_partial`: [propext, Classical.choice, Quot.sound]
* `Verif.Genall.C34_violated_empty`: none
* `Verif.Genall.C35_run`: [propext]
* `Verif.Genall.C35_reported`: [propext, Classical.choice, Quot.sound]
* `Verif.Genall.C35_nothing`: [propext]
* `Verif.Genall.C35_filters`: [propext]
* `Verif.Genall.C35_exit`: [propext, Classical.choice, Quot.sound]
* `Verif.Genall.C36_rule`: [propext, Classical.choice, Quot.sound]
* `Verif.Genall.C36_config`: [propext, Classical.choice, Quot.sound]
* `Verif.Genall.C36_code`: [propext, Classical.choice, Quot.sound]
* `Verif.Genall.C36_no_file`: [propext]
* `Verif.Genall.C36_inside_partial`: [propext, Classical.choice, Quot.sound]
* `Verif.Genall.C36_direct`: [propext, Classical.choice, Quot.sound]
* `Verif.Genall.C36_default`: [propext, Classical.choice, Quot.sound]
* `Verif.Genall.C36_made`: [propext, Classical.choice, Quot.sound]
* `Verif.Genall.C36_crd_file_partial`: [propext, Classical.choice, Quot.sound]
* `Verif.Genall.C36_violated`: [propext, Classical.choice, Quot.sound]
* `Verif.Genall.C36_violated_group`: [propext, Classical.choice, Quot.sound]
* `Verif.Genall.C37_written`: [propext, Classical.choice, Quot.sound]
* `Verif.Genall.C37_prefix`: [propext, Classical.choice, Quot.sound]
* `Verif.Genall.C37_success`: [propext, Quot.sound]
* `Verif.Genall.C37_documents`: [propext, Classical.choice, Quot.sound]
* `Verif.Genall.C37_count`: [propext, Classical.choice, Quot.sound]
* `Verif.Genall.C37_violated_header`: [propext, Classical.choice, Quot.sound]
* `Verif.Patch.C38_set`: [propext, Quot.sound]
* `Verif.Patch.C38_set_other`: [propext, Quot.sound]
* `Verif.Patch.C38_set_order`: [propext, Quot.sound]
* `Verif.Patch.C38_set_error`: [propext, Quot.sound]
* `Verif.Patch.C38_delete_partial`: [propext, Quot.sound]
* `Verif.Patch.C38_delete_other`: [propext, Classical.choice, Quot.sound]
* `Verif.Patch.C38_delete_order`: [propext, Quot.sound]
* `Verif.Patch.C38_delete_absent`: [propext, Quot.sound]
* `Verif.Patch.C38_delete_error`: [propext, Quot.sound]
* `Verif.Patch.C38_violated`: [propext]
* `Verif.Patch.C39_frame`: [propext, Quot.sound]
* `Verif.Patch.C39_twice_partial`: [propext, Classical.choice, Quot.sound]
* `Verif.Patch.C39_no_crash_partial`: [propext, Classical.choice, Quot.sound]
* `Verif.Patch.C39_no_versions`: [propext, Classical.choice, Quot.sound]
* `Verif.Patch.C39_bad_name`: [propext, Classical.choice, Quot.sound]
* `Verif.Patch.C39_violated_crash`: [propext]
* `Verif.Patch.C39_violated_twice`: [propext]
* `Verif.Patch.C39_alias_rejected`: [propext]
* `Verif.Patch.C39_violated_alias`: [propext]
* `Verif.Loader.C40_suffix`: [propext, Classical.choice, Quot.sound]
* `Verif.Loader.C40_clean`: [propext, Classical.choice, Quot.sound]
* `Verif.Loader.C40_fixed`: [propext, Classical.choice, Quot.sound]
* `Verif.Loader.C40_idempotent`: [propext, Classical.choice, Quot.sound]
* `Verif.Loader.C40_last`: [propext, Classical.choice, Quot.sound]
* `Verif.Loader.C40_shared_slash`: [propext, Classical.choice, Quot.sound]
* `Verif.Loader.C41_ends`: [propext, Quot.sound]
* `Verif.Loader.C41_no_deadlock`: [propext, Classical.choice, Quot.sound]
* `Verif.Loader.C41_can_end`: [propext, Classical.choice, Quot.sound]
* `Verif.Loader.C41_ordered`: [propext, Classical.choice, Quot.sound]
* `Verif.Loader.C41_complete`: [propext, Classical.choice, Quot.sound]
* `Verif.Loader.C42_added`: [propext]
* `Verif.Loader.C42_printed`: [propext, Classical.choice, Quot.sound]
* `Verif.Loader.C42_positions`: [propext]
* `Verif.Loader.C42_parse_partial`: [propext, Quot.sound]
* `Verif.Loader.C42_violated`: [propext]
* `Verif.Loader.C42_lists`: [propext]
* `Verif.DeepCopy.C43_deepCopyInto_partial`: [propext, Classical.choice, Quot.sound]
* `Verif.DeepCopy.C43_deepCopy_partial`: [propext, Classical.choice, Quot.sound]
* `Verif.DeepCopy.C43_independent`: [propext, Quot.sound]
* `Verif.DeepCopy.C43_violated_pointer`: [propext]
* `Verif.DeepCopy.C43_violated_slice`: [propext]
* `Verif.DeepCopy.C43_violated_struct`: [propext]
* `Verif.DeepCopy.C43_violated_unexported`: [propext]
* `Verif.DeepCopy.C43_violated_nil`: [propext]
* `Verif.DeepCopy.C43_violated_recursion`: [propext]
* `Verif.DeepCopy.C43_alias_rejected`: [propext]
* `Verif.DeepCopy.C43_names`: [propext, Quot.sound]
* `Verif.DeepCopy.C43_supported`: [propext, Quot.sound]
* `Verif.DeepCopy.C43_clean`: [propext, Quot.sound]
* `Verif.DeepCopy.C43_deepCopy_supported`: [propext, Classical.choice, Quot.sound]
* `Verif.DeepCopy.C44_ends`: [propext, Classical.choice, Quot.sound]
* `Verif.DeepCopy.C44_runs`: [propext, Classical.choice, Quot.sound]
* `Verif.DeepCopy.C44_distinct`: [propext, Classical.choice, Quot.sound]
* `Verif.DeepCopy.C44_specs`: [propext, Classical.choice, Quot.sound]
* `Verif.DeepCopy.C44_identifier_partial`: [propext, Classical.choice, Quot.sound]
* `Verif.DeepCopy.C44_violated_empty`: [propext, Classical.choice, Quot.sound]
* `Verif.DeepCopy.C44_violated_keyword`: [propext, Classical.choice, Quot.sound]
* `Verif.DeepCopy.C44_violated_shadow`: [propext, Classical.choice, Quot.sound]
* `Verif.DeepCopy.C45_methods_partial`: [propext, Classical.choice, Quot.sound]
* `Verif.DeepCopy.C45_disabled`: [propext, Classical.choice, Quot.sound]
* `Verif.DeepCopy.C45_file`: [propext, Classical.choice, Quot.sound]
* `Verif.DeepCopy.C45_violated_pointer`: [propext, Classical.choice, Quot.sound]
* `Verif.DeepCopy.C45_violated_interface`: [propext, Classical.choice, Quot.sound]
* `Verif.Help.C46_lists`: [propext, Classical.choice, Quot.sound]
* `Verif.Help.C46_deterministic_partial`: [propext, Classical.choice, Quot.sound]
* `Verif.Help.C46_options`: [propext, Classical.choice, Quot.sound]
* `Verif.Help.C46_summary`: [propext, Classical.choice, Quot.sound]
* `Verif.Help.C46_shown`: [propext, Classical.choice, Quot.sound]
* `Verif.Help.C46_details`: [propext, Classical.choice, Quot.sound]
* `Verif.Help.C46_json`: [propext, Classical.choice, Quot.sound]
* `Verif.Help.C46_violated`: [propext, Classical.choice, Quot.sound]
* `Verif.Help.C46_violated_hidden`: [propext, Classical.choice, Quot.sound]
* `Verif.Help.C46_violated_level`: [propext, Classical.choice, Quot.sound]
* `Verif.Help.C47_padding`: [propext]
* `Verif.Help.C47_table`: [propext, Quot.sound]
* `Verif.Help.C47_limit`: [propext, Classical.choice, Quot.sound]
* `Verif.Help.C47_indent`: [propext]
* `Verif.Help.C47_violated_unicode`: [propext, Classical.choice, Quot.sound]
* `Verif.Help.C47_violated_limit`: [propext, Classical.choice, Quot.sound]
* `Verif.Help.C47_violated_skip`: [propext]
* `Verif.Help.C47_mixed`: [propext, Quot.sound]
* `Verif.Loader.C48_only`: [propext]
* `Verif.Loader.C48_roots`: [propext]
* `Verif.Loader.C48_partial`: [propext]
* `Verif.Loader.C48_ends`: [propext, Quot.sound]
* `Verif.Loader.C48_violated`: [propext, Classical.choice, Quot.sound]
* `Verif.Desc.C49_ascii_partial`: [propext, Quot.sound]
* `Verif.Desc.C49_violated`: [propext, Classical.choice, Quot.sound]
* `Verif.Crd.C50_deterministic_partial`: [propext, Classical.choice, Quot.sound]
* `Verif.Crd.C50_violated`: [propext, Classical.choice, Quot.sound]
* `Verif.Crd.C51_meaning_partial`: [propext, Classical.choice, Quot.sound]
* `Verif.Crd.C51_recursive_partial`: [propext, Classical.choice, Quot.sound]
* `Verif.Crd.C51_meaning_exists`: [propext, Classical.choice, Quot.sound]
* `Verif.Crd.C51_meaning_exists_recursive`: [propext, Classical.choice, Quot.sound]
* `Verif.Crd.C51_links`: [propext, Classical.choice, Quot.sound]
* `Verif.Crd.C51_violated`: [propext, Classical.choice, Quot.sound]
* `Verif.Crd.C52_documentation_partial`: [propext, Classical.choice, Quot.sound]
* `Verif.Crd.C52_own_partial`: [propext, Classical.choice, Quot.sound]
* `Verif.Crd.C52_violated`: [propext, Classical.choice, Quot.sound]
* `Verif.Crd.C53_rules_in_order_partial`: [propext, Classical.choice, Quot.sound]
* `Verif.Crd.C53_reported`: [propext, Classical.choice, Quot.sound]
* `Verif.Crd.C53_violated`: [propext, Classical.choice, Quot.sound]
* `Verif.Crd.C54_exact`: [propext, Classical.choice, Quot.sound]
* `Verif.Crd.C54_no_crash_partial`: [propext, Classical.choice, Quot.sound]
* `Verif.Crd.C54_marshalers`: [propext, Classical.choice, Quot.sound]
* `Verif.Crd.C54_violated_struct`: [propext, Classical.choice, Quot.sound]
* `Verif.Crd.C54_violated_any`: [propext, Classical.choice, Quot.sound]
* `Verif.Crd.C54_violated_error`: [propext, Classical.choice, Quot.sound]
* `Verif.Crd.C55_terminates`: [propext, Classical.choice, Quot.sound]
* `Verif.Crd.C55_complete`: [propext, Classical.choice, Quot.sound]
* `Verif.Crd.C55_closed`: [propext, Classical.choice, Quot.sound]
* `Verif.Crd.C55_stable`: [propext, Classical.choice, Quot.sound]
* `Verif.Crd.C55_once`: [propext, Classical.choice, Quot.sound]
* `Verif.Crd.C55_no_crash_partial`: [propext, Classical.choice, Quot.sound]
* `Verif.Crd.C56_sound_partial`: [propext, Classical.choice, Quot.sound]
* `Verif.Crd.C56_flattened_partial`: [propext, Classical.choice, Quot.sound]
* `Verif.Crd.C56_crd_partial`: [propext, Classical.choice, Quot.sound]
* `Verif.Crd.C56_end_to_end_partial`: [propext, Classical.choice, Quot.sound]
* `Verif.Crd.C56_violated_nil`: [propext, Classical.choice, Quot.sound]
* `Verif.Crd.C56_violated_uint8`: [propext, Classical.choice, Quot.sound]
* `Verif.Crd.C56_violated_string`: [propext, Classical.choice, Quot.sound]
* `Verif.Crd.C56_violated_omitzero`: [propext, Classical.choice, Quot.sound]
* `Verif.Crd.C57_markers_once_partial`: [propext, Classical.choice, Quot.sound]
* `Verif.Crd.C57_violated_pointer`: [propext, Classical.choice, Quot.sound]
* `Verif.Crd.C57_violated_marshaler`: [propext, Classical.choice, Quot.sound]
* `Verif.DeepCopy.C58_object_partial`: [propext, Classical.choice, Quot.sound]
* `Verif.DeepCopy.C58_violated`: [propext, Classical.choice, Quot.sound]
* `Verif.Loader.C59_refs_partial`: [propext, Classical.choice, Quot.sound]
* `Verif.Loader.C59_violated`: [propext, Quot.sound]
* `Verif.Markers.Collect.C60_partial`: [propext, Classical.choice, Quot.sound]
* `Verif.Markers.Collect.Examples.C60_violated`: [propext, Classical.choice, Quot.sound]
* `Verif.Markers.Each.C61_types`: [propext, Quot.sound]
* `Verif.Patch.C62_written`: [propext, Quot.sound]
* `Verif.Patch.C62_names`: [propext, Classical.choice, Quot.sound]
* `Verif.Patch.C62_nothing`: [propext]
* `Verif.Patch.C62_order_partial`: [propext, Quot.sound]
* `Verif.Patch.C62_violated`: [propext]
* `Verif.Genall.C63_objects`: [propext, Classical.choice, Quot.sound]
* `Verif.Genall.C63_crd`: [propext, Classical.choice, Quot.sound]
* `Verif.Genall.C63_violated`: [propext, Classical.choice, Quot.sound]
* `Verif.Help.C64_type_partial`: [propext, Classical.choice, Quot.sound]
* `Verif.Help.C64_no_crash`: [propext, Classical.choice, Quot.sound]
* `Verif.Help.C64_syntax`: [propext, Classical.choice, Quot.sound]
* `Verif.Help.C64_violated_number`: [propext, Classical.choice, Quot.sound]
* `Verif.Help.C64_violated_map`: [propext, Classical.choice, Quot.sound]
* `Verif.Markers.C65_supported`: [propext, Quot.sound]
* `Verif.Markers.C65_type`: [propext, Classical.choice, Quot.sound]
* `Verif.Markers.C65_fields`: [propext, Classical.choice, Quot.sound]
* `Verif.Markers.C65_defined`: [propext, Classical.choice, Quot.sound]
* `Verif.Markers.C65_plain`: [propext, Classical.choice, Quot.sound]
* `Verif.Markers.C65_violated_name`: [propext, Classical.choice, Quot.sound]
* `Verif.Loader.C66_loaded`: [propext, Classical.choice, Quot.sound]
* `Verif.Loader.C66_fails`: [propext, Classical.choice, Quot.sound]
* `Verif.Loader.C66_paths_partial`: [propext]
* `Verif.Loader.C66_violated_dots`: [propext, Classical.choice, Quot.sound]
* `Verif.Loader.C66_violated_wildcard`: [propext, Classical.choice, Quot.sound]
* `Verif.Loader.C66_violated_file`: [propext, Classical.choice, Quot.sound]
* `Verif.Loader.C67_refs_partial`: [propext, Quot.sound]
* `Verif.Loader.C67_errors_partial`: [propext, Quot.sound]
* `Verif.Loader.C67_missing`: [propext, Quot.sound]
* `Verif.Loader.C67_filters`: [propext, Classical.choice, Quot.sound]
* `Verif.Loader.C67_crd`: [propext, Quot.sound]
* `Verif.Loader.C67_object`: [propext, Quot.sound]
* `Verif.Loader.C67_checked_partial`: [propext, Classical.choice, Quot.sound]
* `Verif.Loader.C67_violated_import`: [propext, Classical.choice, Quot.sound]
* `Verif.Loader.C67_violated_params`: [propext, Classical.choice, Quot.sound]
* `Verif.Loader.C67_violated_value`: [propext, Classical.choice, Quot.sound]
* `Verif.Markers.C68_defined`: [propext, Classical.choice, Quot.sound]
* `Verif.Markers.C68_recognised`: [propext, Classical.choice, Quot.sound]
* `Verif.Markers.C68_only`: [propext, Classical.choice, Quot.sound]
* `Verif.Markers.C68_values`: [propext, Classical.choice, Quot.sound]
* `Verif.Markers.C68_value`: [propext, Classical.choice, Quot.sound]
* `Verif.Markers.C68_fields`: [propext, Classical.choice, Quot.sound]
* `Verif.Markers.C68_anonymous`: [propext, Classical.choice, Quot.sound]
* `Verif.Markers.C68_manual`: [propext, Classical.choice, Quot.sound]
* `Verif.Markers.C68_default`: [propext, Classical.choice, Quot.sound]
* `Verif.Markers.C69_values`: [propext, Quot.sound]
* `Verif.Markers.C69_first`: [propext, Classical.choice, Quot.sound]
* `Verif.Apply.C70_disabled`: [propext, Classical.choice, Quot.sound]
* `Verif.Apply.C70_types_partial`: [propext, Classical.choice, Quot.sound]
* `Verif.Apply.C70_where`: [propext, Classical.choice, Quot.sound]
* `Verif.Apply.C70_no_panic`: [propext, Classical.choice, Quot.sound]
* `Verif.Apply.C70_all`: [propext, Classical.choice, Quot.sound]
* `Verif.Apply.Example.C70_violated_single`: [propext, Classical.choice, Quot.sound]
* `Verif.Apply.Example.C70_violated_disable`: [propext, Classical.choice, Quot.sound]
* `Verif.Apply.Example.C70_violated_commented`: [propext, Classical.choice, Quot.sound]
* `Verif.Apply.Example.C70_violated_error`: [propext, Classical.choice, Quot.sound]
* `Verif.Genall.C71_header`: [propext, Classical.choice, Quot.sound]
* `Verif.Genall.pieces_unique`: [propext, Classical.choice, Quot.sound]
* `Verif.Genall.HeaderExample.C71_violated_helpgen`: [propext, Classical.choice, Quot.sound]
* `Verif.Helpgen.C72_quote`: [propext, Classical.choice, Quot.sound]
* `Verif.Helpgen.C72_summary`: [propext]
* `Verif.Helpgen.C72_details`: [propext, Quot.sound]
* `Verif.Helpgen.C72_nothing`: [propext, Classical.choice, Quot.sound]
* `Verif.Helpgen.C72_file_partial`: [propext, Classical.choice, Quot.sound]
* `Verif.Helpgen.C72_order`: [propext, Classical.choice, Quot.sound]
* `Verif.Helpgen.C72_keys_partial`: [propext, Classical.choice, Quot.sound]
* `Verif.Helpgen.Example.C72_violated_header`: [propext, Classical.choice, Quot.sound]
* `Verif.Helpgen.Example.C72_violated_embedded`: [propext, Classical.choice, Quot.sound]
* `Verif.Genall.C73_init`: [propext, Classical.choice, Quot.sound]
* `Verif.Genall.C73_order`: [propext, Classical.choice, Quot.sound]
* `Verif.Genall.C73_bare`: [propext, Classical.choice, Quot.sound]
* `Verif.Genall.C73_named`: [propext, Classical.choice, Quot.sound]
* `Verif.Genall.C73_value`: [propext, Classical.choice, Quot.sound]
* `Verif.Genall.C73_paths`: [propext, Classical.choice, Quot.sound]
* `Verif.Genall.C73_only`: [propext, Classical.choice, Quot.sound]
* `Verif.Genall.C73_no_crash_partial`: [propext, Classical.choice, Quot.sound]
* `Verif.Genall.ToolExample.C73_violated_all`: [propext, Classical.choice, Quot.sound]
* `Verif.Genall.ToolExample.C73_violated_all_exit`: [propext, Classical.choice, Quot.sound]
* `Verif.Genall.C73_manual`: [propext, Classical.choice, Quot.sound]
* `Verif.Genall.C73_kinds`: [propext, Classical.choice, Quot.sound]
* `Verif.Genall.C73_rules`: [propext, Classical.choice, Quot.sound]
* `Verif.Scaffold.C74_code`: [propext, Classical.choice, Quot.sound]
* `Verif.Scaffold.C74_help_inert`: [propext, Classical.choice, Quot.sound]
* `Verif.Scaffold.C74_help_shown`: [propext, Classical.choice, Quot.sound]
* `Verif.Scaffold.C74_root`: [propext, Classical.choice, Quot.sound]
* `Verif.Scaffold.C74_list`: [propext, Classical.choice, Quot.sound]
* `Verif.Scaffold.C74_valid`: [propext]
* `Verif.Scaffold.C74_default`: [propext]
* `Verif.Scaffold.C74_main`: [propext, Classical.choice, Quot.sound]
* `Verif.Scaffold.C74_main_code_partial`: [propext, Classical.choice, Quot.sound]
* `Verif.Scaffold.C74_violated_namespaced`: [propext, Classical.choice, Quot.sound]
* `Verif.Scaffold.Example.C74_violated_resource`: [propext, Classical.choice, Quot.sound]
* `Verif.Patch.C75_reported`: [propext, Classical.choice, Quot.sound]
* `Verif.Patch.C75_nothing`: [propext, Classical.choice, Quot.sound]
* `Verif.Patch.C75_written`: [propext, Classical.choice, Quot.sound]
* `Verif.Patch.C75_once`: [propext, Classical.choice, Quot.sound]
* `Verif.Patch.C75_untouched`: [propext, Classical.choice, Quot.sound]
* `Verif.Patch.C75_in_place_partial`: [propext, Classical.choice, Quot.sound]
* `Verif.Patch.DirExample.C75_violated_documents`: [propext, Classical.choice, Quot.sound]
* `Verif.Patch.DirExample.C75_violated_silent`: [propext, Classical.choice, Quot.sound]
* `Verif.Genall.C76_one`: [propext]
* `Verif.Genall.C76_version`: [propext, Classical.choice, Quot.sound]
* `Verif.Genall.C76_help`: [propext, Classical.choice, Quot.sound]
* `Verif.Genall.C76_markers`: [propext, Classical.choice, Quot.sound]
* `Verif.Genall.C76_run`: [propext, Classical.choice, Quot.sound]
* `Verif.Genall.C76_failure`: [propext, Classical.choice, Quot.sound]
* `Verif.Genall.C76_no_crash`: [propext, Classical.choice, Quot.sound]
* `Verif.Genall.C76_violated_advice`: [propext, Classical.choice, Quot.sound]
* `Verif.Genall.C76_violated_no_generators`: [propext, Classical.choice, Quot.sound]
* `Verif.Json.C77_default_partial`: [propext, Classical.choice, Quot.sound]
* `Verif.Json.C77_default_rounded`: [propext, Classical.choice, Quot.sound]
* `Verif.Json.C77_default_error`: [propext, Classical.choice, Quot.sound]
* `Verif.Json.C77_default_nothing`: [propext, Classical.choice, Quot.sound]
* `Verif.Json.C77_kubebuilder`: [propext, Classical.choice, Quot.sound]
* `Verif.Json.C77_example`: [propext, Classical.choice, Quot.sound]
* `Verif.Json.C77_enum`: [propext, Classical.choice, Quot.sound]
* `Verif.Json.C77_violated_number`: [propext, Classical.choice, Quot.sound]
* `Verif.Crd.C78_enforced_partial`: [propext, Classical.choice, Quot.sound]
* `Verif.Crd.C78_exact_partial`: [propext, Classical.choice, Quot.sound]
* `Verif.Crd.C78_enforced_crd_partial`: [propext, Classical.choice, Quot.sound]
* `Verif.Crd.C78_accepted_crd_partial`: [propext, Classical.choice, Quot.sound]
* `Verif.Crd.C78_end_to_end_partial`: [propext, Classical.choice, Quot.sound]
* `Verif.Crd.C78_violated_repeated`: [propext, Classical.choice, Quot.sound]
* `Verif.Crd.C78_violated_recursive`: [propext, Classical.choice, Quot.sound]
* `Verif.Crd.C78_violated_exclusive`: [propext, Classical.choice, Quot.sound]
* `Verif.Crd.C78_violated_alias`: [propext, Classical.choice, Quot.sound]
* `Verif.Crd.C79_merge_partial`: [propext, Classical.choice, Quot.sound]
* `Verif.Crd.C79_structural_partial`: [propext, Classical.choice, Quot.sound]
* `Verif.Crd.C79_violated_recursive`: [propext, Classical.choice, Quot.sound]
* `Verif.Crd.C79_violated_schemaless`: [propext, Classical.choice, Quot.sound]
* `Verif.Crd.C79_violated_shadowed`: [propext, Classical.choice, Quot.sound]
* `Verif.Crd.C79_violated_default`: [propext, Classical.choice, Quot.sound]
* `Verif.Crd.C80_known`: [propext, Classical.choice, Quot.sound]
* `Verif.Crd.C80_fields`: [propext, Classical.choice, Quot.sound]
* `Verif.Crd.C80_violated_null`: [propext, Classical.choice, Quot.sound]
* `Verif.Rbac.C81_total`: [propext, Classical.choice, Quot.sound]
* `Verif.Rbac.C81_sound_partial`: [propext, Classical.choice, Quot.sound]
* `Verif.Rbac.C81_complete_partial`: [propext, Classical.choice, Quot.sound]
* `Verif.Rbac.C81_errors`: [propext, Classical.choice, Quot.sound]
* `Verif.Rbac.SourceExamples.C81_violated`: [propext, Classical.choice, Quot.sound]
* `Verif.Rbac.SourceExamples.C81_violated_error`: [propext, Classical.choice, Quot.sound]
* `Verif.Markers.Source.C82_fails`: [propext, Classical.choice, Quot.sound]
* `Verif.Markers.Source.C82_types`: [propext, Classical.choice, Quot.sound]
* `Verif.Markers.Source.C82_values`: [propext, Classical.choice, Quot.sound]
* `Verif.Crd.C83_enforced_partial`: [propext, Classical.choice, Quot.sound]
* `Verif.Crd.C83_program`: [propext, Classical.choice, Quot.sound]
* `Verif.Crd.packageFrom_of`: [propext, Classical.choice, Quot.sound]
* `Verif.Webhook.C84_total`: [propext, Classical.choice, Quot.sound]
* `Verif.Webhook.C84_exact_partial`: [propext, Classical.choice, Quot.sound]
* `Verif.Webhook.C84_sound_partial`: [propext, Classical.choice, Quot.sound]
* `Verif.Webhook.C84_complete_partial`: [propext, Classical.choice, Quot.sound]
* `Verif.Webhook.C84_accepts_partial`: [propext, Classical.choice, Quot.sound]
* `Verif.Webhook.C84_errors`: [propext, Classical.choice, Quot.sound]
* `Verif.Webhook.SourceExamples.C84_violated`: [propext, Classical.choice, Quot.sound]
* `Verif.CrdGen.C85_says`: [propext, Classical.choice, Quot.sound]
* `Verif.CrdGen.C85_shown`: [propext, Classical.choice, Quot.sound]
* `Verif.CrdGen.C85_crd_partial`: [propext, Classical.choice, Quot.sound]
* `Verif.CrdGen.SourceSample.column_shown`: [propext, Classical.choice, Quot.sound]
* `Verif.CrdGen.C86_enforced_partial`: [propext, Classical.choice, Quot.sound]
* `Verif.CrdGen.C86_comments_partial`: [propext, Classical.choice, Quot.sound]
* `Verif.DeepCopy.C87_total`: [propext, Classical.choice, Quot.sound]
* `Verif.DeepCopy.C87_files`: [propext, Classical.choice, Quot.sound]
* `Verif.DeepCopy.C87_methods_partial`: [propext, Classical.choice, Quot.sound]
* `Verif.DeepCopy.C87_disabled`: [propext, Classical.choice, Quot.sound]
* `Verif.DeepCopy.C87_enabled`: [propext, Classical.choice, Quot.sound]
* `Verif.DeepCopy.C87_root`: [propext, Classical.choice, Quot.sound]
* `Verif.DeepCopy.C87_package`: [propext, Classical.choice, Quot.sound]
* `Verif.DeepCopy.C87_nothing`: [propext, Classical.choice, Quot.sound]
* `Verif.Apply.C88_total`: [propext, Classical.choice, Quot.sound]
* `Verif.Apply.C88_disabled_package`: [propext, Classical.choice, Quot.sound]
* `Verif.Apply.C88_asked`: [propext, Classical.choice, Quot.sound]
* `Verif.Apply.C88_types_partial`: [propext, Classical.choice, Quot.sound]
* `Verif.Apply.C88_enabled`: [propext, Classical.choice, Quot.sound]
* `Verif.Apply.C88_disabled`: [propext, Classical.choice, Quot.sound]
* `Verif.Apply.C88_resource`: [propext, Classical.choice, Quot.sound]
* `Verif.Apply.C88_nothing`: [propext, Classical.choice, Quot.sound]
* `Verif.Apply.C88_where`: [propext, Classical.choice, Quot.sound]
* `Verif.Apply.C88_all`: [propext, Classical.choice, Quot.sound]
* `Verif.Apply.SourceExamples.C88_violated_single`: [propext, Classical.choice, Quot.sound]
* `Verif.Apply.SourceExamples.C88_violated_error`: [propext, Classical.choice, Quot.sound]
* `Verif.Apply.SourceExamples.C88_violated_error_type`: [propext, Classical.choice, Quot.sound]
* `Verif.Patch.C89_enforced_partial`: [propext, Classical.choice, Quot.sound]
* `Verif.Patch.C89_comments_partial`: [propext, Classical.choice, Quot.sound]
* `Verif.Patch.C89_crashes`: [propext, Classical.choice, Quot.sound]
* `Verif.Patch.C89_violated_late`: [propext, Classical.choice, Quot.sound]
* `Verif.Patch.C89_violated_crash`: [propext, Classical.choice, Quot.sound]
* `Verif.Help.C90_listed`: [propext, Classical.choice, Quot.sound]
* `Verif.Help.C90_only`: [propext, Classical.choice, Quot.sound]
* `Verif.Help.C90_deprecated`: [propext, Classical.choice, Quot.sound]
* `Verif.Help.C90_arguments_partial`: [propext, Classical.choice, Quot.sound]
* `Verif.Help.C90_violated_webhookconfiguration`: [propext, Classical.choice, Quot.sound]
* `Verif.Help.C90_violated_arguments`: [propext, Classical.choice, Quot.sound]
* `Verif.Help.C90_violated_resource`: [propext, Classical.choice, Quot.sound]
* `Verif.Genall.C91_kept_partial`: [propext, Classical.choice, Quot.sound]
* `Verif.Genall.C91_once_partial`: [propext, Classical.choice, Quot.sound]
* `Verif.Genall.C91_command_partial`: [propext, Classical.choice, Quot.sound]
* `Verif.Genall.C91_only`: [propext, Classical.choice, Quot.sound]
* `Verif.Genall.ArtifactsCase.C91_violated_code`: [propext, Classical.choice, Quot.sound]
* `Verif.Genall.ArtifactsCase.C91_violated_name`: [propext, Classical.choice, Quot.sound]
* `Verif.Genall.C92_clean_partial`: [propext, Classical.choice, Quot.sound]
* `Verif.Genall.C92_again_partial`: [propext, Classical.choice, Quot.sound]
* `Verif.Genall.AgainCase.C92_violated_stale`: [propext, Classical.choice, Quot.sound]
* `Verif.Genall.AgainCase.C92_violated_tags`: [propext, Classical.choice, Quot.sound]
* `Verif.Genall.C93_one_partial`: [propext, Classical.choice, Quot.sound]
* `Verif.Genall.C93_other`: [propext, Classical.choice, Quot.sound]
* `Verif.Genall.C93_whole`: [propext, Classical.choice, Quot.sound]
* `Verif.Genall.C93_repair_partial`: [propext, Classical.choice, Quot.sound]
* `Verif.Genall.C93_repair_manifests`: [propext, Classical.choice, Quot.sound]
* `Verif.Genall.C93_repair_code_partial`: [propext, Classical.choice, Quot.sound]
* `Verif.Genall.AgainCase.C93_violated_lost`: [propext, Classical.choice, Quot.sound]
* `Verif.Genall.AgainCase.C93_violated_loaded`: [propext, Classical.choice, Quot.sound]
* `Verif.Genall.C94_printed`: [propext, Quot.sound]
* `Verif.Genall.C94_read_partial`: [propext, Classical.choice, Quot.sound]
* `Verif.Genall.StdoutCase.reads`: [propext, Classical.choice, Quot.sound]
* `Verif.Genall.StdoutCase.three`: [propext, Classical.choice, Quot.sound]
* `Verif.Genall.StdoutCase.C94_violated_header`: [propext, Classical.choice, Quot.sound]
* `Verif.Genall.StdoutCase.C94_violated_code`: [propext, Classical.choice, Quot.sound]
* `Verif.CrdGen.C95_kind_partial`: [propext, Classical.choice, Quot.sound]
* `Verif.CrdGen.C95_files_partial`: [propext, Classical.choice, Quot.sound]
* `Verif.CrdGen.SameSample.C95_violated_other`: [propext, Classical.choice, Quot.sound]
* `Verif.Patch.C96_agree_partial`: [propext, Classical.choice, Quot.sound]
* `Verif.Patch.AgreeCase.C96_violated_unnamed`: [propext, Classical.choice, Quot.sound]
* `Verif.Patch.C97_again_partial`: [propext, Classical.choice, Quot.sound]
* `Verif.Patch.AgainCase.C97_violated_late`: [propext, Classical.choice, Quot.sound]
* `Verif.Rbac.C98_monotone_partial`: [propext, Classical.choice, Quot.sound]
* `Verif.Rbac.C98_split_partial`: [propext, Classical.choice, Quot.sound]
* `Verif.Rbac.C98_order_partial`: [propext, Classical.choice, Quot.sound]
* `Verif.Rbac.C98_errors`: [propext, Classical.choice, Quot.sound]
* `Verif.Rbac.TogetherCase.C98_violated_overlap`: [propext, Classical.choice, Quot.sound]
* `Verif.Webhook.C99_together`: [propext, Classical.choice, Quot.sound]
* `Verif.Webhook.C99_succeeds`: [propext, Classical.choice, Quot.sound]
* `Verif.Webhook.C99_name_partial`: [propext, Classical.choice, Quot.sound]
* `Verif.Webhook.TogetherCase.C99_violated_name`: [propext, Classical.choice, Quot.sound]
* `Verif.DeepCopy.C100_package`: [propext, Classical.choice, Quot.sound]
* `Verif.DeepCopy.C100_files`: [propext, Classical.choice, Quot.sound]
* `Verif.Apply.C101_package_partial`: [propext, Classical.choice, Quot.sound]
* `Verif.Apply.C101_types`: [propext, Classical.choice, Quot.sound]
* `Verif.Apply.C101_more_partial`: [propext, Classical.choice, Quot.sound]
* `Verif.Apply.AloneCase.C101_violated_output`: [propext, Classical.choice, Quot.sound]
