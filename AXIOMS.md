# Axioms of the theorems in MANIFEST.json

Printed by `#print axioms`.

* C01 `Verif.Imports.resolve_eq_depth_first`: propext, Classical.choice, Quot.sound
* C01 `Verif.Imports.parseFile_once`: propext, Classical.choice, Quot.sound
* C01 `Verif.Imports.parseFile_complete`: propext, Classical.choice, Quot.sound
* C01 `Verif.Imports.relative_root_read_twice`: propext, Classical.choice, Quot.sound
* C01 `Verif.Imports.parseString_depth_first`: propext, Classical.choice, Quot.sound
* C02 `Verif.Imports.resolve_terminates`: propext, Classical.choice, Quot.sound
* C02 `Verif.Imports.angle_takes_first`: propext, Quot.sound
* C02 `Verif.Imports.notFound_only_if_missing`: propext, Classical.choice, Quot.sound
* C02 `Verif.Imports.missing_import_fails`: propext, Classical.choice, Quot.sound
* C03 `Verif.NumExpr.lift_eq_value`: propext, Classical.choice, Quot.sound
* C03 `Verif.NumExpr.lift_error_iff`: propext, Classical.choice, Quot.sound
* C03 `Verif.NumExpr.value_unique`: propext, Classical.choice, Quot.sound
* C03 `Verif.NumExpr.undefined_operation_rejected`: propext, Classical.choice, Quot.sound
* C04 `Verif.NumExpr.logical_truth_partial`: propext, Classical.choice, Quot.sound
* C04 `Verif.NumExpr.comparison_boolean`: propext, Classical.choice, Quot.sound
* C04 `Verif.NumExpr.not_boolean`: propext, Classical.choice, Quot.sound
* C04 `Verif.NumExpr.logical_not_boolean`: propext
* C05 `Verif.Lift.dict_last_wins`: propext, Quot.sound
* C05 `Verif.Lift.list_faithful`: propext
* C05 `Verif.Lift.multi_string_concat`: propext, Quot.sound
* C05 `Verif.Lift.string_literal_iff`: propext
* C05 `Verif.Lift.dataport_type_sizes`: propext, Classical.choice, Quot.sound
* C05 `Verif.Lift.export_split`: propext, Classical.choice, Quot.sound
* C05 `Verif.Lift.connection_ends_partition`: propext, Quot.sound
* C05 `Verif.Lift.connection_end_split`: propext
* C06 `Verif.Lift.connector_decl_faithful`: propext, Quot.sound
* C06 `Verif.Lift.connector_negative_threads`: propext, Classical.choice, Quot.sound
* C06 `Verif.Lift.connector_decl_only`: propext, Quot.sound
* C07 `Verif.Location.location_honours_directives`: propext, Classical.choice, Quot.sound
* C07 `Verif.Location.lineOf_unique`: propext, Classical.choice, Quot.sound
* C07 `Verif.Location.location_outside`: propext, Quot.sound
* C07 `Verif.Location.directive_iff`: propext, Classical.choice, Quot.sound
* C07 `Verif.Location.fileOf_unique`: propext, Classical.choice, Quot.sound
* C07 `Verif.Location.location_without_source`: propext
* C08 `Verif.Scope.lookup_innermost`: propext, Quot.sound
* C08 `Verif.Scope.lookup_none_iff`: propext, Classical.choice, Quot.sound
* C08 `Verif.Scope.register_duplicate_iff`: propext, Quot.sound
* C08 `Verif.Scope.history_no_duplicates`: propext, Quot.sound
* C08 `Verif.Scope.lookup_qualified`: propext, Quot.sound
* C08 `Verif.Scope.resolve_prefers_context`: propext, Classical.choice, Quot.sound
* C08 `Verif.Scope.resolve_unknown_iff`: propext, Classical.choice, Quot.sound
* C09 `Verif.Scope.scope_exit_restores`: none
* C10 `Verif.Acyclic.self_containment_rejected`: propext, Classical.choice, Quot.sound
* C10 `Verif.Acyclic.check_iff_cycle`: propext, Quot.sound
* C100 `Verif.Resolve.nothing_else_changes`: propext, Classical.choice, Quot.sound
* C100 `Verif.Resolve.reference_resolved`: propext, Classical.choice, Quot.sound
* C100 `Verif.Resolve.qualified_resolved`: propext, Classical.choice, Quot.sound
* C100 `Verif.Resolve.siblings_differ`: propext, Classical.choice, Quot.sound
* C100 `Verif.Resolve.assemblies_differ`: propext, Classical.choice, Quot.sound
* C100 `Verif.Resolve.unknown_reason`: propext, Classical.choice, Quot.sound
* C100 `Verif.Resolve.unknown_rejected`: propext, Classical.choice, Quot.sound
* C100 `Verif.Resolve.never_asserts`: propext, Classical.choice, Quot.sound
* C100 `Verif.Resolve.instance_members`: propext
* C100 `Verif.Resolve.other_members`: propext, Quot.sound
* C100 `Verif.Resolve.composition_by_name_hidden`: propext
* C101 `Verif.Queries.settings_kept`: propext, Classical.choice, Quot.sound
* C101 `Verif.Queries.looked_up`: propext, Classical.choice, Quot.sound
* C101 `Verif.Queries.whole_result`: propext, Classical.choice, Quot.sound
* C101 `Verif.Queries.answered`: propext, Classical.choice, Quot.sound
* C101 `Verif.Queries.dependencies`: propext, Classical.choice, Quot.sound
* C101 `Verif.Queries.succeeds`: propext, Classical.choice, Quot.sound
* C101 `Verif.Queries.looked_up_answer`: propext, Classical.choice, Quot.sound
* C101 `Verif.Queries.unknown_reason`: propext, Classical.choice, Quot.sound
* C101 `Verif.Queries.unknown_refused`: propext, Classical.choice, Quot.sound
* C101 `Verif.Queries.lifted_partial`: propext
* C101 `Verif.Queries.no_arguments_fails`: propext
* C101 `Verif.Queries.nothing_found_fails`: propext, Classical.choice, Quot.sound
* C102 `Verif.Forward.all_replaced`: propext, Classical.choice, Quot.sound
* C102 `Verif.Forward.reference_resolved`: propext, Classical.choice, Quot.sound
* C102 `Verif.Forward.qualified_resolved`: propext, Classical.choice, Quot.sound
* C102 `Verif.Forward.acyclic`: propext, Classical.choice, Quot.sound
* C102 `Verif.Forward.cycle_reason`: propext, Classical.choice, Quot.sound
* C102 `Verif.Forward.siblings_differ`: propext, Classical.choice, Quot.sound
* C102 `Verif.Forward.assemblies_differ`: propext, Quot.sound
* C102 `Verif.Forward.unknown_refused`: propext, Classical.choice, Quot.sound
* C102 `Verif.Forward.unknown_reason`: propext, Classical.choice, Quot.sound
* C102 `Verif.Forward.demo_accepted`: propext, Classical.choice, Quot.sound
* C102 `Verif.Forward.demo_named`: propext
* C102 `Verif.Forward.composition_by_name_asserts`: propext
* C102 `Verif.Forward.mixed_end`: propext
* C103 `Verif.Pipeline.delivered_instances`: propext, Classical.choice, Quot.sound
* C103 `Verif.Pipeline.delivered_connected_iff`: propext, Classical.choice, Quot.sound
* C103 `Verif.Pipeline.delivered_from_iff`: propext, Classical.choice, Quot.sound
* C103 `Verif.Pipeline.delivered_to_iff`: propext, Classical.choice, Quot.sound
* C103 `Verif.Pipeline.delivered_ends_once`: propext, Classical.choice, Quot.sound
* C103 `Verif.Pipeline.delivered_ends_exist`: propext, Classical.choice, Quot.sound
* C103 `Verif.Pipeline.delivered_mandatory`: propext, Classical.choice, Quot.sound
* C103 `Verif.Pipeline.delivered_suits`: propext, Classical.choice, Quot.sound
* C103 `Verif.Pipeline.delivered_value_iff`: propext, Classical.choice, Quot.sound
* C103 `Verif.Pipeline.delivered_set_once`: propext, Classical.choice, Quot.sound
* C103 `Verif.Pipeline.pipeline_terminates`: propext, Classical.choice, Quot.sound
* C103 `Verif.Pipeline.pipeline_no_assembly`: propext, Classical.choice, Quot.sound
* C103 `Verif.Pipeline.demo_seen`: propext, Classical.choice, Quot.sound
* C103 `Verif.Pipeline.demo_accepted`: propext, Classical.choice, Quot.sound
* C103 `Verif.Pipeline.demo_wellFormed`: propext, Classical.choice, Quot.sound
* C104 `Verif.ArchSpec.description_read_partial`: propext, Classical.choice, Quot.sound
* C104 `Verif.ArchSpec.names_different`: propext, Classical.choice, Quot.sound
* C104 `Verif.ArchSpec.description_exists_iff`: propext, Classical.choice, Quot.sound
* C104 `Verif.ArchSpec.defined_before_partial`: propext, Classical.choice, Quot.sound
* C104 `Verif.ArchSpec.exported_dataport_stays`: propext, Classical.choice, Quot.sound
* C104 `Verif.ArchSpec.exported_event_stays`: propext, Classical.choice, Quot.sound
* C104 `Verif.ArchSpec.exported_described_not`: propext, Classical.choice, Quot.sound
* C104 `Verif.ArchSpec.named_assembly_undefined`: propext, Classical.choice, Quot.sound
* C104 `Verif.ArchSpec.dataport_names_meet`: propext, Classical.choice, Quot.sound
* C104 `Verif.ArchSpec.demo_apart`: propext, Classical.choice, Quot.sound
* C104 `Verif.ArchSpec.demo_topApart`: propext, Classical.choice, Quot.sound
* C104 `Verif.ArchSpec.demo_exports`: propext, Classical.choice, Quot.sound
* C104 `Verif.ArchSpec.demo_described`: propext, Classical.choice, Quot.sound
* C105 `Verif.CNames.accepted_iff_legal`: propext, Classical.choice, Quot.sound
* C105 `Verif.CNames.refusal_true`: propext, Classical.choice, Quot.sound
* C105 `Verif.CNames.accepted_no_keyword`: propext, Classical.choice, Quot.sound
* C105 `Verif.CNames.demo_accepted`: propext, Classical.choice, Quot.sound
* C105 `Verif.CNames.demo_legal`: propext, Classical.choice, Quot.sound
* C105 `Verif.CNames.demo_refused`: propext, Classical.choice, Quot.sound
* C105 `Verif.CNames.device_binary_semaphore_accepted`: propext, Classical.choice, Quot.sound
* C106 `Verif.CNames.names_once_partial`: propext, Classical.choice, Quot.sound
* C106 `Verif.CNames.names_exact`: propext, Classical.choice, Quot.sound
* C106 `Verif.CNames.wiring_dtb`: propext, Quot.sound
* C106 `Verif.CNames.names_keyword`: propext, Classical.choice, Quot.sound
* C106 `Verif.CNames.prototype_once_iff`: propext, Classical.choice, Quot.sound
* C106 `Verif.CNames.prototype_params`: propext, Classical.choice, Quot.sound
* C106 `Verif.CNames.demo_apart`: propext, Classical.choice, Quot.sound
* C106 `Verif.CNames.demo_names`: propext, Classical.choice, Quot.sound
* C106 `Verif.CNames.method_meets_interface`: propext, Classical.choice, Quot.sound
* C106 `Verif.CNames.method_meets_operation`: propext, Classical.choice, Quot.sound
* C106 `Verif.CNames.attribute_meets_dataport`: propext, Classical.choice, Quot.sound
* C106 `Verif.CNames.member_meets_common`: propext, Classical.choice, Quot.sound
* C106 `Verif.CNames.dataport_keyword`: propext, Classical.choice, Quot.sound
* C106 `Verif.CNames.method_keyword`: propext, Classical.choice, Quot.sound
* C106 `Verif.CNames.parameter_meets_size`: propext, Classical.choice, Quot.sound
* C107 `Verif.Timing.run_defined`: propext, Classical.choice, Quot.sound
* C107 `Verif.Timing.entry_recorded`: propext, Classical.choice, Quot.sound
* C107 `Verif.Timing.passed_unique`: propext, Quot.sound
* C107 `Verif.Timing.reset_clears`: propext, Classical.choice, Quot.sound
* C107 `Verif.Timing.unknown_point`: propext, Classical.choice, Quot.sound
* C107 `Verif.Timing.unknown_stamp`: propext, Classical.choice, Quot.sound
* C107 `Verif.Timing.points_reported`: none
* C107 `Verif.Timing.entry_in_bounds`: propext, Classical.choice, Quot.sound
* C107 `Verif.Timing.names_defined`: propext, Classical.choice, Quot.sound
* C107 `Verif.Timing.demo_recorded`: propext
* C107 `Verif.Timing.demo_known`: propext, Quot.sound
* C107 `Verif.Timing.entry_out_of_bounds`: propext, Classical.choice, Quot.sound
* C107 `Verif.Timing.demo_out_of_bounds`: propext, Classical.choice, Quot.sound
* C107 `Verif.Timing.names_undefined`: propext, Classical.choice, Quot.sound
* C108 `Verif.Lint.lint_iff_partial`: propext, Classical.choice, Quot.sound
* C108 `Verif.Lint.lint_refusal`: propext, Classical.choice, Quot.sound
* C108 `Verif.Lint.highCheck_iff`: propext, Classical.choice, Quot.sound
* C108 `Verif.Lint.highCheck_refusal`: propext, Classical.choice, Quot.sound
* C108 `Verif.Lint.opened_viable`: propext, Classical.choice, Quot.sound
* C108 `Verif.Lint.lowCheck_iff`: propext, Classical.choice, Quot.sound
* C108 `Verif.Lint.lowCheck_refusal`: propext, Classical.choice, Quot.sound
* C108 `Verif.Lint.tokens_iff`: propext, Quot.sound
* C108 `Verif.Lint.lowTokens_iff`: propext, Quot.sound
* C108 `Verif.Lint.lines_exist`: propext
* C108 `Verif.Lint.highTokens_written`: propext, Quot.sound
* C108 `Verif.Lint.high_fuel`: propext, Quot.sound
* C108 `Verif.Lint.demo_usable`: propext, Classical.choice, Quot.sound
* C108 `Verif.Lint.demo_clear`: propext, Classical.choice, Quot.sound
* C108 `Verif.Lint.demo_directives`: propext, Classical.choice, Quot.sound
* C108 `Verif.Lint.demo_lint`: propext, Classical.choice, Quot.sound
* C108 `Verif.Lint.unterminated_accepted`: propext, Classical.choice, Quot.sound
* C108 `Verif.Lint.more_disagreements`: propext, Classical.choice, Quot.sound
* C109 `Verif.Dispatch.compiles_iff`: propext, Classical.choice, Quot.sound
* C109 `Verif.Dispatch.reached_own`: propext, Classical.choice, Quot.sound
* C109 `Verif.Dispatch.reached_unknown`: propext, Classical.choice, Quot.sound
* C109 `Verif.Dispatch.served_partial`: propext, Classical.choice, Quot.sound
* C109 `Verif.Dispatch.not_sent`: propext, Classical.choice, Quot.sound
* C109 `Verif.Dispatch.step_effect`: propext, Classical.choice, Quot.sound
* C109 `Verif.Dispatch.isolated`: propext, Classical.choice, Quot.sound
* C109 `Verif.Dispatch.refused`: propext, Classical.choice, Quot.sound
* C109 `Verif.Dispatch.unknown_refused`: propext, Classical.choice, Quot.sound
* C109 `Verif.Dispatch.ignored_at_start`: propext, Classical.choice, Quot.sound
* C109 `Verif.Dispatch.too_long`: propext, Classical.choice, Quot.sound
* C109 `Verif.Dispatch.demo_long`: propext, Quot.sound
* C109 `Verif.Dispatch.demo_compiles`: propext, Quot.sound
* C109 `Verif.Dispatch.demo_sensible`: propext, Quot.sound
* C109 `Verif.Dispatch.demo_callOk`: propext, Quot.sound
* C109 `Verif.Dispatch.demo_calls`: propext, Quot.sound
* C109 `Verif.Dispatch.demo_bad`: propext
* C109 `Verif.Dispatch.shared_type_broken`: propext, Classical.choice, Quot.sound
* C109 `Verif.Dispatch.shared_name_broken`: propext, Classical.choice, Quot.sound
* C109 `Verif.Dispatch.ignored_leaks`: propext, Classical.choice, Quot.sound
* C109 `Verif.Dispatch.demo_leak`: propext, Quot.sound
* C109 `Verif.Dispatch.demo_broken`: propext, Quot.sound
* C11 `Verif.Groups.collapse_instances`: propext, Quot.sound
* C11 `Verif.Groups.groups_distinct_partial`: propext, Classical.choice, Quot.sound
* C11 `Verif.Groups.collapse_elsewhere`: propext
* C11 `Verif.Groups.generated_name_collides`: propext
* C11 `Verif.Groups.unnamed_across`: propext, Classical.choice, Quot.sound
* C110 `Verif.ErrMsg.marked_partial`: propext, Classical.choice, Quot.sound
* C110 `Verif.ErrMsg.coloured_partial`: propext, Classical.choice, Quot.sound
* C110 `Verif.ErrMsg.unmarked`: propext, Classical.choice, Quot.sound
* C110 `Verif.ErrMsg.message_kept`: propext, Classical.choice, Quot.sound
* C110 `Verif.ErrMsg.place_found_partial`: propext, Classical.choice, Quot.sound
* C110 `Verif.ErrMsg.reported_partial`: propext, Classical.choice, Quot.sound
* C110 `Verif.ErrMsg.last_line_marks`: propext, Classical.choice, Quot.sound
* C110 `Verif.ErrMsg.apostrophe_lost`: propext, Classical.choice, Quot.sound
* C110 `Verif.ErrMsg.demo_lines`: propext, Classical.choice, Quot.sound
* C110 `Verif.ErrMsg.demo_format`: propext, Classical.choice, Quot.sound
* C110 `Verif.ErrMsg.demo_directive`: propext, Classical.choice, Quot.sound
* C110 `Verif.ErrMsg.demo_places`: propext, Classical.choice, Quot.sound
* C110 `Verif.ErrMsg.demo_decimal`: propext, Classical.choice, Quot.sound
* C110 `Verif.ErrMsg.demo_reported`: propext, Classical.choice, Quot.sound
* C110 `Verif.ErrMsg.demo_missing_brace`: propext, Classical.choice, Quot.sound
* C111 `Verif.Colocate.one_image`: propext, Classical.choice, Quot.sound
* C111 `Verif.Colocate.relocatable_iff_partial`: propext, Classical.choice, Quot.sound
* C111 `Verif.Colocate.renders_iff`: propext, Quot.sound
* C111 `Verif.Colocate.isolated`: propext, Classical.choice, Quot.sound
* C111 `Verif.Colocate.direct_calls_partial`: propext, Classical.choice, Quot.sound
* C111 `Verif.Colocate.entry_point_partial`: propext, Classical.choice, Quot.sound
* C111 `Verif.Colocate.hardware_breaks_image`: propext
* C111 `Verif.Colocate.same_name_twice`: propext, Classical.choice, Quot.sound
* C111 `Verif.Colocate.interface_left_out`: propext, Classical.choice, Quot.sound
* C111 `Verif.Colocate.demo_checked`: propext, Classical.choice, Quot.sound
* C111 `Verif.Colocate.demo_together`: propext, Quot.sound
* C111 `Verif.Colocate.demo_objects`: propext, Classical.choice, Quot.sound
* C111 `Verif.Colocate.demo_unambiguous`: propext, Classical.choice, Quot.sound
* C111 `Verif.Colocate.demo_image`: propext
* C111 `Verif.Colocate.demo_groups`: propext, Classical.choice, Quot.sound
* C111 `Verif.Colocate.demo_renders`: none
* C112 `Verif.GenFiles.generates_iff`: propext, Classical.choice, Quot.sound
* C112 `Verif.GenFiles.files_exact`: propext, Classical.choice, Quot.sound
* C112 `Verif.GenFiles.built`: propext, Classical.choice, Quot.sound
* C112 `Verif.GenFiles.parallel`: propext, Classical.choice, Quot.sound
* C112 `Verif.GenFiles.end_resolves`: propext, Classical.choice, Quot.sound
* C112 `Verif.GenFiles.inst_resolves`: propext, Classical.choice, Quot.sound
* C112 `Verif.GenFiles.end_source`: propext, Classical.choice, Quot.sound
* C112 `Verif.GenFiles.distinct_partial`: propext, Classical.choice, Quot.sound
* C112 `Verif.GenFiles.declared_once`: propext, Classical.choice, Quot.sound
* C112 `Verif.GenFiles.declared_twice_refused`: propext, Classical.choice, Quot.sound
* C112 `Verif.GenFiles.underscores_collide`: propext, Classical.choice, Quot.sound
* C112 `Verif.GenFiles.cakeml_collides`: propext, Classical.choice, Quot.sound
* C112 `Verif.GenFiles.user_templates_collide`: propext, Classical.choice, Quot.sound
* C112 `Verif.GenFiles.no_template_accepted`: propext, Classical.choice, Quot.sound
* C112 `Verif.GenFiles.demo_generate`: propext, Classical.choice, Quot.sound
* C112 `Verif.GenFiles.demo_checked`: propext, Classical.choice, Quot.sound
* C112 `Verif.GenFiles.demo_apart`: propext, Classical.choice, Quot.sound
* C112 `Verif.GenFiles.demo_plain_checked`: propext, Classical.choice, Quot.sound
* C112 `Verif.GenFiles.demo_refused`: propext, Classical.choice, Quot.sound
* C112 `Verif.GenFiles.demo_declared_twice`: propext, Classical.choice, Quot.sound
* C113 `Verif.Deps.parse_stable`: propext, Classical.choice, Quot.sound
* C113 `Verif.Deps.parse_noticed_partial`: propext, Classical.choice, Quot.sound
* C113 `Verif.Deps.render_stable`: propext, Quot.sound
* C113 `Verif.Deps.render_noticed_partial`: propext, Classical.choice, Quot.sound
* C113 `Verif.Deps.rule_lists`: propext, Classical.choice, Quot.sound
* C113 `Verif.Deps.truncated_rule`: propext, Classical.choice, Quot.sound
* C113 `Verif.Deps.reported_exist`: propext, Classical.choice, Quot.sound
* C113 `Verif.Deps.used_hold`: propext, Quot.sound
* C113 `Verif.Deps.jobs_found`: propext, Quot.sound
* C113 `Verif.Deps.load_exact`: propext, Quot.sound
* C113 `Verif.Deps.demo_missing`: propext
* C113 `Verif.Deps.new_import_missed`: propext, Classical.choice, Quot.sound
* C113 `Verif.Deps.new_template_missed`: propext
* C113 `Verif.Deps.blank_missed`: propext, Classical.choice, Quot.sound
* C113 `Verif.Deps.unused_query_file`: propext, Classical.choice, Quot.sound
* C113 `Verif.Deps.demo_parse`: propext, Classical.choice, Quot.sound
* C113 `Verif.Deps.demo_stable`: propext, Classical.choice, Quot.sound
* C113 `Verif.Deps.demo_honest`: propext, Classical.choice, Quot.sound
* C113 `Verif.Deps.demo_query`: propext, Classical.choice, Quot.sound
* C113 `Verif.Deps.demo_rule`: propext, Classical.choice, Quot.sound
* C113 `Verif.Deps.demo_plain`: propext, Classical.choice, Quot.sound
* C113 `Verif.Deps.demo_render`: propext
* C114 `Verif.Integrity.generated_iff`: propext, Classical.choice, Quot.sound
* C114 `Verif.Integrity.objects_exact`: propext, Classical.choice, Quot.sound
* C114 `Verif.Integrity.object_label`: propext, Classical.choice, Quot.sound
* C114 `Verif.Integrity.irqs_exact`: propext, Quot.sound
* C114 `Verif.Integrity.irq_agrees`: propext, Classical.choice, Quot.sound
* C114 `Verif.Integrity.asids_exact`: propext, Quot.sound
* C114 `Verif.Integrity.asid_agrees_partial`: propext, Classical.choice, Quot.sound
* C114 `Verif.Integrity.lookups_true`: propext, Classical.choice, Quot.sound
* C114 `Verif.Integrity.extra_true_partial`: propext, Quot.sound
* C114 `Verif.Integrity.own_labels_partial`: propext, Classical.choice, Quot.sound
* C114 `Verif.Integrity.sanity_true_partial`: propext, Classical.choice, Quot.sound
* C114 `Verif.Integrity.sanity_mentions`: propext, Classical.choice, Quot.sound
* C114 `Verif.Integrity.subjects_exact`: propext, Quot.sound
* C114 `Verif.Integrity.subjects_agree_partial`: propext, Quot.sound
* C114 `Verif.Integrity.subject_group_lost`: propext, Classical.choice, Quot.sound
* C114 `Verif.Integrity.asid_group_lost`: propext, Classical.choice, Quot.sound
* C114 `Verif.Integrity.extra_group_lost`: propext
* C114 `Verif.Integrity.grouped_label_splits`: propext, Classical.choice, Quot.sound
* C114 `Verif.Integrity.unknown_label_named`: propext, Classical.choice, Quot.sound
* C114 `Verif.Integrity.root_name_unlabelled`: propext, Classical.choice, Quot.sound
* C114 `Verif.Integrity.demo_wellFormed`: propext, Classical.choice, Quot.sound
* C114 `Verif.Integrity.demo_groups`: propext
* C114 `Verif.Integrity.demo_distinct`: propext, Classical.choice, Quot.sound
* C114 `Verif.Integrity.demo_allocated`: propext, Classical.choice, Quot.sound
* C114 `Verif.Integrity.demo_entries`: propext, Classical.choice, Quot.sound
* C114 `Verif.Integrity.demo_lines`: propext, Classical.choice, Quot.sound
* C114 `Verif.Integrity.demo_spaces`: none
* C114 `Verif.Integrity.demo_identifiers`: propext, Classical.choice, Quot.sound
* C114 `Verif.Integrity.demo_sanity`: propext, Classical.choice, Quot.sound
* C114 `Verif.Integrity.demo_refused`: propext, Classical.choice, Quot.sound
* C115 `Verif.Glue.call_delivers`: propext, Classical.choice, Quot.sound
* C115 `Verif.Glue.reply_delivers`: propext, Classical.choice, Quot.sound
* C115 `Verif.Glue.call_generated_iff`: propext, Classical.choice, Quot.sound
* C115 `Verif.Glue.server_generated_iff`: propext, Quot.sound
* C115 `Verif.Glue.signatures`: propext, Classical.choice, Quot.sound
* C115 `Verif.Glue.names_distinct_partial`: propext, Classical.choice, Quot.sound
* C115 `Verif.Glue.recvNames_mem`: propext, Classical.choice, Quot.sound
* C115 `Verif.Glue.channel_sound`: propext, Quot.sound
* C115 `Verif.Glue.channel_exact_partial`: propext, Quot.sound
* C115 `Verif.Glue.ends_meet_partial`: propext, Quot.sound
* C115 `Verif.Glue.untrusted_covers`: propext, Quot.sound
* C115 `Verif.Glue.constructors_distinct_partial`: propext, Classical.choice, Quot.sound
* C115 `Verif.Glue.initial_full`: propext, Quot.sound
* C115 `Verif.Glue.simulated_exact`: propext, Classical.choice, Quot.sound
* C115 `Verif.Glue.simulated_once`: propext, Classical.choice, Quot.sound
* C115 `Verif.Glue.instances_iff`: propext, Quot.sound
* C115 `Verif.Glue.initial_defined_partial`: propext, Classical.choice, Quot.sound
* C115 `Verif.Glue.refin_lost`: propext
* C115 `Verif.Glue.array_as_value`: propext, Quot.sound
* C115 `Verif.Glue.names_clash`: propext
* C115 `Verif.Glue.constructors_clash`: propext
* C115 `Verif.Glue.second_end_undefined`: propext
* C115 `Verif.Glue.several_from_refused`: propext
* C115 `Verif.Glue.demo_glue`: propext
* C115 `Verif.Glue.demo_reply`: propext
* C115 `Verif.Glue.demo_typed`: propext, Classical.choice, Quot.sound
* C115 `Verif.Glue.demo_names`: propext
* C115 `Verif.Glue.demo_channels`: none
* C115 `Verif.Glue.demo_once`: none
* C115 `Verif.Glue.demo_system`: propext
* C115 `Verif.Glue.demo_joined`: propext, Classical.choice, Quot.sound
* C115 `Verif.Glue.demo_unsupported`: propext
* C116 `Verif.BuildApi.accepted_iff`: propext, Classical.choice, Quot.sound
* C116 `Verif.BuildApi.commands_exact`: propext, Classical.choice, Quot.sound
* C116 `Verif.BuildApi.tree_unique`: propext, Classical.choice, Quot.sound
* C116 `Verif.BuildApi.build_exact_partial`: propext, Classical.choice, Quot.sound
* C116 `Verif.BuildApi.link_flag_partial`: propext, Classical.choice, Quot.sound
* C116 `Verif.BuildApi.cpp_required`: propext, Classical.choice, Quot.sound
* C116 `Verif.BuildApi.late_include`: propext, Classical.choice, Quot.sound
* C116 `Verif.BuildApi.late_declaration`: propext, Classical.choice, Quot.sound
* C116 `Verif.BuildApi.ld_flags_glued`: propext, Classical.choice, Quot.sound
* C116 `Verif.BuildApi.language_twice`: propext, Classical.choice, Quot.sound
* C116 `Verif.BuildApi.extension_ignored`: propext, Classical.choice, Quot.sound
* C116 `Verif.BuildApi.names_clash`: propext, Classical.choice, Quot.sound
* C116 `Verif.BuildApi.instances_clash`: propext, Classical.choice, Quot.sound
* C116 `Verif.BuildApi.unknown_dropped`: propext, Classical.choice, Quot.sound
* C116 `Verif.BuildApi.relative_ignored`: propext, Classical.choice, Quot.sound
* C116 `Verif.BuildApi.demo_run`: propext, Classical.choice, Quot.sound
* C116 `Verif.BuildApi.demo_settled`: propext, Classical.choice, Quot.sound
* C116 `Verif.BuildApi.demo_clear`: propext
* C116 `Verif.BuildApi.demo_client`: propext, Classical.choice, Quot.sound
* C116 `Verif.BuildApi.demo_refused`: propext, Classical.choice, Quot.sound
* C116 `Verif.BuildApi.demo_cpp_off`: propext, Classical.choice, Quot.sound
* C117 `Verif.Tpp.content_kept_partial`: propext, Classical.choice, Quot.sound
* C117 `Verif.Tpp.words_kept_partial`: propext, Classical.choice, Quot.sound
* C117 `Verif.Tpp.no_trailing_space`: propext, Classical.choice, Quot.sound
* C117 `Verif.Tpp.no_double_blank`: propext, Classical.choice, Quot.sound
* C117 `Verif.Tpp.no_leading_blank`: propext, Classical.choice, Quot.sound
* C117 `Verif.Tpp.lines_exact`: propext, Classical.choice, Quot.sound
* C117 `Verif.Tpp.visible_exists`: propext, Classical.choice, Quot.sound
* C117 `Verif.Tpp.indent_locked`: propext, Classical.choice, Quot.sound
* C117 `Verif.Tpp.condensed`: propext, Classical.choice, Quot.sound
* C117 `Verif.Tpp.tight_partial`: propext, Classical.choice, Quot.sound
* C117 `Verif.Tpp.assertion_holds`: propext, Classical.choice, Quot.sound
* C117 `Verif.Tpp.comes_to_an_end`: propext, Classical.choice, Quot.sound
* C117 `Verif.Tpp.unfinished_lost`: propext, Classical.choice, Quot.sound
* C117 `Verif.Tpp.comment_opened`: propext, Classical.choice, Quot.sound
* C117 `Verif.Tpp.quoted_changed`: propext, Classical.choice, Quot.sound
* C117 `Verif.Tpp.bracket_space_left`: propext, Classical.choice, Quot.sound
* C117 `Verif.Tpp.bad_indent_stops`: propext, Classical.choice, Quot.sound
* C117 `Verif.Tpp.hidden_directive`: propext, Classical.choice, Quot.sound
* C117 `Verif.Tpp.long_word_split`: propext, Classical.choice, Quot.sound
* C117 `Verif.Tpp.demo_wraps`: propext, Classical.choice, Quot.sound
* C117 `Verif.Tpp.demo_fits`: propext, Classical.choice, Quot.sound
* C117 `Verif.Tpp.demo_run`: propext, Classical.choice, Quot.sound
* C117 `Verif.Tpp.demo_hidden`: propext, Classical.choice, Quot.sound
* C117 `Verif.Tpp.demo_narrow`: propext, Classical.choice, Quot.sound
* C117 `Verif.Tpp.demo_tight`: propext, Classical.choice, Quot.sound
* C117 `Verif.Tpp.demo_condense`: propext, Classical.choice, Quot.sound
* C117 `Verif.Tpp.demo_lock`: propext, Classical.choice, Quot.sound
* C118 `Verif.DmaCheck.check_ends`: propext, Classical.choice, Quot.sound
* C118 `Verif.DmaCheck.check_exact`: propext, Classical.choice, Quot.sound
* C118 `Verif.DmaCheck.report_true`: propext, Classical.choice, Quot.sound
* C118 `Verif.DmaCheck.cycle_reported`: propext, Classical.choice, Quot.sound
* C118 `Verif.DmaCheck.rounds_enough`: propext, Quot.sound
* C118 `Verif.DmaCheck.saving_changes_nothing`: propext, Quot.sound
* C118 `Verif.DmaCheck.allocator_passes`: propext, Classical.choice, Quot.sound
* C118 `Verif.DmaCheck.demo_machine`: propext, Quot.sound
* C118 `Verif.DmaCheck.demo_pass`: propext, Classical.choice, Quot.sound
* C118 `Verif.DmaCheck.demo_fail`: propext
* C118 `Verif.DmaCheck.demo_allocator`: propext, Classical.choice, Quot.sound
* C119 `Verif.IfaceProps.count_is_distance`: propext, Quot.sound
* C119 `Verif.IfaceProps.never_registered`: propext, Quot.sound
* C119 `Verif.IfaceProps.null_is_read`: propext, Quot.sound
* C119 `Verif.IfaceProps.properties_not_given`: propext, Quot.sound
* C119 `Verif.IfaceProps.registers_fails`: propext, Quot.sound
* C119 `Verif.IfaceProps.bad_free`: propext, Quot.sound
* C119 `Verif.IfaceProps.array_lost`: propext, Quot.sound
* C119 `Verif.IfaceProps.registers_partial`: propext, Quot.sound
* C119 `Verif.IfaceProps.cleans_up_partial`: propext, Quot.sound
* C119 `Verif.IfaceProps.no_instance`: propext, Quot.sound
* C119 `Verif.IfaceProps.demo_plenty`: none
* C119 `Verif.IfaceProps.demo_proper`: propext, Quot.sound
* C119 `Verif.IfaceProps.demo_fault`: propext, Quot.sound
* C119 `Verif.IfaceProps.demo_placed`: propext, Quot.sound
* C119 `Verif.IfaceProps.demo_bad_free`: propext, Quot.sound
* C119 `Verif.IfaceProps.demo_lost`: propext, Quot.sound
* C119 `Verif.IfaceProps.demo_empty`: propext, Quot.sound
* C12 `Verif.Compose.compose_keeps`: propext
* C12 `Verif.Compose.compose_error_iff`: propext
* C12 `Verif.Compose.later_schedule_dropped`: none
* C120 `Verif.FaultShow.report_tells_partial`: propext, Classical.choice, Quot.sound
* C120 `Verif.FaultShow.vm_report`: propext, Quot.sound
* C120 `Verif.FaultShow.report_determines_partial`: propext, Quot.sound
* C120 `Verif.FaultShow.table_ok`: propext, Quot.sound
* C120 `Verif.FaultShow.unknown_cause_not_shown`: propext
* C120 `Verif.FaultShow.instance_not_shown`: propext
* C120 `Verif.FaultShow.unnamed_syscall`: propext
* C120 `Verif.FaultShow.thread_number_cut`: propext
* C120 `Verif.FaultShow.phase_not_shown`: propext
* C120 `Verif.FaultShow.demo_kernel`: none
* C120 `Verif.FaultShow.demo_message`: propext, Quot.sound
* C120 `Verif.FaultShow.demo_report`: propext
* C120 `Verif.FaultShow.demo_unknown`: propext
* C120 `Verif.FaultShow.demo_vm`: propext
* C121 `Verif.GdbPort.set_up`: propext, Classical.choice, Quot.sound
* C121 `Verif.GdbPort.set_up_ends`: propext, Classical.choice, Quot.sound
* C121 `Verif.GdbPort.fifo_never_used`: propext, Classical.choice, Quot.sound
* C121 `Verif.GdbPort.uses_fifo_fails`: propext, Classical.choice, Quot.sound
* C121 `Verif.GdbPort.printed_partial`: propext, Quot.sound
* C121 `Verif.GdbPort.printing_ends`: propext, Quot.sound
* C121 `Verif.GdbPort.ready_partial`: propext, Classical.choice, Quot.sound
* C121 `Verif.GdbPort.pending_lost`: none
* C121 `Verif.GdbPort.start_not_forgotten`: none
* C121 `Verif.GdbPort.buffer_emptied`: propext, Classical.choice, Quot.sound
* C121 `Verif.GdbPort.received`: propext, Quot.sound
* C121 `Verif.GdbPort.demo_received`: none
* C121 `Verif.GdbPort.demo_init`: none
* C121 `Verif.GdbPort.demo_ready`: propext, Classical.choice, Quot.sound
* C121 `Verif.GdbPort.demo_print`: none
* C121 `Verif.GdbPort.demo_sends`: propext, Quot.sound
* C122 `Verif.DtbIrq.generated`: propext, Classical.choice, Quot.sound
* C122 `Verif.DtbIrq.delivered_partial`: propext, Classical.choice, Quot.sound
* C122 `Verif.DtbIrq.not_too_often_partial`: propext, Classical.choice, Quot.sound
* C122 `Verif.DtbIrq.only_wanted`: propext, Quot.sound
* C122 `Verif.DtbIrq.comes_to_rest`: propext, Classical.choice, Quot.sound
* C122 `Verif.DtbIrq.ack_own`: propext, Classical.choice, Quot.sound
* C122 `Verif.DtbIrq.deferred_lost`: propext, Classical.choice, Quot.sound
* C122 `Verif.DtbIrq.demo_served`: propext, Quot.sound
* C122 `Verif.DtbIrq.demo_run`: propext
* C122 `Verif.DtbIrq.demo_later`: propext
* C122 `Verif.DtbIrq.demo_generate`: propext
* C122 `Verif.DtbIrq.demo_twice`: propext
* C123 `Verif.UntypedAddr.told_partial`: propext, Classical.choice, Quot.sound
* C123 `Verif.UntypedAddr.told_once`: propext
* C123 `Verif.UntypedAddr.zero_stops`: propext, Classical.choice, Quot.sound
* C123 `Verif.UntypedAddr.zero_spoils`: propext, Classical.choice, Quot.sound
* C123 `Verif.UntypedAddr.no_room_stops`: propext, Quot.sound
* C123 `Verif.UntypedAddr.demo_no_room`: propext
* C123 `Verif.UntypedAddr.demo_fresh`: propext, Quot.sound
* C123 `Verif.UntypedAddr.demo_told`: propext
* C123 `Verif.UntypedAddr.demo_zero`: propext
* C124 `Verif.CNodeSize.calculate_right`: propext, Classical.choice, Quot.sound
* C124 `Verif.CNodeSize.sizeBits_right`: propext, Classical.choice, Quot.sound
* C124 `Verif.CNodeSize.sizeBits_some`: propext, Classical.choice, Quot.sound
* C124 `Verif.CNodeSize.agree`: propext, Classical.choice, Quot.sound
* C124 `Verif.CNodeSize.main_succeeds`: propext, Classical.choice, Quot.sound
* C124 `Verif.CNodeSize.demo`: none
* C125 `Verif.RpcSig.header_promised`: propext, Classical.choice, Quot.sound
* C125 `Verif.RpcSig.client_as_declared`: propext, Classical.choice, Quot.sound
* C125 `Verif.RpcSig.server_as_declared`: propext, Classical.choice, Quot.sound
* C125 `Verif.RpcSig.client_correct_partial`: propext, Classical.choice, Quot.sound
* C125 `Verif.RpcSig.server_correct_partial`: propext, Classical.choice, Quot.sound
* C125 `Verif.RpcSig.inputs_agree_partial`: propext, Classical.choice, Quot.sound
* C125 `Verif.RpcSig.outputs_agree_partial`: propext, Classical.choice, Quot.sound
* C125 `Verif.RpcSig.result_declared_twice`: propext, Classical.choice, Quot.sound
* C125 `Verif.RpcSig.implementation_hidden`: propext, Classical.choice, Quot.sound
* C125 `Verif.RpcSig.implementation_hidden_result`: propext, Classical.choice, Quot.sound
* C125 `Verif.RpcSig.parameter_declared_twice`: propext, Classical.choice, Quot.sound
* C125 `Verif.RpcSig.demo_apart`: propext, Classical.choice, Quot.sound
* C125 `Verif.RpcSig.demo_plain`: propext, Classical.choice, Quot.sound
* C125 `Verif.RpcSig.demo_promised`: propext, Classical.choice, Quot.sound
* C126 `Verif.ConnCaps.rendering_succeeds`: propext, Classical.choice, Quot.sound
* C126 `Verif.ConnCaps.wired`: propext, Classical.choice, Quot.sound
* C126 `Verif.ConnCaps.receivers_apart`: propext, Classical.choice, Quot.sound
* C126 `Verif.ConnCaps.isolated_partial`: propext, Classical.choice, Quot.sound
* C126 `Verif.ConnCaps.no_grant`: propext, Classical.choice, Quot.sound
* C126 `Verif.ConnCaps.directed_partial`: propext, Classical.choice, Quot.sound
* C126 `Verif.ConnCaps.own_objects_partial`: propext, Classical.choice, Quot.sound
* C126 `Verif.ConnCaps.purposes_apart`: propext, Classical.choice, Quot.sound
* C126 `Verif.ConnCaps.client_badge_partial`: propext, Classical.choice, Quot.sound
* C126 `Verif.ConnCaps.clients_told_apart_partial`: propext, Classical.choice, Quot.sound
* C126 `Verif.ConnCaps.bind_badge_partial`: propext, Classical.choice, Quot.sound
* C126 `Verif.ConnCaps.native_badge`: propext, Classical.choice, Quot.sound
* C126 `Verif.ConnCaps.grouped_clients_share_badge`: propext, Classical.choice, Quot.sound
* C126 `Verif.ConnCaps.bind_badge_overwritten`: propext, Classical.choice, Quot.sound
* C126 `Verif.ConnCaps.bind_receiver_sends`: propext, Classical.choice, Quot.sound
* C126 `Verif.ConnCaps.queue_sender_receives`: propext, Classical.choice, Quot.sound
* C126 `Verif.ConnCaps.buffer_lock_shared`: propext, Classical.choice, Quot.sound
* C126 `Verif.ConnCaps.demo_proper`: propext, Classical.choice, Quot.sound
* C126 `Verif.ConnCaps.demo_noClash`: propext, Classical.choice, Quot.sound
* C126 `Verif.ConnCaps.demo_alone`: propext, Classical.choice, Quot.sound
* C126 `Verif.ConnCaps.demo_slots`: propext, Classical.choice, Quot.sound
* C127 `Verif.FaultCaps.own_handler`: propext, Classical.choice, Quot.sound
* C127 `Verif.FaultCaps.no_handler`: propext, Classical.choice, Quot.sound
* C127 `Verif.FaultCaps.tool_names`: propext, Classical.choice, Quot.sound
* C127 `Verif.FaultCaps.faults_named`: propext, Classical.choice, Quot.sound
* C127 `Verif.FaultCaps.badges_apart`: propext
* C127 `Verif.FaultCaps.debugger_told`: propext, Quot.sound
* C127 `Verif.FaultCaps.debugger_receives`: propext, Quot.sound
* C127 `Verif.FaultCaps.never_delegate`: propext
* C127 `Verif.FaultCaps.all_threads_debugged`: propext, Classical.choice, Quot.sound
* C127 `Verif.FaultCaps.memory_faults`: propext, Classical.choice, Quot.sound
* C127 `Verif.FaultCaps.memory_told_partial`: propext, Classical.choice, Quot.sound
* C127 `Verif.FaultCaps.memory_confused`: propext, Classical.choice, Quot.sound
* C127 `Verif.FaultCaps.delegate_not_found`: propext, Quot.sound
* C127 `Verif.FaultCaps.delegate_faults_to_debugger`: propext, Classical.choice, Quot.sound
* C127 `Verif.FaultCaps.message_overrun`: propext, Quot.sound
* C127 `Verif.FaultCaps.demo_hypotheses`: propext, Classical.choice, Quot.sound
* C127 `Verif.FaultCaps.demo_run`: propext, Classical.choice, Quot.sound
* C127 `Verif.FaultCaps.demo_found`: propext, Classical.choice, Quot.sound
* C128 `Verif.DepCheck.report_partial`: propext, Classical.choice, Quot.sound
* C128 `Verif.DepCheck.unknown_component`: propext, Classical.choice, Quot.sound
* C128 `Verif.DepCheck.choice_is_set`: propext, Classical.choice, Quot.sound
* C128 `Verif.DepCheck.default_is_all`: propext, Classical.choice, Quot.sound
* C128 `Verif.DepCheck.broken_module_no_verdict`: propext, Classical.choice, Quot.sound
* C128 `Verif.DepCheck.newer_pylint_refused`: propext, Classical.choice, Quot.sound
* C128 `Verif.DepCheck.demo_report`: propext, Classical.choice, Quot.sound
* C128 `Verif.DepCheck.demo_fine`: propext, Classical.choice, Quot.sound
* C128 `Verif.DepCheck.demo_hypotheses`: propext, Classical.choice, Quot.sound
* C129 `Verif.QueueEnds.driver_result`: propext, Quot.sound
* C129 `Verif.QueueEnds.device_result`: propext, Quot.sound
* C129 `Verif.QueueEnds.driver_laid_out`: propext, Quot.sound
* C129 `Verif.QueueEnds.device_laid_out`: propext, Quot.sound
* C129 `Verif.QueueEnds.same_place`: propext, Quot.sound
* C129 `Verif.QueueEnds.same_byte`: propext, Classical.choice, Quot.sound
* C129 `Verif.QueueEnds.buffers_inside_partial`: propext, Classical.choice, Quot.sound
* C129 `Verif.QueueEnds.short_memory`: propext, Quot.sound
* C129 `Verif.QueueEnds.same_buffer_twice`: propext, Quot.sound
* C129 `Verif.QueueEnds.driver_by_id`: propext, Quot.sound
* C129 `Verif.QueueEnds.device_by_id`: propext, Quot.sound
* C129 `Verif.QueueEnds.sender_connected`: propext, Classical.choice, Quot.sound
* C129 `Verif.QueueEnds.sender_loose`: propext, Classical.choice, Quot.sound
* C129 `Verif.QueueEnds.sender_memory`: propext, Classical.choice, Quot.sound
* C129 `Verif.QueueEnds.receiver_connected`: propext, Classical.choice, Quot.sound
* C129 `Verif.QueueEnds.receiver_loose`: propext, Classical.choice, Quot.sound
* C129 `Verif.QueueEnds.receiver_memory`: propext, Classical.choice, Quot.sound
* C129 `Verif.QueueEnds.null_refused`: none
* C129 `Verif.QueueEnds.poll_ambiguous`: propext, Classical.choice, Quot.sound
* C129 `Verif.QueueEnds.demo_sender`: propext, Classical.choice, Quot.sound
* C129 `Verif.QueueEnds.demo_ends`: propext
* C129 `Verif.QueueEnds.demo_short`: propext, Quot.sound
* C129 `Verif.QueueEnds.demo_fits`: propext
* C129 `Verif.QueueEnds.demo_offered`: none
* C13 `Verif.Hierarchy.instances_flattened`: propext, Quot.sound
* C130 `Verif.DmaPtr.refines`: propext, Classical.choice, Quot.sound
* C130 `Verif.DmaPtr.alloc_ends`: propext, Classical.choice, Quot.sound
* C130 `Verif.DmaPtr.free_ends`: propext, Classical.choice, Quot.sound
* C130 `Verif.DmaPtr.init_ends`: propext, Classical.choice, Quot.sound
* C130 `Verif.DmaPtr.init_accepts`: propext, Classical.choice, Quot.sound
* C130 `Verif.DmaPtr.alloc_refines`: propext, Classical.choice, Quot.sound
* C130 `Verif.DmaPtr.alloc_sound`: propext, Classical.choice, Quot.sound
* C130 `Verif.DmaPtr.alloc_keeps`: propext, Classical.choice, Quot.sound
* C130 `Verif.DmaPtr.free_keeps`: propext, Classical.choice, Quot.sound
* C130 `Verif.DmaPtr.init_keeps`: propext, Classical.choice, Quot.sound
* C130 `Verif.DmaPtr.list_is_free`: propext, Classical.choice, Quot.sound
* C130 `Verif.DmaPtr.alloc_succeeds_partial`: propext, Classical.choice, Quot.sound
* C130 `Verif.DmaPtr.demo_reach6`: propext, Classical.choice, Quot.sound
* C130 `Verif.DmaPtr.demo_merge`: propext
* C130 `Verif.DmaPtr.write_after_free`: propext, Classical.choice, Quot.sound
* C131 `Verif.Goanna.failures_passed_on`: propext, Classical.choice, Quot.sound
* C131 `Verif.Goanna.lines_passed_on`: propext, Classical.choice, Quot.sound
* C131 `Verif.Goanna.hidden_only`: propext, Classical.choice, Quot.sound
* C131 `Verif.Goanna.hidden_iff_partial`: propext, Classical.choice, Quot.sound
* C131 `Verif.Goanna.demo_keep`: propext, Classical.choice, Quot.sound
* C131 `Verif.Goanna.demo_hypotheses`: propext, Classical.choice, Quot.sound
* C131 `Verif.Goanna.demo_run`: propext, Classical.choice, Quot.sound
* C131 `Verif.Goanna.documented_form_shown`: propext, Classical.choice, Quot.sound
* C131 `Verif.Goanna.documented_example_shown`: propext, Classical.choice, Quot.sound
* C131 `Verif.Goanna.unfinished_line_lost`: propext, Classical.choice, Quot.sound
* C131 `Verif.Goanna.markers_not_seen`: propext, Classical.choice, Quot.sound
* C131 `Verif.Goanna.classes`: propext, Classical.choice, Quot.sound
* C132 `Verif.IoOps.success_is_complete`: propext, Quot.sound
* C132 `Verif.IoOps.success_iff`: propext, Quot.sound
* C132 `Verif.IoOps.records_are_new`: propext, Classical.choice, Quot.sound
* C132 `Verif.IoOps.unmap_error_iff_partial`: propext, Classical.choice, Quot.sound
* C132 `Verif.IoOps.others_silent`: propext, Classical.choice, Quot.sound
* C132 `Verif.IoOps.map_answer`: propext
* C132 `Verif.IoOps.release_silent`: propext, Quot.sound
* C132 `Verif.IoOps.demo_plenty`: none
* C132 `Verif.IoOps.demo_uses`: propext
* C132 `Verif.IoOps.demo_run`: propext
* C132 `Verif.IoOps.demo_owed`: none
* C132 `Verif.IoOps.demo_setup`: propext
* C132 `Verif.IoOps.failure_leaves_record`: propext, Quot.sound
* C132 `Verif.IoOps.code_is_lost`: propext, Quot.sound
* C132 `Verif.IoOps.unrecorded_mapping`: propext
* C132 `Verif.IoOps.mapper_alone`: propext
* C132 `Verif.IoOps.registry_points_to_caller`: propext
* C133 `Verif.Paths.abspath_names_partial`: propext, Classical.choice, Quot.sound
* C133 `Verif.Paths.render_found`: propext, Classical.choice, Quot.sound
* C133 `Verif.Paths.render_injective`: propext, Classical.choice, Quot.sound
* C133 `Verif.Paths.quoted_relative_partial`: propext, Classical.choice, Quot.sound
* C133 `Verif.Paths.quoted_absolute_partial`: propext, Classical.choice, Quot.sound
* C133 `Verif.Paths.angle_partial`: propext, Classical.choice, Quot.sound
* C133 `Verif.Paths.each_file_once_partial`: propext, Classical.choice, Quot.sound
* C133 `Verif.Paths.demo_tree`: propext, Classical.choice, Quot.sound
* C133 `Verif.Paths.demo_quoted`: propext, Classical.choice, Quot.sound
* C133 `Verif.Paths.demo_hypotheses`: propext, Classical.choice, Quot.sound
* C133 `Verif.Paths.two_slashes_kept`: propext, Classical.choice, Quot.sound
* C133 `Verif.Paths.read_twice`: propext, Classical.choice, Quot.sound
* C133 `Verif.Paths.link_followed_wrongly`: propext, Classical.choice, Quot.sound
* C133 `Verif.Paths.missing_directory`: propext, Classical.choice, Quot.sound
* C134 `Verif.Process.pid_iff`: propext
* C134 `Verif.Process.pid_distinct`: propext, Quot.sound
* C134 `Verif.Process.pid_not_parent`: propext, Classical.choice, Quot.sound
* C134 `Verif.Process.pid_order`: propext, Classical.choice, Quot.sound
* C134 `Verif.Process.gettid_is_own`: propext, Classical.choice, Quot.sound
* C134 `Verif.Process.gettid_distinct`: propext, Classical.choice, Quot.sound
* C134 `Verif.Process.undisturbed`: propext, Classical.choice, Quot.sound
* C134 `Verif.Process.store_kept`: propext, Quot.sound
* C134 `Verif.Process.start_values`: propext, Classical.choice, Quot.sound
* C134 `Verif.Process.control_values`: propext, Classical.choice, Quot.sound
* C134 `Verif.Process.dead_only_without_memory`: propext, Classical.choice, Quot.sound
* C134 `Verif.Process.start_works`: propext, Classical.choice, Quot.sound
* C134 `Verif.Process.control_starts`: propext, Classical.choice, Quot.sound
* C134 `Verif.Process.exit_stops_caller_partial`: propext, Classical.choice, Quot.sound
* C134 `Verif.Process.demo_sound`: propext, Classical.choice, Quot.sound
* C134 `Verif.Process.exit_leaves_others`: propext
* C134 `Verif.Process.thread_names`: propext, Classical.choice, Quot.sound
* C134 `Verif.Process.unknown_name`: propext, Quot.sound
* C134 `Verif.Process.debug_name`: propext, Classical.choice, Quot.sound
* C134 `Verif.Process.names_shared`: none
* C134 `Verif.Process.printed_in_order`: propext, Quot.sound
* C134 `Verif.Process.goes_to_current`: propext
* C134 `Verif.Process.set_takes_effect`: none
* C134 `Verif.Process.no_crash_partial`: propext
* C134 `Verif.Process.no_overflow_partial`: propext, Quot.sound
* C134 `Verif.Process.demo_print`: propext, Quot.sound
* C134 `Verif.Process.null_is_called`: none
* C134 `Verif.Process.lost_but_counted`: none
* C134 `Verif.Process.negative_characters`: propext, Classical.choice, Quot.sound
* C134 `Verif.Process.plain_characters`: propext
* C134 `Verif.Process.large_buffer_overflows`: propext, Quot.sound
* C134 `Verif.Process.identifier_passed`: propext, Quot.sound
* C134 `Verif.Process.tls_header`: propext, Quot.sound
* C134 `Verif.Process.wrong_header_size`: propext
* C135 `Verif.CakeReply.same_as_c`: propext, Quot.sound
* C135 `Verif.CakeReply.answers_in_turn`: propext, Quot.sound
* C135 `Verif.CakeReply.answers_reach_partial`: propext, Quot.sound
* C135 `Verif.CakeReply.unblocked_answers`: propext, Quot.sound
* C135 `Verif.CakeReply.own_wait_loses`: propext, Quot.sound
* C135 `Verif.CakeReply.failed_save_loses`: propext, Quot.sound
* C135 `Verif.CakeReply.demo_answers`: propext, Quot.sound
* C135 `Verif.CakeReply.demo_plain`: propext, Quot.sound
* C136 `Verif.Diag.seen_iff`: propext, Quot.sound
* C136 `Verif.Diag.asked`: propext
* C136 `Verif.Diag.parser_error`: propext, Classical.choice, Quot.sound
* C136 `Verif.Diag.parser_success`: propext, Classical.choice, Quot.sound
* C136 `Verif.Diag.flags_only_speak`: propext, Classical.choice, Quot.sound
* C136 `Verif.Diag.quiet_fails_silently`: propext, Classical.choice, Quot.sound
* C136 `Verif.Diag.base_name_partial`: propext, Quot.sound
* C136 `Verif.Diag.newline_accepted`: propext, Quot.sound
* C136 `Verif.Diag.demo_names`: propext, Classical.choice, Quot.sound
* C136 `Verif.Diag.base_name_after_slash`: propext
* C136 `Verif.Diag.outfile_named`: propext, Classical.choice, Quot.sound
* C136 `Verif.Diag.demo_outfile`: propext, Classical.choice, Quot.sound
* C136 `Verif.Diag.warnings_exact`: propext, Classical.choice, Quot.sound
* C136 `Verif.Diag.seen_warnings`: propext, Classical.choice, Quot.sound
* C136 `Verif.Diag.fits_no_warning_partial`: propext, Classical.choice, Quot.sound
* C136 `Verif.Diag.arrays_warned`: propext, Classical.choice, Quot.sound
* C136 `Verif.Diag.fractions_not_warned`: propext, Classical.choice, Quot.sound
* C136 `Verif.Diag.runner_success`: propext, Classical.choice, Quot.sound
* C136 `Verif.Diag.runner_error`: propext, Classical.choice, Quot.sound
* C136 `Verif.Diag.locale_refused`: propext, Classical.choice, Quot.sound
* C136 `Verif.Diag.demo_run`: propext, Classical.choice, Quot.sound
* C136 `Verif.Diag.demo_locale`: propext, Classical.choice, Quot.sound
* C137 `Verif.RtReply.compiles`: propext, Classical.choice, Quot.sound
* C137 `Verif.RtReply.mismatch_refused`: propext, Classical.choice, Quot.sound
* C137 `Verif.RtReply.realtime_answers`: propext, Classical.choice, Quot.sound
* C137 `Verif.RtReply.plain_answers`: propext, Classical.choice, Quot.sound
* C137 `Verif.RtReply.requests_in_order`: propext, Classical.choice, Quot.sound
* C137 `Verif.RtReply.ready_once`: propext, Classical.choice, Quot.sound
* C137 `Verif.RtReply.dropped_never_returns`: propext, Classical.choice, Quot.sound
* C137 `Verif.RtReply.plain_wait_loses`: propext, Classical.choice, Quot.sound
* C137 `Verif.RtReply.plain_ready_early`: propext, Classical.choice, Quot.sound
* C137 `Verif.RtReply.demo`: none
* C137 `Verif.RtReply.demo_mismatch`: none
* C138 `Verif.SimpleEnv.init_caps_partial`: propext
* C138 `Verif.SimpleEnv.second_thread_disturbs`: propext
* C138 `Verif.SimpleEnv.iospaces_all`: propext, Quot.sound
* C138 `Verif.SimpleEnv.iospaces_only`: propext, Quot.sound
* C138 `Verif.SimpleEnv.iospaces_null`: none
* C138 `Verif.SimpleEnv.sched_iff`: propext
* C138 `Verif.SimpleEnv.cores_without_control`: propext, Quot.sound
* C138 `Verif.SimpleEnv.asid_partial`: none
* C138 `Verif.SimpleEnv.asid_riscv`: propext
* C138 `Verif.SimpleEnv.functions`: propext
* C138 `Verif.SimpleEnv.no_frames`: propext
* C138 `Verif.SimpleEnv.demo_answers`: none
* C139 `Verif.StdConn.target_standard`: propext, Classical.choice, Quot.sound
* C139 `Verif.StdConn.from_end`: propext, Classical.choice, Quot.sound
* C139 `Verif.StdConn.to_end`: propext, Classical.choice, Quot.sound
* C139 `Verif.StdConn.instance_builds_partial`: propext, Classical.choice, Quot.sound
* C139 `Verif.StdConn.template_unique`: propext, Classical.choice, Quot.sound
* C139 `Verif.StdConn.rpc_event_fails`: propext, Classical.choice, Quot.sound
* C139 `Verif.StdConn.single_threaded_missing`: propext, Classical.choice, Quot.sound
* C139 `Verif.StdConn.missing_template`: propext, Classical.choice, Quot.sound
* C139 `Verif.StdConn.demo_setting`: propext, Classical.choice, Quot.sound
* C139 `Verif.StdConn.demo_templates`: propext, Classical.choice, Quot.sound
* C139 `Verif.StdConn.demo_missing`: propext, Classical.choice, Quot.sound
* C14 `Verif.Hierarchy.connections_flattened`: propext, Quot.sound
* C14 `Verif.Hierarchy.underlying_exists_unique`: propext, Classical.choice, Quot.sound
* C14 `Verif.Hierarchy.top_level_end_rejected`: propext, Quot.sound
* C140 `Verif.InstSet.affinity_partial`: propext, Classical.choice, Quot.sound
* C140 `Verif.InstSet.affinity_refused`: propext, Classical.choice, Quot.sound
* C140 `Verif.InstSet.affinity_single`: propext, Classical.choice, Quot.sound
* C140 `Verif.InstSet.single_not_checked`: propext, Classical.choice, Quot.sound
* C140 `Verif.InstSet.default_not_checked`: propext, Classical.choice, Quot.sound
* C140 `Verif.InstSet.negative_accepted`: propext, Classical.choice, Quot.sound
* C140 `Verif.InstSet.heap_size`: propext, Classical.choice, Quot.sound
* C140 `Verif.InstSet.cnode_size_partial`: propext, Classical.choice, Quot.sound
* C140 `Verif.InstSet.member_misled`: propext, Classical.choice, Quot.sound
* C140 `Verif.InstSet.zero_misled`: propext, Classical.choice, Quot.sound
* C140 `Verif.InstSet.emits`: none
* C140 `Verif.InstSet.demo_asked`: propext, Classical.choice, Quot.sound
* C140 `Verif.InstSet.demo_values`: propext, Classical.choice, Quot.sound
* C140 `Verif.InstSet.demo_not_single`: propext, Classical.choice, Quot.sound
* C141 `Verif.VerNames.made_once`: propext, Classical.choice, Quot.sound
* C141 `Verif.VerNames.name_accepted_iff`: propext, Quot.sound
* C141 `Verif.VerNames.runs_pass_partial`: propext, Classical.choice, Quot.sound
* C141 `Verif.VerNames.other_names_refused`: propext, Classical.choice, Quot.sound
* C141 `Verif.VerNames.session_complete`: propext, Classical.choice, Quot.sound
* C141 `Verif.VerNames.imports_made`: propext, Classical.choice, Quot.sound
* C141 `Verif.VerNames.demo_stem`: propext, Classical.choice, Quot.sound
* C141 `Verif.VerNames.demo_names`: propext, Classical.choice, Quot.sound
* C141 `Verif.VerNames.demo_runs`: propext, Classical.choice, Quot.sound
* C142 `Verif.AnonStruct.one_struct_per_name_partial`: propext, Classical.choice, Quot.sound
* C142 `Verif.AnonStruct.header_right_partial`: propext, Classical.choice, Quot.sound
* C142 `Verif.AnonStruct.attributes_right`: propext, Classical.choice, Quot.sound
* C142 `Verif.AnonStruct.taken_name`: propext, Classical.choice, Quot.sound
* C142 `Verif.AnonStruct.demo_parse`: propext, Classical.choice, Quot.sound
* C142 `Verif.AnonStruct.demo_free`: propext, Classical.choice, Quot.sound
* C143 `Verif.KeyTable.table_right`: propext, Classical.choice, Quot.sound
* C143 `Verif.KeyTable.others_ignored`: propext, Classical.choice, Quot.sound
* C143 `Verif.KeyTable.demo_table`: propext, Classical.choice, Quot.sound
* C143 `Verif.KeyTable.demo_wrap`: propext, Classical.choice, Quot.sound
* C143 `Verif.KeyTable.demo_hypotheses`: propext, Classical.choice, Quot.sound
* C144 `Verif.ArgLint.sound_partial`: propext, Classical.choice, Quot.sound
* C144 `Verif.ArgLint.no_false_alarm_partial`: propext, Classical.choice, Quot.sound
* C144 `Verif.ArgLint.python3_fails`: propext, Classical.choice, Quot.sound
* C144 `Verif.ArgLint.method_fails`: propext, Classical.choice, Quot.sound
* C144 `Verif.ArgLint.demo_lint`: propext, Classical.choice, Quot.sound
* C144 `Verif.ArgLint.demo_clean`: propext, Classical.choice, Quot.sound
* C145 `Verif.SenderId.sender_is_caller`: propext, Quot.sound
* C145 `Verif.SenderId.sender_in_method`: propext, Classical.choice, Quot.sound
* C145 `Verif.SenderId.configured_sender`: propext, Classical.choice, Quot.sound
* C145 `Verif.SenderId.senders_told_apart_partial`: propext, Classical.choice, Quot.sound
* C145 `Verif.SenderId.no_call_zero`: propext, Classical.choice, Quot.sound
* C145 `Verif.SenderId.calls_received`: propext, Quot.sound
* C145 `Verif.SenderId.same_badge_confused`: propext, Quot.sound
* C145 `Verif.SenderId.zero_confused`: propext, Classical.choice, Quot.sound
* C145 `Verif.SenderId.demo_run`: propext, Quot.sound
* C15 `Verif.Hierarchy.settings_flattened`: propext, Quot.sound
* C16 `Verif.AttrRef.references_resolved_partial`: propext, Classical.choice, Quot.sound
* C16 `Verif.AttrRef.resolved_only_if_value`: propext, Classical.choice, Quot.sound
* C16 `Verif.AttrRef.means_unique`: propext
* C16 `Verif.AttrRef.subscript_order_dependent`: propext
* C17 `Verif.AttrRef.resolve_terminates`: propext, Classical.choice, Quot.sound
* C17 `Verif.AttrRef.circular_rejected`: propext, Classical.choice, Quot.sound
* C17 `Verif.AttrRef.circular_parse_error`: propext, Classical.choice, Quot.sound
* C18 `Verif.Consolidate.consolidate_correct_partial`: propext, Classical.choice, Quot.sound
* C18 `Verif.Consolidate.consolidate_succeeds`: propext, Classical.choice, Quot.sound
* C18 `Verif.Consolidate.conflicting_types_rejected`: propext, Classical.choice, Quot.sound
* C18 `Verif.Consolidate.overlapping_merge_fails`: propext, Classical.choice, Quot.sound
* C19 `Verif.Freeze.mapFreeze_error_iff`: propext, Classical.choice, Quot.sound
* C19 `Verif.Freeze.mapFreeze_lookup`: propext, Quot.sound
* C19 `Verif.Freeze.mapFreeze_iter`: propext, Quot.sound
* C20 `Verif.Freeze.composition_accepted_iff`: propext, Quot.sound
* C21 `Verif.Freeze.config_accepted_iff`: propext, Quot.sound
* C21 `Verif.Freeze.config_lookup`: propext, Quot.sound
* C22 `Verif.Freeze.connection_accepted_iff`: propext, Quot.sound
* C23 `Verif.Frozen.frozen_immutable`: propext
* C23 `Verif.Frozen.frozen_tuples_immutable`: propext, Quot.sound
* C23 `Verif.Frozen.frozen_assign_raises`: propext, Quot.sound
* C23 `Verif.Frozen.freeze_freezes`: propext, Quot.sound
* C23 `Verif.Frozen.descendants_frozen`: propext, Quot.sound
* C23 `Verif.Frozen.freeze_idempotent_partial`: propext
* C23 `Verif.Frozen.refreeze_raises`: propext
* C23 `Verif.Frozen.frozen_sequences_tuples`: propext, Quot.sound
* C23 `Verif.Frozen.list_field_mutable`: propext, Quot.sound
* C24 `Verif.TypeCheck.settings_typed`: propext, Classical.choice, Quot.sound
* C24 `Verif.TypeCheck.settings_kept`: propext, Quot.sound
* C24 `Verif.TypeCheck.accepted_iff`: propext, Classical.choice, Quot.sound
* C25 `Verif.Traversal.post_visits`: propext, Quot.sound
* C25 `Verif.Traversal.post_children_first`: propext
* C25 `Verif.Traversal.post_unchanged`: none
* C25 `Verif.Traversal.iter_spec`: propext
* C25 `Verif.Traversal.pre_visits`: propext, Quot.sound
* C25 `Verif.Traversal.pre_parents_first`: propext
* C25 `Verif.Traversal.post_result`: none
* C25 `Verif.Traversal.pre_result`: none
* C26 `Verif.Hash.eq_equivalence`: propext, Classical.choice, Quot.sound
* C26 `Verif.Hash.eq_hash`: propext, Classical.choice, Quot.sound
* C26 `Verif.Hash.ignores_location_parent`: propext, Classical.choice, Quot.sound
* C26 `Verif.Hash.eq_iff_same`: propext, Classical.choice, Quot.sound
* C26 `Verif.Hash.different_dicts_raise`: propext, Classical.choice, Quot.sound
* C27 `Verif.Fdt.pack_spec`: propext, Classical.choice, Quot.sound
* C27 `Verif.Fdt.unpacker_rows`: propext, Classical.choice, Quot.sound
* C27 `Verif.Fdt.pack_unpack`: propext, Classical.choice, Quot.sound
* C27 `Verif.Fdt.short_data_accepted`: propext
* C27 `Verif.Fdt.zero_cells_never_end`: propext
* C28 `Verif.Fdt.xlatReg_route`: propext, Classical.choice, Quot.sound
* C28 `Verif.Fdt.reg_translated`: propext, Classical.choice, Quot.sound
* C28 `Verif.Fdt.reg_rejected`: propext, Classical.choice, Quot.sound
* C28 `Verif.Fdt.root_ranges_rejected`: propext
* C28 `Verif.Fdt.busOf_describes`: propext, Quot.sound
* C28 `Verif.Fdt.resolveBuses_describes`: propext, Quot.sound
* C29 `Verif.FdtQuery.query_exact_partial`: propext, Classical.choice, Quot.sound
* C29 `Verif.FdtQuery.alias_sound`: propext, Classical.choice, Quot.sound
* C29 `Verif.FdtQuery.chosen_sound`: propext, Classical.choice, Quot.sound
* C29 `Verif.FdtQuery.query_each`: propext, Classical.choice, Quot.sound
* C29 `Verif.FdtQuery.parseKey_means`: propext, Classical.choice, Quot.sound
* C29 `Verif.FdtQuery.path_miss_returns_others`: propext, Classical.choice, Quot.sound
* C29 `Verif.FdtQuery.alias_prefix_ambiguous`: propext, Classical.choice, Quot.sound
* C30 `Verif.QueryKeys.update_lookup_partial`: propext, Classical.choice, Quot.sound
* C30 `Verif.QueryKeys.keys_are_words`: propext, Classical.choice, Quot.sound
* C30 `Verif.QueryKeys.update_lossless`: propext, Classical.choice, Quot.sound
* C30 `Verif.QueryKeys.collision_loses`: propext, Classical.choice, Quot.sound
* C30 `Verif.QueryKeys.newline_kept`: propext, Classical.choice, Quot.sound
* C31 `Verif.Macros.roundUp_spec`: propext, Quot.sound
* C31 `Verif.Macros.roundDown_spec`: propext
* C31 `Verif.Macros.round_rejects`: propext, Quot.sound
* C31 `Verif.Macros.alignPage_spec`: propext, Classical.choice, Quot.sound
* C31 `Verif.Macros.nextPageMultiple_spec`: propext, Quot.sound
* C31 `Verif.Macros.getPageSize_spec`: propext, Quot.sound
* C32 `Verif.Macros.untypeds_tile`: propext, Classical.choice, Quot.sound
* C33 `Verif.Macros.typeToFit_spec`: propext, Quot.sound
* C34 `Verif.Badges.badges_are_bits`: propext, Classical.choice, Quot.sound
* C34 `Verif.Badges.received_identifies_partial`: propext, Classical.choice, Quot.sound
* C34 `Verif.Badges.default_mask_ok`: propext, Classical.choice, Quot.sound
* C34 `Verif.Badges.exhausted`: propext, Classical.choice, Quot.sound
* C34 `Verif.Badges.badges_given`: propext, Classical.choice, Quot.sound
* C34 `Verif.Badges.overlapping_base_ambiguous`: propext
* C35 `Verif.Badges.rpc_badges_in_mask`: propext, Classical.choice, Quot.sound
* C35 `Verif.Badges.rpc_badges_distinct_partial`: propext, Classical.choice, Quot.sound
* C35 `Verif.Badges.rpc_exhausted`: propext, Classical.choice, Quot.sound
* C35 `Verif.Badges.rpc_badges_given`: propext, Classical.choice, Quot.sound
* C35 `Verif.Badges.allocate_spec`: propext, Classical.choice, Quot.sound
* C35 `Verif.Badges.allocate_distinct_partial`: propext, Classical.choice, Quot.sound
* C35 `Verif.Badges.rpc_overlapping_base_ambiguous`: propext
* C35 `Verif.Badges.explicit_duplicates_kept`: propext, Quot.sound
* C35 `Verif.Badges.rpc_last_badge_unused`: propext
* C36 `Verif.VirtqueueIds.ids_spec`: propext, Classical.choice, Quot.sound
* C36 `Verif.VirtqueueIds.clientId_unique`: propext, Classical.choice, Quot.sound
* C36 `Verif.VirtqueueIds.configured_duplicates_kept`: propext, Quot.sound
* C37 `Verif.Labels.labels_spec_partial`: propext, Classical.choice, Quot.sound
* C37 `Verif.Labels.members_share`: propext, Classical.choice, Quot.sound
* C37 `Verif.Labels.order_matters`: propext
* C38 `Verif.Context.cap_slots`: propext, Classical.choice, Quot.sound
* C38 `Verif.Context.cap_rights`: propext, Classical.choice, Quot.sound
* C38 `Verif.Context.wanted_iff`: propext, Quot.sound
* C38 `Verif.Context.objects_by_name`: propext, Quot.sound
* C38 `Verif.Context.objects_distinct_partial`: propext, Quot.sound
* C38 `Verif.Context.objects_alias`: propext, Classical.choice, Quot.sound
* C38 `Verif.Context.answered_iff`: propext, Classical.choice, Quot.sound
* C38 `Verif.Context.objects_entities_partial`: propext, Quot.sound
* C39 `Verif.Context.c_symbols_distinct`: propext, Classical.choice, Quot.sound
* C39 `Verif.Context.c_symbols_reserved`: propext, Classical.choice, Quot.sound
* C39 `Verif.Context.symbols_nodup_partial`: propext, Classical.choice, Quot.sound
* C39 `Verif.Context.isabelle_collision`: propext, Classical.choice, Quot.sound
* C40 `Verif.Context.shared_covers_partial`: propext, Classical.choice, Quot.sound
* C40 `Verif.Context.shared_agree`: propext, Quot.sound
* C40 `Verif.Context.shared_separate`: propext, Quot.sound
* C40 `Verif.Context.calcFrameSize_largest`: propext, Classical.choice, Quot.sound
* C40 `Verif.Context.frame_size_truncates`: propext, Classical.choice, Quot.sound
* C40 `Verif.Context.sizes_must_agree`: propext, Classical.choice, Quot.sound
* C40 `Verif.Context.shared_accepted_iff`: propext, Classical.choice, Quot.sound
* C41 `Verif.Runner.accepted_iff`: propext, Quot.sound
* C41 `Verif.Runner.all_different_rejected_partial`: propext, Quot.sound
* C41 `Verif.Runner.pairing`: propext, Quot.sound
* C41 `Verif.Runner.missing_template_accepted`: propext, Quot.sound
* C41 `Verif.Runner.missing_outfile_accepted`: propext, Quot.sound
* C41 `Verif.Runner.duplicate_outfile_accepted`: propext, Quot.sound
* C42 `Verif.Makefile.rule_prerequisites`: propext, Quot.sound
* C42 `Verif.Makefile.rule_without_colon`: propext, Quot.sound
* C42 `Verif.Makefile.write_then_parse`: propext, Quot.sound
* C42 `Verif.Makefile.backslash_kept`: propext, Classical.choice, Quot.sound
* C42 `Verif.Makefile.escaped_blank_splits`: propext, Classical.choice, Quot.sound
* C42 `Verif.Makefile.blank_line_does_not_end`: propext, Classical.choice, Quot.sound
* C43 `Verif.Dma.alloc_sound`: propext, Classical.choice, Quot.sound
* C43 `Verif.Dma.pool_partition`: propext, Classical.choice, Quot.sound
* C43 `Verif.Dma.init_adds`: propext, Classical.choice, Quot.sound
* C43 `Verif.Dma.init_introspect_adds_nothing`: propext, Classical.choice, Quot.sound
* C44 `Verif.Dma.defrag_spec`: propext, Classical.choice, Quot.sound
* C44 `Verif.Dma.defrag_disjoint`: propext, Classical.choice, Quot.sound
* C45 `Verif.Dma.cached_flag_partial`: propext, Classical.choice, Quot.sound
* C45 `Verif.Dma.cached_flag_wrong`: propext, Classical.choice, Quot.sound
* C46 `Verif.Notification.events_conserved`: propext, Classical.choice, Quot.sound
* C46 `Verif.Notification.events_at_rest`: propext, Classical.choice, Quot.sound
* C46 `Verif.Notification.lock_protects`: propext, Classical.choice, Quot.sound
* C46 `Verif.Notification.never_both`: propext, Classical.choice, Quot.sound
* C46 `Verif.Notification.callbacks_in_order`: propext, Classical.choice, Quot.sound
* C46 `Verif.Notification.counter_in_range`: propext, Classical.choice, Quot.sound
* C46 `Verif.Notification.holder_can_step`: propext, Classical.choice, Quot.sound
* C47 `Verif.Marshal.inputs_round_trip`: propext, Classical.choice, Quot.sound
* C47 `Verif.Marshal.outputs_round_trip`: propext, Classical.choice, Quot.sound
* C47 `Verif.Marshal.marshalInputs_spec`: propext, Classical.choice, Quot.sound
* C47 `Verif.Marshal.marshalOutputs_spec`: propext, Classical.choice, Quot.sound
* C48 `Verif.Marshal.receive_sound_partial`: propext, Classical.choice, Quot.sound
* C48 `Verif.Marshal.outputs_sound_plain`: propext, Classical.choice, Quot.sound
* C48 `Verif.Marshal.huge_array_accepted`: propext
* C48 `Verif.Marshal.string_table_overrun`: propext
* C49 `Verif.CapAlloc.alloc_correct`: propext, Classical.choice, Quot.sound
* C49 `Verif.CapAlloc.free_correct`: propext, Classical.choice, Quot.sound
* C49 `Verif.CapAlloc.freed_available`: propext, Classical.choice, Quot.sound
* C49 `Verif.CapAlloc.provided_twice`: propext, Quot.sound
* C50 `Verif.IoMap.ioMap_sound_partial`: propext, Classical.choice, Quot.sound
* C50 `Verif.IoMap.not_contiguous`: propext, Quot.sound
* C50 `Verif.IoMap.ioMap_complete_partial`: propext, Quot.sound
* C50 `Verif.IoMap.covered_not_mapped`: propext, Quot.sound
* C50 `Verif.IoMap.unmap_iff`: propext, Quot.sound
* C50 `Verif.IoMap.unmap_count`: propext, Quot.sound
* C50 `Verif.IoMap.unmap_accepted_iff`: propext, Quot.sound
* C51 `Verif.IfaceReg.find_visits`: propext, Classical.choice, Quot.sound
* C51 `Verif.IfaceReg.register_exact`: propext, Classical.choice, Quot.sound
* C51 `Verif.IfaceReg.first_instance_partial`: propext, Classical.choice, Quot.sound
* C51 `Verif.IfaceReg.second_instance_refused`: propext, Classical.choice, Quot.sound
* C51 `Verif.IfaceReg.duplicate_accepted`: propext, Classical.choice, Quot.sound
* C51 `Verif.IfaceReg.unregistered_type_refused`: propext, Classical.choice, Quot.sound
* C51 `Verif.IfaceReg.not_registersDistinct`: propext, Classical.choice, Quot.sound
* C52 `Verif.Irq.register_correct`: propext, Classical.choice, Quot.sound
* C52 `Verif.Irq.unregister_correct`: propext, Classical.choice, Quot.sound
* C52 `Verif.Irq.global_correct`: propext, Classical.choice, Quot.sound
* C52 `Verif.Irq.check_iff`: propext, Classical.choice, Quot.sound
* C52 `Verif.Irq.check_complete`: propext, Classical.choice, Quot.sound
* C52 `Verif.Irq.check_sound_partial`: propext, Quot.sound
* C52 `Verif.Irq.check_symm_partial`: propext, Classical.choice, Quot.sound
* C52 `Verif.Irq.check_not_symmetric`: propext
* C53 `Verif.VqAlloc.alloc_correct`: propext, Classical.choice, Quot.sound
* C53 `Verif.VqAlloc.freed_available`: propext, Classical.choice, Quot.sound
* C53 `Verif.VqAlloc.double_free`: none
* C53 `Verif.VqAlloc.free_outside_partial`: propext, Classical.choice, Quot.sound
* C53 `Verif.VqAlloc.free_far_outside`: none
* C53 `Verif.VqAlloc.driver_blocks_partial`: propext, Classical.choice, Quot.sound
* C53 `Verif.VqAlloc.rings_too_large`: propext, Quot.sound
* C54 `Verif.ReplyCap.saved_once_reported`: propext, Quot.sound
* C54 `Verif.ReplyCap.protect_idempotent`: propext
* C54 `Verif.ReplyCap.declare_twice_asserts`: propext
* C54 `Verif.ReplyCap.saved_before_wait`: propext, Quot.sound
* C55 `Verif.Interrupts.arm_decode_partial`: propext, Classical.choice, Quot.sound
* C55 `Verif.Interrupts.arm_extended_partial`: propext, Quot.sound
* C55 `Verif.Interrupts.other_decode_partial`: propext, Classical.choice, Quot.sound
* C55 `Verif.Interrupts.other_malformed`: propext, Classical.choice, Quot.sound
* C55 `Verif.Interrupts.no_property`: propext
* C55 `Verif.Interrupts.arm_trailing_ignored`: propext
* C55 `Verif.Interrupts.arm_extended_two_wrong`: propext
* C55 `Verif.Interrupts.arm_flags_with_mask`: propext
* C55 `Verif.Interrupts.three_one_cell_wrong`: propext
* C56 `Verif.ReplyCap.server_correct_partial`: propext
* C56 `Verif.ReplyCap.dropped_request_asserts`: propext
* C56 `Verif.ReplyCap.wrong_client_answered`: propext, Quot.sound
* C56 `Verif.ReplyCap.not_answersRight`: propext, Classical.choice, Quot.sound
* C56 `Verif.ReplyCap.save_error_ignored`: propext, Quot.sound
* C56 `Verif.ReplyCap.unprotected_wait_loses`: propext, Quot.sound
* C57 `Verif.VqMsg.messages_right`: propext, Classical.choice, Quot.sound
* C57 `Verif.VqMsg.send_succeeds`: propext, Classical.choice, Quot.sound
* C57 `Verif.VqMsg.send_when_idle`: propext, Classical.choice, Quot.sound
* C57 `Verif.VqMsg.failed_send_leaks`: propext
* C58 `Verif.ClientLock.calls_right`: propext, Quot.sound
* C58 `Verif.ClientLock.live_partial`: propext, Quot.sound
* C58 `Verif.ClientLock.live_steps`: propext, Quot.sound
* C58 `Verif.ClientLock.failed_call_blocks_all`: propext, Classical.choice, Quot.sound
* C59 `Verif.VqChan.registered_iff`: propext, Quot.sound
* C59 `Verif.VqChan.refused_iff`: propext, Quot.sound
* C59 `Verif.VqChan.getChannel_iff`: propext, Quot.sound
* C59 `Verif.VqChan.getId_exact`: propext, Quot.sound
* C59 `Verif.VqChan.names_found_partial`: propext, Quot.sound
* C59 `Verif.VqChan.gap_faults`: propext, Quot.sound
* C59 `Verif.VqChan.unknown_name_faults`: propext, Quot.sound
* C59 `Verif.VqChan.last_id_not_found`: propext, Quot.sound
* C59 `Verif.VqChan.long_names_confused`: propext, Quot.sound
* C59 `Verif.VqChan.negative_id_overruns`: propext, Quot.sound
* C59 `Verif.VqChan.not_namesFound`: propext, Classical.choice, Quot.sound
* C60 `Verif.Runner.resolve_iff`: propext, Classical.choice, Quot.sound
* C60 `Verif.Runner.written`: propext, Classical.choice, Quot.sound
* C60 `Verif.Runner.negative_index_accepted`: propext, Classical.choice, Quot.sound
* C60 `Verif.Runner.trailing_parts_accepted`: propext, Classical.choice, Quot.sound
* C61 `Verif.Dma.alloc_succeeds_partial`: propext, Classical.choice, Quot.sound
* C61 `Verif.Dma.start_of_region_missed`: propext, Classical.choice, Quot.sound
* C61 `Verif.Dma.small_request_fails`: propext, Classical.choice, Quot.sound
* C62 `Verif.Startup.ordered`: propext, Classical.choice, Quot.sound
* C62 `Verif.Startup.passive_first`: propext, Classical.choice, Quot.sound
* C62 `Verif.Startup.stuck_started`: propext, Classical.choice, Quot.sound
* C62 `Verif.Startup.not_endless`: propext, Classical.choice, Quot.sound
* C62 `Verif.Startup.can_finish`: propext, Classical.choice, Quot.sound
* C62 `Verif.Startup.no_escape_partial`: propext, Classical.choice, Quot.sound
* C62 `Verif.Startup.escape_excludes_handler`: propext, Classical.choice, Quot.sound
* C62 `Verif.Startup.fault_handler_lost`: propext, Classical.choice, Quot.sound
* C62 `Verif.Startup.nested_passive_hangs`: propext, Classical.choice, Quot.sound
* C63 `Verif.DPtr.wrap_exact_partial`: propext, Classical.choice, Quot.sound
* C63 `Verif.DPtr.same_byte_partial`: propext, Classical.choice, Quot.sound
* C63 `Verif.DPtr.round_trip_partial`: propext, Classical.choice, Quot.sound
* C63 `Verif.DPtr.outside_fails_partial`: propext, Classical.choice, Quot.sound
* C63 `Verif.DPtr.unshared_fails`: propext, Classical.choice, Quot.sound
* C63 `Verif.DPtr.below_mmio_accepted`: propext, Quot.sound
* C63 `Verif.DPtr.shared_pointer_lost`: propext, Quot.sound
* C63 `Verif.DPtr.unwrap_unchecked`: propext, Quot.sound
* C63 `Verif.DPtr.other_mapping`: propext, Quot.sound
* C63 `Verif.DPtr.smaller_receiver`: propext, Quot.sound
* C64 `Verif.FaultMap.shows_all`: propext, Classical.choice, Quot.sound
* C64 `Verif.FaultMap.mark_count`: propext, Classical.choice, Quot.sound
* C64 `Verif.FaultMap.inverted_aborts`: propext, Quot.sound
* C64 `Verif.FaultMap.same_end_aborts`: propext, Classical.choice, Quot.sound
* C64 `Verif.FaultMap.thread_map_shown`: propext, Classical.choice, Quot.sound
* C65 `Verif.Drivers.call_exact_partial`: propext, Classical.choice, Quot.sound
* C65 `Verif.Drivers.settled_once_partial`: propext, Classical.choice, Quot.sound
* C65 `Verif.Drivers.only_chosen_partial`: propext, Classical.choice, Quot.sound
* C65 `Verif.Drivers.settled_is_final_partial`: propext, Classical.choice, Quot.sound
* C65 `Verif.Drivers.finishes_partial`: propext, Classical.choice, Quot.sound
* C65 `Verif.Drivers.never_ends`: propext, Classical.choice, Quot.sound
* C65 `Verif.Drivers.lost_device`: propext
* C65 `Verif.Drivers.no_memory_aborts`: propext, Quot.sound
* C65 `Verif.Drivers.second_call_faults`: propext, Classical.choice, Quot.sound
* C66 `Verif.Vma.covered_iff`: propext, Quot.sound
* C66 `Verif.Vma.madvise_mapped`: propext, Classical.choice, Quot.sound
* C66 `Verif.Vma.madvise_iff_partial`: propext, Quot.sound
* C66 `Verif.Vma.mincore_mapped`: propext, Classical.choice, Quot.sound
* C66 `Verif.Vma.mincore_iff_partial`: propext, Quot.sound
* C66 `Verif.Vma.mlock_mapped`: propext, Classical.choice, Quot.sound
* C66 `Verif.Vma.mlock_iff_partial`: propext, Quot.sound
* C66 `Verif.Vma.end_refused`: propext, Quot.sound
* C66 `Verif.Vma.guards_refused`: propext, Classical.choice, Quot.sound
* C66 `Verif.Vma.stack_accepted`: propext, Classical.choice, Quot.sound
* C66 `Verif.Vma.whole_stack_refused`: propext, Classical.choice, Quot.sound
* C66 `Verif.Vma.table_exact`: propext, Classical.choice, Quot.sound
* C67 `Verif.Select.asks_right_partial`: propext, Classical.choice, Quot.sound
* C67 `Verif.Select.reports_right_partial`: propext, Classical.choice, Quot.sound
* C67 `Verif.Select.timeout_passed`: propext, Quot.sound
* C67 `Verif.Select.wrong_descriptor`: propext, Quot.sound
* C67 `Verif.Select.stdin_confused`: propext, Quot.sound
* C67 `Verif.Select.stale_sets`: propext
* C68 `Verif.Sockets.table_holder`: propext, Quot.sound
* C68 `Verif.Sockets.only_own_socket`: propext, Quot.sound
* C68 `Verif.Sockets.reaches_socket_partial`: propext, Classical.choice, Quot.sound
* C68 `Verif.Sockets.opens_new`: propext, Quot.sound
* C68 `Verif.Sockets.closes`: propext
* C68 `Verif.Sockets.read_error_faults`: propext, Quot.sound
* C68 `Verif.Sockets.socket_error_hidden`: propext
* C68 `Verif.Sockets.long_address_faults`: propext, Quot.sound
* C68 `Verif.Sockets.not_socket_faults`: propext, Quot.sound
* C68 `Verif.Sockets.write_error_positive`: none
* C69 `Verif.Flush.refused_outside`: propext, Classical.choice, Quot.sound
* C69 `Verif.Flush.named_exact`: propext, Classical.choice, Quot.sound
* C69 `Verif.Flush.lines_exact_partial`: propext, Classical.choice, Quot.sound
* C69 `Verif.Flush.last_byte_left_out`: propext, Classical.choice, Quot.sound
* C69 `Verif.Flush.one_byte_refused`: propext, Classical.choice, Quot.sound
* C69 `Verif.Flush.unknown_ignored`: propext, Quot.sound
* C70 `Verif.IoPort.library_call`: propext, Quot.sound
* C70 `Verif.IoPort.never_outside`: propext, Classical.choice, Quot.sound
* C70 `Verif.IoPort.in_right_partial`: propext, Quot.sound
* C70 `Verif.IoPort.out_right_partial`: propext, Quot.sound
* C70 `Verif.IoPort.error_reads_zero`: propext, Quot.sound
* C70 `Verif.IoPort.release_dead`: none
* C70 `Verif.IoPort.ports_alias`: propext
* C70 `Verif.IoPort.overlap_refused`: none
* C71 `Verif.Errors.responsible_unique`: propext
* C71 `Verif.Errors.handled_right_partial`: propext, Quot.sound
* C71 `Verif.Errors.old_returned`: propext
* C71 `Verif.Errors.null_common_faults`: propext
* C72 `Verif.Mutexes.own_notification`: propext, Classical.choice, Quot.sound
* C72 `Verif.Mutexes.new_exact`: propext, Classical.choice, Quot.sound
* C72 `Verif.Mutexes.failed_harmless`: propext, Classical.choice, Quot.sound
* C72 `Verif.Mutexes.free_ok`: propext, Classical.choice, Quot.sound
* C73 `Verif.MsgQ.queue_right`: propext, Classical.choice, Quot.sound
* C73 `Verif.MsgQ.fifo`: propext
* C73 `Verif.MsgQ.send_succeeds`: propext, Classical.choice, Quot.sound
* C73 `Verif.MsgQ.get_delivers`: propext, Classical.choice, Quot.sound
* C73 `Verif.MsgQ.lookup_right_partial`: propext, Quot.sound
* C73 `Verif.MsgQ.negative_number_faults`: propext, Quot.sound
* C73 `Verif.MsgQ.empty_messages_fault`: propext, Quot.sound
* C73 `Verif.MsgQ.no_blocks`: propext, Quot.sound
* C73 `Verif.MsgQ.sizes_differ`: propext
* C73 `Verif.MsgQ.ring_full_late`: propext
* C74 `Verif.GdbPacket.delivered_partial`: propext, Classical.choice, Quot.sound
* C74 `Verif.GdbPacket.corrupted_partial`: propext, Classical.choice, Quot.sound
* C74 `Verif.GdbPacket.only_packets`: propext, Classical.choice, Quot.sound
* C74 `Verif.GdbPacket.zero_byte_lost`: propext, Classical.choice, Quot.sound
* C74 `Verif.GdbPacket.long_reads_outside`: propext, Classical.choice, Quot.sound
* C74 `Verif.GdbPacket.no_digits_accepted`: propext, Classical.choice, Quot.sound
* C74 `Verif.GdbPacket.answer_right`: propext, Classical.choice, Quot.sound
* C74 `Verif.GdbPacket.line_right`: propext, Classical.choice, Quot.sound
* C74 `Verif.GdbPacket.line_live`: propext, Classical.choice, Quot.sound
* C75 `Verif.GdbMem.read_right_partial`: propext, Classical.choice, Quot.sound
* C75 `Verif.GdbMem.write_right_partial`: propext, Classical.choice, Quot.sound
* C75 `Verif.GdbMem.read_back_partial`: propext, Classical.choice, Quot.sound
* C75 `Verif.GdbMem.binary_right_partial`: propext, Classical.choice, Quot.sound
* C75 `Verif.GdbMem.unchanged`: propext
* C75 `Verif.GdbMem.read_pure`: propext
* C75 `Verif.GdbMem.read_exact`: propext, Classical.choice, Quot.sound
* C75 `Verif.GdbMem.write_exact`: propext, Classical.choice, Quot.sound
* C75 `Verif.GdbMem.binary_exact`: propext, Classical.choice, Quot.sound
* C75 `Verif.GdbMem.long_read_wrong`: propext, Classical.choice, Quot.sound
* C75 `Verif.GdbMem.high_address_wrong`: propext, Classical.choice, Quot.sound
* C75 `Verif.GdbMem.end_refused`: propext, Classical.choice, Quot.sound
* C75 `Verif.GdbMem.across_hangs`: propext, Classical.choice, Quot.sound
* C75 `Verif.GdbMem.unmapped_hangs`: propext, Classical.choice, Quot.sound
* C75 `Verif.GdbMem.readonly_refused`: propext, Classical.choice, Quot.sound
* C75 `Verif.GdbMem.dataless_null`: propext, Classical.choice, Quot.sound
* C75 `Verif.GdbMem.binary_ignored`: propext, Classical.choice, Quot.sound
* C75 `Verif.GdbMem.binary_cut`: propext, Classical.choice, Quot.sound
* C75 `Verif.GdbMem.binary_overflows`: propext, Classical.choice, Quot.sound
* C75 `Verif.GdbMem.colon_and_escape_wrong`: propext
* C76 `Verif.GdbRegs.read_right`: propext, Classical.choice, Quot.sound
* C76 `Verif.GdbRegs.read_refused`: propext, Classical.choice, Quot.sound
* C76 `Verif.GdbRegs.write_right_partial`: propext, Classical.choice, Quot.sound
* C76 `Verif.GdbRegs.read_back_partial`: propext, Classical.choice, Quot.sound
* C76 `Verif.GdbRegs.write_ignored`: propext, Classical.choice, Quot.sound
* C76 `Verif.GdbRegs.stack_digit`: propext, Classical.choice, Quot.sound
* C76 `Verif.GdbRegs.general_right`: propext, Quot.sound
* C76 `Verif.GdbRegs.general_write_ignored`: propext, Classical.choice, Quot.sound
* C76 `Verif.GdbRegs.insert_right_partial`: propext, Classical.choice, Quot.sound
* C76 `Verif.GdbRegs.remove_right_partial`: propext, Classical.choice, Quot.sound
* C76 `Verif.GdbRegs.others_keep`: propext, Quot.sound
* C76 `Verif.GdbRegs.other_types`: propext, Classical.choice, Quot.sound
* C76 `Verif.GdbRegs.high_breakpoint`: propext, Classical.choice, Quot.sound
* C76 `Verif.GdbRegs.stale_breakpoint`: propext, Classical.choice, Quot.sound
* C77 `Verif.GdbRun.told_right`: propext, Classical.choice, Quot.sound
* C77 `Verif.GdbRun.last_told`: propext, Classical.choice, Quot.sound
* C77 `Verif.GdbRun.stays_stopped_partial`: propext, Classical.choice, Quot.sound
* C77 `Verif.GdbRun.continue_right_partial`: propext, Classical.choice, Quot.sound
* C77 `Verif.GdbRun.steps_right_partial`: propext, Classical.choice, Quot.sound
* C77 `Verif.GdbRun.continue_after_steps_partial`: propext, Classical.choice, Quot.sound
* C77 `Verif.GdbRun.reason_right_partial`: propext, Classical.choice, Quot.sound
* C77 `Verif.GdbRun.continue_still_steps`: propext, Classical.choice, Quot.sound
* C77 `Verif.GdbRun.continue_counts`: propext, Classical.choice, Quot.sound
* C77 `Verif.GdbRun.other_thread_breaks_step`: propext, Classical.choice, Quot.sound
* C77 `Verif.GdbRun.failed_step_runs`: propext, Classical.choice, Quot.sound
* C77 `Verif.GdbRun.exception_breaks`: propext, Classical.choice, Quot.sound
* C77 `Verif.GdbRun.vcont_ignored`: propext, Classical.choice, Quot.sound
* C77 `Verif.GdbRun.watch_forgotten`: propext, Classical.choice, Quot.sound
* C77 `Verif.GdbRun.unsupported_unanswered`: propext, Classical.choice, Quot.sound
* C77 `Verif.GdbRun.early_continue`: propext, Classical.choice, Quot.sound
* C77 `Verif.GdbRun.software_back`: propext, Classical.choice, Quot.sound
* C77 `Verif.GdbRun.query_right`: propext, Classical.choice, Quot.sound
* C77 `Verif.GdbRun.unknown_query`: propext, Classical.choice, Quot.sound
* C77 `Verif.GdbRun.nameless_query`: propext, Classical.choice, Quot.sound
* C77 `Verif.GdbRun.thread_chosen`: propext, Classical.choice, Quot.sound
* C78 `Verif.AttrText.value_right_partial`: propext, Classical.choice, Quot.sound
* C78 `Verif.AttrText.value_one_line`: propext, Classical.choice, Quot.sound
* C78 `Verif.AttrText.string_right_iff`: propext, Classical.choice, Quot.sound
* C78 `Verif.AttrText.fits_range`: propext, Classical.choice, Quot.sound
* C78 `Verif.AttrText.overflow_changed`: propext, Classical.choice, Quot.sound
* C78 `Verif.AttrText.declared_right`: propext, Classical.choice, Quot.sound
* C78 `Verif.AttrText.unset_array_fails`: propext, Classical.choice, Quot.sound
* C78 `Verif.AttrText.defined_once`: propext, Classical.choice, Quot.sound
* C78 `Verif.AttrText.defined_right`: propext, Classical.choice, Quot.sound
* C78 `Verif.AttrText.measured_right_partial`: propext, Classical.choice, Quot.sound
* C78 `Verif.AttrText.defined_ok`: propext, Classical.choice, Quot.sound
* C78 `Verif.AttrText.second_measured_wrong`: propext, Classical.choice, Quot.sound
* C78 `Verif.AttrText.elements_measured_wrong`: propext, Classical.choice, Quot.sound
* C78 `Verif.AttrText.nested_fails`: propext, Classical.choice, Quot.sound
* C79 `Verif.HwIrq.delivered_partial`: propext, Classical.choice, Quot.sound
* C79 `Verif.HwIrq.handle_delivered`: propext, Classical.choice, Quot.sound
* C79 `Verif.HwIrq.not_stuck`: propext, Classical.choice, Quot.sound
* C79 `Verif.HwIrq.registration_lost`: propext
* C79 `Verif.HwIrq.registration_null`: none
* C79 `Verif.HwIrq.registration_stale`: none
* C79 `Verif.HwIrq.unregistration_null`: none
* C79 `Verif.HwIrq.unregistered_silent`: propext, Quot.sound
* C79 `Verif.HwIrq.ignored_once`: propext
* C79 `Verif.HwIrq.both_conflict`: propext
* C80 `Verif.IrqConfig.configured_iff`: propext, Classical.choice, Quot.sound
* C80 `Verif.IrqConfig.says_unique`: propext, Classical.choice, Quot.sound
* C80 `Verif.IrqConfig.driver_gets`: propext, Classical.choice, Quot.sound
* C80 `Verif.IrqConfig.error_right`: propext, Classical.choice, Quot.sound
* C80 `Verif.IrqConfig.core_forgotten`: propext, Classical.choice, Quot.sound
* C81 `Verif.IrqEvents.called_once`: propext, Classical.choice, Quot.sound
* C81 `Verif.IrqEvents.called_registered`: propext, Classical.choice, Quot.sound
* C81 `Verif.IrqEvents.all_called`: propext, Classical.choice, Quot.sound
* C81 `Verif.IrqEvents.ten_calls`: propext, Classical.choice, Quot.sound
* C81 `Verif.IrqEvents.taken_bounded`: propext, Quot.sound
* C81 `Verif.IrqEvents.argument_right_partial`: propext, Quot.sound
* C81 `Verif.IrqEvents.register_free`: propext, Quot.sound
* C81 `Verif.IrqEvents.register_full`: propext, Quot.sound
* C81 `Verif.IrqEvents.poll_takes`: propext
* C81 `Verif.IrqEvents.woken_partial`: propext
* C81 `Verif.IrqEvents.twice`: none
* C81 `Verif.IrqEvents.stale_argument`: none
* C81 `Verif.IrqEvents.argument_overwritten`: none
* C81 `Verif.IrqEvents.lost_wakeup`: propext, Quot.sound
* C81 `Verif.IrqEvents.never_again`: propext, Classical.choice, Quot.sound
* C82 `Verif.Decls.declaration_partial`: propext, Classical.choice, Quot.sound
* C82 `Verif.Decls.file_partial`: propext, Classical.choice, Quot.sound
* C82 `Verif.Decls.assembly_refused`: propext, Classical.choice, Quot.sound
* C82 `Verif.Decls.mistakes_stop`: propext, Classical.choice, Quot.sound
* C82 `Verif.Decls.file_stops`: propext, Classical.choice, Quot.sound
* C82 `Verif.Decls.buffer_size_positive`: propext, Classical.choice, Quot.sound
* C82 `Verif.Decls.export_qualified`: propext, Classical.choice, Quot.sound
* C82 `Verif.Decls.attribute_struct_refused`: propext, Classical.choice, Quot.sound
* C82 `Verif.Decls.parameter_type_single`: propext, Classical.choice, Quot.sound
* C82 `Verif.Decls.query_needs_arguments`: propext, Classical.choice, Quot.sound
* C82 `Verif.Decls.named_parts_dropped`: propext, Classical.choice, Quot.sound
* C82 `Verif.Decls.named_configuration_dropped`: propext, Classical.choice, Quot.sound
* C82 `Verif.Decls.named_composition_fails`: propext, Classical.choice, Quot.sound
* C82 `Verif.Decls.empty_struct_fails`: propext, Classical.choice, Quot.sound
* C82 `Verif.Decls.query_lookup_fails`: propext, Classical.choice, Quot.sound
* C83 `Verif.Threads.settings_partial`: propext, Classical.choice, Quot.sound
* C83 `Verif.Threads.stack_size_partial`: propext, Classical.choice, Quot.sound
* C83 `Verif.Threads.max_confused`: propext, Classical.choice, Quot.sound
* C83 `Verif.Threads.suffix_confused`: propext, Classical.choice, Quot.sound
* C84 `Verif.Threads.names_distinct`: propext, Classical.choice, Quot.sound
* C84 `Verif.Threads.names_across_partial`: propext, Classical.choice, Quot.sound
* C84 `Verif.Threads.tls_own`: propext, Classical.choice, Quot.sound
* C84 `Verif.Threads.stack_partial`: propext, Classical.choice, Quot.sound
* C84 `Verif.Threads.ipc_page`: propext, Classical.choice, Quot.sound
* C84 `Verif.Threads.odd_stack_faults`: propext, Classical.choice, Quot.sound
* C84 `Verif.Threads.names_shared`: propext, Classical.choice, Quot.sound
* C85 `Verif.Shmem.same_byte_iff`: propext, Classical.choice, Quot.sound
* C85 `Verif.Shmem.rights_partial`: propext, Classical.choice, Quot.sound
* C85 `Verif.Shmem.accepted_iff`: propext, Classical.choice, Quot.sound
* C85 `Verif.Shmem.dma_attributes`: propext, Quot.sound
* C85 `Verif.Shmem.empty_access_gives_all`: propext
* C85 `Verif.Shmem.order_refused`: none
* C86 `Verif.DevMem.registers_decoded`: propext, Classical.choice, Quot.sound
* C86 `Verif.DevMem.no_registers`: propext
* C86 `Verif.DevMem.register_mapping`: propext, Classical.choice, Quot.sound
* C86 `Verif.DevMem.registers_mapped`: propext, Classical.choice, Quot.sound
* C86 `Verif.DevMem.covered_partial`: propext, Classical.choice, Quot.sound
* C86 `Verif.DevMem.nothing_else`: propext, Classical.choice, Quot.sound
* C86 `Verif.DevMem.mappable_iff`: propext, Classical.choice, Quot.sound
* C86 `Verif.DevMem.straddling_unmapped`: propext, Classical.choice, Quot.sound
* C86 `Verif.DevMem.large_frame_unmappable`: propext, Classical.choice, Quot.sound
* C86 `Verif.DevMem.mmio_accepted_iff`: propext, Classical.choice, Quot.sound
* C86 `Verif.DevMem.mmio_mapping`: propext, Classical.choice, Quot.sound
* C86 `Verif.DevMem.unaligned_accepted`: propext
* C86 `Verif.DevMem.translate_partial`: propext
* C86 `Verif.DevMem.translate_wraps`: none
* C87 `Verif.Simple.caps_listed_partial`: propext, Classical.choice, Quot.sound
* C87 `Verif.Simple.untypeds_listed_partial`: propext, Quot.sound
* C87 `Verif.Simple.small_untyped_null`: propext, Classical.choice, Quot.sound
* C87 `Verif.Simple.holding_highest`: propext, Quot.sound
* C87 `Verif.Simple.earlier_kept`: propext, Quot.sound
* C87 `Verif.Simple.caps_distinct_partial`: propext, Classical.choice, Quot.sound
* C87 `Verif.Simple.repeated_pool_shared`: propext, Classical.choice, Quot.sound
* C87 `Verif.Simple.guess_covers_partial`: propext, Quot.sound
* C87 `Verif.Simple.guess_too_large`: propext, Quot.sound
* C87 `Verif.Simple.accepted_iff`: propext, Classical.choice, Quot.sound
* C88 `Verif.Simple.frame_partial`: propext, Quot.sound
* C88 `Verif.Simple.top_region_unreachable`: propext, Quot.sound
* C88 `Verif.Simple.mixed_sizes_confused`: propext, Quot.sound
* C88 `Verif.Simple.ports_partial`: propext, Classical.choice, Quot.sound
* C88 `Verif.Simple.adjacent_ports_refused`: propext, Classical.choice, Quot.sound
* C88 `Verif.Simple.irq_found`: propext, Quot.sound
* C88 `Verif.Simple.iospace_partial`: propext, Quot.sound
* C88 `Verif.Simple.illegal_device_found`: propext, Quot.sound
* C88 `Verif.Simple.smmu_found_as_pci`: propext, Quot.sound
* C88 `Verif.Simple.bootinfo_partial`: propext, Classical.choice, Quot.sound
* C88 `Verif.Simple.bootinfo_missing`: propext, Quot.sound
* C88 `Verif.Simple.bootinfo_overrun`: propext, Quot.sound
* C88 `Verif.Simple.bootinfo_negative`: propext, Quot.sound
* C89 `Verif.DmaMap.address_partial`: propext, Classical.choice, Quot.sound
* C89 `Verif.DmaMap.outside_null`: propext, Classical.choice, Quot.sound
* C89 `Verif.DmaMap.outside_crashes`: propext, Classical.choice, Quot.sound
* C89 `Verif.DmaMap.init_ok`: propext, Classical.choice, Quot.sound
* C89 `Verif.DmaMap.component_address`: propext, Quot.sound
* C89 `Verif.DmaMap.connection_address`: propext, Quot.sound
* C89 `Verif.DmaMap.pool_accepted_partial`: propext, Quot.sound
* C89 `Verif.DmaMap.large_pool_accepted_iff`: propext, Quot.sound
* C89 `Verif.DmaMap.large_pool_refused`: propext, Quot.sound
* C89 `Verif.DmaMap.nested_pool_refused`: propext, Quot.sound
* C89 `Verif.DmaMap.connection_accepted_iff`: propext, Quot.sound
* C89 `Verif.DmaMap.cache_partial`: propext, Classical.choice, Quot.sound
* C89 `Verif.DmaMap.spanning_not_maintained`: propext, Classical.choice, Quot.sound
* C89 `Verif.DmaMap.allocator_env`: propext, Classical.choice, Quot.sound
* C90 `Verif.DmaStats.stats_partial`: propext, Classical.choice, Quot.sound
* C90 `Verif.DmaStats.stats_harmless`: propext, Classical.choice, Quot.sound
* C90 `Verif.DmaStats.second_pool_forgets`: propext, Classical.choice, Quot.sound
* C91 `Verif.Pools.own_objects_partial`: propext, Classical.choice, Quot.sound
* C91 `Verif.Pools.accepted_iff`: propext, Classical.choice, Quot.sound
* C91 `Verif.Pools.initial_values`: propext, Classical.choice, Quot.sound
* C91 `Verif.Pools.pools_partial`: propext, Classical.choice, Quot.sound
* C91 `Verif.Pools.compiles_iff`: propext, Classical.choice, Quot.sound
* C91 `Verif.Pools.pools_do_not_compile`: propext, Classical.choice, Quot.sound
* C91 `Verif.Pools.endpoints_do_not_compile`: propext, Classical.choice, Quot.sound
* C91 `Verif.Pools.semaphore_shared`: propext, Classical.choice, Quot.sound
* C91 `Verif.Pools.mutex_shared`: propext, Classical.choice, Quot.sound
* C91 `Verif.Pools.octal_size`: propext, Classical.choice, Quot.sound
* C92 `Verif.Pools.smc_cap`: propext, Classical.choice, Quot.sound
* C92 `Verif.Pools.smc_twice`: propext, Quot.sound
* C93 `Verif.BootFrames.filled`: propext, Quot.sound
* C93 `Verif.BootFrames.device_tree`: propext, Quot.sound
* C93 `Verif.BootFrames.no_device_tree`: propext, Quot.sound
* C93 `Verif.BootFrames.dtb_choice`: propext, Quot.sound
* C93 `Verif.BootFrames.extended_partial`: propext, Classical.choice, Quot.sound
* C93 `Verif.BootFrames.tail_not_backed`: propext, Quot.sound
* C93 `Verif.BootFrames.large_piece`: propext, Quot.sound
* C94 `Verif.CakeRpc.call_delivered`: propext, Classical.choice, Quot.sound
* C94 `Verif.CakeRpc.results_returned_partial`: propext, Classical.choice, Quot.sound
* C94 `Verif.CakeRpc.supported_types`: propext, Classical.choice, Quot.sound
* C94 `Verif.CakeRpc.wraps_silently`: propext
* C94 `Verif.CakeRpc.long_string_cut`: propext, Quot.sound
* C95 `Verif.CakeRpc.never_overruns`: propext, Quot.sound
* C95 `Verif.CakeRpc.unknown_refused`: propext, Quot.sound
* C95 `Verif.CakeRpc.short_message_accepted`: propext
* C95 `Verif.CakeRpc.padding_leaks`: propext
* C96 `Verif.CakeFfi.open_out_reports`: propext, Classical.choice, Quot.sound
* C96 `Verif.CakeFfi.open_in_wrong`: propext, Classical.choice, Quot.sound
* C96 `Verif.CakeFfi.read_partial`: propext, Classical.choice, Quot.sound
* C96 `Verif.CakeFfi.read_overruns`: propext, Quot.sound
* C96 `Verif.CakeFfi.write_spec`: propext, Classical.choice, Quot.sound
* C96 `Verif.CakeFfi.close_spec`: propext, Classical.choice, Quot.sound
* C97 `Verif.CakeFfi.arguments_partial`: propext, Classical.choice, Quot.sound
* C97 `Verif.CakeFfi.terminator_behind`: propext, Classical.choice, Quot.sound
* C97 `Verif.CakeFfi.starts_in_order`: none
* C98 `Verif.Posix.names_partial`: propext, Quot.sound
* C98 `Verif.Posix.machine_spec`: propext, Quot.sound
* C98 `Verif.Posix.call_results`: propext, Quot.sound
* C98 `Verif.Posix.always_terminated`: propext, Quot.sound
* C98 `Verif.Posix.uname_null`: none
* C98 `Verif.Posix.length_ignored`: propext
* C98 `Verif.Posix.reads_beyond`: propext, Quot.sound
* C99 `Verif.Posix.installed_partial`: propext, Classical.choice, Quot.sound
* C99 `Verif.Posix.files_reach_library`: propext, Classical.choice, Quot.sound
* C99 `Verif.Posix.others_untouched`: propext, Classical.choice, Quot.sound
* C99 `Verif.Posix.sigaction_missing`: propext, Classical.choice, Quot.sound
* C99 `Verif.Posix.sethostname_missing`: propext, Classical.choice, Quot.sound
* C99 `Verif.Posix.twice_loops`: propext, Classical.choice, Quot.sound
* C99 `Verif.Posix.clock_partial`: propext, Quot.sound
* C99 `Verif.Posix.clock_refused`: none
* C99 `Verif.Posix.clock_wraps`: propext
