{
 "claims": [
  {
   "property": "C01",
   "status": "partial",
   "theorems": [
    "Verif.Imports.resolve_eq_depth_first",
    "Verif.Imports.parseFile_once",
    "Verif.Imports.parseFile_complete",
    "Verif.Imports.relative_root_read_twice",
    "Verif.Imports.parseString_depth_first"
   ],
   "note": "Splicing, order and at-most-once are proved for every finite file system; the at-most-once claim is about the path strings the reader sees. relative_root_read_twice proves that a root file given by a relative path can be read a second time through an import, so the property as stated does not hold for that case."
  },
  {
   "property": "C02",
   "status": "proved",
   "theorems": [
    "Verif.Imports.resolve_terminates",
    "Verif.Imports.angle_takes_first",
    "Verif.Imports.notFound_only_if_missing",
    "Verif.Imports.missing_import_fails"
   ],
   "note": ""
  },
  {
   "property": "C03",
   "status": "proved",
   "theorems": [
    "Verif.NumExpr.lift_eq_value",
    "Verif.NumExpr.lift_error_iff",
    "Verif.NumExpr.value_unique",
    "Verif.NumExpr.undefined_operation_rejected"
   ],
   "note": "Integer operands; floating point literals are not modelled."
  },
  {
   "property": "C04",
   "status": "partial",
   "theorems": [
    "Verif.NumExpr.logical_truth_partial",
    "Verif.NumExpr.comparison_boolean",
    "Verif.NumExpr.not_boolean",
    "Verif.NumExpr.logical_not_boolean"
   ],
   "note": "The property is false of the code: logical_not_boolean proves that && and || can yield values other than 0 and 1. Comparisons and ! do yield 0 or 1."
  },
  {
   "property": "C05",
   "status": "proved",
   "theorems": [
    "Verif.Lift.dict_last_wins",
    "Verif.Lift.list_faithful",
    "Verif.Lift.multi_string_concat",
    "Verif.Lift.string_literal_iff",
    "Verif.Lift.dataport_type_sizes",
    "Verif.Lift.export_split",
    "Verif.Lift.connection_ends_partition",
    "Verif.Lift.connection_end_split"
   ],
   "note": ""
  },
  {
   "property": "C06",
   "status": "proved",
   "theorems": [
    "Verif.Lift.connector_decl_faithful",
    "Verif.Lift.connector_negative_threads",
    "Verif.Lift.connector_decl_only"
   ],
   "note": ""
  },
  {
   "property": "C07",
   "status": "proved",
   "theorems": [
    "Verif.Location.location_honours_directives",
    "Verif.Location.lineOf_unique",
    "Verif.Location.location_outside",
    "Verif.Location.directive_iff",
    "Verif.Location.fileOf_unique",
    "Verif.Location.location_without_source"
   ],
   "note": "ASCII white space and digits in directives."
  },
  {
   "property": "C08",
   "status": "proved",
   "theorems": [
    "Verif.Scope.lookup_innermost",
    "Verif.Scope.lookup_none_iff",
    "Verif.Scope.register_duplicate_iff",
    "Verif.Scope.history_no_duplicates",
    "Verif.Scope.lookup_qualified",
    "Verif.Scope.resolve_prefers_context",
    "Verif.Scope.resolve_unknown_iff"
   ],
   "note": ""
  },
  {
   "property": "C09",
   "status": "proved",
   "theorems": [
    "Verif.Scope.scope_exit_restores"
   ],
   "note": ""
  },
  {
   "property": "C10",
   "status": "proved",
   "theorems": [
    "Verif.Acyclic.self_containment_rejected",
    "Verif.Acyclic.check_iff_cycle"
   ],
   "note": ""
  },
  {
   "property": "C100",
   "status": "partial",
   "theorems": [
    "Verif.Resolve.nothing_else_changes",
    "Verif.Resolve.reference_resolved",
    "Verif.Resolve.qualified_resolved",
    "Verif.Resolve.siblings_differ",
    "Verif.Resolve.assemblies_differ",
    "Verif.Resolve.unknown_reason",
    "Verif.Resolve.unknown_rejected",
    "Verif.Resolve.never_asserts",
    "Verif.Resolve.instance_members",
    "Verif.Resolve.other_members",
    "Verif.Resolve.composition_by_name_hidden"
   ],
   "note": "Disagreement: what an assembly declares in a composition that it takes by name cannot be used by other assemblies (composition_by_name_hidden)."
  },
  {
   "property": "C101",
   "status": "partial",
   "theorems": [
    "Verif.Queries.settings_kept",
    "Verif.Queries.looked_up",
    "Verif.Queries.whole_result",
    "Verif.Queries.answered",
    "Verif.Queries.dependencies",
    "Verif.Queries.succeeds",
    "Verif.Queries.looked_up_answer",
    "Verif.Queries.unknown_reason",
    "Verif.Queries.unknown_refused",
    "Verif.Queries.lifted_partial",
    "Verif.Queries.no_arguments_fails",
    "Verif.Queries.nothing_found_fails"
   ],
   "note": "Disagreement: a query without arguments, which the grammar allows, is an internal error (no_arguments_fails), and so is a result that lacks a key that is asked for (nothing_found_fails)."
  },
  {
   "property": "C102",
   "status": "partial",
   "theorems": [
    "Verif.Forward.all_replaced",
    "Verif.Forward.reference_resolved",
    "Verif.Forward.qualified_resolved",
    "Verif.Forward.acyclic",
    "Verif.Forward.cycle_reason",
    "Verif.Forward.siblings_differ",
    "Verif.Forward.assemblies_differ",
    "Verif.Forward.unknown_refused",
    "Verif.Forward.unknown_reason",
    "Verif.Forward.demo_accepted",
    "Verif.Forward.demo_named",
    "Verif.Forward.composition_by_name_asserts",
    "Verif.Forward.mixed_end"
   ],
   "note": "Disagreement: a reference through an instance of a later component whose composition is given by name fails an assertion (composition_by_name_asserts); with compositions in compositions an end can get the interface of another instance of the same name than it is for (mixed_end)."
  },
  {
   "property": "C103",
   "status": "proved",
   "theorems": [
    "Verif.Pipeline.delivered_instances",
    "Verif.Pipeline.delivered_connected_iff",
    "Verif.Pipeline.delivered_from_iff",
    "Verif.Pipeline.delivered_to_iff",
    "Verif.Pipeline.delivered_ends_once",
    "Verif.Pipeline.delivered_ends_exist",
    "Verif.Pipeline.delivered_mandatory",
    "Verif.Pipeline.delivered_suits",
    "Verif.Pipeline.delivered_value_iff",
    "Verif.Pipeline.delivered_set_once",
    "Verif.Pipeline.pipeline_terminates",
    "Verif.Pipeline.pipeline_no_assembly",
    "Verif.Pipeline.demo_seen",
    "Verif.Pipeline.demo_accepted",
    "Verif.Pipeline.demo_wellFormed"
   ],
   "note": "References with a subscript to something that is itself a reference are left out (SubscriptsDirect): there the tool drops the subscript, see the property about references between settings."
  },
  {
   "property": "C104",
   "status": "partial",
   "theorems": [
    "Verif.ArchSpec.description_read_partial",
    "Verif.ArchSpec.names_different",
    "Verif.ArchSpec.description_exists_iff",
    "Verif.ArchSpec.defined_before_partial",
    "Verif.ArchSpec.exported_dataport_stays",
    "Verif.ArchSpec.exported_event_stays",
    "Verif.ArchSpec.exported_described_not",
    "Verif.ArchSpec.named_assembly_undefined",
    "Verif.ArchSpec.dataport_names_meet",
    "Verif.ArchSpec.demo_apart",
    "Verif.ArchSpec.demo_topApart",
    "Verif.ArchSpec.demo_exports",
    "Verif.ArchSpec.demo_described"
   ],
   "note": "False where dataports or events are exported (they stay in the description), where an assembly has a name (a lemma mentions one that is not defined) and where dataport types such as Buf(4) and Buf_4 meet (one name twice): proved as disagreements; the partial theorems leave these out."
  },
  {
   "property": "C105",
   "status": "partial",
   "theorems": [
    "Verif.CNames.accepted_iff_legal",
    "Verif.CNames.refusal_true",
    "Verif.CNames.accepted_no_keyword",
    "Verif.CNames.demo_accepted",
    "Verif.CNames.demo_legal",
    "Verif.CNames.demo_refused",
    "Verif.CNames.device_binary_semaphore_accepted"
   ],
   "note": "What is accepted is settled exactly; partial because a device with a binary semaphore is accepted although other locks are refused: proved as a disagreement."
  },
  {
   "property": "C106",
   "status": "partial",
   "theorems": [
    "Verif.CNames.names_once_partial",
    "Verif.CNames.names_exact",
    "Verif.CNames.wiring_dtb",
    "Verif.CNames.names_keyword",
    "Verif.CNames.prototype_once_iff",
    "Verif.CNames.prototype_params",
    "Verif.CNames.demo_apart",
    "Verif.CNames.demo_names",
    "Verif.CNames.method_meets_interface",
    "Verif.CNames.method_meets_operation",
    "Verif.CNames.attribute_meets_dataport",
    "Verif.CNames.member_meets_common",
    "Verif.CNames.dataport_keyword",
    "Verif.CNames.method_keyword",
    "Verif.CNames.parameter_meets_size"
   ],
   "note": "False: names built with underscores can meet (interface a with method b_c, interface a_b with method c; reserved operations; attribute d_size; dataport run), dataports can be named by keywords, and a parameter x_sz meets the size of an array x: proved as disagreements; names_once_partial asks that names be kept apart."
  },
  {
   "property": "C107",
   "status": "partial",
   "theorems": [
    "Verif.Timing.run_defined",
    "Verif.Timing.entry_recorded",
    "Verif.Timing.passed_unique",
    "Verif.Timing.reset_clears",
    "Verif.Timing.unknown_point",
    "Verif.Timing.unknown_stamp",
    "Verif.Timing.points_reported",
    "Verif.Timing.entry_in_bounds",
    "Verif.Timing.names_defined",
    "Verif.Timing.demo_recorded",
    "Verif.Timing.demo_known",
    "Verif.Timing.entry_out_of_bounds",
    "Verif.Timing.demo_out_of_bounds",
    "Verif.Timing.names_undefined"
   ],
   "note": "False in two ways, proved as disagreements: an entry of the last, incomplete iteration is read outside the buffer where the number of points does not divide 4096, and without CONFIG_CAMKES_CONNECTOR_TIMING the names that are defined are not those that are declared. The rest is proved for all histories."
  },
  {
   "property": "C108",
   "status": "partial",
   "theorems": [
    "Verif.Lint.lint_iff_partial",
    "Verif.Lint.lint_refusal",
    "Verif.Lint.highCheck_iff",
    "Verif.Lint.highCheck_refusal",
    "Verif.Lint.opened_viable",
    "Verif.Lint.lowCheck_iff",
    "Verif.Lint.lowCheck_refusal",
    "Verif.Lint.tokens_iff",
    "Verif.Lint.lowTokens_iff",
    "Verif.Lint.lines_exist",
    "Verif.Lint.highTokens_written",
    "Verif.Lint.high_fuel",
    "Verif.Lint.demo_usable",
    "Verif.Lint.demo_clear",
    "Verif.Lint.demo_directives",
    "Verif.Lint.demo_lint",
    "Verif.Lint.unterminated_accepted",
    "Verif.Lint.more_disagreements"
   ],
   "note": "lint_iff_partial is for templates whose blocks begin and end where they seem to. False: a block without an end at the end of the file is accepted, as are a second else, elif after else and break in a macro in a loop; a dictionary in a dictionary and a named endmacro are refused: proved as disagreements."
  },
  {
   "property": "C109",
   "status": "partial",
   "theorems": [
    "Verif.Dispatch.compiles_iff",
    "Verif.Dispatch.reached_own",
    "Verif.Dispatch.reached_unknown",
    "Verif.Dispatch.served_partial",
    "Verif.Dispatch.not_sent",
    "Verif.Dispatch.step_effect",
    "Verif.Dispatch.isolated",
    "Verif.Dispatch.refused",
    "Verif.Dispatch.unknown_refused",
    "Verif.Dispatch.ignored_at_start",
    "Verif.Dispatch.too_long",
    "Verif.Dispatch.demo_long",
    "Verif.Dispatch.demo_compiles",
    "Verif.Dispatch.demo_sensible",
    "Verif.Dispatch.demo_callOk",
    "Verif.Dispatch.demo_calls",
    "Verif.Dispatch.demo_bad",
    "Verif.Dispatch.shared_type_broken",
    "Verif.Dispatch.shared_name_broken",
    "Verif.Dispatch.ignored_leaks",
    "Verif.Dispatch.demo_leak",
    "Verif.Dispatch.demo_broken"
   ],
   "note": "False in three ways, proved as disagreements: clients of several types of which two share one, and types with a method of the same name, do not compile; with an error handler that ignores errors, a request with an invalid method index is answered with the rest of the last reply, whoever that was for. compiles_iff says exactly what compiles, and served_partial holds for it."
  },
  {
   "property": "C11",
   "status": "partial",
   "theorems": [
    "Verif.Groups.collapse_instances",
    "Verif.Groups.groups_distinct_partial",
    "Verif.Groups.collapse_elsewhere",
    "Verif.Groups.generated_name_collides",
    "Verif.Groups.unnamed_across"
   ],
   "note": "generated_name_collides proves that the name made up for an anonymous group can equal the name of another group, so two distinct groups can share an address space; distinctness is proved for groups whose names differ."
  },
  {
   "property": "C110",
   "status": "partial",
   "theorems": [
    "Verif.ErrMsg.marked_partial",
    "Verif.ErrMsg.coloured_partial",
    "Verif.ErrMsg.unmarked",
    "Verif.ErrMsg.message_kept",
    "Verif.ErrMsg.place_found_partial",
    "Verif.ErrMsg.reported_partial",
    "Verif.ErrMsg.last_line_marks",
    "Verif.ErrMsg.apostrophe_lost",
    "Verif.ErrMsg.demo_lines",
    "Verif.ErrMsg.demo_format",
    "Verif.ErrMsg.demo_directive",
    "Verif.ErrMsg.demo_places",
    "Verif.ErrMsg.demo_decimal",
    "Verif.ErrMsg.demo_reported",
    "Verif.ErrMsg.demo_missing_brace"
   ],
   "note": "False in two ways, proved as disagreements: on the last line of a file without a line feed the carets are behind the line, and a syntax error at a token with an apostrophe is reported without a line and in the main file. The rest is proved; columns are those of the preprocessed line."
  },
  {
   "property": "C111",
   "status": "partial",
   "theorems": [
    "Verif.Colocate.one_image",
    "Verif.Colocate.relocatable_iff_partial",
    "Verif.Colocate.renders_iff",
    "Verif.Colocate.isolated",
    "Verif.Colocate.direct_calls_partial",
    "Verif.Colocate.entry_point_partial",
    "Verif.Colocate.hardware_breaks_image",
    "Verif.Colocate.same_name_twice",
    "Verif.Colocate.interface_left_out",
    "Verif.Colocate.demo_checked",
    "Verif.Colocate.demo_together",
    "Verif.Colocate.demo_objects",
    "Verif.Colocate.demo_unambiguous",
    "Verif.Colocate.demo_image",
    "Verif.Colocate.demo_groups",
    "Verif.Colocate.demo_renders"
   ],
   "note": "False in three ways, proved as disagreements: a hardware component in a group with one software component leaves an image that is never linked; connections a and a_b with methods b_c and c clash; of instances a and a_b with interfaces b_c and c one is left out. The rest is proved."
  },
  {
   "property": "C112",
   "status": "partial",
   "theorems": [
    "Verif.GenFiles.generates_iff",
    "Verif.GenFiles.files_exact",
    "Verif.GenFiles.built",
    "Verif.GenFiles.parallel",
    "Verif.GenFiles.end_resolves",
    "Verif.GenFiles.inst_resolves",
    "Verif.GenFiles.end_source",
    "Verif.GenFiles.distinct_partial",
    "Verif.GenFiles.declared_once",
    "Verif.GenFiles.declared_twice_refused",
    "Verif.GenFiles.underscores_collide",
    "Verif.GenFiles.cakeml_collides",
    "Verif.GenFiles.user_templates_collide",
    "Verif.GenFiles.no_template_accepted",
    "Verif.GenFiles.demo_generate",
    "Verif.GenFiles.demo_checked",
    "Verif.GenFiles.demo_apart",
    "Verif.GenFiles.demo_plain_checked",
    "Verif.GenFiles.demo_refused",
    "Verif.GenFiles.demo_declared_twice"
   ],
   "note": "False in four ways, proved as disagreements: underscores in names make two ends share a file; two CakeML ends share connectorScript.sml; templates of the user with the same file name share a file; a side without a template is accepted, with the option SOURCE as its template. The rest is proved."
  },
  {
   "property": "C113",
   "status": "partial",
   "theorems": [
    "Verif.Deps.parse_stable",
    "Verif.Deps.parse_noticed_partial",
    "Verif.Deps.render_stable",
    "Verif.Deps.render_noticed_partial",
    "Verif.Deps.rule_lists",
    "Verif.Deps.truncated_rule",
    "Verif.Deps.reported_exist",
    "Verif.Deps.used_hold",
    "Verif.Deps.jobs_found",
    "Verif.Deps.load_exact",
    "Verif.Deps.demo_missing",
    "Verif.Deps.new_import_missed",
    "Verif.Deps.new_template_missed",
    "Verif.Deps.blank_missed",
    "Verif.Deps.unused_query_file",
    "Verif.Deps.demo_parse",
    "Verif.Deps.demo_stable",
    "Verif.Deps.demo_honest",
    "Verif.Deps.demo_query",
    "Verif.Deps.demo_rule",
    "Verif.Deps.demo_plain",
    "Verif.Deps.demo_render"
   ],
   "note": "False in four ways, proved as disagreements: a new file in an earlier directory of the import path, or of the templates, changes the result unnoticed; a file whose name has a blank is not found in the rule; the file of a query that is not used is read but not reported, and can make a run fail. The rest is proved, for a preprocessor that reports what it reads."
  },
  {
   "property": "C114",
   "status": "partial",
   "theorems": [
    "Verif.Integrity.generated_iff",
    "Verif.Integrity.objects_exact",
    "Verif.Integrity.object_label",
    "Verif.Integrity.irqs_exact",
    "Verif.Integrity.irq_agrees",
    "Verif.Integrity.asids_exact",
    "Verif.Integrity.asid_agrees_partial",
    "Verif.Integrity.lookups_true",
    "Verif.Integrity.extra_true_partial",
    "Verif.Integrity.own_labels_partial",
    "Verif.Integrity.sanity_true_partial",
    "Verif.Integrity.sanity_mentions",
    "Verif.Integrity.subjects_exact",
    "Verif.Integrity.subjects_agree_partial",
    "Verif.Integrity.subject_group_lost",
    "Verif.Integrity.asid_group_lost",
    "Verif.Integrity.extra_group_lost",
    "Verif.Integrity.grouped_label_splits",
    "Verif.Integrity.unknown_label_named",
    "Verif.Integrity.root_name_unlabelled",
    "Verif.Integrity.demo_wellFormed",
    "Verif.Integrity.demo_groups",
    "Verif.Integrity.demo_distinct",
    "Verif.Integrity.demo_allocated",
    "Verif.Integrity.demo_entries",
    "Verif.Integrity.demo_lines",
    "Verif.Integrity.demo_spaces",
    "Verif.Integrity.demo_identifiers",
    "Verif.Integrity.demo_sanity",
    "Verif.Integrity.demo_refused"
   ],
   "note": "False in six ways, proved as disagreements: the subject of an admissible policy is an instance and not its group; ASIDs are labelled with the instance and not with its group; additional edges are stated without groups; an instance of a group with its own label is split over two labels; a label that is no address space makes the lemma speak of objects that do not exist; instances called root_untyped_... get no labels. The rest is proved."
  },
  {
   "property": "C115",
   "status": "partial",
   "theorems": [
    "Verif.Glue.call_delivers",
    "Verif.Glue.reply_delivers",
    "Verif.Glue.call_generated_iff",
    "Verif.Glue.server_generated_iff",
    "Verif.Glue.signatures",
    "Verif.Glue.names_distinct_partial",
    "Verif.Glue.recvNames_mem",
    "Verif.Glue.channel_sound",
    "Verif.Glue.channel_exact_partial",
    "Verif.Glue.ends_meet_partial",
    "Verif.Glue.untrusted_covers",
    "Verif.Glue.constructors_distinct_partial",
    "Verif.Glue.initial_full",
    "Verif.Glue.simulated_exact",
    "Verif.Glue.simulated_once",
    "Verif.Glue.instances_iff",
    "Verif.Glue.initial_defined_partial",
    "Verif.Glue.refin_lost",
    "Verif.Glue.array_as_value",
    "Verif.Glue.names_clash",
    "Verif.Glue.constructors_clash",
    "Verif.Glue.second_end_undefined",
    "Verif.Glue.several_from_refused",
    "Verif.Glue.demo_glue",
    "Verif.Glue.demo_reply",
    "Verif.Glue.demo_typed",
    "Verif.Glue.demo_names",
    "Verif.Glue.demo_channels",
    "Verif.Glue.demo_once",
    "Verif.Glue.demo_system",
    "Verif.Glue.demo_joined",
    "Verif.Glue.demo_unsupported"
   ],
   "note": "False in six ways, proved as disagreements: parameters passed by reference are left out; an array is described as one value; two methods, or two components, with underscores in their names can get the same names; an instance with two ends on one side of a connection has no channel for the second; connections of memory or events from several ends are refused. The rest is proved."
  },
  {
   "property": "C116",
   "status": "partial",
   "theorems": [
    "Verif.BuildApi.accepted_iff",
    "Verif.BuildApi.commands_exact",
    "Verif.BuildApi.tree_unique",
    "Verif.BuildApi.build_exact_partial",
    "Verif.BuildApi.link_flag_partial",
    "Verif.BuildApi.cpp_required",
    "Verif.BuildApi.late_include",
    "Verif.BuildApi.late_declaration",
    "Verif.BuildApi.ld_flags_glued",
    "Verif.BuildApi.language_twice",
    "Verif.BuildApi.extension_ignored",
    "Verif.BuildApi.names_clash",
    "Verif.BuildApi.instances_clash",
    "Verif.BuildApi.unknown_dropped",
    "Verif.BuildApi.relative_ignored",
    "Verif.BuildApi.demo_run",
    "Verif.BuildApi.demo_settled",
    "Verif.BuildApi.demo_clear",
    "Verif.BuildApi.demo_client",
    "Verif.BuildApi.demo_refused",
    "Verif.BuildApi.demo_cpp_off"
   ],
   "note": "False in several ways, proved as disagreements: the preprocessor cannot be switched off; directories for it that come too late are lost, and declarations of components that come too late count in part; two flags for the linker are glued together; a language given twice is none; an extension of an instance drops some of its arguments; names of targets can clash; what belongs to no keyword is dropped; the call that adds existing directories does not see relative ones. The rest is proved."
  },
  {
   "property": "C117",
   "status": "partial",
   "theorems": [
    "Verif.Tpp.content_kept_partial",
    "Verif.Tpp.words_kept_partial",
    "Verif.Tpp.no_trailing_space",
    "Verif.Tpp.no_double_blank",
    "Verif.Tpp.no_leading_blank",
    "Verif.Tpp.lines_exact",
    "Verif.Tpp.visible_exists",
    "Verif.Tpp.indent_locked",
    "Verif.Tpp.condensed",
    "Verif.Tpp.tight_partial",
    "Verif.Tpp.assertion_holds",
    "Verif.Tpp.comes_to_an_end",
    "Verif.Tpp.unfinished_lost",
    "Verif.Tpp.comment_opened",
    "Verif.Tpp.quoted_changed",
    "Verif.Tpp.bracket_space_left",
    "Verif.Tpp.bad_indent_stops",
    "Verif.Tpp.hidden_directive",
    "Verif.Tpp.long_word_split",
    "Verif.Tpp.demo_wraps",
    "Verif.Tpp.demo_fits",
    "Verif.Tpp.demo_run",
    "Verif.Tpp.demo_hidden",
    "Verif.Tpp.demo_narrow",
    "Verif.Tpp.demo_tight",
    "Verif.Tpp.demo_condense",
    "Verif.Tpp.demo_lock"
   ],
   "note": "False in several ways, proved as disagreements: text that is kept back at the end of the file is lost without a warning; a space that is removed can open a comment; text in quotes is changed; of several spaces between brackets some are left; an indentation that is no number ends the tool; a comment in text that is wrapped becomes a directive; long words are split. The rest is proved, for files without hidden directives."
  },
  {
   "property": "C118",
   "status": "proved",
   "theorems": [
    "Verif.DmaCheck.check_ends",
    "Verif.DmaCheck.check_exact",
    "Verif.DmaCheck.report_true",
    "Verif.DmaCheck.cycle_reported",
    "Verif.DmaCheck.rounds_enough",
    "Verif.DmaCheck.saving_changes_nothing",
    "Verif.DmaCheck.allocator_passes",
    "Verif.DmaCheck.demo_machine",
    "Verif.DmaCheck.demo_pass",
    "Verif.DmaCheck.demo_fail",
    "Verif.DmaCheck.demo_allocator"
   ],
   "note": "The counters of the search for a circle are unbounded in the model; in the program they are of type int, so a list of more than 2^30 nodes is outside of the model."
  },
  {
   "property": "C119",
   "status": "partial",
   "theorems": [
    "Verif.IfaceProps.count_is_distance",
    "Verif.IfaceProps.never_registered",
    "Verif.IfaceProps.null_is_read",
    "Verif.IfaceProps.properties_not_given",
    "Verif.IfaceProps.registers_fails",
    "Verif.IfaceProps.bad_free",
    "Verif.IfaceProps.array_lost",
    "Verif.IfaceProps.registers_partial",
    "Verif.IfaceProps.cleans_up_partial",
    "Verif.IfaceProps.no_instance",
    "Verif.IfaceProps.demo_plenty",
    "Verif.IfaceProps.demo_proper",
    "Verif.IfaceProps.demo_fault",
    "Verif.IfaceProps.demo_placed",
    "Verif.IfaceProps.demo_bad_free",
    "Verif.IfaceProps.demo_lost",
    "Verif.IfaceProps.demo_empty"
   ],
   "note": "False, proved as disagreements: the loop that should count the properties counts addresses up to the end of memory, so no interface with a property is ever registered, and with enough memory the call reads through NULL; where a registration succeeds, searches are given NULL for the properties; if memory runs out, the call frees what was not allocated or leaves the array allocated. Proved: registration without properties, and cleaning up before the first property is copied."
  },
  {
   "property": "C12",
   "status": "proved",
   "theorems": [
    "Verif.Compose.compose_keeps",
    "Verif.Compose.compose_error_iff",
    "Verif.Compose.later_schedule_dropped"
   ],
   "note": ""
  },
  {
   "property": "C120",
   "status": "partial",
   "theorems": [
    "Verif.FaultShow.report_tells_partial",
    "Verif.FaultShow.vm_report",
    "Verif.FaultShow.report_determines_partial",
    "Verif.FaultShow.table_ok",
    "Verif.FaultShow.unknown_cause_not_shown",
    "Verif.FaultShow.instance_not_shown",
    "Verif.FaultShow.unnamed_syscall",
    "Verif.FaultShow.thread_number_cut",
    "Verif.FaultShow.phase_not_shown",
    "Verif.FaultShow.demo_kernel",
    "Verif.FaultShow.demo_message",
    "Verif.FaultShow.demo_report",
    "Verif.FaultShow.demo_unknown",
    "Verif.FaultShow.demo_vm"
   ],
   "note": "False in corners, proved as disagreements: for a cause the code does not know the label is shown in its place; an unknown system call is reported without the instance, and for a thread without a name the handler itself stops; on riscv the number of the thread is cut to 32 bits; for most capability faults the phase is not shown. The rest is proved, for numbers that fit into an int."
  },
  {
   "property": "C121",
   "status": "partial",
   "theorems": [
    "Verif.GdbPort.set_up",
    "Verif.GdbPort.set_up_ends",
    "Verif.GdbPort.fifo_never_used",
    "Verif.GdbPort.uses_fifo_fails",
    "Verif.GdbPort.printed_partial",
    "Verif.GdbPort.printing_ends",
    "Verif.GdbPort.ready_partial",
    "Verif.GdbPort.pending_lost",
    "Verif.GdbPort.start_not_forgotten",
    "Verif.GdbPort.buffer_emptied",
    "Verif.GdbPort.received",
    "Verif.GdbPort.demo_received",
    "Verif.GdbPort.demo_init",
    "Verif.GdbPort.demo_ready",
    "Verif.GdbPort.demo_print",
    "Verif.GdbPort.demo_sends"
   ],
   "note": "False in corners, proved as disagreements: the queue is never used (it is switched on only if it is still on, after it was switched off); a byte about to be sent during the setup is not counted, so that the first byte printed may be lost; that a packet had begun is not forgotten. The rest is proved; printing from any state in which the program's count covers what the port still holds, which the setup establishes if nothing was about to be sent or it was in the queue."
  },
  {
   "property": "C122",
   "status": "partial",
   "theorems": [
    "Verif.DtbIrq.generated",
    "Verif.DtbIrq.delivered_partial",
    "Verif.DtbIrq.not_too_often_partial",
    "Verif.DtbIrq.only_wanted",
    "Verif.DtbIrq.comes_to_rest",
    "Verif.DtbIrq.ack_own",
    "Verif.DtbIrq.deferred_lost",
    "Verif.DtbIrq.demo_served",
    "Verif.DtbIrq.demo_run",
    "Verif.DtbIrq.demo_later",
    "Verif.DtbIrq.demo_generate",
    "Verif.DtbIrq.demo_twice"
   ],
   "note": "Delivery, for every schedule, is proved for handlers that acknowledge before they return. For handlers that acknowledge later it is false, proved as a disagreement: they are given a pointer to a variable of the loop, which holds the number of another interrupt by then."
  },
  {
   "property": "C123",
   "status": "partial",
   "theorems": [
    "Verif.UntypedAddr.told_partial",
    "Verif.UntypedAddr.told_once",
    "Verif.UntypedAddr.zero_stops",
    "Verif.UntypedAddr.zero_spoils",
    "Verif.UntypedAddr.no_room_stops",
    "Verif.UntypedAddr.demo_no_room",
    "Verif.UntypedAddr.demo_fresh",
    "Verif.UntypedAddr.demo_told",
    "Verif.UntypedAddr.demo_zero"
   ],
   "note": "Proved unless a memory is at the physical address 0, which is taken for an error (proved as disagreements): the component is stopped, or, if errors are discarded, the page stays in the slot and all further memories seem to be at 0."
  },
  {
   "property": "C124",
   "status": "proved",
   "theorems": [
    "Verif.CNodeSize.calculate_right",
    "Verif.CNodeSize.sizeBits_right",
    "Verif.CNodeSize.sizeBits_some",
    "Verif.CNodeSize.agree",
    "Verif.CNodeSize.main_succeeds",
    "Verif.CNodeSize.demo"
   ],
   "note": "The logarithm of a floating point number is taken to be exact."
  },
  {
   "property": "C125",
   "status": "partial",
   "theorems": [
    "Verif.RpcSig.header_promised",
    "Verif.RpcSig.client_as_declared",
    "Verif.RpcSig.server_as_declared",
    "Verif.RpcSig.client_correct_partial",
    "Verif.RpcSig.server_correct_partial",
    "Verif.RpcSig.inputs_agree_partial",
    "Verif.RpcSig.outputs_agree_partial",
    "Verif.RpcSig.result_declared_twice",
    "Verif.RpcSig.implementation_hidden",
    "Verif.RpcSig.implementation_hidden_result",
    "Verif.RpcSig.parameter_declared_twice",
    "Verif.RpcSig.demo_apart",
    "Verif.RpcSig.demo_plain",
    "Verif.RpcSig.demo_promised"
   ],
   "note": "Proved for methods whose parameters' names do not end as the generated code's own names do, and for methods and interfaces not called p, p_... or (with a result) ret. Otherwise names are declared twice or hide the implementation (proved as disagreements). The parts of the connector templates around the calls are not modelled."
  },
  {
   "property": "C126",
   "status": "partial",
   "theorems": [
    "Verif.ConnCaps.rendering_succeeds",
    "Verif.ConnCaps.wired",
    "Verif.ConnCaps.receivers_apart",
    "Verif.ConnCaps.isolated_partial",
    "Verif.ConnCaps.no_grant",
    "Verif.ConnCaps.directed_partial",
    "Verif.ConnCaps.own_objects_partial",
    "Verif.ConnCaps.purposes_apart",
    "Verif.ConnCaps.client_badge_partial",
    "Verif.ConnCaps.clients_told_apart_partial",
    "Verif.ConnCaps.bind_badge_partial",
    "Verif.ConnCaps.native_badge",
    "Verif.ConnCaps.grouped_clients_share_badge",
    "Verif.ConnCaps.bind_badge_overwritten",
    "Verif.ConnCaps.bind_receiver_sends",
    "Verif.ConnCaps.queue_sender_receives",
    "Verif.ConnCaps.buffer_lock_shared",
    "Verif.ConnCaps.demo_proper",
    "Verif.ConnCaps.demo_noClash",
    "Verif.ConnCaps.demo_alone",
    "Verif.ConnCaps.demo_slots"
   ],
   "note": "Wiring, separate channels and the absence of grant rights hold in full. Isolation needs that no connection is named like another one followed by _userspace_buffer; direction excludes senders of the queue connector and receivers of the bind connector; badges need that no two clients in one address space have the same interface name (bind: that there is one sender per address space). The violations are proved as disagreements."
  },
  {
   "property": "C127",
   "status": "partial",
   "theorems": [
    "Verif.FaultCaps.own_handler",
    "Verif.FaultCaps.no_handler",
    "Verif.FaultCaps.tool_names",
    "Verif.FaultCaps.faults_named",
    "Verif.FaultCaps.badges_apart",
    "Verif.FaultCaps.debugger_told",
    "Verif.FaultCaps.debugger_receives",
    "Verif.FaultCaps.never_delegate",
    "Verif.FaultCaps.all_threads_debugged",
    "Verif.FaultCaps.memory_faults",
    "Verif.FaultCaps.memory_told_partial",
    "Verif.FaultCaps.memory_confused",
    "Verif.FaultCaps.delegate_not_found",
    "Verif.FaultCaps.delegate_faults_to_debugger",
    "Verif.FaultCaps.message_overrun",
    "Verif.FaultCaps.demo_hypotheses",
    "Verif.FaultCaps.demo_run",
    "Verif.FaultCaps.demo_found"
   ],
   "note": "Fault handlers and the debugger are told the thread in full. The exception for the thread that serves the debugger is made for a name that no thread has (delegate_faults_to_debugger), the handler of memory faults finds it only by chance (memory_told_partial, memory_confused), and the debugger writes messages of more than four words beyond its array (message_overrun). Thread names are taken to be different, and options.realtime is not modelled."
  },
  {
   "property": "C128",
   "status": "partial",
   "theorems": [
    "Verif.DepCheck.report_partial",
    "Verif.DepCheck.unknown_component",
    "Verif.DepCheck.choice_is_set",
    "Verif.DepCheck.default_is_all",
    "Verif.DepCheck.broken_module_no_verdict",
    "Verif.DepCheck.newer_pylint_refused",
    "Verif.DepCheck.demo_report",
    "Verif.DepCheck.demo_fine",
    "Verif.DepCheck.demo_hypotheses"
   ],
   "note": "The report and the status are proved in full where the programs asked can be run, imports fail with ImportError if at all, and the version of pylint has one digit after the point. Otherwise versions are compared as decimal numbers (newer_pylint_refused: 1.10 is taken to be older than 1.4), and a module that cannot be imported for another reason ends the checker without a verdict (broken_module_no_verdict)."
  },
  {
   "property": "C129",
   "status": "partial",
   "theorems": [
    "Verif.QueueEnds.driver_result",
    "Verif.QueueEnds.device_result",
    "Verif.QueueEnds.driver_laid_out",
    "Verif.QueueEnds.device_laid_out",
    "Verif.QueueEnds.same_place",
    "Verif.QueueEnds.same_byte",
    "Verif.QueueEnds.buffers_inside_partial",
    "Verif.QueueEnds.short_memory",
    "Verif.QueueEnds.same_buffer_twice",
    "Verif.QueueEnds.driver_by_id",
    "Verif.QueueEnds.device_by_id",
    "Verif.QueueEnds.sender_connected",
    "Verif.QueueEnds.sender_loose",
    "Verif.QueueEnds.sender_memory",
    "Verif.QueueEnds.receiver_connected",
    "Verif.QueueEnds.receiver_loose",
    "Verif.QueueEnds.receiver_memory",
    "Verif.QueueEnds.null_refused",
    "Verif.QueueEnds.poll_ambiguous",
    "Verif.QueueEnds.demo_sender",
    "Verif.QueueEnds.demo_ends",
    "Verif.QueueEnds.demo_short",
    "Verif.QueueEnds.demo_fits",
    "Verif.QueueEnds.demo_offered"
   ],
   "note": "Proved in full where the rings fit in the memory and each end is set up once. Memory that is too small for the rings is not refused, and the first buffer is then outside of it (short_memory); two senders for one channel hand out the same buffer (same_buffer_twice); the error of a poll without a connection is a number that a poll function may also answer (poll_ambiguous)."
  },
  {
   "property": "C13",
   "status": "proved",
   "theorems": [
    "Verif.Hierarchy.instances_flattened"
   ],
   "note": ""
  },
  {
   "property": "C130",
   "status": "proved",
   "theorems": [
    "Verif.DmaPtr.refines",
    "Verif.DmaPtr.alloc_ends",
    "Verif.DmaPtr.free_ends",
    "Verif.DmaPtr.init_ends",
    "Verif.DmaPtr.init_accepts",
    "Verif.DmaPtr.alloc_refines",
    "Verif.DmaPtr.alloc_sound",
    "Verif.DmaPtr.alloc_keeps",
    "Verif.DmaPtr.free_keeps",
    "Verif.DmaPtr.init_keeps",
    "Verif.DmaPtr.list_is_free",
    "Verif.DmaPtr.alloc_succeeds_partial",
    "Verif.DmaPtr.demo_reach6",
    "Verif.DmaPtr.demo_merge",
    "Verif.DmaPtr.write_after_free"
   ],
   "note": "For pools with a page size (without one, nothing is added to the list: C43). alloc_succeeds_partial transfers the theorem of C61 about which requests succeed and is partial as that one is. write_after_free shows that the rule about writes is needed."
  },
  {
   "property": "C131",
   "status": "partial",
   "theorems": [
    "Verif.Goanna.failures_passed_on",
    "Verif.Goanna.lines_passed_on",
    "Verif.Goanna.hidden_only",
    "Verif.Goanna.hidden_iff_partial",
    "Verif.Goanna.demo_keep",
    "Verif.Goanna.demo_hypotheses",
    "Verif.Goanna.demo_run",
    "Verif.Goanna.documented_form_shown",
    "Verif.Goanna.documented_example_shown",
    "Verif.Goanna.unfinished_line_lost",
    "Verif.Goanna.markers_not_seen",
    "Verif.Goanna.classes"
   ],
   "note": "That nothing else is hidden is proved in full, and that what is marked is hidden for warnings in the form of the analyser's guide about files without a colon in the name. False otherwise, proved as disagreements: warnings in the form that the documentation of the wrapper shows are never hidden, what is written behind the last line feed is lost, and blanks behind commas, second markers in a line and file names with blanks are not understood."
  },
  {
   "property": "C132",
   "status": "partial",
   "theorems": [
    "Verif.IoOps.success_is_complete",
    "Verif.IoOps.success_iff",
    "Verif.IoOps.records_are_new",
    "Verif.IoOps.unmap_error_iff_partial",
    "Verif.IoOps.others_silent",
    "Verif.IoOps.map_answer",
    "Verif.IoOps.release_silent",
    "Verif.IoOps.demo_plenty",
    "Verif.IoOps.demo_uses",
    "Verif.IoOps.demo_run",
    "Verif.IoOps.demo_owed",
    "Verif.IoOps.demo_setup",
    "Verif.IoOps.failure_leaves_record",
    "Verif.IoOps.code_is_lost",
    "Verif.IoOps.unrecorded_mapping",
    "Verif.IoOps.mapper_alone",
    "Verif.IoOps.registry_points_to_caller"
   ],
   "note": "Success, its conditions and the separation of the structures are proved. False, proved as disagreements: a set-up that fails late keeps its record of mappings, the caller gets 1 instead of the code of what failed, and a mapping whose record found no memory makes its unmapping an error."
  },
  {
   "property": "C133",
   "status": "partial",
   "theorems": [
    "Verif.Paths.abspath_names_partial",
    "Verif.Paths.render_found",
    "Verif.Paths.render_injective",
    "Verif.Paths.quoted_relative_partial",
    "Verif.Paths.quoted_absolute_partial",
    "Verif.Paths.angle_partial",
    "Verif.Paths.each_file_once_partial",
    "Verif.Paths.demo_tree",
    "Verif.Paths.demo_quoted",
    "Verif.Paths.demo_hypotheses",
    "Verif.Paths.two_slashes_kept",
    "Verif.Paths.read_twice",
    "Verif.Paths.link_followed_wrongly",
    "Verif.Paths.missing_directory"
   ],
   "note": "Proved for trees without symbolic links and paths that do not begin with exactly two slashes. False otherwise, proved as disagreements: two slashes at the start make a second spelling, so that a file is read twice; behind a symbolic link '..' leads elsewhere than for the operating system; and paths through directories that do not exist are accepted."
  },
  {
   "property": "C134",
   "status": "partial",
   "theorems": [
    "Verif.Process.pid_iff",
    "Verif.Process.pid_distinct",
    "Verif.Process.pid_not_parent",
    "Verif.Process.pid_order",
    "Verif.Process.gettid_is_own",
    "Verif.Process.gettid_distinct",
    "Verif.Process.undisturbed",
    "Verif.Process.store_kept",
    "Verif.Process.start_values",
    "Verif.Process.control_values",
    "Verif.Process.dead_only_without_memory",
    "Verif.Process.start_works",
    "Verif.Process.control_starts",
    "Verif.Process.exit_stops_caller_partial",
    "Verif.Process.demo_sound",
    "Verif.Process.exit_leaves_others",
    "Verif.Process.thread_names",
    "Verif.Process.unknown_name",
    "Verif.Process.debug_name",
    "Verif.Process.names_shared",
    "Verif.Process.printed_in_order",
    "Verif.Process.goes_to_current",
    "Verif.Process.set_takes_effect",
    "Verif.Process.no_crash_partial",
    "Verif.Process.no_overflow_partial",
    "Verif.Process.demo_print",
    "Verif.Process.null_is_called",
    "Verif.Process.lost_but_counted",
    "Verif.Process.negative_characters",
    "Verif.Process.plain_characters",
    "Verif.Process.large_buffer_overflows",
    "Verif.Process.identifier_passed",
    "Verif.Process.tls_header",
    "Verif.Process.wrong_header_size"
   ],
   "note": "Numbers, storage, order of output and the arguments at the start are proved for all schedules. False, proved as disagreements: exit stops only the thread that calls it; threads of one interface share their name; taking the function for output away while another thread prints calls a null pointer; output that goes nowhere is counted as written; characters above 127 are passed as negative numbers where char is signed; buffers of 2 GiB overflow the loop variable; the size of a program header is that of 32-bit machines."
  },
  {
   "property": "C135",
   "status": "partial",
   "theorems": [
    "Verif.CakeReply.same_as_c",
    "Verif.CakeReply.answers_in_turn",
    "Verif.CakeReply.answers_reach_partial",
    "Verif.CakeReply.unblocked_answers",
    "Verif.CakeReply.own_wait_loses",
    "Verif.CakeReply.failed_save_loses",
    "Verif.CakeReply.demo_answers",
    "Verif.CakeReply.demo_plain"
   ],
   "note": "The agreement with the server in C is proved for all histories, and that answers reach their clients for methods that wait only in functions that protect the reply capability. False, proved as disagreements: a method that waits with CakeML's own function loses its client, and so does one whose reply capability could not be saved; the server does not look at the error."
  },
  {
   "property": "C136",
   "status": "partial",
   "theorems": [
    "Verif.Diag.seen_iff",
    "Verif.Diag.asked",
    "Verif.Diag.parser_error",
    "Verif.Diag.parser_success",
    "Verif.Diag.flags_only_speak",
    "Verif.Diag.quiet_fails_silently",
    "Verif.Diag.base_name_partial",
    "Verif.Diag.newline_accepted",
    "Verif.Diag.demo_names",
    "Verif.Diag.base_name_after_slash",
    "Verif.Diag.outfile_named",
    "Verif.Diag.demo_outfile",
    "Verif.Diag.warnings_exact",
    "Verif.Diag.seen_warnings",
    "Verif.Diag.fits_no_warning_partial",
    "Verif.Diag.arrays_warned",
    "Verif.Diag.fractions_not_warned",
    "Verif.Diag.runner_success",
    "Verif.Diag.runner_error",
    "Verif.Diag.locale_refused",
    "Verif.Diag.demo_run",
    "Verif.Diag.demo_locale"
   ],
   "note": "Which messages are seen, the exit codes and the exact warnings are proved. False, proved as disagreements: a base name may end in a newline; every array of strings or integers with a proper value is warned about; fractions and truth values pass for integers. Asked to be quiet, the tools also hide the error that stops them."
  },
  {
   "property": "C137",
   "status": "partial",
   "theorems": [
    "Verif.RtReply.compiles",
    "Verif.RtReply.mismatch_refused",
    "Verif.RtReply.realtime_answers",
    "Verif.RtReply.plain_answers",
    "Verif.RtReply.requests_in_order",
    "Verif.RtReply.ready_once",
    "Verif.RtReply.dropped_never_returns",
    "Verif.RtReply.plain_wait_loses",
    "Verif.RtReply.plain_ready_early",
    "Verif.RtReply.demo",
    "Verif.RtReply.demo_mismatch"
   ],
   "note": "All proved for servers in C, but for two things, proved as disagreements: a client whose request is dropped for an error is never told, on either kernel; and on a kernel that is not real-time a passive server says that it is ready before it waits. Components that might block on such kernels are C54."
  },
  {
   "property": "C138",
   "status": "partial",
   "theorems": [
    "Verif.SimpleEnv.init_caps_partial",
    "Verif.SimpleEnv.second_thread_disturbs",
    "Verif.SimpleEnv.iospaces_all",
    "Verif.SimpleEnv.iospaces_only",
    "Verif.SimpleEnv.iospaces_null",
    "Verif.SimpleEnv.sched_iff",
    "Verif.SimpleEnv.cores_without_control",
    "Verif.SimpleEnv.asid_partial",
    "Verif.SimpleEnv.asid_riscv",
    "Verif.SimpleEnv.functions",
    "Verif.SimpleEnv.no_frames",
    "Verif.SimpleEnv.demo_answers"
   ],
   "note": "Proved for the thread that made its description last, and for identifiers on x86 and ARM. Proved as disagreements: the description is shared, so a second thread that makes one changes what the first is told; on RISC-V assigning an identifier from a pool has no defined result; the number of cores is that of the machine, though control is given for at most one of them; there are no functions for frames and pages of the program."
  },
  {
   "property": "C139",
   "status": "partial",
   "theorems": [
    "Verif.StdConn.target_standard",
    "Verif.StdConn.from_end",
    "Verif.StdConn.to_end",
    "Verif.StdConn.instance_builds_partial",
    "Verif.StdConn.template_unique",
    "Verif.StdConn.rpc_event_fails",
    "Verif.StdConn.single_threaded_missing",
    "Verif.StdConn.missing_template",
    "Verif.StdConn.demo_setting",
    "Verif.StdConn.demo_templates",
    "Verif.StdConn.demo_missing"
   ],
   "note": "Proved for all standard connectors but seL4RPCEvent and for instances that are not single_threaded and have no templates of their own. Proved as disagreements: seL4RPCEvent is declared and has no code, so that its assemblies do not build; the setting single_threaded asks for templates that the tool does not have; a connector of a user without a template for a side is not reported, the runner is asked for a template named SOURCE."
  },
  {
   "property": "C14",
   "status": "proved",
   "theorems": [
    "Verif.Hierarchy.connections_flattened",
    "Verif.Hierarchy.underlying_exists_unique",
    "Verif.Hierarchy.top_level_end_rejected"
   ],
   "note": ""
  },
  {
   "property": "C140",
   "status": "partial",
   "theorems": [
    "Verif.InstSet.affinity_partial",
    "Verif.InstSet.affinity_refused",
    "Verif.InstSet.affinity_single",
    "Verif.InstSet.single_not_checked",
    "Verif.InstSet.default_not_checked",
    "Verif.InstSet.negative_accepted",
    "Verif.InstSet.heap_size",
    "Verif.InstSet.cnode_size_partial",
    "Verif.InstSet.member_misled",
    "Verif.InstSet.zero_misled",
    "Verif.InstSet.emits",
    "Verif.InstSet.demo_asked",
    "Verif.InstSet.demo_values",
    "Verif.InstSet.demo_not_single"
   ],
   "note": "Affinity is proved for settings of the whole instance that are not negative, with a default that the machine has; the size of a CNode for settings of the address space other than 0. Proved as disagreements: the affinity of a single thread, the default and negative numbers are not checked, and the component is told the core of the instance though its control thread has another; an instance in a group that sets the size of a CNode under its own name, or an instance that sets it to 0, is told that size but does not get it."
  },
  {
   "property": "C141",
   "status": "partial",
   "theorems": [
    "Verif.VerNames.made_once",
    "Verif.VerNames.name_accepted_iff",
    "Verif.VerNames.runs_pass_partial",
    "Verif.VerNames.other_names_refused",
    "Verif.VerNames.session_complete",
    "Verif.VerNames.imports_made",
    "Verif.VerNames.demo_stem",
    "Verif.VerNames.demo_names",
    "Verif.VerNames.demo_runs"
   ],
   "note": "That the names are accepted is proved for assembly files whose name begins with a letter. Proved as a disagreement: any other name, such as one that begins with a digit or an underscore, is made into a name that the tool refuses, or into none, so the theories are not made though the build meant to mangle it into a valid one."
  },
  {
   "property": "C142",
   "status": "partial",
   "theorems": [
    "Verif.AnonStruct.one_struct_per_name_partial",
    "Verif.AnonStruct.header_right_partial",
    "Verif.AnonStruct.attributes_right",
    "Verif.AnonStruct.taken_name",
    "Verif.AnonStruct.demo_parse",
    "Verif.AnonStruct.demo_free"
   ],
   "note": "That names are not shared is proved if the user does not declare a struct with a name of the form that the tool makes up. Proved as a disagreement: such a name is not refused; then both structs have it and the header defines only the first."
  },
  {
   "property": "C143",
   "status": "proved",
   "theorems": [
    "Verif.KeyTable.table_right",
    "Verif.KeyTable.others_ignored",
    "Verif.KeyTable.demo_table",
    "Verif.KeyTable.demo_wrap",
    "Verif.KeyTable.demo_hypotheses"
   ],
   "note": ""
  },
  {
   "property": "C144",
   "status": "partial",
   "theorems": [
    "Verif.ArgLint.sound_partial",
    "Verif.ArgLint.no_false_alarm_partial",
    "Verif.ArgLint.python3_fails",
    "Verif.ArgLint.method_fails",
    "Verif.ArgLint.demo_lint",
    "Verif.ArgLint.demo_clean"
   ],
   "note": "Proved for Python 2 and the two idioms that the check knows. Proved as disagreements: with Python 3 the check is an exception for every file with a function that has an argument; with Python 2 it is one if a comparison with None is followed by a call of a method."
  },
  {
   "property": "C145",
   "status": "partial",
   "theorems": [
    "Verif.SenderId.sender_is_caller",
    "Verif.SenderId.sender_in_method",
    "Verif.SenderId.configured_sender",
    "Verif.SenderId.senders_told_apart_partial",
    "Verif.SenderId.no_call_zero",
    "Verif.SenderId.calls_received",
    "Verif.SenderId.same_badge_confused",
    "Verif.SenderId.zero_confused",
    "Verif.SenderId.demo_run"
   ],
   "note": "Told apart if the configured badges are different. Proved as disagreements: clients with the same configured badge are not told apart, and a client with the configured badge 0 is not told from none."
  },
  {
   "property": "C15",
   "status": "proved",
   "theorems": [
    "Verif.Hierarchy.settings_flattened"
   ],
   "note": ""
  },
  {
   "property": "C16",
   "status": "partial",
   "theorems": [
    "Verif.AttrRef.references_resolved_partial",
    "Verif.AttrRef.resolved_only_if_value",
    "Verif.AttrRef.means_unique",
    "Verif.AttrRef.subscript_order_dependent"
   ],
   "note": "references_resolved_partial excludes dictionary subscripts on a reference to another reference; subscript_order_dependent proves that there the value depends on the order of the settings, so the full property is false of the code."
  },
  {
   "property": "C17",
   "status": "proved",
   "theorems": [
    "Verif.AttrRef.resolve_terminates",
    "Verif.AttrRef.circular_rejected",
    "Verif.AttrRef.circular_parse_error"
   ],
   "note": ""
  },
  {
   "property": "C18",
   "status": "partial",
   "theorems": [
    "Verif.Consolidate.consolidate_correct_partial",
    "Verif.Consolidate.consolidate_succeeds",
    "Verif.Consolidate.conflicting_types_rejected",
    "Verif.Consolidate.overlapping_merge_fails"
   ],
   "note": "Correct whenever the stage succeeds, and it succeeds when no connection shares through two different ends. overlapping_merge_fails proves that for other sharing patterns the stage raises an exception although the connections could be merged."
  },
  {
   "property": "C19",
   "status": "proved",
   "theorems": [
    "Verif.Freeze.mapFreeze_error_iff",
    "Verif.Freeze.mapFreeze_lookup",
    "Verif.Freeze.mapFreeze_iter"
   ],
   "note": ""
  },
  {
   "property": "C20",
   "status": "proved",
   "theorems": [
    "Verif.Freeze.composition_accepted_iff"
   ],
   "note": "The specification WellConnected spells out the code's exception for an instance that stands for an exported interface of a nested component."
  },
  {
   "property": "C21",
   "status": "proved",
   "theorems": [
    "Verif.Freeze.config_accepted_iff",
    "Verif.Freeze.config_lookup"
   ],
   "note": ""
  },
  {
   "property": "C22",
   "status": "proved",
   "theorems": [
    "Verif.Freeze.connection_accepted_iff"
   ],
   "note": ""
  },
  {
   "property": "C23",
   "status": "partial",
   "theorems": [
    "Verif.Frozen.frozen_immutable",
    "Verif.Frozen.frozen_tuples_immutable",
    "Verif.Frozen.frozen_assign_raises",
    "Verif.Frozen.freeze_freezes",
    "Verif.Frozen.descendants_frozen",
    "Verif.Frozen.freeze_idempotent_partial",
    "Verif.Frozen.refreeze_raises",
    "Verif.Frozen.frozen_sequences_tuples",
    "Verif.Frozen.list_field_mutable"
   ],
   "note": "freeze_idempotent_partial excludes compositions and lifted ASTs: refreeze_raises proves that freezing those twice raises TypeError. list_field_mutable proves that the list fields freeze does not turn into tuples can still be appended to."
  },
  {
   "property": "C24",
   "status": "proved",
   "theorems": [
    "Verif.TypeCheck.settings_typed",
    "Verif.TypeCheck.settings_kept",
    "Verif.TypeCheck.accepted_iff"
   ],
   "note": "Defaults of attributes are never type checked by the code; the theorems are about settings."
  },
  {
   "property": "C25",
   "status": "proved",
   "theorems": [
    "Verif.Traversal.post_visits",
    "Verif.Traversal.post_children_first",
    "Verif.Traversal.post_unchanged",
    "Verif.Traversal.iter_spec",
    "Verif.Traversal.pre_visits",
    "Verif.Traversal.pre_parents_first",
    "Verif.Traversal.post_result",
    "Verif.Traversal.pre_result"
   ],
   "note": "A node reachable along several paths is visited once per occurrence."
  },
  {
   "property": "C26",
   "status": "partial",
   "theorems": [
    "Verif.Hash.eq_equivalence",
    "Verif.Hash.eq_hash",
    "Verif.Hash.ignores_location_parent",
    "Verif.Hash.eq_iff_same",
    "Verif.Hash.different_dicts_raise"
   ],
   "note": "Equality is an equivalence, ignores location and parent, and is respected by hashing. different_dicts_raise proves that comparing two settings with different dictionary values raises TypeError instead of returning false."
  },
  {
   "property": "C27",
   "status": "partial",
   "theorems": [
    "Verif.Fdt.pack_spec",
    "Verif.Fdt.unpacker_rows",
    "Verif.Fdt.pack_unpack",
    "Verif.Fdt.short_data_accepted",
    "Verif.Fdt.zero_cells_never_end"
   ],
   "note": "Packing and unpacking are inverse in both directions. short_data_accepted and zero_cells_never_end prove that the rest of the property is false: data of the wrong length is accepted, and with zero cell counts unpacking does not end."
  },
  {
   "property": "C28",
   "status": "proved",
   "theorems": [
    "Verif.Fdt.xlatReg_route",
    "Verif.Fdt.reg_translated",
    "Verif.Fdt.reg_rejected",
    "Verif.Fdt.root_ranges_rejected",
    "Verif.Fdt.busOf_describes",
    "Verif.Fdt.resolveBuses_describes"
   ],
   "note": ""
  },
  {
   "property": "C29",
   "status": "partial",
   "theorems": [
    "Verif.FdtQuery.query_exact_partial",
    "Verif.FdtQuery.alias_sound",
    "Verif.FdtQuery.chosen_sound",
    "Verif.FdtQuery.query_each",
    "Verif.FdtQuery.parseKey_means",
    "Verif.FdtQuery.path_miss_returns_others",
    "Verif.FdtQuery.alias_prefix_ambiguous"
   ],
   "note": "query_exact_partial assumes that a given path matches some node; path_miss_returns_others proves that otherwise nodes that do not match the path are returned."
  },
  {
   "property": "C30",
   "status": "partial",
   "theorems": [
    "Verif.QueryKeys.update_lookup_partial",
    "Verif.QueryKeys.keys_are_words",
    "Verif.QueryKeys.update_lossless",
    "Verif.QueryKeys.collision_loses",
    "Verif.QueryKeys.newline_kept"
   ],
   "note": "Holds for keys without newline that stay different when normalised; collision_loses and newline_kept prove that other entries are lost or kept unchanged."
  },
  {
   "property": "C31",
   "status": "proved",
   "theorems": [
    "Verif.Macros.roundUp_spec",
    "Verif.Macros.roundDown_spec",
    "Verif.Macros.round_rejects",
    "Verif.Macros.alignPage_spec",
    "Verif.Macros.nextPageMultiple_spec",
    "Verif.Macros.getPageSize_spec"
   ],
   "note": ""
  },
  {
   "property": "C32",
   "status": "proved",
   "theorems": [
    "Verif.Macros.untypeds_tile"
   ],
   "note": "For start addresses above zero: counting trailing zeros of zero is outside the contract of the external ctz."
  },
  {
   "property": "C33",
   "status": "proved",
   "theorems": [
    "Verif.Macros.typeToFit_spec"
   ],
   "note": ""
  },
  {
   "property": "C34",
   "status": "partial",
   "theorems": [
    "Verif.Badges.badges_are_bits",
    "Verif.Badges.received_identifies_partial",
    "Verif.Badges.default_mask_ok",
    "Verif.Badges.exhausted",
    "Verif.Badges.badges_given",
    "Verif.Badges.overlapping_base_ambiguous"
   ],
   "note": "Proved for every configuration whose base has no bits of the mask (always so with the default mask). overlapping_base_ambiguous proves that an overlapping base gives equal badges without an error."
  },
  {
   "property": "C35",
   "status": "partial",
   "theorems": [
    "Verif.Badges.rpc_badges_in_mask",
    "Verif.Badges.rpc_badges_distinct_partial",
    "Verif.Badges.rpc_exhausted",
    "Verif.Badges.rpc_badges_given",
    "Verif.Badges.allocate_spec",
    "Verif.Badges.allocate_distinct_partial",
    "Verif.Badges.rpc_overlapping_base_ambiguous",
    "Verif.Badges.explicit_duplicates_kept",
    "Verif.Badges.rpc_last_badge_unused"
   ],
   "note": "Badges lie in the mask, automatic badges never clash, explicit ones are kept. Not true in full: equal explicit badges are accepted, and a base overlapping the mask gives equal badges (both proved with witnesses)."
  },
  {
   "property": "C36",
   "status": "proved",
   "theorems": [
    "Verif.VirtqueueIds.ids_spec",
    "Verif.VirtqueueIds.clientId_unique",
    "Verif.VirtqueueIds.configured_duplicates_kept"
   ],
   "note": ""
  },
  {
   "property": "C37",
   "status": "partial",
   "theorems": [
    "Verif.Labels.labels_spec_partial",
    "Verif.Labels.members_share",
    "Verif.Labels.order_matters"
   ],
   "note": "Exact characterisation of the labels, and of the errors, if no grouped instance also has its own label and connection names are not used for anything else; order_matters proves that the result depends on the instance order otherwise."
  },
  {
   "property": "C38",
   "status": "partial",
   "theorems": [
    "Verif.Context.cap_slots",
    "Verif.Context.cap_rights",
    "Verif.Context.wanted_iff",
    "Verif.Context.objects_by_name",
    "Verif.Context.objects_distinct_partial",
    "Verif.Context.objects_alias",
    "Verif.Context.answered_iff",
    "Verif.Context.objects_entities_partial"
   ],
   "note": "Capabilities: proved in full for every history. Objects: proved within one entity; objects_alias proves that entity a_b asking for c and entity a asking for b_c get the same object."
  },
  {
   "property": "C39",
   "status": "partial",
   "theorems": [
    "Verif.Context.c_symbols_distinct",
    "Verif.Context.c_symbols_reserved",
    "Verif.Context.symbols_nodup_partial",
    "Verif.Context.isabelle_collision"
   ],
   "note": "C symbols never collide with anything. Isabelle symbols are unique if their tags do not end with a digit; isabelle_collision proves that they collide otherwise."
  },
  {
   "property": "C40",
   "status": "partial",
   "theorems": [
    "Verif.Context.shared_covers_partial",
    "Verif.Context.shared_agree",
    "Verif.Context.shared_separate",
    "Verif.Context.calcFrameSize_largest",
    "Verif.Context.frame_size_truncates",
    "Verif.Context.sizes_must_agree",
    "Verif.Context.shared_accepted_iff"
   ],
   "note": "Proved when the frame size is chosen by the tool or divides the size; frame_size_truncates proves that another frame size is accepted and the frames do not cover the variable."
  },
  {
   "property": "C41",
   "status": "partial",
   "theorems": [
    "Verif.Runner.accepted_iff",
    "Verif.Runner.all_different_rejected_partial",
    "Verif.Runner.pairing",
    "Verif.Runner.missing_template_accepted",
    "Verif.Runner.missing_outfile_accepted",
    "Verif.Runner.duplicate_outfile_accepted"
   ],
   "note": "The chained comparison accepts more than it should: accepted_iff is the exact condition, and the last three theorems are witnesses of wrongly accepted command lines."
  },
  {
   "property": "C42",
   "status": "proved",
   "theorems": [
    "Verif.Makefile.rule_prerequisites",
    "Verif.Makefile.rule_without_colon",
    "Verif.Makefile.write_then_parse",
    "Verif.Makefile.backslash_kept",
    "Verif.Makefile.escaped_blank_splits",
    "Verif.Makefile.blank_line_does_not_end"
   ],
   "note": "Rules in the form that preprocessors write: names without backslashes, white space before a continuation. The last three theorems show that the conditions are needed."
  },
  {
   "property": "C43",
   "status": "proved",
   "theorems": [
    "Verif.Dma.alloc_sound",
    "Verif.Dma.pool_partition",
    "Verif.Dma.init_adds",
    "Verif.Dma.init_introspect_adds_nothing"
   ],
   "note": "For every history of initialisations (with a page size), allocations and frees; alignments are zero or powers of two, addresses do not wrap. init_introspect_adds_nothing proves that initialisation without a page size adds nothing for a contiguous pool."
  },
  {
   "property": "C44",
   "status": "proved",
   "theorems": [
    "Verif.Dma.defrag_spec",
    "Verif.Dma.defrag_disjoint"
   ],
   "note": "For every free list, with no hypotheses."
  },
  {
   "property": "C45",
   "status": "partial",
   "theorems": [
    "Verif.Dma.cached_flag_partial",
    "Verif.Dma.cached_flag_wrong"
   ],
   "note": "The flag of a node that is split off is never written by the code; cached_flag_wrong proves that a cached allocation can then return uncached memory. Proved for histories in which the unwritten flag happens to be right."
  },
  {
   "property": "C46",
   "status": "proved",
   "theorems": [
    "Verif.Notification.events_conserved",
    "Verif.Notification.events_at_rest",
    "Verif.Notification.lock_protects",
    "Verif.Notification.never_both",
    "Verif.Notification.callbacks_in_order",
    "Verif.Notification.counter_in_range",
    "Verif.Notification.holder_can_step"
   ],
   "note": "For every interleaving with any number of application threads; semaphores of libsel4sync by contract. The handoff counter itself is also changed outside the lock (poll and wait), which the code relies on being atomic."
  },
  {
   "property": "C47",
   "status": "proved",
   "theorems": [
    "Verif.Marshal.inputs_round_trip",
    "Verif.Marshal.outputs_round_trip",
    "Verif.Marshal.marshalInputs_spec",
    "Verif.Marshal.marshalOutputs_spec"
   ],
   "note": "For every interface and all parameter values, through the IPC buffer and through a shared buffer; machine arithmetic is modelled, buffers are smaller than UINT_MAX. The server may also run out of memory, which is then reported."
  },
  {
   "property": "C48",
   "status": "partial",
   "theorems": [
    "Verif.Marshal.receive_sound_partial",
    "Verif.Marshal.outputs_sound_plain",
    "Verif.Marshal.huge_array_accepted",
    "Verif.Marshal.string_table_overrun"
   ],
   "note": "Complete for interfaces without arrays of strings or of elements larger than a byte. For the others the multiplication of the claimed length wraps: huge_array_accepted and string_table_overrun are messages that are accepted although the elements are missing, or that write outside of the pointer table. receive_sound_partial proves that this is the only exception."
  },
  {
   "property": "C49",
   "status": "proved",
   "theorems": [
    "Verif.CapAlloc.alloc_correct",
    "Verif.CapAlloc.free_correct",
    "Verif.CapAlloc.freed_available",
    "Verif.CapAlloc.provided_twice"
   ],
   "note": "For every history of provide, allocate and free calls in which no capability is provided twice; provided_twice proves that this is needed."
  },
  {
   "property": "C50",
   "status": "partial",
   "theorems": [
    "Verif.IoMap.ioMap_sound_partial",
    "Verif.IoMap.not_contiguous",
    "Verif.IoMap.ioMap_complete_partial",
    "Verif.IoMap.covered_not_mapped",
    "Verif.IoMap.unmap_iff",
    "Verif.IoMap.unmap_count",
    "Verif.IoMap.unmap_accepted_iff"
   ],
   "note": "Sound if frames that follow each other in the table and in physical memory also follow each other in virtual memory (not_contiguous: otherwise not); complete if the covering frames are consecutive in the table and nothing before contains the address (covered_not_mapped: otherwise not)."
  },
  {
   "property": "C51",
   "status": "partial",
   "theorems": [
    "Verif.IfaceReg.find_visits",
    "Verif.IfaceReg.register_exact",
    "Verif.IfaceReg.first_instance_partial",
    "Verif.IfaceReg.second_instance_refused",
    "Verif.IfaceReg.duplicate_accepted",
    "Verif.IfaceReg.unregistered_type_refused",
    "Verif.IfaceReg.not_registersDistinct"
   ],
   "note": "The search is proved right. Registering is not: the duplicate test is inverted, so a second instance is refused and a duplicate accepted (register_exact is the exact condition)."
  },
  {
   "property": "C52",
   "status": "partial",
   "theorems": [
    "Verif.Irq.register_correct",
    "Verif.Irq.unregister_correct",
    "Verif.Irq.global_correct",
    "Verif.Irq.check_iff",
    "Verif.Irq.check_complete",
    "Verif.Irq.check_sound_partial",
    "Verif.Irq.check_symm_partial",
    "Verif.Irq.check_not_symmetric"
   ],
   "note": "After every history; dispatch is proved in full. Matching is symmetric and sound for complete descriptions only: check_not_symmetric is the witness."
  },
  {
   "property": "C53",
   "status": "partial",
   "theorems": [
    "Verif.VqAlloc.alloc_correct",
    "Verif.VqAlloc.freed_available",
    "Verif.VqAlloc.double_free",
    "Verif.VqAlloc.free_outside_partial",
    "Verif.VqAlloc.free_far_outside",
    "Verif.VqAlloc.driver_blocks_partial",
    "Verif.VqAlloc.rings_too_large"
   ],
   "note": "The allocator is proved for every history in which only allocated buffers are freed (double_free: otherwise not). That the blocks lie inside the shared region is proved if the rings fit in it; rings_too_large proves that the size wraps otherwise."
  },
  {
   "property": "C54",
   "status": "proved",
   "theorems": [
    "Verif.ReplyCap.saved_once_reported",
    "Verif.ReplyCap.protect_idempotent",
    "Verif.ReplyCap.declare_twice_asserts",
    "Verif.ReplyCap.saved_before_wait"
   ],
   "note": "For every history of calls in a build with assertions, and for every server run in which waiting operations protect the reply capability as the templates do."
  },
  {
   "property": "C55",
   "status": "partial",
   "theorems": [
    "Verif.Interrupts.arm_decode_partial",
    "Verif.Interrupts.arm_extended_partial",
    "Verif.Interrupts.other_decode_partial",
    "Verif.Interrupts.other_malformed",
    "Verif.Interrupts.no_property",
    "Verif.Interrupts.arm_trailing_ignored",
    "Verif.Interrupts.arm_extended_two_wrong",
    "Verif.Interrupts.arm_flags_with_mask",
    "Verif.Interrupts.three_one_cell_wrong"
   ],
   "note": "Decoding is right for well-formed properties with plain flags; four witnesses show where the code departs from the property (trailing cells, several extended interrupts, flags with a processor mask, three one-cell interrupts)."
  },
  {
   "property": "C56",
   "status": "partial",
   "theorems": [
    "Verif.ReplyCap.server_correct_partial",
    "Verif.ReplyCap.dropped_request_asserts",
    "Verif.ReplyCap.wrong_client_answered",
    "Verif.ReplyCap.not_answersRight",
    "Verif.ReplyCap.save_error_ignored",
    "Verif.ReplyCap.unprotected_wait_loses"
   ],
   "note": "Proved for runs without dropped requests and without errors in saving. A dropped request makes the next one fail an assertion, or makes its client receive the answer of a later request: the other theorems are the witnesses."
  },
  {
   "property": "C57",
   "status": "partial",
   "theorems": [
    "Verif.VqMsg.messages_right",
    "Verif.VqMsg.send_succeeds",
    "Verif.VqMsg.send_when_idle",
    "Verif.VqMsg.failed_send_leaks"
   ],
   "note": "The contents are proved for every history. failed_send_leaks proves that a send that fails half way never gives its blocks back."
  },
  {
   "property": "C58",
   "status": "partial",
   "theorems": [
    "Verif.ClientLock.calls_right",
    "Verif.ClientLock.live_partial",
    "Verif.ClientLock.live_steps",
    "Verif.ClientLock.failed_call_blocks_all"
   ],
   "note": "Mutual exclusion and results are proved in full. Liveness holds only until the first error: failed_call_blocks_all proves that the lock is never released after a failed call."
  },
  {
   "property": "C59",
   "status": "partial",
   "theorems": [
    "Verif.VqChan.registered_iff",
    "Verif.VqChan.refused_iff",
    "Verif.VqChan.getChannel_iff",
    "Verif.VqChan.getId_exact",
    "Verif.VqChan.names_found_partial",
    "Verif.VqChan.gap_faults",
    "Verif.VqChan.unknown_name_faults",
    "Verif.VqChan.last_id_not_found",
    "Verif.VqChan.long_names_confused",
    "Verif.VqChan.negative_id_overruns",
    "Verif.VqChan.not_namesFound"
   ],
   "note": "Lookup by id and role is exact for every history. Lookup by name is proved when the ids in use are 0..k-1 and names are not longer than the comparison; not_namesFound and the witnesses before it prove that the lookup otherwise dereferences a null name, misses the last id or confuses long names."
  },
  {
   "property": "C60",
   "status": "partial",
   "theorems": [
    "Verif.Runner.resolve_iff",
    "Verif.Runner.written",
    "Verif.Runner.negative_index_accepted",
    "Verif.Runner.trailing_parts_accepted"
   ],
   "note": "resolve_iff is the exact condition, for every assembly and item. Items with negative indices or with parts after the end are accepted too, which the last two theorems prove."
  },
  {
   "property": "C61",
   "status": "partial",
   "theorems": [
    "Verif.Dma.alloc_succeeds_partial",
    "Verif.Dma.start_of_region_missed",
    "Verif.Dma.small_request_fails"
   ],
   "note": "Proved for requests larger than a list node and runs with room for the scan from the end of the region. start_of_region_missed and small_request_fails prove that otherwise the allocation can fail although the memory is there."
  },
  {
   "property": "C62",
   "status": "partial",
   "theorems": [
    "Verif.Startup.ordered",
    "Verif.Startup.passive_first",
    "Verif.Startup.stuck_started",
    "Verif.Startup.not_endless",
    "Verif.Startup.can_finish",
    "Verif.Startup.no_escape_partial",
    "Verif.Startup.escape_excludes_handler",
    "Verif.Startup.fault_handler_lost",
    "Verif.Startup.nested_passive_hangs"
   ],
   "note": "The order is proved for every component and schedule; that everything starts is proved for plain instance names, and that no thread returns is proved without a fault handler. fault_handler_lost: an interface thread can take the turn of the fault handler. nested_passive_hangs: with a passive interface in a nested instance the control thread never runs."
  },
  {
   "property": "C63",
   "status": "partial",
   "theorems": [
    "Verif.DPtr.wrap_exact_partial",
    "Verif.DPtr.same_byte_partial",
    "Verif.DPtr.round_trip_partial",
    "Verif.DPtr.outside_fails_partial",
    "Verif.DPtr.unshared_fails",
    "Verif.DPtr.below_mmio_accepted",
    "Verif.DPtr.shared_pointer_lost",
    "Verif.DPtr.unwrap_unchecked",
    "Verif.DPtr.other_mapping",
    "Verif.DPtr.smaller_receiver"
   ],
   "note": "Proved for every layout without device dataports of a literal size (or with addresses shorter than offsets), receivers at least as large as the offset, and, for the same pointer, one dataport per connection. below_mmio_accepted and shared_pointer_lost: the comparison in device dataports is signed, so they accept pointers below them. unwrap_unchecked: any address can be forged. other_mapping and smaller_receiver are the remaining exceptions."
  },
  {
   "property": "C64",
   "status": "partial",
   "theorems": [
    "Verif.FaultMap.shows_all",
    "Verif.FaultMap.mark_count",
    "Verif.FaultMap.inverted_aborts",
    "Verif.FaultMap.same_end_aborts",
    "Verif.FaultMap.thread_map_shown"
   ],
   "note": "Exact for every list of proper regions with different ends. inverted_aborts and same_end_aborts prove that otherwise the printing fails an assertion."
  },
  {
   "property": "C65",
   "status": "partial",
   "theorems": [
    "Verif.Drivers.call_exact_partial",
    "Verif.Drivers.settled_once_partial",
    "Verif.Drivers.only_chosen_partial",
    "Verif.Drivers.settled_is_final_partial",
    "Verif.Drivers.finishes_partial",
    "Verif.Drivers.never_ends",
    "Verif.Drivers.lost_device",
    "Verif.Drivers.no_memory_aborts",
    "Verif.Drivers.second_call_faults"
   ],
   "note": "Proved, down to the linked lists, where the allocator does not fail and for the first call. lost_device: a device is lost silently where there is no memory for a list node. no_memory_aborts, second_call_faults: what happens without memory for a token and in a second call."
  },
  {
   "property": "C66",
   "status": "partial",
   "theorems": [
    "Verif.Vma.covered_iff",
    "Verif.Vma.madvise_mapped",
    "Verif.Vma.madvise_iff_partial",
    "Verif.Vma.mincore_mapped",
    "Verif.Vma.mincore_iff_partial",
    "Verif.Vma.mlock_mapped",
    "Verif.Vma.mlock_iff_partial",
    "Verif.Vma.end_refused",
    "Verif.Vma.guards_refused",
    "Verif.Vma.stack_accepted",
    "Verif.Vma.whole_stack_refused",
    "Verif.Vma.table_exact"
   ],
   "note": "Success implies mapped for every range; the converse holds except for ranges that end exactly where mapped memory ends, which the strict comparison refuses (end_refused, whole_stack_refused). Dataports and other shared buffers are not in the table."
  },
  {
   "property": "C67",
   "status": "partial",
   "theorems": [
    "Verif.Select.asks_right_partial",
    "Verif.Select.reports_right_partial",
    "Verif.Select.timeout_passed",
    "Verif.Select.wrong_descriptor",
    "Verif.Select.stdin_confused",
    "Verif.Select.stale_sets"
   ],
   "note": "Holds if socket numbers do not coincide with descriptor numbers and the sets hold only sockets; otherwise the translation in place confuses descriptors (wrong_descriptor, stdin_confused), and NULL sets leave the previous sets in the shared memory (stale_sets)."
  },
  {
   "property": "C68",
   "status": "partial",
   "theorems": [
    "Verif.Sockets.table_holder",
    "Verif.Sockets.only_own_socket",
    "Verif.Sockets.reaches_socket_partial",
    "Verif.Sockets.opens_new",
    "Verif.Sockets.closes",
    "Verif.Sockets.read_error_faults",
    "Verif.Sockets.socket_error_hidden",
    "Verif.Sockets.long_address_faults",
    "Verif.Sockets.not_socket_faults",
    "Verif.Sockets.write_error_positive"
   ],
   "note": "Every call of the server uses the socket of the descriptor, for every history. Errors are not all passed on: read_error_faults, socket_error_hidden, write_error_positive; long addresses overrun the shared buffer (long_address_faults)."
  },
  {
   "property": "C69",
   "status": "partial",
   "theorems": [
    "Verif.Flush.refused_outside",
    "Verif.Flush.named_exact",
    "Verif.Flush.lines_exact_partial",
    "Verif.Flush.last_byte_left_out",
    "Verif.Flush.one_byte_refused",
    "Verif.Flush.unknown_ignored"
   ],
   "note": "Every byte of the range is named by the offsets passed, and no other; but the kernel reads the second offset as exclusive, so the last byte of every page-wise range is left out unless it shares a line (last_byte_left_out), one byte is refused (one_byte_refused) and an unknown dataport is reported as success (unknown_ignored)."
  },
  {
   "property": "C70",
   "status": "partial",
   "theorems": [
    "Verif.IoPort.library_call",
    "Verif.IoPort.never_outside",
    "Verif.IoPort.in_right_partial",
    "Verif.IoPort.out_right_partial",
    "Verif.IoPort.error_reads_zero",
    "Verif.IoPort.release_dead",
    "Verif.IoPort.ports_alias",
    "Verif.IoPort.overlap_refused"
   ],
   "note": "Holds with assertions enabled and regions that do not overlap. Without assertions the port operations are never initialised (release_dead); ports are cut to 16 bits in the library (ports_alias); errors are read as 0 (error_reads_zero)."
  },
  {
   "property": "C71",
   "status": "partial",
   "theorems": [
    "Verif.Errors.responsible_unique",
    "Verif.Errors.handled_right_partial",
    "Verif.Errors.old_returned",
    "Verif.Errors.null_common_faults"
   ],
   "note": "Holds for every history in which the responsible handler is not NULL; null_common_faults: registering NULL for the component does not take the handler back."
  },
  {
   "property": "C72",
   "status": "proved",
   "theorems": [
    "Verif.Mutexes.own_notification",
    "Verif.Mutexes.new_exact",
    "Verif.Mutexes.failed_harmless",
    "Verif.Mutexes.free_ok"
   ],
   "note": "For every legal history in which no capability is provided twice."
  },
  {
   "property": "C73",
   "status": "partial",
   "theorems": [
    "Verif.MsgQ.queue_right",
    "Verif.MsgQ.fifo",
    "Verif.MsgQ.send_succeeds",
    "Verif.MsgQ.get_delivers",
    "Verif.MsgQ.lookup_right_partial",
    "Verif.MsgQ.negative_number_faults",
    "Verif.MsgQ.empty_messages_fault",
    "Verif.MsgQ.no_blocks",
    "Verif.MsgQ.sizes_differ",
    "Verif.MsgQ.ring_full_late"
   ],
   "note": "Transfer is proved for every interleaving. Registration accepts negative numbers (negative_number_faults), empty messages (empty_messages_fault), memory without a block (no_blocks) and different sizes at both ends (sizes_differ). The rings of libvirtqueue are used by contract."
  },
  {
   "property": "C74",
   "status": "partial",
   "theorems": [
    "Verif.GdbPacket.delivered_partial",
    "Verif.GdbPacket.corrupted_partial",
    "Verif.GdbPacket.only_packets",
    "Verif.GdbPacket.zero_byte_lost",
    "Verif.GdbPacket.long_reads_outside",
    "Verif.GdbPacket.no_digits_accepted",
    "Verif.GdbPacket.answer_right",
    "Verif.GdbPacket.line_right",
    "Verif.GdbPacket.line_live"
   ],
   "note": "Proved for every history and every packet of up to 507 bytes without zeros. zero_byte_lost: data with a zero byte is cut or refused; long_reads_outside: longer packets read outside the buffer; no_digits_accepted: a checksum that is no number counts as zero."
  },
  {
   "property": "C75",
   "status": "partial",
   "theorems": [
    "Verif.GdbMem.read_right_partial",
    "Verif.GdbMem.write_right_partial",
    "Verif.GdbMem.read_back_partial",
    "Verif.GdbMem.binary_right_partial",
    "Verif.GdbMem.unchanged",
    "Verif.GdbMem.read_pure",
    "Verif.GdbMem.read_exact",
    "Verif.GdbMem.write_exact",
    "Verif.GdbMem.binary_exact",
    "Verif.GdbMem.long_read_wrong",
    "Verif.GdbMem.high_address_wrong",
    "Verif.GdbMem.end_refused",
    "Verif.GdbMem.across_hangs",
    "Verif.GdbMem.unmapped_hangs",
    "Verif.GdbMem.readonly_refused",
    "Verif.GdbMem.dataless_null",
    "Verif.GdbMem.binary_ignored",
    "Verif.GdbMem.binary_cut",
    "Verif.GdbMem.binary_overflows",
    "Verif.GdbMem.colon_and_escape_wrong"
   ],
   "note": "Proved for addresses in the lower half, lengths that read the same in decimal and hexadecimal, and ranges in mapped memory. Otherwise: lengths are read as decimal (long_read_wrong), addresses are cut (high_address_wrong), the last bytes of a page are refused or hang (end_refused, across_hangs), writing to unmapped memory hangs (unmapped_hangs), and binary writes ignore, cut or overrun (the binary_ theorems, colon_and_escape_wrong)."
  },
  {
   "property": "C76",
   "status": "partial",
   "theorems": [
    "Verif.GdbRegs.read_right",
    "Verif.GdbRegs.read_refused",
    "Verif.GdbRegs.write_right_partial",
    "Verif.GdbRegs.read_back_partial",
    "Verif.GdbRegs.write_ignored",
    "Verif.GdbRegs.stack_digit",
    "Verif.GdbRegs.general_right",
    "Verif.GdbRegs.general_write_ignored",
    "Verif.GdbRegs.insert_right_partial",
    "Verif.GdbRegs.remove_right_partial",
    "Verif.GdbRegs.others_keep",
    "Verif.GdbRegs.other_types",
    "Verif.GdbRegs.high_breakpoint",
    "Verif.GdbRegs.stale_breakpoint"
   ],
   "note": "Reading is proved in full. Writing one register is right if the stack after an array without terminator does not begin with a digit (stack_digit), and pretends to write others (write_ignored); writing all registers never changes one and can overflow (general_write_ignored). Breakpoints are right for one thread and the lower half of the addresses (stale_breakpoint, high_breakpoint)."
  },
  {
   "property": "C77",
   "status": "partial",
   "theorems": [
    "Verif.GdbRun.told_right",
    "Verif.GdbRun.last_told",
    "Verif.GdbRun.stays_stopped_partial",
    "Verif.GdbRun.continue_right_partial",
    "Verif.GdbRun.steps_right_partial",
    "Verif.GdbRun.continue_after_steps_partial",
    "Verif.GdbRun.reason_right_partial",
    "Verif.GdbRun.continue_still_steps",
    "Verif.GdbRun.continue_counts",
    "Verif.GdbRun.other_thread_breaks_step",
    "Verif.GdbRun.failed_step_runs",
    "Verif.GdbRun.exception_breaks",
    "Verif.GdbRun.vcont_ignored",
    "Verif.GdbRun.watch_forgotten",
    "Verif.GdbRun.unsupported_unanswered",
    "Verif.GdbRun.early_continue",
    "Verif.GdbRun.software_back",
    "Verif.GdbRun.query_right",
    "Verif.GdbRun.unknown_query",
    "Verif.GdbRun.nameless_query",
    "Verif.GdbRun.thread_chosen"
   ],
   "note": "Proved for every interleaving with a debugger that resumes only what it was told has stopped, for continuing without or after steps and for steps that hit no breakpoint. A step that hits a breakpoint leaves the kernel stepping (continue_still_steps, continue_counts), as does a stop of another thread (other_thread_breaks_step); exceptions of the processor overrun an array (exception_breaks); the remaining theorems are further disagreements."
  },
  {
   "property": "C78",
   "status": "partial",
   "theorems": [
    "Verif.AttrText.value_right_partial",
    "Verif.AttrText.value_one_line",
    "Verif.AttrText.string_right_iff",
    "Verif.AttrText.fits_range",
    "Verif.AttrText.overflow_changed",
    "Verif.AttrText.declared_right",
    "Verif.AttrText.unset_array_fails",
    "Verif.AttrText.defined_once",
    "Verif.AttrText.defined_right",
    "Verif.AttrText.measured_right_partial",
    "Verif.AttrText.defined_ok",
    "Verif.AttrText.second_measured_wrong",
    "Verif.AttrText.elements_measured_wrong",
    "Verif.AttrText.nested_fails"
   ],
   "note": "Proved for all types and values whose integers are in range and whose strings have no quote, backslash or end of line; string_right_iff: no other string is kept; overflow_changed: no other integer is. Structs are defined once and before use. The dimensions of arrays in structs are those of the first value only (second_measured_wrong, elements_measured_wrong), structs in structs in arrays stop the tool (nested_fails), and so do arrays without a value (unset_array_fails)."
  },
  {
   "property": "C79",
   "status": "partial",
   "theorems": [
    "Verif.HwIrq.delivered_partial",
    "Verif.HwIrq.handle_delivered",
    "Verif.HwIrq.not_stuck",
    "Verif.HwIrq.registration_lost",
    "Verif.HwIrq.registration_null",
    "Verif.HwIrq.registration_stale",
    "Verif.HwIrq.unregistration_null",
    "Verif.HwIrq.unregistered_silent",
    "Verif.HwIrq.ignored_once",
    "Verif.HwIrq.both_conflict"
   ],
   "note": "Proved for all schedules after a registration that no interrupt disturbs, and for components with a handle function. An interrupt during a registration is lost for good (registration_lost), calls a null pointer (registration_null, unregistration_null) or passes the wrong data (registration_stale); an interrupt that nobody handles is never delivered again (ignored_once), nor is one with both handlers (both_conflict)."
  },
  {
   "property": "C80",
   "status": "partial",
   "theorems": [
    "Verif.IrqConfig.configured_iff",
    "Verif.IrqConfig.says_unique",
    "Verif.IrqConfig.driver_gets",
    "Verif.IrqConfig.error_right",
    "Verif.IrqConfig.core_forgotten"
   ],
   "note": "Handler and entry are exactly those the settings describe, and errors are true; a driver finds the entry, except that the core of an ARM interrupt is not in the entry: a request for that core is not found (core_forgotten)."
  },
  {
   "property": "C81",
   "status": "partial",
   "theorems": [
    "Verif.IrqEvents.called_once",
    "Verif.IrqEvents.called_registered",
    "Verif.IrqEvents.all_called",
    "Verif.IrqEvents.ten_calls",
    "Verif.IrqEvents.taken_bounded",
    "Verif.IrqEvents.argument_right_partial",
    "Verif.IrqEvents.register_free",
    "Verif.IrqEvents.register_full",
    "Verif.IrqEvents.poll_takes",
    "Verif.IrqEvents.woken_partial",
    "Verif.IrqEvents.twice",
    "Verif.IrqEvents.stale_argument",
    "Verif.IrqEvents.argument_overwritten",
    "Verif.IrqEvents.lost_wakeup",
    "Verif.IrqEvents.never_again"
   ],
   "note": "Callbacks are called at most once and all those registered are called, poll and wait succeed at most once per wake-up, for all schedules. Disagreements: an interrupt that went to a callback is also given to a thread that polls (twice), arguments may be those of another registration (stale_argument, argument_overwritten; argument_right_partial says when not), a thread may sleep forever (lost_wakeup; woken_partial), and threads that only poll or wait get one interrupt in all (never_again)."
  },
  {
   "property": "C82",
   "status": "partial",
   "theorems": [
    "Verif.Decls.declaration_partial",
    "Verif.Decls.file_partial",
    "Verif.Decls.assembly_refused",
    "Verif.Decls.mistakes_stop",
    "Verif.Decls.file_stops",
    "Verif.Decls.buffer_size_positive",
    "Verif.Decls.export_qualified",
    "Verif.Decls.attribute_struct_refused",
    "Verif.Decls.parameter_type_single",
    "Verif.Decls.query_needs_arguments",
    "Verif.Decls.named_parts_dropped",
    "Verif.Decls.named_configuration_dropped",
    "Verif.Decls.named_composition_fails",
    "Verif.Decls.empty_struct_fails",
    "Verif.Decls.query_lookup_fails"
   ],
   "note": "Proved for the whole language (declaration_partial, file_partial), and that no refusal inside a declaration is lost (mistakes_stop). Disagreements: a composition or configuration given by name is dropped silently in a component (named_parts_dropped), a configuration by name in an assembly too (named_configuration_dropped), a composition by name in an assembly, an empty struct, a query with only a lookup, and two compositions are assertion failures rather than parse errors."
  },
  {
   "property": "C83",
   "status": "partial",
   "theorems": [
    "Verif.Threads.settings_partial",
    "Verif.Threads.stack_size_partial",
    "Verif.Threads.max_confused",
    "Verif.Threads.suffix_confused"
   ],
   "note": "Proved for all assemblies whose interface names do not read like a part of max_priority. Disagreements: max_priority is also the priority of an interface called max (max_confused), and x_max_priority both the maximum priority of x and the priority of x_max (suffix_confused)."
  },
  {
   "property": "C84",
   "status": "partial",
   "theorems": [
    "Verif.Threads.names_distinct",
    "Verif.Threads.names_across_partial",
    "Verif.Threads.tls_own",
    "Verif.Threads.stack_partial",
    "Verif.Threads.ipc_page",
    "Verif.Threads.odd_stack_faults",
    "Verif.Threads.names_shared"
   ],
   "note": "Stacks are as documented exactly if their size is a whole number of pages (stack_partial). Disagreements: other sizes are rounded down, so the first push faults (odd_stack_faults); threads of different instances, which may be grouped into one address space, can have the same names (names_shared)."
  },
  {
   "property": "C85",
   "status": "partial",
   "theorems": [
    "Verif.Shmem.same_byte_iff",
    "Verif.Shmem.rights_partial",
    "Verif.Shmem.accepted_iff",
    "Verif.Shmem.dma_attributes",
    "Verif.Shmem.empty_access_gives_all",
    "Verif.Shmem.order_refused"
   ],
   "note": "Memory: proved in full. Rights: proved except for the empty setting, which gives all rights instead of none (empty_access_gives_all); letters in another order are refused (order_refused)."
  },
  {
   "property": "C86",
   "status": "partial",
   "theorems": [
    "Verif.DevMem.registers_decoded",
    "Verif.DevMem.no_registers",
    "Verif.DevMem.register_mapping",
    "Verif.DevMem.registers_mapped",
    "Verif.DevMem.covered_partial",
    "Verif.DevMem.nothing_else",
    "Verif.DevMem.mappable_iff",
    "Verif.DevMem.straddling_unmapped",
    "Verif.DevMem.large_frame_unmappable",
    "Verif.DevMem.mmio_accepted_iff",
    "Verif.DevMem.mmio_mapping",
    "Verif.DevMem.unaligned_accepted",
    "Verif.DevMem.translate_partial",
    "Verif.DevMem.translate_wraps"
   ],
   "note": "Decoding and mapping are exact. Disagreements: the end of a register that crosses into one more page than its size needs is not mapped (straddling_unmapped; covered_partial is the exact condition); large frames are chosen although the address is not aligned to them (large_frame_unmappable), and so are unaligned addresses of settings (unaligned_accepted); ranges that wrap around are translated (translate_wraps)."
  },
  {
   "property": "C87",
   "status": "partial",
   "theorems": [
    "Verif.Simple.caps_listed_partial",
    "Verif.Simple.untypeds_listed_partial",
    "Verif.Simple.small_untyped_null",
    "Verif.Simple.holding_highest",
    "Verif.Simple.earlier_kept",
    "Verif.Simple.caps_distinct_partial",
    "Verif.Simple.repeated_pool_shared",
    "Verif.Simple.guess_covers_partial",
    "Verif.Simple.guess_too_large",
    "Verif.Simple.accepted_iff"
   ],
   "note": "Proved for pools of at least a page. Disagreements: smaller untyped memory is enumerated as a null capability (small_untyped_null); two attributes that differ in leading zeros name one pool (repeated_pool_shared); the CNode size is twice what the template says it computes (guess_too_large)."
  },
  {
   "property": "C88",
   "status": "partial",
   "theorems": [
    "Verif.Simple.frame_partial",
    "Verif.Simple.top_region_unreachable",
    "Verif.Simple.mixed_sizes_confused",
    "Verif.Simple.ports_partial",
    "Verif.Simple.adjacent_ports_refused",
    "Verif.Simple.irq_found",
    "Verif.Simple.iospace_partial",
    "Verif.Simple.illegal_device_found",
    "Verif.Simple.smmu_found_as_pci",
    "Verif.Simple.bootinfo_partial",
    "Verif.Simple.bootinfo_missing",
    "Verif.Simple.bootinfo_overrun",
    "Verif.Simple.bootinfo_negative"
   ],
   "note": "Proved for sensible settings. Disagreements: a region at the end of the address space is never found (top_region_unreachable); memory given at two sizes is found at the wrong size (mixed_sizes_confused); ports in two adjacent ranges are refused (adjacent_ports_refused); PCI numbers are not checked (illegal_device_found) and shared with ARM I/O spaces (smmu_found_as_pci); boot information longer than a page is read from beyond the page (bootinfo_overrun); a negative length copies everything (bootinfo_negative)."
  },
  {
   "property": "C89",
   "status": "partial",
   "theorems": [
    "Verif.DmaMap.address_partial",
    "Verif.DmaMap.outside_null",
    "Verif.DmaMap.outside_crashes",
    "Verif.DmaMap.init_ok",
    "Verif.DmaMap.component_address",
    "Verif.DmaMap.connection_address",
    "Verif.DmaMap.pool_accepted_partial",
    "Verif.DmaMap.large_pool_accepted_iff",
    "Verif.DmaMap.large_pool_refused",
    "Verif.DmaMap.nested_pool_refused",
    "Verif.DmaMap.connection_accepted_iff",
    "Verif.DmaMap.cache_partial",
    "Verif.DmaMap.spanning_not_maintained",
    "Verif.DmaMap.allocator_env"
   ],
   "note": "Disagreements: the physical address of an address outside of the pools is computed from a null pointer (outside_crashes); with large frames a pool that is not a multiple of them is refused instead of rounded up (large_pool_refused); a pool of a component inside another one is refused by the compiler (nested_pool_refused); cache maintenance of a buffer in more than one frame does nothing (spanning_not_maintained)."
  },
  {
   "property": "C90",
   "status": "partial",
   "theorems": [
    "Verif.DmaStats.stats_partial",
    "Verif.DmaStats.stats_harmless",
    "Verif.DmaStats.second_pool_forgets"
   ],
   "note": "Proved for histories with one pool. Disagreement: a second pool replaces the size of the heap, takes away from the live bytes and resets the minima (second_pool_forgets)."
  },
  {
   "property": "C91",
   "status": "partial",
   "theorems": [
    "Verif.Pools.own_objects_partial",
    "Verif.Pools.accepted_iff",
    "Verif.Pools.initial_values",
    "Verif.Pools.pools_partial",
    "Verif.Pools.compiles_iff",
    "Verif.Pools.pools_do_not_compile",
    "Verif.Pools.endpoints_do_not_compile",
    "Verif.Pools.semaphore_shared",
    "Verif.Pools.mutex_shared",
    "Verif.Pools.octal_size"
   ],
   "note": "Disagreements: a declared name that the template uses itself shares the object (semaphore_shared, mutex_shared); pools of endpoints or untyped objects and of notifications never compile together, and the former do not compile with the constants that the library expects (pools_do_not_compile, endpoints_do_not_compile); a size with a leading zero is read in two ways (octal_size)."
  },
  {
   "property": "C92",
   "status": "proved",
   "theorems": [
    "Verif.Pools.smc_cap",
    "Verif.Pools.smc_twice"
   ],
   "note": "Lists with the same function twice do not compile (smc_twice)."
  },
  {
   "property": "C93",
   "status": "partial",
   "theorems": [
    "Verif.BootFrames.filled",
    "Verif.BootFrames.device_tree",
    "Verif.BootFrames.no_device_tree",
    "Verif.BootFrames.dtb_choice",
    "Verif.BootFrames.extended_partial",
    "Verif.BootFrames.tail_not_backed",
    "Verif.BootFrames.large_piece"
   ],
   "note": "Disagreements: a piece of more than one page is copied from beyond its frame (large_piece); register_fill_frame leaves the end of a symbol that is not a whole number of pages without memory (tail_not_backed)."
  },
  {
   "property": "C94",
   "status": "partial",
   "theorems": [
    "Verif.CakeRpc.call_delivered",
    "Verif.CakeRpc.results_returned_partial",
    "Verif.CakeRpc.supported_types",
    "Verif.CakeRpc.wraps_silently",
    "Verif.CakeRpc.long_string_cut"
   ],
   "note": "Disagreements: a result that does not fit its type is cut (wraps_silently), a string that is too long for the buffer is cut (long_string_cut)."
  },
  {
   "property": "C95",
   "status": "partial",
   "theorems": [
    "Verif.CakeRpc.never_overruns",
    "Verif.CakeRpc.unknown_refused",
    "Verif.CakeRpc.short_message_accepted",
    "Verif.CakeRpc.padding_leaks"
   ],
   "note": "Disagreements: a message that is too short is read together with the end of an earlier one, of another client (short_message_accepted); the end of the last word of a reply is what was in the IPC buffer (padding_leaks)."
  },
  {
   "property": "C96",
   "status": "partial",
   "theorems": [
    "Verif.CakeFfi.open_out_reports",
    "Verif.CakeFfi.open_in_wrong",
    "Verif.CakeFfi.read_partial",
    "Verif.CakeFfi.read_overruns",
    "Verif.CakeFfi.write_spec",
    "Verif.CakeFfi.close_spec"
   ],
   "note": "Disagreements: opening for reading reports success and failure the wrong way round (open_in_wrong); the size of the array is not checked (read_overruns)."
  },
  {
   "property": "C97",
   "status": "partial",
   "theorems": [
    "Verif.CakeFfi.arguments_partial",
    "Verif.CakeFfi.terminator_behind",
    "Verif.CakeFfi.starts_in_order"
   ],
   "note": "Disagreement: getting an argument writes one byte more than its length (terminator_behind)."
  },
  {
   "property": "C98",
   "status": "partial",
   "theorems": [
    "Verif.Posix.names_partial",
    "Verif.Posix.machine_spec",
    "Verif.Posix.call_results",
    "Verif.Posix.always_terminated",
    "Verif.Posix.uname_null",
    "Verif.Posix.length_ignored",
    "Verif.Posix.reads_beyond"
   ],
   "note": "Disagreements: the length is ignored (length_ignored), and a name without terminator is read beyond its end (reads_beyond)."
  },
  {
   "property": "C99",
   "status": "partial",
   "theorems": [
    "Verif.Posix.installed_partial",
    "Verif.Posix.files_reach_library",
    "Verif.Posix.others_untouched",
    "Verif.Posix.sigaction_missing",
    "Verif.Posix.sethostname_missing",
    "Verif.Posix.twice_loops",
    "Verif.Posix.clock_partial",
    "Verif.Posix.clock_refused",
    "Verif.Posix.clock_wraps"
   ],
   "note": "Disagreements: sigaction is never installed (sigaction_missing), the names cannot be set with recent standards (sethostname_missing); the clock wraps (clock_wraps)."
  }
 ]
}