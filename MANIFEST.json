{
 "claims": [
  {
   "property": "C01",
   "status": "proved",
   "theorems": [
    "CwlUtils.Expr.scanner_span_wellformed",
    "CwlUtils.Expr.scanner_outcomes",
    "CwlUtils.Expr.scanner_finds_block"
   ],
   "note": "Every outcome of the scanner is characterised exactly; spans are non-empty, in range and complete blocks or escapes."
  },
  {
   "property": "C02",
   "status": "proved",
   "theorems": [
    "CwlUtils.Expr.interpolate_terminates"
   ],
   "note": "Both modes and all escaping behaviours; the evaluator itself is a parameter that must terminate."
  },
  {
   "property": "C03",
   "status": "proved",
   "theorems": [
    "CwlUtils.Expr.interpolate_plain",
    "CwlUtils.Expr.doEval_passthrough",
    "CwlUtils.Expr.strip_spec"
   ],
   "note": "Text without markers is unchanged; do_eval passes non-expressions through without the engine."
  },
  {
   "property": "C04",
   "status": "proved",
   "theorems": [
    "CwlUtils.Expr.interpolate_meaning",
    "CwlUtils.Expr.text_meaning_unique",
    "CwlUtils.Expr.interpolate_mixed_is_string"
   ],
   "note": "Against an inductive specification of the expansion of a text."
  },
  {
   "property": "C05",
   "status": "proved",
   "theorems": [
    "CwlUtils.Expr.doEval_meaning",
    "CwlUtils.Expr.doEval_escape_old",
    "CwlUtils.Expr.doEval_escape_new"
   ],
   "note": "The old rules apply for exactly the six listed versions."
  },
  {
   "property": "C06",
   "status": "proved",
   "theorems": [
    "CwlUtils.Expr.interpolate_unclosed"
   ],
   "note": "Both directions: an open block always fails, and without evaluation errors it is the only failure."
  },
  {
   "property": "C07",
   "status": "proved",
   "theorems": [
    "CwlUtils.Expr.doEval_innermost_requirement",
    "CwlUtils.Expr.doEval_without_js",
    "CwlUtils.Expr.doEval_with_js"
   ],
   "note": "Requirements need a class key (otherwise KeyError, see C08)."
  },
  {
   "property": "C08",
   "status": "partial",
   "theorems": [
    "CwlUtils.Expr.doEval_only_workflow_partial",
    "CwlUtils.Expr.doEval_only_workflow_violated",
    "CwlUtils.Expr.bytes_left_violated"
   ],
   "note": "The code violates the full statement: a requirement without class raises KeyError outside the try block, and a context that cannot be written as JSON raises TypeError there. Proved for well-formed requirements and a context that can be decoded and (with JavaScript) written."
  },
  {
   "property": "C09",
   "status": "partial",
   "theorems": [
    "CwlUtils.Expr.interpolate_reference_partial",
    "CwlUtils.Expr.paramref_prefix_violated"
   ],
   "note": "Proved end to end through interpolate for all writable paths; the code returns a prefix value for quoted keys with an escaped quote followed by a bracket."
  },
  {
   "property": "C10",
   "status": "partial",
   "theorems": [
    "CwlUtils.Expr.evaluator_errors_partial",
    "CwlUtils.Expr.reference_fallback_partial",
    "CwlUtils.Expr.reference_index_exact_partial",
    "CwlUtils.Expr.paramref_empty_list_violated"
   ],
   "note": "Index 0 of an empty list raises a bare IndexError; proved for contexts without empty lists; reference_index_exact_partial says that only references to the first element of an empty list raise it, and that these do."
  },
  {
   "property": "C11",
   "status": "partial",
   "theorems": [
    "CwlUtils.Expr.convert_means_same_partial",
    "CwlUtils.Expr.convert_literal_violated"
   ],
   "note": "Literal text with a double quote or line break is not escaped; proved for the other texts."
  },
  {
   "property": "C12",
   "status": "partial",
   "theorems": [
    "CwlUtils.Sandbox.exec_schedule_partial",
    "CwlUtils.Sandbox.history_schedule_partial",
    "CwlUtils.Sandbox.exec_schedule_ascii_partial",
    "CwlUtils.Sandbox.exec_schedule_violated"
   ],
   "note": "The code violates the full statement: a read that splits a multi-byte character raises UnicodeDecodeError. Proved for all schedules that do not, single calls and histories."
  },
  {
   "property": "C13",
   "status": "proved",
   "theorems": [
    "CwlUtils.Sandbox.checkVersion_spec",
    "CwlUtils.Sandbox.checkVersion_three"
   ],
   "note": "For versions as printed by node (digits and dots)."
  },
  {
   "property": "C14",
   "status": "partial",
   "theorems": [
    "CwlUtils.bytes2str_partial",
    "CwlUtils.bytes_left_exact_partial",
    "CwlUtils.bytes2str_identity",
    "CwlUtils.bytes2str_violated"
   ],
   "note": "The code violates the full statement: only the first element of a list is converted. Proved for values whose lists hold byte strings only in the first element, and that no byte string is left for these values only."
  },
  {
   "property": "C15",
   "status": "proved",
   "theorems": [
    "CwlUtils.normalizeToList_entries",
    "CwlUtils.normalizeToList_refuses",
    "CwlUtils.normalize_other",
    "CwlUtils.normalize_already",
    "CwlUtils.normalize_map_roundtrip",
    "CwlUtils.normalize_list_roundtrip",
    "CwlUtils.normalizeToMap_missing"
   ],
   "note": "Keys are strings."
  },
  {
   "property": "C16",
   "status": "proved",
   "theorems": [
    "CwlUtils.pascalCase_no_separator",
    "CwlUtils.pascalCase_word",
    "CwlUtils.pascalCase_append"
   ],
   "note": "str.capitalize is a parameter; its ASCII part is shown to meet the assumptions."
  },
  {
   "property": "C17",
   "status": "proved",
   "theorems": [
    "CwlUtils.sanitise_optional",
    "CwlUtils.sanitise_one_alternative",
    "CwlUtils.sanitise_alternatives",
    "CwlUtils.sanitise_string_alternative",
    "CwlUtils.sanitise_question",
    "CwlUtils.sanitise_name",
    "CwlUtils.sanitise_written_out",
    "CwlUtils.JsonSchema.sanType_agrees"
   ],
   "note": "Alternatives of a type list are not lists themselves, as in CWL."
  },
  {
   "property": "C18",
   "status": "proved",
   "theorems": [
    "CwlUtils.SchemaDef.inline_leaves_no_reference",
    "CwlUtils.SchemaDef.inline_ports_leave_no_reference",
    "CwlUtils.SchemaDef.inline_unknown_reported",
    "CwlUtils.SchemaDef.builtIn_names",
    "CwlUtils.SchemaDef.builtIn_kept"
   ],
   "note": "For every inlining that finishes (recursive types do not finish, see C69)."
  },
  {
   "property": "C19",
   "status": "partial",
   "theorems": [
    "CwlUtils.SchemaDef.inline_names_unique_partial",
    "CwlUtils.SchemaDef.assignName_logs",
    "CwlUtils.SchemaDef.inline_names_unique_violated"
   ],
   "note": "The code violates the full statement: a declared name of the form <other name>_<number> can coincide with a generated one. Proved for all histories when no declared name has the form of a generated one."
  },
  {
   "property": "C20",
   "status": "partial",
   "theorems": [
    "CwlUtils.SchemaDef.malformed_rejected_partial",
    "CwlUtils.SchemaDef.missing_type_reported",
    "CwlUtils.SchemaDef.malformed_array_violated",
    "CwlUtils.SchemaDef.malformed_record_violated"
   ],
   "note": "The code violates the full statement: _type.get on a string raises AttributeError. Proved: incomplete types are rejected at every depth, and a missing type is reported as such."
  },
  {
   "property": "C21",
   "status": "proved",
   "theorems": [
    "CwlUtils.Pack.listify_idempotent",
    "CwlUtils.Pack.listify_complete"
   ],
   "note": ""
  },
  {
   "property": "C22",
   "status": "proved",
   "theorems": [
    "CwlUtils.Pack.normalizeSources_spec",
    "CwlUtils.Pack.normalizeSources_other"
   ],
   "note": "For workflows whose steps and outputs are in list form, as the preceding list step leaves them."
  },
  {
   "property": "C23",
   "status": "proved",
   "theorems": [
    "CwlUtils.Pack.loadSchemadefs_spec"
   ],
   "note": "An import of a file with a SchemaDefRequirement counts as one."
  },
  {
   "property": "C24",
   "status": "partial",
   "theorems": [
    "CwlUtils.Pack.imports_resolved_partial",
    "CwlUtils.Pack.imports_left_exact_partial",
    "CwlUtils.Pack.imports_resolved_exact_partial",
    "CwlUtils.Pack.imports_resolved_violated"
   ],
   "note": "The code violates the full statement: an imported file that is itself a single import is not resolved. imports_left_exact_partial and imports_resolved_exact_partial prove that an import is left, and that the result is not the prescribed one, exactly if the document imports such a file."
  },
  {
   "property": "C25",
   "status": "partial",
   "theorems": [
    "CwlUtils.Pack.imports_relative_partial",
    "CwlUtils.Pack.imports_relative_reached_partial",
    "CwlUtils.Pack.imports_relative_violated"
   ],
   "note": "The code violates the full statement: nested imports are looked up beside the outer document. Proved when all imported files see the same files."
  },
  {
   "property": "C26",
   "status": "proved",
   "theorems": [
    "CwlUtils.Pack.packed_version_max"
   ],
   "note": "packaging.version is a parameter with a total preorder."
  },
  {
   "property": "C27",
   "status": "proved",
   "theorems": [
    "CwlUtils.Pack.addMissing_spec",
    "CwlUtils.Pack.packed_has_subworkflow_requirement"
   ],
   "note": ""
  },
  {
   "property": "C28",
   "status": "proved",
   "theorems": [
    "CwlUtils.Pack.getInner_list_entry",
    "CwlUtils.Pack.getInner_list_map",
    "CwlUtils.Pack.getInner_append"
   ],
   "note": ""
  },
  {
   "property": "C29",
   "status": "partial",
   "theorems": [
    "CwlUtils.Split.references_rewritten",
    "CwlUtils.Split.ids_rewritten_partial",
    "CwlUtils.Split.step_outputs",
    "CwlUtils.Split.references_list_violated"
   ],
   "note": "Single references are exact at every searched position. The code violates the statement for identifiers, output sources and reference lists when one process name begins with another; proved otherwise."
  },
  {
   "property": "C30",
   "status": "proved",
   "theorems": [
    "CwlUtils.Split.schemadef_imports"
   ],
   "note": ""
  },
  {
   "property": "C31",
   "status": "partial",
   "theorems": [
    "CwlUtils.Types.accepts_itself_partial",
    "CwlUtils.Types.accepts_itself_violated"
   ],
   "note": "The code violates the full statement (strict comparison of types with unions of null or nested unions). Proved for the types described in the theorem."
  },
  {
   "property": "C32",
   "status": "partial",
   "theorems": [
    "CwlUtils.Types.strict_implies_loose_partial",
    "CwlUtils.Types.strict_implies_loose_violated"
   ],
   "note": "The code violates the full statement: the loose branch skips null alternatives. Proved for proper unions."
  },
  {
   "property": "C33",
   "status": "partial",
   "theorems": [
    "CwlUtils.Types.loose_exact",
    "CwlUtils.Types.canAssign_noUnion",
    "CwlUtils.Types.strict_exact_partial",
    "CwlUtils.Types.strict_violated",
    "CwlUtils.Types.accepts_sound",
    "CwlUtils.Types.strict_sound_partial",
    "CwlUtils.Types.strict_tame_partial",
    "CwlUtils.Types.strict_sound_tame_partial"
   ],
   "note": "The loose comparison is characterised exactly. The code violates the full statement for the strict one: below the first union it is loose. Proved exact for flat types and for pairs of types whose unions meet no union that hides them, with soundness for values."
  },
  {
   "property": "C34",
   "status": "proved",
   "theorems": [
    "CwlUtils.Types.mergeFlatten_idempotent",
    "CwlUtils.Types.mergeFlatten_sound",
    "CwlUtils.Types.checkTypes_valueFrom",
    "CwlUtils.Types.checkTypes_answers",
    "CwlUtils.Types.nested_sound",
    "CwlUtils.Types.flattened_sound"
   ],
   "note": ""
  },
  {
   "property": "C35",
   "status": "partial",
   "theorems": [
    "CwlUtils.Types.compare_exact_partial",
    "CwlUtils.Types.compare_symm_partial",
    "CwlUtils.Types.compare_refl_partial",
    "CwlUtils.Types.compare_array_violated",
    "CwlUtils.Types.compare_record_violated",
    "CwlUtils.Types.compare_symm_violated"
   ],
   "note": "The code violates the full statement: any two types of which one is an array compare equal, and records against other types raise. Proved for types without arrays."
  },
  {
   "property": "C36",
   "status": "partial",
   "theorems": [
    "CwlUtils.Types.typeForSource_covers_partial",
    "CwlUtils.Types.typeForSource_covers_atoms_partial",
    "CwlUtils.Types.one_source_merged",
    "CwlUtils.Types.lost_only_if_equal_partial",
    "CwlUtils.Types.raised_by_comparison_partial",
    "CwlUtils.Types.covers_array_violated",
    "CwlUtils.Types.covers_scatter_violated",
    "CwlUtils.Types.covers_record_violated"
   ],
   "note": "The code violates the full statement. Proved for unscattered sources whose types are compared correctly (in particular names and enums). For all sources: a type is missing only if the comparison takes it to be one that is there (lost_only_if_equal_partial), and an exception comes from that comparison (raised_by_comparison_partial)."
  },
  {
   "property": "C37",
   "status": "proved",
   "theorems": [
    "CwlUtils.Types.stepOutput_levels",
    "CwlUtils.Types.stepInput_levels",
    "CwlUtils.Types.source_levels"
   ],
   "note": ""
  },
  {
   "property": "C38",
   "status": "partial",
   "theorems": [
    "CwlUtils.Checker.checkAll10_exact",
    "CwlUtils.Checker.checkAll10_total",
    "CwlUtils.Checker.checkAll10_order",
    "CwlUtils.Checker.static_verdict",
    "CwlUtils.Checker.checkAll12_exact_partial",
    "CwlUtils.Checker.checkAll12_loop_violated",
    "CwlUtils.Checker.checkAll12_order_violated"
   ],
   "note": "Proved in full for v1.0 and v1.1. The v1.2 checker violates the statement when a source of a conditional or loop step is used more than once; proved for v1.2 when each such source is used once."
  },
  {
   "property": "C39",
   "status": "partial",
   "theorems": [
    "CwlUtils.Checker.missing_required_partial",
    "CwlUtils.Checker.missing_required_violated"
   ],
   "note": "The code violates the statement: missing inputs alone do not raise. Proved: if some link is incompatible, exactly the missing required inputs are reported with it."
  },
  {
   "property": "C40",
   "status": "proved",
   "theorems": [
    "CwlUtils.Tool.content_limit"
   ],
   "note": ""
  },
  {
   "property": "C41",
   "status": "proved",
   "theorems": [
    "CwlUtils.Tool.streams_converted",
    "CwlUtils.Tool.streams_no_shortcuts",
    "CwlUtils.Tool.streams_idempotent",
    "CwlUtils.Tool.streams_error",
    "CwlUtils.Tool.streams_converted_v10"
   ],
   "note": ""
  },
  {
   "property": "C42",
   "status": "proved",
   "theorems": [
    "CwlUtils.Front.graph_entry",
    "CwlUtils.Front.graph_entry_missing"
   ],
   "note": ""
  },
  {
   "property": "C43",
   "status": "partial",
   "theorems": [
    "CwlUtils.Front.version_dispatch",
    "CwlUtils.Front.version_dispatch_exact",
    "CwlUtils.Front.version_unknown",
    "CwlUtils.Front.load_not_mapping",
    "CwlUtils.Front.load_text_partial",
    "CwlUtils.Front.load_all_text_violated"
   ],
   "note": "Dispatch is proved. The code violates the part about load_all, which is dropped for texts."
  },
  {
   "property": "C44",
   "status": "partial",
   "theorems": [
    "CwlUtils.Front.save_highest",
    "CwlUtils.Front.save_exact_partial",
    "CwlUtils.Front.save_violated",
    "CwlUtils.Front.numbers_written",
    "CwlUtils.Front.numbers_iff"
   ],
   "note": "Violated for the empty list, processes without version and development versions, which raise ValueError. save_exact_partial proves exactly which lists can be saved, and save_highest what is saved."
  },
  {
   "property": "C45",
   "status": "partial",
   "theorems": [
    "CwlUtils.Loader.type_dsl_forms",
    "CwlUtils.Loader.type_dsl_loads",
    "CwlUtils.Loader.type_dsl_duplicates_partial",
    "CwlUtils.Loader.type_dsl_mixed_partial",
    "CwlUtils.Loader.type_dsl_duplicates_violated"
   ],
   "note": "the four forms are proved for every name and every URL expansion; absence of duplicates holds for lists of texts only: a mapping that follows the equal text form is listed twice"
  },
  {
   "property": "C46",
   "status": "proved",
   "theorems": [
    "CwlUtils.Loader.secondary_dsl"
   ],
   "note": ""
  },
  {
   "property": "C47",
   "status": "proved",
   "theorems": [
    "CwlUtils.Loader.id_map"
   ],
   "note": ""
  },
  {
   "property": "C48",
   "status": "partial",
   "theorems": [
    "CwlUtils.Loader.union_first",
    "CwlUtils.Loader.field_loading",
    "CwlUtils.Loader.array_loading_partial",
    "CwlUtils.Loader.array_duplicate_violated"
   ],
   "note": "unions are proved; identifiers are compared only among the direct elements of one array, and only if the document comes from YAML"
  },
  {
   "property": "C49",
   "status": "proved",
   "theorems": [
    "CwlUtils.Formats.format_subclass"
   ],
   "note": ""
  },
  {
   "property": "C50",
   "status": "partial",
   "theorems": [
    "CwlUtils.Formats.check_format_every_file_violated",
    "CwlUtils.Formats.check_format_every_file_partial"
   ],
   "note": "Violated: the check returns at the first acceptable file. Proved: exact for the first given file, hence for a single file, and no list of acceptable files is rejected."
  },
  {
   "property": "C51",
   "status": "proved",
   "theorems": [
    "CwlUtils.JsonSchema.dependencies_terminate",
    "CwlUtils.JsonSchema.slim_exact",
    "CwlUtils.JsonSchema.slim_fails"
   ],
   "note": ""
  },
  {
   "property": "C52",
   "status": "partial",
   "theorems": [
    "CwlUtils.JsonSchema.job_accepted_partial",
    "CwlUtils.JsonSchema.consistent_exists",
    "CwlUtils.JsonSchema.accepts_every_value_violated",
    "CwlUtils.JsonSchema.explicit_null_violated"
   ],
   "note": "Proved for whole jobs, types whose unions have members of different classes, and optional fields of named records that are left out. Violated for unions such as [int, float] and for an explicit null in a field of a named record."
  },
  {
   "property": "C53",
   "status": "partial",
   "theorems": [
    "CwlUtils.JsonSchema.required_exact_partial",
    "CwlUtils.JsonSchema.required_exact_violated"
   ],
   "note": "Proved unless the type of an input is the bare null (violated) or a nested union."
  },
  {
   "property": "C54",
   "status": "partial",
   "theorems": [
    "CwlUtils.Docker.extraction_complete",
    "CwlUtils.Docker.docker_extraction_complete",
    "CwlUtils.Docker.software_extraction_complete",
    "CwlUtils.Docker.extraction_ends",
    "CwlUtils.Docker.extraction_fails",
    "CwlUtils.Docker.embedded_loadable",
    "CwlUtils.Docker.step_hints_extracted_violated"
   ],
   "note": "Proved for the loaded objects. Violated for documents: the hints of a step are loaded as plain mappings, so requirements given there are not extracted."
  },
  {
   "property": "C55",
   "status": "partial",
   "theorems": [
    "CwlUtils.Docker.image_tag_partial",
    "CwlUtils.Docker.extracted_normalised",
    "CwlUtils.Docker.image_tag_violated"
   ],
   "note": "Violated for requirements of steps and for registries with a port; proved otherwise."
  },
  {
   "property": "C56",
   "status": "partial",
   "theorems": [
    "CwlUtils.Docker.image_names_violated",
    "CwlUtils.Docker.docker_names_partial",
    "CwlUtils.Docker.singularity_names_partial",
    "CwlUtils.Docker.docker_names_exact_partial",
    "CwlUtils.Docker.singularity_names_exact_partial"
   ],
   "note": "Violated in general; proved for references without slash and underscore (docker), and for path:tag without underscore (singularity), and exactly which references share a name."
  },
  {
   "property": "C57",
   "status": "partial",
   "theorems": [
    "CwlUtils.Docker.singularity_download",
    "CwlUtils.Docker.docker_download_violated",
    "CwlUtils.Docker.docker_download_partial"
   ],
   "note": "Violated for docker with force when there is no file yet; proved otherwise."
  },
  {
   "property": "C58",
   "status": "proved",
   "theorems": [
    "CwlUtils.Docker.version_predicates",
    "CwlUtils.Docker.version_monotone",
    "CwlUtils.Docker.version_once",
    "CwlUtils.Docker.version_runs",
    "CwlUtils.Docker.version_single_number"
   ],
   "note": "For versions with at least two numbers; a single number can raise IndexError, which is stated exactly."
  },
  {
   "property": "C59",
   "status": "partial",
   "theorems": [
    "CwlUtils.Refactor.escape_clean",
    "CwlUtils.Refactor.escape_recover_exact_partial",
    "CwlUtils.Refactor.escape_recover_violated"
   ],
   "note": "No expression start remains, for every text. A text is recovered exactly if it has no $/( and $/{ itself."
  },
  {
   "property": "C60",
   "status": "partial",
   "theorems": [
    "CwlUtils.Refactor.expressionLib_innermost_partial",
    "CwlUtils.Refactor.expressionLib_innermost_violated",
    "CwlUtils.Refactor.expressionLib_hints_violated"
   ],
   "note": "Proved: the library of the innermost process with an InlineJavascriptRequirement among its requirements, as a new object. Violated for libraries in hints, and if this requirement has no library while an outer one has."
  },
  {
   "property": "C61",
   "status": "partial",
   "theorems": [
    "CwlUtils.Refactor.streams_expanded_partial",
    "CwlUtils.Refactor.streams_glob_violated",
    "CwlUtils.Refactor.streams_argument_violated",
    "CwlUtils.Refactor.streams_stderr_violated"
   ],
   "note": "Violated for every tool with a shortcut: the glob is put on the argument instead of the result, and stderr is not handled. Proved: the types, the order, the stdout name and all else."
  },
  {
   "property": "C62",
   "status": "partial",
   "theorems": [
    "CwlUtils.Refactor.input_references",
    "CwlUtils.Refactor.rename_exact_partial",
    "CwlUtils.Refactor.rename_outputs_violated",
    "CwlUtils.Refactor.rename_list_violated"
   ],
   "note": "Proved for workflow inputs and for step inputs; violated for output sources, which are compared without their first component and must not be lists."
  },
  {
   "property": "C63",
   "status": "proved",
   "theorems": [
    "CwlUtils.Refactor.exit_code",
    "CwlUtils.Refactor.exit_code_meaning"
   ],
   "note": ""
  },
  {
   "property": "C64",
   "status": "proved",
   "theorems": [
    "CwlUtils.Sandbox.eval_script_error"
   ],
   "note": "For schedules that do not split a multi-byte character (see C12)."
  },
  {
   "property": "C65",
   "status": "partial",
   "theorems": [
    "CwlUtils.Sandbox.timeout_partial",
    "CwlUtils.Sandbox.timeout_whole_partial",
    "CwlUtils.Sandbox.timeout_value_violated"
   ],
   "note": "The code violates the full statement: poll() may be None right after the kill, and then a number of which the last digits were not read is returned. Proved when the process is reaped; and, whatever happens to the process, for all values that are not numbers (objects, lists, strings, booleans, null): they are returned whole or not at all."
  },
  {
   "property": "C66",
   "status": "proved",
   "theorems": [
    "CwlUtils.Sandbox.codeFragment_spec"
   ],
   "note": ""
  },
  {
   "property": "C67",
   "status": "partial",
   "theorems": [
    "CwlUtils.sanitise_levels_exact_partial",
    "CwlUtils.sanitise_levels",
    "CwlUtils.sanitise_nested_array_violated"
   ],
   "note": "The code loses levels for two or more. Proved: the levels are kept exactly if there is at most one, and one is left of any larger number."
  },
  {
   "property": "C68",
   "status": "proved",
   "theorems": [
    "CwlUtils.SchemaDef.inline_independent_of_history"
   ],
   "note": ""
  },
  {
   "property": "C69",
   "status": "partial",
   "theorems": [
    "CwlUtils.SchemaDef.inline_depth_irrelevant",
    "CwlUtils.SchemaDef.inline_finishes_partial",
    "CwlUtils.SchemaDef.inline_finishes_ranked",
    "CwlUtils.SchemaDef.inline_finishes_violated"
   ],
   "note": "The code violates the full statement: valid recursive types are expanded for ever. Proved: inlining finishes for every type from which no infinite chain of parts and references starts, and the outcome does not depend on the depth bound."
  },
  {
   "property": "C70",
   "status": "proved",
   "theorems": [
    "CwlUtils.Pack.packed_self_contained"
   ],
   "note": "For every packing that ends without an error."
  },
  {
   "property": "C71",
   "status": "partial",
   "theorems": [
    "CwlUtils.Types.extra_keys_ignored_partial",
    "CwlUtils.Types.extra_keys_enum_violated"
   ],
   "note": "The code violates the statement for enums, which are compared with all their keys. Proved for arrays, records and fields."
  },
  {
   "property": "C72",
   "status": "partial",
   "theorems": [
    "CwlUtils.Types.stepInput_embedded_partial",
    "CwlUtils.Types.stepInput_external_violated"
   ],
   "note": "The code violates the statement for tools in a file of their own: the whole fragment is compared. Proved for processes whose parameters carry the fragment of the step input."
  },
  {
   "property": "C73",
   "status": "partial",
   "theorems": [
    "CwlUtils.Types.params_sound",
    "CwlUtils.Types.params_exact",
    "CwlUtils.Types.params_found",
    "CwlUtils.Types.params_unknown",
    "CwlUtils.Types.params_complete_partial",
    "CwlUtils.Types.unknown_source_violated"
   ],
   "note": "The code violates the statement for several sources: an unknown one beside a known one is dropped. Proved for any number of sources: what is found is exactly what one of them refers to, with the scatter setting (params_exact); something is found exactly if the steps they name can be loaded and one of them refers to something (params_found); if none does, a WorkflowException is raised (params_unknown)."
  },
  {
   "property": "C74",
   "status": "partial",
   "theorems": [
    "CwlUtils.Checker.versions_agree_partial",
    "CwlUtils.Checker.versions_agree_violated"
   ],
   "note": "The code violates the statement for lists of one source with linkMerge. Proved otherwise."
  },
  {
   "property": "C75",
   "status": "proved",
   "theorems": [
    "CwlUtils.Checker.allTypes_spec"
   ],
   "note": ""
  },
  {
   "property": "C76",
   "status": "partial",
   "theorems": [
    "CwlUtils.Split.run_names_file_partial",
    "CwlUtils.Split.run_names_file_exact_partial",
    "CwlUtils.Split.main_file_name",
    "CwlUtils.Split.run_names_file_violated"
   ],
   "note": "Violated for the process called main; proved for all others, and exactly when the names agree, with main."
  },
  {
   "property": "C77",
   "status": "partial",
   "theorems": [
    "CwlUtils.Split.files_distinct_partial",
    "CwlUtils.Split.same_file_exact_partial",
    "CwlUtils.Split.files_distinct_violated"
   ],
   "note": "Violated for names ending in cwl; proved for the others, and exactly which names share a file, with the main process."
  },
  {
   "property": "C78",
   "status": "partial",
   "theorems": [
    "CwlUtils.Split.types_emitted_partial",
    "CwlUtils.Split.types_written_partial",
    "CwlUtils.Split.document_types_partial",
    "CwlUtils.Split.typefile_violated",
    "CwlUtils.Split.typefile_reference_violated"
   ],
   "note": "A file with two types repeats its keys, so reading back is violated. Proved, for requirements anywhere in a document: each type is appended once, in order, with its short name, its content and its fields, references to the own file made local."
  },
  {
   "property": "C79",
   "status": "proved",
   "theorems": [
    "CwlUtils.Split.imports_order"
   ],
   "note": "For file names that begin with neither # nor /."
  },
  {
   "property": "C80",
   "status": "partial",
   "theorems": [
    "CwlUtils.Split.type_references_partial",
    "CwlUtils.Split.type_alternatives_kept_partial",
    "CwlUtils.Split.type_references_violated"
   ],
   "note": "Violated for alternatives in a list, which are proved to stay as they are in every document; proved at every position for single references."
  },
  {
   "property": "C81",
   "status": "partial",
   "theorems": [
    "CwlUtils.Split.split_accepts_partial",
    "CwlUtils.Split.split_accepts_types_partial",
    "CwlUtils.Split.program_accepts_partial",
    "CwlUtils.Split.split_accepts_violated"
   ],
   "note": "Violated for lists of output sources and inline alternatives of items; proved for all other documents described by Accepted and Texts, with and without schema definitions, and for the whole program if files can be written."
  },
  {
   "property": "C82",
   "status": "partial",
   "theorems": [
    "CwlUtils.Tool.text_reads_back_partial",
    "CwlUtils.Tool.text_reads_back_violated"
   ],
   "note": "Violated by v1.0 and v1.1 for texts longer than the limit that are cut inside a character."
  },
  {
   "property": "C83",
   "status": "proved",
   "theorems": [
    "CwlUtils.Tool.streams_distinct"
   ],
   "note": "The hash is a parameter that separates tools that differ in these fields (no collisions)."
  },
  {
   "property": "C84",
   "status": "proved",
   "theorems": [
    "CwlUtils.Front.load_independent"
   ],
   "note": "The parsers are parameters that do not change the document."
  },
  {
   "property": "C85",
   "status": "proved",
   "theorems": [
    "CwlUtils.Docker.run_pulls_all"
   ],
   "note": ""
  },
  {
   "property": "C86",
   "status": "proved",
   "theorems": [
    "CwlUtils.Docker.version_parsed"
   ],
   "note": ""
  },
  {
   "property": "C87",
   "status": "proved",
   "theorems": [
    "CwlUtils.Loader.map_loading"
   ],
   "note": ""
  },
  {
   "property": "C88",
   "status": "partial",
   "theorems": [
    "CwlUtils.Loader.primitive_exact_partial",
    "CwlUtils.Loader.primitive_exact_violated"
   ],
   "note": "booleans load as integers"
  },
  {
   "property": "C89",
   "status": "partial",
   "theorems": [
    "CwlUtils.Loader.requirement_map_exact_partial",
    "CwlUtils.Loader.requirement_map_violated"
   ],
   "note": "values that are no mappings are not refused but stored under a field named None; proved what every entry becomes"
  },
  {
   "property": "C90",
   "status": "partial",
   "theorems": [
    "CwlUtils.JsonSchema.dependency_list_size_violated"
   ],
   "note": "Violated: with every definition in use the list at least doubles."
  },
  {
   "property": "C91",
   "status": "partial",
   "theorems": [
    "CwlUtils.JsonSchema.generation_succeeds_partial",
    "CwlUtils.JsonSchema.enum_definition_violated",
    "CwlUtils.JsonSchema.fieldless_record_violated"
   ],
   "note": "Proved if all separately defined types are records with fields; violated for enumerations, arrays, and records without fields."
  },
  {
   "property": "C92",
   "status": "proved",
   "theorems": [
    "CwlUtils.value_from_uri",
    "CwlUtils.value_from_uri_suffix"
   ],
   "note": ""
  },
  {
   "property": "C93",
   "status": "proved",
   "theorems": [
    "CwlUtils.SchemaDef.inline_written_out",
    "CwlUtils.SchemaDef.inline_ports_written_out"
   ],
   "note": ""
  },
  {
   "property": "C94",
   "status": "proved",
   "theorems": [
    "CwlUtils.SchemaDef.typeTable_sound",
    "CwlUtils.SchemaDef.typeTable_complete",
    "CwlUtils.SchemaDef.reqs_written"
   ],
   "note": ""
  },
  {
   "property": "C95",
   "status": "proved",
   "theorems": [
    "CwlUtils.Pack.packed_steps"
   ],
   "note": ""
  },
  {
   "property": "C96",
   "status": "partial",
   "theorems": [
    "CwlUtils.Pack.packed_imported_step_fails",
    "CwlUtils.Pack.packed_imported_step_violated"
   ],
   "note": "Violated for every imported step: it gets an input list before imports are resolved, is then no longer recognised as an import, and packing fails."
  },
  {
   "property": "C97",
   "status": "partial",
   "theorems": [
    "CwlUtils.Refactor.expression_found",
    "CwlUtils.Refactor.expression_normalised_partial",
    "CwlUtils.Refactor.expression_mixed_partial",
    "CwlUtils.Refactor.expression_whitespace_violated",
    "CwlUtils.Refactor.expression_tail_violated"
   ],
   "note": "Proved: when an expression is found, and its form for a single expression. Violated for white space around $(...) and for texts that begin and end like one expression but are not."
  },
  {
   "property": "C98",
   "status": "partial",
   "theorems": [
    "CwlUtils.Refactor.etool_body_partial",
    "CwlUtils.Refactor.etool_body_violated",
    "CwlUtils.Refactor.etool_comment_violated",
    "CwlUtils.Refactor.etool_trailing_violated"
   ],
   "note": "Violated: the last character of the code is always left out (s[2:-2]); proved for code followed by one more character, which is what get_expression makes of $(...)."
  },
  {
   "property": "C99",
   "status": "partial",
   "theorems": [
    "CwlUtils.Refactor.script_runs_partial",
    "CwlUtils.Refactor.script_template_violated",
    "CwlUtils.Refactor.script_backslash_violated",
    "CwlUtils.Refactor.script_old_backslash_violated",
    "CwlUtils.Refactor.script_library_violated"
   ],
   "note": "Proved for code without markers and without the backslashes that evaluation changes; violated for template strings, backslashes and markers in the library."
  },
  {
   "property": "C100",
   "status": "partial",
   "theorems": [
    "CwlUtils.Refactor.etool_script_partial",
    "CwlUtils.Refactor.etool_reference_violated",
    "CwlUtils.Refactor.etool_step_violated",
    "CwlUtils.Refactor.etool_step_partial",
    "CwlUtils.Refactor.etool_library_violated"
   ],
   "note": "Proved for tools without library and with ${...}, and for a whole tool whose $(...) needs JavaScript; violated for parameter references, for $(...) in steps and for every library."
  },
  {
   "property": "C101",
   "status": "partial",
   "theorems": [
    "CwlUtils.Refactor.env_delivered_partial",
    "CwlUtils.Refactor.env_untouched",
    "CwlUtils.Refactor.env_own_violated",
    "CwlUtils.Refactor.env_inputs_violated",
    "CwlUtils.Refactor.env_hint_violated"
   ],
   "note": "Proved: what the steps get and what the workflow keeps. Violated: steps with their own requirement get a second one, generated steps have no inputs, hints are ignored."
  },
  {
   "property": "C102",
   "status": "partial",
   "theorems": [
    "CwlUtils.Refactor.res_delivered_partial",
    "CwlUtils.Refactor.res_untouched",
    "CwlUtils.Refactor.res_literal_violated"
   ],
   "note": "Proved for the attributes with expressions; violated for the other attributes, which are lost."
  },
  {
   "property": "C103",
   "status": "partial",
   "theorems": [
    "CwlUtils.Refactor.listing_delivered_partial",
    "CwlUtils.Refactor.listing_reference_violated",
    "CwlUtils.Refactor.listing_inputs_violated",
    "CwlUtils.Refactor.dirent_entry_violated"
   ],
   "note": "Proved for a listing that is one expression. Violated for listings with entries: references are incomplete, inputs have the wrong name, and a Dirent with an expression always makes the conversion fail."
  },
  {
   "property": "C104",
   "status": "partial",
   "theorems": [
    "CwlUtils.Refactor.others_kept",
    "CwlUtils.Refactor.nothing_converted",
    "CwlUtils.Refactor.stepInput_violated"
   ],
   "note": "StepInputExpressionRequirement is removed even if it is still needed."
  },
  {
   "property": "C105",
   "status": "partial",
   "theorems": [
    "CwlUtils.Linked.linked_contents",
    "CwlUtils.Linked.local_contents_partial",
    "CwlUtils.Linked.local_contents_violated",
    "CwlUtils.Linked.linked_unreachable"
   ],
   "note": "Proved for every chain of links and for paths; violated for local files addressed with file:, which are taken for symbolic links."
  },
  {
   "property": "C106",
   "status": "partial",
   "theorems": [
    "CwlUtils.Linked.linked_finishes_partial",
    "CwlUtils.Linked.linked_finishes_violated"
   ],
   "note": "Proved for chains with an end; violated for a remote file that contains its own name."
  },
  {
   "property": "C107",
   "status": "partial",
   "theorems": [
    "CwlUtils.Linked.resolved_partial",
    "CwlUtils.Linked.resolved_violated"
   ],
   "note": "Violated for a relative link with a query in a remote document: the query is lost."
  },
  {
   "property": "C108",
   "status": "partial",
   "theorems": [
    "CwlUtils.Refactor.generated_value_partial",
    "CwlUtils.Refactor.inputs_preserved_partial",
    "CwlUtils.Refactor.scattered_preserved_partial",
    "CwlUtils.Refactor.unscattered_preserved_partial",
    "CwlUtils.Refactor.valueFrom_own_violated",
    "CwlUtils.Refactor.valueFrom_suffix_violated",
    "CwlUtils.Refactor.valueFrom_self_violated",
    "CwlUtils.Refactor.valueFrom_default_violated",
    "CwlUtils.Refactor.valueFrom_selfDefault_violated",
    "CwlUtils.Refactor.valueFrom_null_violated",
    "CwlUtils.Refactor.valueFrom_merge_violated",
    "CwlUtils.Refactor.valueFrom_reference_violated",
    "CwlUtils.Refactor.valueFrom_scatter_violated"
   ],
   "note": "Proved for steps without scatter, or scattered over the one input with the expression, or over inputs that have no expression and are read by none, whose expressions read other inputs that have a source and a name without the ending of the input, without default, linkMerge and pickValue. Violated in each of the other cases."
  },
  {
   "property": "C109",
   "status": "partial",
   "theorems": [
    "CwlUtils.Refactor.condition_preserved_partial",
    "CwlUtils.Refactor.when_default_violated",
    "CwlUtils.Refactor.when_scatter_violated"
   ],
   "note": "Proved for steps without scatter whose condition reads inputs with a source. Violated for inputs that only have a default and for scattered steps."
  },
  {
   "property": "C110",
   "status": "partial",
   "theorems": [
    "CwlUtils.Refactor.tool_values_partial",
    "CwlUtils.Refactor.tool_object_partial",
    "CwlUtils.Refactor.text_argument_violated",
    "CwlUtils.Refactor.tool_scatter_violated"
   ],
   "note": "Proved for steps without scatter and tools without outputEval expressions, for stdout, stderr and arguments that are bindings. Violated for plain text arguments, whose value is always null, and for scattered steps."
  },
  {
   "property": "C111",
   "status": "partial",
   "theorems": [
    "CwlUtils.Refactor.tool_javascript_partial",
    "CwlUtils.Refactor.remaining_javascript_violated"
   ],
   "note": "Proved for arguments, stdout and stderr and for what else stays. Violated for glob, inputBinding and stdin, which stay as they are though the requirement is removed."
  },
  {
   "property": "C112",
   "status": "partial",
   "theorems": [
    "CwlUtils.Refactor.tool_library_partial",
    "CwlUtils.Refactor.later_library_violated",
    "CwlUtils.Refactor.replaced_library_violated"
   ],
   "note": "Proved for the first generated step, and for all if no argument is converted. Violated for the others after the first converted argument, and for all when ExpressionTools are replaced."
  },
  {
   "property": "C113",
   "status": "partial",
   "theorems": [
    "CwlUtils.Refactor.output_eval_partial",
    "CwlUtils.Refactor.eval_dangling_violated",
    "CwlUtils.Refactor.eval_refused_violated",
    "CwlUtils.Refactor.eval_contents_violated",
    "CwlUtils.Refactor.eval_valueFrom_violated",
    "CwlUtils.Refactor.eval_scatter_violated",
    "CwlUtils.Refactor.two_evals_violated",
    "CwlUtils.Refactor.eval_inline_violated"
   ],
   "note": "Proved where one outputEval is converted and nothing else, in both directions (every run of the workflow has the values of the tool, and there is a run if the tool has values). Violated for hidden inputs (stdout, stderr or when converted as well), inputs without source, outputs of the step as objects, loadContents, a valueFrom left on the step, defaults under scatter, two outputEval, and tools written inside the step."
  },
  {
   "property": "C114",
   "status": "partial",
   "theorems": [
    "CwlUtils.Loader.link_target_partial",
    "CwlUtils.Loader.link_target_violated"
   ],
   "note": "Proved for names without colon, hash, question mark, tabs, line breaks and slashes that do not look like an expression. Violated for names with a colon or a question mark."
  },
  {
   "property": "C115",
   "status": "partial",
   "theorems": [
    "CwlUtils.Loader.names_distinct_partial",
    "CwlUtils.Loader.names_distinct_violated"
   ],
   "note": "Proved for the same names as C114. Violated for names with a colon or a question mark or leading spaces, part of which is dropped from the identifier."
  },
  {
   "property": "C116",
   "status": "partial",
   "theorems": [
    "CwlUtils.Loader.type_name_partial",
    "CwlUtils.Loader.type_name_violated"
   ],
   "note": "Proved for a process without an identifier. Violated for every process with one: the reference leaves the process."
  },
  {
   "property": "C117",
   "status": "proved",
   "theorems": [
    "CwlUtils.Loader.expanded_stays"
   ],
   "note": ""
  },
  {
   "property": "C118",
   "status": "partial",
   "theorems": [
    "CwlUtils.Loader.terms_partial",
    "CwlUtils.Loader.unknown_type_violated"
   ],
   "note": "Recognition of terms is proved, and the rejection of what has no scheme. Violated for types of parameters: an unknown name becomes an address."
  },
  {
   "property": "C119",
   "status": "partial",
   "theorems": [
    "CwlUtils.Loader.undefined_partial",
    "CwlUtils.Loader.list_unresolved_partial",
    "CwlUtils.Loader.undefined_violated"
   ],
   "note": "Proved for single references; in lists only a reference that cannot be resolved at all is an error. Violated for lists, which are never checked."
  },
  {
   "property": "C120",
   "status": "proved",
   "theorems": [
    "CwlUtils.Refactor.pick_program",
    "CwlUtils.Refactor.pick_script"
   ],
   "note": ""
  },
  {
   "property": "C121",
   "status": "partial",
   "theorems": [
    "CwlUtils.Refactor.pick_values_partial",
    "CwlUtils.Refactor.pick_nested_violated",
    "CwlUtils.Refactor.pick_flattened_violated"
   ],
   "note": "Proved for outputs without linkMerge whose links give an array. Violated for merge_nested (the result is wrapped in a list) and for merge_flattened (the result is always a list)."
  },
  {
   "property": "C122",
   "status": "proved",
   "theorems": [
    "CwlUtils.Refactor.pick_self_type"
   ],
   "note": ""
  },
  {
   "property": "C123",
   "status": "partial",
   "theorems": [
    "CwlUtils.Refactor.declared_types_partial",
    "CwlUtils.Refactor.declared_other_partial",
    "CwlUtils.Refactor.declared_types_violated"
   ],
   "note": "Proved if the declared array types have null items and the declared unions have null. Violated for the others: the declaration shares the object that null is added to."
  },
  {
   "property": "C124",
   "status": "partial",
   "theorems": [
    "CwlUtils.Refactor.reload_partial",
    "CwlUtils.Refactor.reload_reference",
    "CwlUtils.Refactor.reload_violated"
   ],
   "note": "Proved for workflows without an id of their own, and for references of outputs to generated steps. Violated for every workflow with an id: the reference is read as one with the id twice."
  },
  {
   "property": "C125",
   "status": "partial",
   "theorems": [
    "CwlUtils.Refactor.inputs_checked_partial",
    "CwlUtils.Refactor.inputs_unchecked_violated"
   ],
   "note": "Proved for format and for patterns. Violated for required of secondaryFiles and for fields of records, which are not looked at."
  },
  {
   "property": "C126",
   "status": "partial",
   "theorems": [
    "CwlUtils.Loader.Import.import_means_partial",
    "CwlUtils.Loader.Import.document_means",
    "CwlUtils.Loader.Import.object_means",
    "CwlUtils.Loader.Import.fields_means",
    "CwlUtils.Loader.Import.items_means",
    "CwlUtils.Loader.Import.import_type_violated",
    "CwlUtils.Loader.Import.import_text_violated",
    "CwlUtils.Loader.Import.import_cycle_violated"
   ],
   "note": "Proved if each document is imported as one type with the same namespaces, is no single text, its URL is no identifier and no $base of another document, and imports are not cyclic. Violated otherwise: the first type is kept, texts give a KeyError, cycles do not end."
  },
  {
   "property": "C127",
   "status": "partial",
   "theorems": [
    "CwlUtils.Loader.Import.fragment_partial",
    "CwlUtils.Loader.Import.fragment_graph_violated",
    "CwlUtils.Loader.Import.fragment_missing_violated"
   ],
   "note": "Proved if the named object is the document itself. Violated for $graph, which must as a whole be what the place asks for, and for missing names (KeyError)."
  },
  {
   "property": "C128",
   "status": "proved",
   "theorems": [
    "CwlUtils.Loader.Import.read_once"
   ],
   "note": ""
  },
  {
   "property": "C129",
   "status": "partial",
   "theorems": [
    "CwlUtils.Loader.Import.imported_identifier_partial",
    "CwlUtils.Loader.Import.import_key_violated",
    "CwlUtils.Loader.Import.import_run_violated"
   ],
   "note": "Proved for the own identifier and for the URL, if the loader is that of the class or a union with it. Violated for keys of mappings, which are ignored, and for the run of a step (blank identifier)."
  },
  {
   "property": "C130",
   "status": "partial",
   "theorems": [
    "CwlUtils.Refactor.tool_resources_partial",
    "CwlUtils.Refactor.process_resources_violated",
    "CwlUtils.Refactor.resource_scatter_violated",
    "CwlUtils.Refactor.resource_type_violated"
   ],
   "note": "Proved for a CommandLineTool with one ResourceRequirement, a step without scatter, and expressions that read inputs without underscore. Violated for other processes (the new input is missing), scattered steps, and values that are not integers (the type is always long)."
  },
  {
   "property": "C131",
   "status": "partial",
   "theorems": [
    "CwlUtils.Refactor.tool_env_partial",
    "CwlUtils.Refactor.tool_env_violated"
   ],
   "note": "Proved without expressions. Violated for every environment variable with an expression: the refactoring ends with a TypeError."
  },
  {
   "property": "C132",
   "status": "partial",
   "theorems": [
    "CwlUtils.Refactor.tool_listing_partial",
    "CwlUtils.Refactor.listing_text_violated",
    "CwlUtils.Refactor.listing_whole_violated",
    "CwlUtils.Refactor.listing_name_violated",
    "CwlUtils.Refactor.listing_entryname_violated"
   ],
   "note": "Proved for entries of Dirents, in a CommandLineTool with one InitialWorkDirRequirement, for a step without scatter. Violated for texts, for listings that are one text, and for names of Dirents: the expression is evaluated on an empty input object, or left as it is."
  },
  {
   "property": "C133",
   "status": "partial",
   "theorems": [
    "CwlUtils.Refactor.dirent_program_partial",
    "CwlUtils.Refactor.dirent_staged",
    "CwlUtils.Refactor.dirent_name_violated",
    "CwlUtils.Refactor.dirent_body_violated",
    "CwlUtils.Refactor.dirent_shadow_violated",
    "CwlUtils.Refactor.dirent_quote_violated"
   ],
   "note": "Proved for entries that are one $(...) and names that are JavaScript texts in double quotes. Violated for names with expressions or quotes, entries that are function bodies, and expressions that use the names of the local variables."
  },
  {
   "property": "C134",
   "status": "proved",
   "theorems": [
    "CwlUtils.Refactor.requirements_kept",
    "CwlUtils.Refactor.requirements_object",
    "CwlUtils.Refactor.requirements_untouched"
   ],
   "note": ""
  },
  {
   "property": "C135",
   "status": "partial",
   "theorems": [
    "CwlUtils.Refactor.tool_bindings_partial",
    "CwlUtils.Refactor.binding_unread_violated"
   ],
   "note": "Proved that the generated steps compute the values and that the new inputs lead to them, for steps without scatter and tools without converted plain text arguments or outputEval. Violated for the last part: the tool keeps its own texts, the new inputs are not read."
  },
  {
   "property": "C136",
   "status": "partial",
   "theorems": [
    "CwlUtils.Refactor.traversal_ends",
    "CwlUtils.Refactor.traversal_partial",
    "CwlUtils.Refactor.left_alone",
    "CwlUtils.Refactor.when_valueFrom_violated"
   ],
   "note": "Proved that the loop ends and what it does if it succeeds. Violated for a step with a condition and an input without source whose valueFrom is an expression: the workflow cannot be converted, since the step generated for the condition is converted as well."
  },
  {
   "property": "C137",
   "status": "partial",
   "theorems": [
    "CwlUtils.Refactor.workflow_preserved_partial",
    "CwlUtils.Refactor.generated_names",
    "CwlUtils.Refactor.names_clash_violated",
    "CwlUtils.Refactor.no_instance_violated"
   ],
   "note": "Proved, in both directions, for workflows whose generated names are different, in which each step either has no JavaScript in its texts (it may be scattered in any way, with linkMerge and defaults) or its JavaScript valueFrom texts are on inputs with a plain source and read inputs with a source and without valueFrom; such a step may be scattered if its condition has no JavaScript, the expressions are not on scattered inputs and do not read them, and (for the direction from the original to the converted workflow) it has an instance; or if it is scattered over exactly the one input that has an expression and no other input has a valueFrom. Violated for steps whose generated names are the same, and for a scattered step without an instance. Conversion of the processes of the steps is not part of it (C110, C113, C130-C135)."
  },
  {
   "property": "C138",
   "status": "partial",
   "theorems": [
    "CwlUtils.Refactor.wrapped_runs_partial",
    "CwlUtils.Refactor.wrapped_outcome",
    "CwlUtils.Refactor.wrapped_links_partial",
    "CwlUtils.Refactor.wrapped_links_violated"
   ],
   "note": "Proved for tools with different names of inputs and of outputs, before the workflow is converted (C137, C110), and for the written document if the tool has no id. Violated for every written workflow around a tool with an id: neither the source of a step input nor that of an output leads where it should."
  },
  {
   "property": "C139",
   "status": "partial",
   "theorems": [
    "CwlUtils.Refactor.mock_typed_partial",
    "CwlUtils.Refactor.mock_typed_violated",
    "CwlUtils.Refactor.mock_file_violated",
    "CwlUtils.Refactor.mock_names_partial",
    "CwlUtils.Refactor.mock_names_violated",
    "CwlUtils.Refactor.mock_step_partial",
    "CwlUtils.Refactor.mock_step_fails"
   ],
   "note": "Proved exactly for which types the value is of the type, that the inputs of a process without an identifier are found under their names, and what a step gets. Violated for arrays, records, enums and the numbers other than int (null is given), for the File (nameext lacks the dot), and for processes with an identifier (no input is found under its name)."
  },
  {
   "property": "C140",
   "status": "partial",
   "theorems": [
    "CwlUtils.Loader.Inputs.inputs_loaded_partial",
    "CwlUtils.Loader.Inputs.inputs_version",
    "CwlUtils.Loader.Inputs.fragment_violated",
    "CwlUtils.Loader.Inputs.stale_violated",
    "CwlUtils.Loader.Inputs.endless_violated"
   ],
   "note": "Proved for mappings, lists and all that is no text, and for references without a fragment that were not loaded before to a document that is no text. Violated for references with a fragment (KeyError), for references that were loaded before as something else (the earlier value), and for a text naming its own file (the recursion does not end)."
  },
  {
   "property": "C141",
   "status": "proved",
   "theorems": [
    "CwlUtils.Pack.packed_moved",
    "CwlUtils.Pack.packed_place"
   ],
   "note": "The places contain no number sign; a copy may lack files, then what can be packed from it is packed from the originals with the same result."
  },
  {
   "property": "C142",
   "status": "partial",
   "theorems": [
    "CwlUtils.Pack.normalized_partial",
    "CwlUtils.Pack.normalized_code",
    "CwlUtils.Pack.normalized_overwritten_violated",
    "CwlUtils.Pack.normalized_links_violated",
    "CwlUtils.Pack.normalized_version_violated"
   ],
   "note": "Proved what is in the output directory when the code is 0, for documents of different names and when no further files are found from the temporary directory, and when the code is -1. Violated for documents of the same name (the later overwrites the earlier), and without expression refactoring for relative links (looked for in the temporary directory) and for linked processes of an older version (not upgraded)."
  },
  {
   "property": "C143",
   "status": "partial",
   "theorems": [
    "CwlUtils.Refactor.inout_reported",
    "CwlUtils.Refactor.step_reported",
    "CwlUtils.Refactor.steps_reported",
    "CwlUtils.Refactor.tool_reported",
    "CwlUtils.Refactor.level_reported",
    "CwlUtils.Refactor.reqs_reported",
    "CwlUtils.Refactor.removed_unreported_violated"
   ],
   "note": "Proved for each part. Violated by the end of traverse_workflow, which removes InlineJavascriptRequirement and StepInputExpressionRequirement (or puts None for an empty list) without a report; the changed document is then not written, since refactor copies the original."
  },
  {
   "property": "C144",
   "status": "partial",
   "theorems": [
    "CwlUtils.Refactor.Nested.everything_converted_partial",
    "CwlUtils.Refactor.Nested.conversion_fails",
    "CwlUtils.Refactor.Nested.conversion_ends_partial",
    "CwlUtils.Refactor.Nested.inner_unconverted_violated",
    "CwlUtils.Refactor.Nested.conversion_cycle_violated"
   ],
   "note": "Proved for documents and files in which no workflow is written inside a step and whose links are not cyclic. Violated otherwise: a workflow that is written inside a step is not looked at, and a cycle of links never gives a result."
  },
  {
   "property": "C145",
   "status": "partial",
   "theorems": [
    "CwlUtils.Loader.Rec.classes_consistent",
    "CwlUtils.Loader.Rec.loaded_fields",
    "CwlUtils.Loader.Rec.loaded_ident",
    "CwlUtils.Loader.Rec.loaded_ext_partial",
    "CwlUtils.Loader.Rec.complaints_exact",
    "CwlUtils.Loader.Rec.accepted_iff",
    "CwlUtils.Loader.Rec.other_class",
    "CwlUtils.Loader.Rec.ext_lost_violated"
   ],
   "note": "Proved except for keys that stand for the same address: violated there, the value of the earlier key is lost without an error."
  },
  {
   "property": "C146",
   "status": "partial",
   "theorems": [
    "CwlUtils.Loader.Rec.saved_fields",
    "CwlUtils.Loader.Rec.saved_ext",
    "CwlUtils.Loader.Rec.saved_top",
    "CwlUtils.Loader.Rec.saved_reload",
    "CwlUtils.Loader.Rec.class_reload",
    "CwlUtils.Loader.Rec.fresh_ident_violated"
   ],
   "note": "Reading again is proved under the condition that identifier, values and extension fields are each read as they were saved (their functions are those of other modules or libraries); for the class this is proved. Violated for an identifier that was made up for an object without one: it is read relative to the base."
  },
  {
   "property": "C147",
   "status": "partial",
   "theorems": [
    "CwlUtils.Loader.Rec.eq_iff",
    "CwlUtils.Loader.Rec.eq_values",
    "CwlUtils.Loader.Rec.eq_equivalence",
    "CwlUtils.Loader.Rec.eq_hash",
    "CwlUtils.Loader.Rec.hashable_partial",
    "CwlUtils.Loader.Rec.eq_ext_violated",
    "CwlUtils.Loader.Rec.unhashable_violated"
   ],
   "note": "Proved that equality is an equivalence and that equal objects have the same hash, if they have any. Violated: extension fields are not compared, and objects with a list in a field (all tools, workflows and steps) have no hash, hash() raises a TypeError."
  },
  {
   "property": "C148",
   "status": "partial",
   "theorems": [
    "CwlUtils.Loader.Full.loading_ends_partial",
    "CwlUtils.Loader.Full.calls_needed",
    "CwlUtils.Loader.Full.value_violated"
   ],
   "note": "Proved that loading ends, within a number of nested calls proportional to the nesting, and that every other exception is one of the functions that resolve addresses and read other documents. Violated: a text that is no address, as //[ for an identifier, makes urlsplit raise a ValueError that nothing catches."
  },
  {
   "property": "C149",
   "status": "partial",
   "theorems": [
    "CwlUtils.Loader.Full.loaded_types_partial",
    "CwlUtils.Loader.Full.imported_ok",
    "CwlUtils.Loader.Full.imported_types_partial",
    "CwlUtils.Loader.Full.step_run",
    "CwlUtils.Loader.Full.bool_violated",
    "CwlUtils.Loader.Full.nested_violated"
   ],
   "note": "Proved with booleans counted as integers and, in version 1.0, lists in lists counted as values of secondaryFiles inside of mappings; imported values are those of the loader of the place (C126 is about others). Violated: a boolean is accepted for an integer, and in version 1.0 a list of lists stays in secondaryFiles of a File inside of a mapping."
  },
  {
   "property": "C150",
   "status": "partial",
   "theorems": [
    "CwlUtils.Loader.Full.default_as_written_partial",
    "CwlUtils.Loader.Full.default_flattened_violated",
    "CwlUtils.Loader.Full.default_loader",
    "CwlUtils.Loader.Full.default_twins_violated"
   ],
   "note": "Proved for values without lists in lists (in version 1.0 these may be inside of mappings) and without two mappings of the same id in one list. Violated: a list of lists becomes one list, and two mappings with the same id in a list make the document invalid."
  },
  {
   "property": "C151",
   "status": "partial",
   "theorems": [
    "CwlUtils.Loader.Full.inputs_as_written_partial",
    "CwlUtils.Loader.Full.inputs_twins_violated"
   ],
   "note": "Proved for values without two mappings of the same id in one list. Violated: these make the input file invalid."
  },
  {
   "property": "C152",
   "status": "partial",
   "theorems": [
    "CwlUtils.Loader.Full.reload_partial",
    "CwlUtils.Loader.Full.reload_calm_partial",
    "CwlUtils.Loader.Full.save_inj_partial",
    "CwlUtils.Loader.Full.imported_brings",
    "CwlUtils.Loader.Full.complete_stays",
    "CwlUtils.Loader.Full.word_stays",
    "CwlUtils.Loader.Full.ready_sound",
    "CwlUtils.Loader.Full.knows_sound",
    "CwlUtils.Loader.Full.reload_checked_partial",
    "CwlUtils.Loader.Full.tidy_ready",
    "CwlUtils.Loader.Full.ready_tidy",
    "CwlUtils.Loader.Full.reload_document_partial",
    "CwlUtils.Loader.Full.twins_violated",
    "CwlUtils.Loader.Full.marks_violated",
    "CwlUtils.Loader.Full.made_up_violated"
   ],
   "note": "Proved for loaded values that satisfy a condition that can be computed (ready): addresses and names of types are complete, no lists or null in lists, different identifiers in a list, mappings are no objects of a class; an exception other than ValidationException of the functions that resolve addresses is the other outcome. For documents without imports and without lists in lists, with _expand_url as it is, that addresses are complete is proved from how they were resolved (reload_document_partial). Violated without these conditions: two inputs with different texts for the same identifier, names of types with two suffixes, and the made-up identifiers of array types."
  },
  {
   "property": "C153",
   "status": "partial",
   "theorems": [
    "CwlUtils.Loader.Full.scoped_partial",
    "CwlUtils.Loader.Full.resolved_partial",
    "CwlUtils.Loader.Full.expanded_stays_any",
    "CwlUtils.Loader.Full.settled_partial",
    "CwlUtils.Loader.Full.flat_sound",
    "CwlUtils.Loader.Full.usual_sound",
    "CwlUtils.Loader.Full.nested_source_violated",
    "CwlUtils.Loader.Full.brackets_violated"
   ],
   "note": "Proved for documents without imports and without lists directly in lists; that what was resolved is complete, if the base and the identifiers of the document are addresses with a supported scheme and no address has a line break. Violated otherwise: references in a list in a list are accepted and not resolved, and so is the name of a type with two pairs of brackets."
  },
  {
   "property": "C154",
   "status": "partial",
   "theorems": [
    "CwlUtils.Loader.Full.newer_loads_partial",
    "CwlUtils.Loader.Full.newer_loads_parts_partial",
    "CwlUtils.Loader.Full.newer_loads_imports_partial",
    "CwlUtils.Loader.Full.newer_parts",
    "CwlUtils.Loader.Full.nested_version_violated",
    "CwlUtils.Loader.Full.newer10_violated"
   ],
   "note": "Proved from v1.1 to v1.2 for documents that state their version only at the top and whose texts both parsers resolve alike; an exception other than ValidationException of the functions that resolve addresses and read other documents is the other outcome. Violated: a process inside a step that states its own version is rejected when only the version of the workflow is changed, and from v1.0 to v1.1 inputs without a type are rejected."
  },
  {
   "property": "C155",
   "status": "partial",
   "theorems": [
    "CwlUtils.Front.address_names_file",
    "CwlUtils.Front.asUri_names",
    "CwlUtils.Front.asUri_injective",
    "CwlUtils.Front.located_iff",
    "CwlUtils.Front.path_names_file_partial",
    "CwlUtils.Front.path_object",
    "CwlUtils.Front.fetched_again",
    "CwlUtils.Front.input_file_same",
    "CwlUtils.Front.remote_kept",
    "CwlUtils.Front.remote_base",
    "CwlUtils.Front.path_whole",
    "CwlUtils.Front.path_entry",
    "CwlUtils.Front.address_loads_entry",
    "CwlUtils.Front.schema_absolute",
    "CwlUtils.Front.schema_missing",
    "CwlUtils.Front.schema_file_missing",
    "CwlUtils.Front.schema_remote",
    "CwlUtils.Front.schema_remote_fails",
    "CwlUtils.Front.plus_violated",
    "CwlUtils.Front.hash_violated",
    "CwlUtils.Front.schema_violated"
   ],
   "note": "Proved for all addresses in which percent and plus signs are percent-encoded, for all Path objects, and for texts of paths without %, +, ?, ;, tabs and line breaks and without a beginning like that of an address. Violated otherwise: a plus sign is taken for a space (also in a file address), a percent sign for an encoded byte, a semicolon ends the path; # in the name of a Path object is taken for a fragment and for a part of the name; the schema generator raises a ValueError for relative paths and does not find files whose address has percent-encoded characters."
  },
  {
   "property": "C156",
   "status": "partial",
   "theorems": [
    "CwlUtils.JsonSchema.schema_written",
    "CwlUtils.JsonSchema.nothing_written_partial",
    "CwlUtils.JsonSchema.failures",
    "CwlUtils.JsonSchema.output_lost_violated"
   ],
   "note": "Proved except that a file that was there before is emptied. Violated there: the output is opened while the arguments are parsed, so that it is lost if the document is not found."
  },
  {
   "property": "C157",
   "status": "partial",
   "theorems": [
    "CwlUtils.Docker.images_extracted_partial",
    "CwlUtils.Docker.packages_extracted_partial",
    "CwlUtils.Docker.images_written",
    "CwlUtils.Docker.packages_written",
    "CwlUtils.Docker.step_hints_lost_violated"
   ],
   "note": "Completeness and soundness from the text of the document, through the loaders of the three versions, to what the traversal yields. Hints of steps are never extracted, because the parsers keep them as plain mappings (step_hints_lost_violated); a hint of a process that its class refuses is kept as a plain mapping as well. References are covered if they are absolute; documents with imports and $graph are not covered."
  },
  {
   "property": "C158",
   "status": "partial",
   "theorems": [
    "CwlUtils.Json.written_json_partial",
    "CwlUtils.Json.json_text_unambiguous",
    "CwlUtils.Json.written_read_back",
    "CwlUtils.Json.written_distinct",
    "CwlUtils.Json.leaf_text",
    "CwlUtils.Json.pack_writes_all",
    "CwlUtils.Json.half_written_not_json",
    "CwlUtils.Json.json_dump_partial",
    "CwlUtils.Json.old_output_lost_violated",
    "CwlUtils.Json.keys_collide_violated",
    "CwlUtils.Json.infinite_not_json_violated",
    "CwlUtils.Json.halves_join_violated"
   ],
   "note": "Proved: the text stands for the value of the document with the names that JSON has for keys, and for no other value; without infinite numbers it is one of RFC 8259; reading it gives the document back if the keys are different strings and no character is there as its two halves; after an exception the output of cwl-pack is as before, and that of the other programs is no JSON text. Violated: NaN and Infinity are written, keys that are not strings can get the same name as another one, two halves of a character are read as the character, and cwl-graph-split and cwl-normalizer lose what was in the file before."
  },
  {
   "property": "C159",
   "status": "proved",
   "theorems": [
    "CwlUtils.Json.loads_reads",
    "CwlUtils.Json.loads_fails_iff",
    "CwlUtils.Json.json_text_unambiguous"
   ],
   "note": "For every text, in both directions; float(text) is a parameter."
  },
  {
   "property": "C160",
   "status": "partial",
   "theorems": [
    "CwlUtils.Sandbox.request_line",
    "CwlUtils.Sandbox.engine_answers",
    "CwlUtils.Sandbox.context_engine_answers",
    "CwlUtils.Sandbox.processes_sent",
    "CwlUtils.Sandbox.process_shared",
    "CwlUtils.Sandbox.context_history",
    "CwlUtils.Sandbox.evaluation_partial",
    "CwlUtils.Sandbox.exec_schedule_violated"
   ],
   "note": "Proved for the requests and the three engines without conditions on chunks; the value of an evaluation for schedules that deliver both streams in time and never split a multi-byte character. Violated otherwise as C12 is: a read that ends inside of a character raises UnicodeDecodeError (exec_schedule_violated); for the timer see C65."
  },
  {
   "property": "C161",
   "status": "partial",
   "theorems": [
    "CwlUtils.Expr.context_seen",
    "CwlUtils.Expr.reference_seen_partial",
    "CwlUtils.Expr.script_seen_partial",
    "CwlUtils.Expr.inserted_text",
    "CwlUtils.Expr.proto_member_violated",
    "CwlUtils.Expr.bytes_left_violated"
   ],
   "note": "Proved for the whole of do_eval, with the encoder of C158: references, the source and the library that the engine gets, and the text put in for a value. Violated: a member called __proto__ sets the prototype of the object that code sees; byte strings after the first element of a list make do_eval raise TypeError. Keys that cannot be written in references and index 0 of an empty list: see C09 and C10."
  },
  {
   "property": "C162",
   "status": "partial",
   "theorems": [
    "CwlUtils.Checker.verdict_partial",
    "CwlUtils.Checker.verdict_exact",
    "CwlUtils.Checker.verdict12_exact_partial",
    "CwlUtils.Checker.crash_exact_partial",
    "CwlUtils.Checker.step_crash_exact_partial",
    "CwlUtils.Checker.verdict_violated",
    "CwlUtils.Checker.verdict12_violated"
   ],
   "note": "Proved for connected workflows with different identifiers (verdict_partial, all three versions; verdict_exact says when v1.0 and v1.1 accept). crash_exact_partial says, for steps that load, exactly when the check ends with an exception and which one it is; step_crash_exact_partial says the same of steps that do not load. Violated: an unknown source in a list of sources raises KeyError (a single one is reported with ValidationException), and an empty list of sources IndexError in v1.2. When v1.2 accepts: verdict12_exact_partial, if outputs of conditional steps and of loops are used at most once; violated without that, as the second use of a loop is compared with an array of arrays."
  },
  {
   "property": "C163",
   "status": "partial",
   "theorems": [
    "CwlUtils.Sandbox.interpreter",
    "CwlUtils.Sandbox.userns_option",
    "CwlUtils.Sandbox.only_javascript_partial",
    "CwlUtils.Sandbox.usable_partial",
    "CwlUtils.Sandbox.usable_violated",
    "CwlUtils.Sandbox.only_javascript_violated"
   ],
   "note": "Proved with an outside world that may answer anything, depending on all that went on before: what is returned, when a container is used, its options, and that every started process is remembered. Violated: a nodejs that is too old hides a good node, so that a container is used or the evaluation fails; an unknown container engine raises a plain Exception and the version text of a nightly build ValueError."
  },
  {
   "property": "C164",
   "status": "partial",
   "theorems": [
    "CwlUtils.Sandbox.pulled_partial",
    "CwlUtils.Sandbox.pulled_violated"
   ],
   "note": "Proved for docker, podman and Singularity, without conditions on the world. Violated: udocker pulls an image that it lists (the found name has no line break), and have_node_slim is set for all engines by the first one."
  },
  {
   "property": "C165",
   "status": "partial",
   "theorems": [
    "CwlUtils.Split.inside_partial",
    "CwlUtils.Split.directory_partial",
    "CwlUtils.Split.again_partial",
    "CwlUtils.Split.complete",
    "CwlUtils.Split.stopped",
    "CwlUtils.Split.list_stopped",
    "CwlUtils.Split.entries_stopped",
    "CwlUtils.Split.items_stopped",
    "CwlUtils.Split.inside_violated",
    "CwlUtils.Split.directory_violated",
    "CwlUtils.Split.again_violated"
   ],
   "note": "Proved for every outcome: without $graph nothing is written, and if no id has a slash no file outside the directory is touched. Proved for runs that end well: nothing failed on the way (`complete`); a process file not written to by a later entry holds its process, a type file that is no process file holds what it held and then its types in order, and all other files are unchanged; without types of other files a second run changes nothing. Violated: an id such as #../tool writes outside the directory; types of a file with the name of a process are lost; a second run appends the types again. For runs that end with an exception, what is left is that of the entries before and the first types of the failing one (`stopped`)."
  },
  {
   "property": "C166",
   "status": "partial",
   "theorems": [
    "CwlUtils.Sandbox.released_partial",
    "CwlUtils.Sandbox.release_prefix",
    "CwlUtils.Sandbox.newProc_plain",
    "CwlUtils.Sandbox.released_violated",
    "CwlUtils.Sandbox.told_violated"
   ],
   "note": "Proved: after any number of calls of new_js_proc, if only missing files or programs and waits that take too long occur, every process that was started is ended in order and nothing is raised; for every outcome, the killed processes are a first part of the list, each of them ended completely, and only a TypeError is caught. Violated: any other exception, for instance when an input cannot be closed, leaves that process and all later ones running. Violated: no command line made by new_js_proc names a file for the id of the container, so containers are never told to stop."
  },
  {
   "property": "C167",
   "status": "partial",
   "theorems": [
    "CwlUtils.Sandbox.own_value_partial",
    "CwlUtils.Sandbox.shifted_violated",
    "CwlUtils.Sandbox.stopped_violated"
   ],
   "note": "Proved for sequences in which every evaluation is delivered in time without a read that ends inside of a character, or its process has ended and the next evaluation sees that. Violated: after one read that ends inside of a character (UnicodeDecodeError) the process is kept with its unread output; the next evaluation raises as well, and all further ones return the value of the script before. A killed process that poll() does not yet show as ended gives the late answer of the stopped script to the next evaluation. Requests are taken to be sent in the first pass of the loop."
  },
  {
   "property": "C168",
   "status": "partial",
   "theorems": [
    "CwlUtils.Docker.images_saved_partial",
    "CwlUtils.Docker.clash_docker_violated",
    "CwlUtils.Docker.clash_singularity_violated"
   ],
   "note": "Proved for images whose file is not that of another image of the document, and that no other files are written. Violated for images with the same file name (a/b:1 and ab:1 with docker, a/b:1 and a:b/1 with Singularity): docker keeps the later one, and with Singularity the later one is never downloaded. When a run ends without an error is C57 and C85."
  },
  {
   "property": "C169",
   "status": "partial",
   "theorems": [
    "CwlUtils.Sandbox.console_shown_partial",
    "CwlUtils.Sandbox.console_killed_partial",
    "CwlUtils.Sandbox.listing_numbers",
    "CwlUtils.Sandbox.message_tells",
    "CwlUtils.Sandbox.thrown_told",
    "CwlUtils.Sandbox.timeout_told_partial",
    "CwlUtils.Sandbox.thrown_shown_violated",
    "CwlUtils.Sandbox.killed_cut_violated",
    "CwlUtils.Sandbox.hangup_violated"
   ],
   "note": "Proved: the listing with its numbers, when eval raises and what its message contains, the text of a thrown exception. Proved for the console if no line of a thrown text begins with [log] or [err]; of a killed script what is shown is a beginning of what it wrote. Proved for timeouts unless the process ended by signal 1. Violated: a thrown text with such a line is shown as console output; of a killed script the last 22 characters of the console output are cut off, as if the marker were there, so that a short line is lost; a process ended by SIGHUP has return code -1 and is reported as killed after the timeout."
  },
  {
   "property": "C170",
   "status": "partial",
   "theorems": [
    "CwlUtils.Sandbox.Threads.thread_alone",
    "CwlUtils.Sandbox.Threads.threads_together",
    "CwlUtils.Sandbox.Threads.process_input",
    "CwlUtils.Sandbox.Threads.own_output_partial",
    "CwlUtils.Sandbox.Threads.ended_by_partial",
    "CwlUtils.Sandbox.Threads.timer_result",
    "CwlUtils.Sandbox.Threads.new_process",
    "CwlUtils.Sandbox.Threads.other_engine_violated",
    "CwlUtils.Sandbox.Threads.late_timer_violated"
   ],
   "note": "The results of threads and the input of processes are proved for all interleavings. That an evaluation returns the output of its own script is proved for threads in which no evaluation before it ended with a UnicodeDecodeError of process_finished (C167 has what happens then), for scripts whose output is text with the marker only at its end. Who ends a process is proved for threads that use one engine, and before an evaluation ends with a UnicodeDecodeError of process_finished. Violated otherwise: the table of processes belongs to the class, so the end of one engine kills a process that an evaluation of another engine uses; and the timer of an evaluation that ended with that exception is not cancelled and kills the process under a later evaluation."
  },
  {
   "property": "C171",
   "status": "partial",
   "theorems": [
    "CwlUtils.Checker.accepted_clean",
    "CwlUtils.Checker.flow_sound_partial",
    "CwlUtils.Checker.flow_sound_violated"
   ],
   "note": "Proved for all executions of workflows with scatter, conditional steps, several links, linkMerge and pickValue, under the conditions of Regular. Violated otherwise, with seven witnesses: a single link with merge_nested, several links into a choice of lists, an element picked from flattened lists, strictness lost below a union, a skipped step among several links, a scattered conditional step, and a process in a file of its own. Loops are left out."
  },
  {
   "property": "C172",
   "status": "proved",
   "theorems": [
    "CwlUtils.Expr.reference_iff",
    "CwlUtils.Expr.no_reference",
    "CwlUtils.Expr.foreign_symbol",
    "CwlUtils.Expr.null_reference",
    "CwlUtils.Expr.value_inside"
   ],
   "note": "The grammar of references is given by inductive definitions apart from the matchers; that none of `.`, `[` and `)` is a word character is a hypothesis of two theorems."
  },
  {
   "property": "C173",
   "status": "partial",
   "theorems": [
    "CwlUtils.Types.clean_values",
    "CwlUtils.Types.self_values",
    "CwlUtils.Types.clean_links",
    "CwlUtils.Types.clean_again",
    "CwlUtils.Types.clean_simple_partial",
    "CwlUtils.Types.clean_nested_violated"
   ],
   "note": "Values, links and the second pass are proved for all types. The names are proved simple for input records and arrays of input records without further records inside; violated for records inside records, in arrays of arrays, in lists of alternatives (so for optional records) and for records of outputs, whose names are left as they are."
  },
  {
   "property": "C174",
   "status": "partial",
   "theorems": [
    "CwlUtils.Pack.pack_again_partial",
    "CwlUtils.Pack.packed_same",
    "CwlUtils.Pack.packing_packs",
    "CwlUtils.Pack.pack_again_violated"
   ],
   "note": "Proved: a packed document is a fixed point of packing whatever the files, the place, the types known around it and the history. What packing gives is such a document if no imported file is an import only (C24) and if at every depth the processes have a class, the ports identifiers, the steps lists of inputs, no source begins with # and no requirement is an import. Violated when the outputs of a workflow are imported: their sources keep a leading # when packed, and lose it when packed again."
  },
  {
   "property": "C175",
   "status": "partial",
   "theorems": [
    "CwlUtils.Types.rejected_exact_partial",
    "CwlUtils.Types.rejected_violated",
    "CwlUtils.Checker.blocked_exact_partial",
    "CwlUtils.Checker.blocked12_exact_partial"
   ],
   "note": "Both directions are proved for values given in full (no empty list, no null for an optional part, no undeclared field) and types that can be told apart by their values (not int and long, not two enumerations with a symbol in common); for workflows in v1.0 and v1.1, and in v1.2 if the outputs of conditional steps and of loops are used at most once. Violated without these conditions: int into long, an optional int into an optional string, a list of int into a list of string, an enumeration into string and into the same enumeration with another name are rejected although a value passes."
  },
  {
   "property": "C176",
   "status": "partial",
   "theorems": [
    "CwlUtils.Types.warned_partial",
    "CwlUtils.Types.three_answers_partial",
    "CwlUtils.Types.warned_violated"
   ],
   "note": "Proved for types that have values and can be told apart by them; three_answers_partial says with C33 and C175 what each of the three answers means. Violated otherwise: a choice of int and long into long, and a choice of an enumeration and string into string, are warned about although every value passes."
  },
  {
   "property": "C177",
   "status": "proved",
   "theorems": [
    "CwlUtils.SchemaDef.inline_accepts",
    "CwlUtils.SchemaDef.ports_resolve",
    "CwlUtils.SchemaDef.port_import_accepted"
   ],
   "note": "Proved with an inductive definition apart from the model. Definitions must be dictionaries whose name, if there is one, is a string. Recursive definitions give no result (C69), as the chain of what they refer to does not end."
  },
  {
   "property": "C178",
   "status": "proved",
   "theorems": [
    "CwlUtils.SchemaDef.table_accepts"
   ],
   "note": "Proved as an equivalence with conditions stated apart from the model (ReqOk, DefOk, TypesOk). Names and links that are no strings, and linked types that are neither lists nor dictionaries, are errors in the model (Python would print a number into the key, or take an empty text for an empty list)."
  },
  {
   "property": "C179",
   "status": "proved",
   "theorems": [
    "CwlUtils.Checker.verdict_iff"
   ],
   "note": "Proved as an equivalence; Connected of C162 implies the condition, and it is weaker. A ValidationException raised for a single unknown source or an unknown merge method counts as an exception, not as a rejection, as it ends the check."
  }
 ]
}