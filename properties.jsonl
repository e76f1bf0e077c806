{"id": "C01", "title": "Expression scanner returns a well-formed span", "statement": "Scanning a CWL string for the next expression either reports nothing, reports an unfinished block, or returns a non-empty span inside the string. A returned span is either a two-character backslash escape, or starts with `$(` and ends with `)`, or starts with `${` and ends with `}`.", "quantifier": "for every string", "why_tests_cant": "The claim ranges over infinitely many strings; a finite test suite samples a few and cannot exclude a bad interaction of nesting, quoting and escapes.", "anchors": ["src/cwl_utils/expression.py:scanner"]}
{"id": "C02", "title": "Interpolation terminates", "statement": "String interpolation performs at most one step per character of its input: it always finishes with a value or an exception, and never loops.", "quantifier": "for every string, every parameter context, every JS engine result, both escaping behaviours", "why_tests_cant": "The claim ranges over infinitely many strings; a finite test suite samples a few and cannot exclude a bad interaction of nesting, quoting and escapes.", "anchors": ["src/cwl_utils/expression.py:interpolate", "src/cwl_utils/expression.py:scanner"]}
{"id": "C03", "title": "Text without expressions is preserved", "statement": "A string which holds neither `$(`, `${` nor a backslash is returned by interpolation exactly as it was (after the optional whitespace strip); in evaluation, a string without `$(` and `${`, and every non-string value, is returned untouched and no expression engine is consulted.", "quantifier": "for every such string / value, every context, requirement list and CWL version", "why_tests_cant": "The claim ranges over infinitely many strings; a finite test suite samples a few and cannot exclude a bad interaction of nesting, quoting and escapes.", "anchors": ["src/cwl_utils/expression.py:interpolate", "src/cwl_utils/expression.py:do_eval", "src/cwl_utils/expression.py:needs_parsing"]}
{"id": "C04", "title": "A lone expression keeps its type, mixed text becomes a string", "statement": "If the whole (stripped) string is one expression, evaluation returns the raw evaluated value (number, list, object, null...); in every other successful case the result is a string which is the concatenation of the literal text pieces with the JSON text of the evaluated values (strings unquoted).", "quantifier": "for every expression body the scanner accepts as one balanced block, every surrounding text and every evaluated value", "why_tests_cant": "The claim ranges over infinitely many strings; a finite test suite samples a few and cannot exclude a bad interaction of nesting, quoting and escapes.", "anchors": ["src/cwl_utils/expression.py:interpolate"]}
{"id": "C05", "title": "Escaping follows the CWL version", "statement": "With the escaping rules of CWL v1.0/v1.1 a backslash makes the next character literal; with the v1.2 rules `\\$(` and `\\${` give the literal marker, `\\\\` gives one backslash, and any other backslash pair is kept verbatim. The old rules apply exactly to v1.0, v1.1.0-dev1, v1.1, v1.2.0-dev1..3.", "quantifier": "for every string and CWL version string", "why_tests_cant": "The claim ranges over infinitely many strings; a finite test suite samples a few and cannot exclude a bad interaction of nesting, quoting and escapes.", "anchors": ["src/cwl_utils/expression.py:interpolate", "src/cwl_utils/expression.py:do_eval", "src/cwl_utils/expression.py:OLD_ESCAPE_CWL_VERSIONS"]}
{"id": "C06", "title": "An unclosed expression is an error, never silently literal", "statement": "If a `$(` or `${` block that is not escaped is still open at the end of the text, evaluation raises instead of returning text.", "quantifier": "for every string, every nesting of parentheses, braces and quotes inside the block", "why_tests_cant": "The claim ranges over infinitely many strings; a finite test suite samples a few and cannot exclude a bad interaction of nesting, quoting and escapes.", "anchors": ["src/cwl_utils/expression.py:scanner", "src/cwl_utils/expression.py:interpolate"]}
{"id": "C07", "title": "The innermost JavaScript requirement decides", "statement": "Full JavaScript evaluation is used exactly if an InlineJavascriptRequirement occurs in the requirement list, and the expressionLib used is that of the last such entry (innermost scope).", "quantifier": "for every requirement list", "why_tests_cant": "Requirement lists are unbounded and scoping order errors only show with several entries at different scopes.", "anchors": ["src/cwl_utils/expression.py:do_eval", "src/cwl_utils/expression.py:jshead"]}
{"id": "C08", "title": "Evaluation failures surface as one exception type", "statement": "Evaluating an expression string raises only WorkflowException, whatever goes wrong inside (bad syntax, bad reference, engine failure).", "quantifier": "for every input, engine and failure", "why_tests_cant": "A test can only provoke known failures; an uncaught exception class is by nature one nobody thought of.", "anchors": ["src/cwl_utils/expression.py:do_eval", "src/cwl_utils/expression.py:evaluator"]}
{"id": "C09", "title": "A parameter reference denotes its path", "statement": "Evaluating `$(root.a['b'][\"c\"][3])` returns exactly the value reached by following the segments from the root (`.length` of a list as last segment gives its size); evaluation of a well-formed reference never returns a value of a prefix of the path.", "quantifier": "for every root, every path, every key, every JSON value", "why_tests_cant": "Paths, keys and documents are unbounded, and keys with quote or bracket characters interact with the tokeniser's backtracking.", "anchors": ["src/cwl_utils/sandboxjs.py:NodeJSEngine.regex_eval", "src/cwl_utils/sandboxjs.py:segment_re", "src/cwl_utils/sandboxjs.py:param_re", "src/cwl_utils/expression.py:evaluator"]}
{"id": "C10", "title": "Failed references fall back to JavaScript or give a workflow error", "statement": "A parameter reference that does not resolve (missing key, wrong type, index out of range) is retried as JavaScript when full JavaScript is enabled, and otherwise raises a JavascriptException; no other exception type escapes the evaluator because of the reference.", "quantifier": "for every reference and every document", "why_tests_cant": "Every combination of document shape and failing segment has to be considered, including the empty list.", "anchors": ["src/cwl_utils/sandboxjs.py:NodeJSEngine.regex_eval", "src/cwl_utils/expression.py:evaluator"]}
{"id": "C11", "title": "Expression conversion is stable under literal text", "statement": "Converting a mixed string to a single JavaScript expression (convert_to_expression) embeds the literal text so that JavaScript evaluates it back to the same text.", "quantifier": "for every literal text (including quotes, backslashes and line breaks)", "why_tests_cant": "The claim ranges over infinitely many strings; a finite test suite samples a few and cannot exclude a bad interaction of nesting, quoting and escapes.", "anchors": ["src/cwl_utils/expression.py:interpolate", "src/cwl_utils/expression.py:_convert_dumper"]}
{"id": "C12", "title": "JS process framing is independent of the pipe schedule", "statement": "The output taken from the JavaScript process is exactly the text before the end marker, whatever way the operating system splits stdout and stderr into reads and interleaves them; text of one evaluation never leaks into the next.", "quantifier": "for every output text, every split into chunks, every interleaving, every sequence of calls", "why_tests_cant": "Chunk boundaries are chosen by the operating system; tests see only one schedule.", "anchors": ["src/cwl_utils/sandboxjs.py:NodeJSEngine.exec_js_process"]}
{"id": "C13", "title": "Node version check is the componentwise order", "statement": "The minimum-version check accepts exactly the versions that are numerically greater or equal component by component (not textually).", "quantifier": "for every pair of dotted versions", "why_tests_cant": "Textual and numeric order agree on most samples.", "anchors": ["src/cwl_utils/sandboxjs.py:NodeJSEngine.check_js_threshold_version"]}
{"id": "C14", "title": "Byte strings are removed from the evaluation context", "statement": "After preparing the evaluation context no byte string is left anywhere in it, and nothing else changes.", "quantifier": "for every nested dict/list structure", "why_tests_cant": "Depth and position of a byte string are unbounded.", "anchors": ["src/cwl_utils/utils.py:bytes2str_in_dicts", "src/cwl_utils/expression.py:do_eval"]}
{"id": "C15", "title": "Map form and list form of CWL collections are interchangeable", "statement": "Converting a map-form collection into list form keeps every entry once, in order, with its key stored under the key field; converting back gives the same entries; both conversions leave data already in the target form unchanged.", "quantifier": "for every collection with string keys", "why_tests_cant": "Collections are unbounded and entries may themselves contain the key field.", "anchors": ["src/cwl_utils/utils.py:normalize_to_list", "src/cwl_utils/utils.py:normalize_to_map"]}
{"id": "C16", "title": "Pascal case names hold no separators", "statement": "Definition names derived from schema names contain no `-` and no `_`, and names already made of one capitalised word are unchanged.", "quantifier": "for every name", "why_tests_cant": "The claim ranges over infinitely many strings; a finite test suite samples a few and cannot exclude a bad interaction of nesting, quoting and escapes.", "anchors": ["src/cwl_utils/utils.py:to_pascal_case"]}
{"id": "C17", "title": "Schema field sanitising keeps optionality", "statement": "Sanitising a schema field marks the field optional exactly if its type was `T?` or a list containing null, lists null first, and keeps the remaining alternatives in order.", "quantifier": "for every field type", "why_tests_cant": "Type unions are unbounded.", "anchors": ["src/cwl_utils/utils.py:sanitise_schema_field"]}
{"id": "C18", "title": "Inlining leaves no user-defined type reference", "statement": "After inlining, every type position of a port holds only built-in names or array/record/enum schemas; a name which cannot be resolved raises.", "quantifier": "for every type expression and every table of user-defined types on which inlining finishes", "why_tests_cant": "Types nest without bound and refer to each other across files.", "anchors": ["src/cwl_utils/schemadef.py:_inline_type", "src/cwl_utils/schemadef.py:inline_types"]}
{"id": "C19", "title": "Inlined type names are unique", "statement": "Over any history of packing calls in one process, two inlined copies of user-defined types never receive the same name.", "quantifier": "for every sequence of inlining calls and every type table", "why_tests_cant": "The name counter is global state; clashes need a particular history.", "anchors": ["src/cwl_utils/schemadef.py:_inline_type"]}
{"id": "C20", "title": "Malformed type definitions are reported as such", "statement": "An array type without items, or a record type without fields, raises the specific error for it.", "quantifier": "for every such definition", "why_tests_cant": "Error paths are rarely exercised.", "anchors": ["src/cwl_utils/schemadef.py:_inline_type", "src/cwl_utils/errors.py:ArrayMissingItems", "src/cwl_utils/errors.py:RecordMissingFields"]}
{"id": "C21", "title": "Listifying is idempotent and complete", "statement": "After packing's listify step inputs, outputs and requirements (and steps and step inputs for workflows) are lists; doing it again changes nothing; no entry is lost.", "quantifier": "for every process document", "why_tests_cant": "Documents are unbounded.", "anchors": ["src/cwl_utils/pack.py:listify_everything"]}
{"id": "C22", "title": "Source normalisation strips exactly one leading #", "statement": "Only string `source` of step inputs and string `outputSource` of outputs change, and they lose exactly one leading `#`.", "quantifier": "for every workflow document", "why_tests_cant": "Documents are unbounded.", "anchors": ["src/cwl_utils/pack.py:normalize_sources", "src/cwl_utils/pack.py:_normalize"]}
{"id": "C23", "title": "Packing removes SchemaDefRequirement and nothing else", "statement": "After type loading, the requirement list is the original list without the SchemaDefRequirement entries, order kept, and a type known to the enclosing process takes precedence over a local one with the same key.", "quantifier": "for every requirement list and every pair of type tables", "why_tests_cant": "Lists are unbounded.", "anchors": ["src/cwl_utils/pack.py:load_schemadefs"]}
{"id": "C24", "title": "Packing leaves no import behind", "statement": "After import resolution no `$import`/`$include` single-key object is left in the document, and everything else is unchanged.", "quantifier": "for every document tree and every file store without import cycles", "why_tests_cant": "Documents and import graphs are unbounded.", "anchors": ["src/cwl_utils/pack.py:resolve_imports"]}
{"id": "C25", "title": "Imports resolve relative to the file that contains them", "statement": "A nested `$import` inside an imported file is looked up relative to that imported file.", "quantifier": "for every document tree and file store", "why_tests_cant": "Needs nested directories in a particular shape.", "anchors": ["src/cwl_utils/pack.py:resolve_imports", "src/cwl_utils/utils.py:load_linked_file", "src/cwl_utils/utils.py:resolved_path"]}
{"id": "C26", "title": "Packed version is the maximum", "statement": "The version of a packed workflow is the highest version among the workflow and its packed steps.", "quantifier": "for every number and order of steps and versions", "why_tests_cant": "Order of steps matters; unbounded.", "anchors": ["src/cwl_utils/pack.py:resolve_steps"]}
{"id": "C27", "title": "Subworkflow requirement is added exactly when needed", "statement": "After packing a workflow has SubworkflowFeatureRequirement if some step runs a workflow; it is added at most once; nothing else is added.", "quantifier": "for every workflow document", "why_tests_cant": "Unbounded documents.", "anchors": ["src/cwl_utils/pack.py:add_missing_requirements"]}
{"id": "C28", "title": "Path lookup in list/map form", "statement": "Looking up a path in a document in list form yields the same entry as in map form.", "quantifier": "for every document and path", "why_tests_cant": "Unbounded.", "anchors": ["src/cwl_utils/pack.py:get_inner_dict"]}
{"id": "C29", "title": "Splitting rewrites references by whole names", "statement": "When a packed document is split, an identifier or reference loses the prefix of its own process and no other; a reference into another process keeps naming that process.", "quantifier": "for every process name and reference, including names that are prefixes of one another", "why_tests_cant": "Prefix-related names are rare in samples.", "anchors": ["src/cwl_utils/graph_split.py:rewrite", "src/cwl_utils/graph_split.py:rewrite_id"]}
{"id": "C30", "title": "Splitting emits each imported type file once", "statement": "In the rewritten SchemaDefRequirement every external file is imported exactly once, first occurrence order, and inline types without external name stay.", "quantifier": "for every list of types", "why_tests_cant": "Unbounded lists.", "anchors": ["src/cwl_utils/graph_split.py:rewrite_schemadef"]}
{"id": "C31", "title": "Every type accepts itself", "statement": "A source type is always assignable to an identical sink type (pass in strict mode).", "quantifier": "for every CWL type without an empty union", "why_tests_cant": "Types nest without bound.", "anchors": ["src/cwl_utils/parser/utils.py:can_assign_src_to_sink", "src/cwl_utils/parser/utils.py:_compare_records"]}
{"id": "C32", "title": "Strict compatibility implies loose compatibility", "statement": "If the strict comparison accepts (check result pass) then the loose comparison accepts too.", "quantifier": "for every pair of types", "why_tests_cant": "Pairs of nested types are unbounded.", "anchors": ["src/cwl_utils/parser/utils.py:can_assign_src_to_sink", "src/cwl_utils/parser/utils.py:check_types"]}
{"id": "C33", "title": "Assignability agrees with the set-of-values meaning", "statement": "Strict acceptance means each alternative of the source matches some alternative of the sink; loose acceptance means some non-null alternative does; Any matches everything; arrays compare item types, records compare the sink's fields by short name.", "quantifier": "for every pair of types, at every nesting depth", "why_tests_cant": "Pairs of nested types are unbounded; strictness must be kept in nested unions.", "anchors": ["src/cwl_utils/parser/utils.py:can_assign_src_to_sink", "src/cwl_utils/parser/utils.py:_compare_records"]}
{"id": "C34", "title": "Link merge typing", "statement": "check_types answers pass, warning or exception for linkMerge None/merge_nested/merge_flattened and raises for any other value; valueFrom makes it pass; merge_nested wraps the source in one array level; merge_flattened wraps only non-arrays and is idempotent.", "quantifier": "for every pair of types and merge mode", "why_tests_cant": "Unbounded types.", "anchors": ["src/cwl_utils/parser/utils.py:check_types", "src/cwl_utils/parser/utils.py:merge_flatten_type"]}
{"id": "C35", "title": "Type equality is an equivalence", "statement": "The internal comparison used to merge the types of several sources is reflexive, symmetric, and tells different types apart.", "quantifier": "for every pair of types", "why_tests_cant": "Unbounded types.", "anchors": ["src/cwl_utils/parser/cwl_v1_2_utils.py:_compare_type"]}
{"id": "C36", "title": "The type of several sources covers all of them", "statement": "type_for_source over several sources yields a type in which the type of each source occurs.", "quantifier": "for every list of sources, scatter setting and merge mode", "why_tests_cant": "Needs mixtures of scattered and plain sources.", "anchors": ["src/cwl_utils/parser/cwl_v1_2_utils.py:type_for_source"]}
{"id": "C37", "title": "Scatter adds the right number of array levels", "statement": "A scattered step output gets one array level for dotproduct/flat_crossproduct and as many levels as scattered inputs for nested_crossproduct; a scattered step input gets one; unscattered ones none.", "quantifier": "for every scatter list and type", "why_tests_cant": "Depth equals the unbounded number of scattered inputs.", "anchors": ["src/cwl_utils/parser/cwl_v1_2_utils.py:type_for_step_output", "src/cwl_utils/parser/cwl_v1_2_utils.py:type_for_step_input", "src/cwl_utils/parser/cwl_v1_2_utils.py:type_for_source"]}
{"id": "C38", "title": "The static checker reports every incompatible link", "statement": "check_all_types reports a warning or exception exactly for the links which check_types does not pass, independent of the order of sinks.", "quantifier": "for every workflow graph", "why_tests_cant": "Unbounded graphs; state carried between sinks.", "anchors": ["src/cwl_utils/parser/cwl_v1_2_utils.py:check_all_types", "src/cwl_utils/parser/cwl_v1_1_utils.py:check_all_types", "src/cwl_utils/parser/cwl_v1_0_utils.py:check_all_types"]}
{"id": "C39", "title": "The static checker rejects missing required inputs", "statement": "static_checker raises when a required step input has no source, no default and no valueFrom.", "quantifier": "for every workflow", "why_tests_cant": "Requires absence of other errors.", "anchors": ["src/cwl_utils/parser/utils.py:static_checker"]}
{"id": "C40", "title": "loadContents never exceeds 64 KiB", "statement": "Reading contents returns at most 65536 bytes; in v1.2 it returns the whole file or raises, in v1.0/v1.1 it returns the prefix.", "quantifier": "for every file content", "why_tests_cant": "Boundary sizes and file lengths unbounded.", "anchors": ["src/cwl_utils/parser/cwl_v1_0_utils.py:content_limit_respected_read_bytes", "src/cwl_utils/parser/cwl_v1_1_utils.py:content_limit_respected_read_bytes", "src/cwl_utils/parser/cwl_v1_2_utils.py:content_limit_respected_read_bytes"]}
{"id": "C41", "title": "Stream shortcuts are fully converted", "statement": "After conversion no output has type stdout/stderr and no input type stdin; a converted output globs the same file name the tool's stdout/stderr field holds; other parameters are unchanged; converting twice equals converting once.", "quantifier": "for every command line tool", "why_tests_cant": "Unbounded parameter lists in any order.", "anchors": ["src/cwl_utils/parser/cwl_v1_2_utils.py:convert_stdstreams_to_files", "src/cwl_utils/parser/cwl_v1_1_utils.py:convert_stdstreams_to_files", "src/cwl_utils/parser/cwl_v1_0_utils.py:convert_stdstreams_to_files"]}
{"id": "C42", "title": "Graph entry selection", "statement": "Loading a packed document picks the first entry with the requested id (default main), ignoring leading `#`, and raises if there is none.", "quantifier": "for every graph and id", "why_tests_cant": "Unbounded graphs.", "anchors": ["src/cwl_utils/parser/__init__.py:_get_id_from_graph", "src/cwl_utils/parser/__init__.py:load_document_by_yaml"]}
{"id": "C43", "title": "Version dispatch is total and exclusive", "statement": "A document is loaded with the parser of exactly its declared version; a missing or unknown version raises ValidationException; load_all has the same effect for text and for parsed documents.", "quantifier": "for every document", "why_tests_cant": "All version strings.", "anchors": ["src/cwl_utils/parser/__init__.py:load_document_by_yaml", "src/cwl_utils/parser/__init__.py:load_document", "src/cwl_utils/parser/__init__.py:cwl_version"]}
{"id": "C44", "title": "Saving several processes records the highest version", "statement": "Saving a list of processes gives a $graph document with all of them in order and the numerically highest cwlVersion.", "quantifier": "for every list of processes", "why_tests_cant": "Unbounded, textual versus numeric order.", "anchors": ["src/cwl_utils/parser/__init__.py:save", "src/cwl_utils/parser/__init__.py:version_split"]}
{"id": "C45", "title": "Type DSL expansion", "statement": "`T`, `T?`, `T[]`, `T[]?` expand to the documented forms and expansion of an expanded list adds no duplicates.", "quantifier": "for every type name", "why_tests_cant": "The claim ranges over infinitely many strings; a finite test suite samples a few and cannot exclude a bad interaction of nesting, quoting and escapes.", "anchors": ["src/cwl_utils/parser/cwl_v1_2.py:_TypeDSLLoader"]}
{"id": "C46", "title": "Secondary files DSL expansion", "statement": "Every secondaryFiles entry becomes exactly one pattern/required object, trailing `?` meaning required false, and entries with unknown keys or without pattern raise.", "quantifier": "for every specification", "why_tests_cant": "Unbounded lists and dicts.", "anchors": ["src/cwl_utils/parser/cwl_v1_2.py:_SecondaryDSLLoader"]}
{"id": "C47", "title": "Id-map expansion", "statement": "A map-form field loads to the list with one entry per key, in order, the key stored as the subject field.", "quantifier": "for every map", "why_tests_cant": "Unbounded maps.", "anchors": ["src/cwl_utils/parser/cwl_v1_2.py:_IdMapLoader"]}
{"id": "C48", "title": "Union loading takes the first alternative that accepts", "statement": "A union field loads with the first alternative that accepts and fails only if all fail; array loading reports an error iff some element is bad or two elements share an id.", "quantifier": "for every list of alternatives and document", "why_tests_cant": "Unbounded alternatives.", "anchors": ["src/cwl_utils/parser/cwl_v1_2.py:_UnionLoader", "src/cwl_utils/parser/cwl_v1_2.py:_ArrayLoader"]}
{"id": "C49", "title": "Format subclassing is reachability", "statement": "A format is accepted for a class exactly if the class is reachable from it over subclass and equivalence links, and the search terminates on cyclic ontologies.", "quantifier": "for every ontology (cyclic ones included) and every pair of formats", "why_tests_cant": "Graphs are unbounded; cycles matter.", "anchors": ["src/cwl_utils/file_formats.py:formatSubclassOf"]}
{"id": "C50", "title": "Format check covers every file", "statement": "check_format raises if any file of the list has no format or an incompatible one.", "quantifier": "for every list of files", "why_tests_cant": "Unbounded lists.", "anchors": ["src/cwl_utils/file_formats.py:check_format"]}
{"id": "C51", "title": "Generated schema keeps exactly the definitions in use", "statement": "After slimming, a definition is present iff it is reachable over $ref from the properties, and collecting dependencies terminates on cyclic definitions.", "quantifier": "for every schema", "why_tests_cant": "Reference graphs are unbounded and cyclic.", "anchors": ["src/cwl_utils/inputs_schema_gen.py:slim_definitions", "src/cwl_utils/inputs_schema_gen.py:get_property_dependencies", "src/cwl_utils/inputs_schema_gen.py:_recursive_search"]}
{"id": "C52", "title": "Generated schema accepts every valid input value", "statement": "The JSON schema generated for an input type accepts every JSON value that the CWL type accepts.", "quantifier": "for every type and every value", "why_tests_cant": "Types and values are unbounded; oneOf needs exactly one match.", "anchors": ["src/cwl_utils/inputs_schema_gen.py:JSONSchemaProperty", "src/cwl_utils/inputs_schema_gen.py:cwl_to_jsonschema"]}
{"id": "C53", "title": "Required inputs are exactly the mandatory ones", "statement": "An input is listed as required iff it has no default and its type does not admit null.", "quantifier": "for every input list", "why_tests_cant": "Unbounded.", "anchors": ["src/cwl_utils/inputs_schema_gen.py:get_is_required_from_input_parameter", "src/cwl_utils/inputs_schema_gen.py:cwl_to_jsonschema", "src/cwl_utils/inputs_schema_gen.py:JSONSchemaProperty.generate_type_dict"]}
{"id": "C54", "title": "Container extraction is complete and ordered", "statement": "docker extraction yields every DockerRequirement of the process, its steps and their processes exactly once, requirements before hints, depth first in step order, and nothing else; the same for software requirements.", "quantifier": "for every nesting of workflows", "why_tests_cant": "Unbounded nesting.", "anchors": ["src/cwl_utils/docker_extract.py:traverse", "src/cwl_utils/docker_extract.py:traverse_workflow", "src/cwl_utils/cite_extract.py:traverse"]}
{"id": "C55", "title": "Extracted images carry a tag", "statement": "Every extracted dockerPull has a tag or digest; images without one get :latest.", "quantifier": "for every process tree and image name", "why_tests_cant": "Unbounded nesting; requirement position and registry ports matter.", "anchors": ["src/cwl_utils/docker_extract.py:extract_docker_requirements", "src/cwl_utils/docker_extract.py:traverse_workflow"]}
{"id": "C56", "title": "Distinct images are saved under distinct names", "statement": "Two different image references are never saved to the same file.", "quantifier": "for every pair of image references", "why_tests_cant": "The claim ranges over infinitely many strings; a finite test suite samples a few and cannot exclude a bad interaction of nesting, quoting and escapes.", "anchors": ["src/cwl_utils/image_puller.py:DockerImagePuller.get_image_name", "src/cwl_utils/image_puller.py:SingularityImagePuller.get_image_name"]}
{"id": "C57", "title": "Image download state machine", "statement": "Singularity download pulls unless the file is cached and not forced; docker save with force replaces an existing file and works when none exists.", "quantifier": "for every file system state and history of runs", "why_tests_cant": "Histories of runs and crash points.", "anchors": ["src/cwl_utils/image_puller.py:SingularityImagePuller.save_docker_image", "src/cwl_utils/image_puller.py:DockerImagePuller.save_docker_image"]}
{"id": "C58", "title": "Singularity version predicates are consistent", "statement": "Newer-than predicates are monotone in the version, imply each other in order, and 2.6 excludes 3+; the version is determined once.", "quantifier": "for every version and flavor", "why_tests_cant": "All versions.", "anchors": ["src/cwl_utils/singularity.py:is_version_3_or_newer", "src/cwl_utils/singularity.py:is_version_2_6", "src/cwl_utils/singularity.py:get_version"]}
{"id": "C59", "title": "Escaping removes every expression start", "statement": "After escaping, a text holds no `$(` and no `${`, and unescaped text is recovered by removing the inserted slashes.", "quantifier": "for every string", "why_tests_cant": "The claim ranges over infinitely many strings; a finite test suite samples a few and cannot exclude a bad interaction of nesting, quoting and escapes.", "anchors": ["src/cwl_utils/cwl_v1_2_expression_refactor.py:escape_expression_field"]}
{"id": "C60", "title": "Expression library lookup takes the innermost process", "statement": "find_expressionLib returns the library of the innermost process that declares one, as a copy.", "quantifier": "for every process stack", "why_tests_cant": "Unbounded nesting.", "anchors": ["src/cwl_utils/expression_refactor.py:find_expressionLib"]}
{"id": "C61", "title": "Stream shortcut expansion in refactoring yields file outputs", "statement": "expand_stream_shortcuts returns a tool without stdout/stderr typed outputs in which each former shortcut output has a glob of the stream's file name, and leaves its argument unchanged.", "quantifier": "for every command line tool", "why_tests_cant": "Unbounded outputs.", "anchors": ["src/cwl_utils/cwl_v1_2_expression_refactor.py:expand_stream_shortcuts"]}
{"id": "C62", "title": "Step renaming rewires all references", "statement": "Renaming a step source changes exactly the references equal to the old name.", "quantifier": "for every workflow", "why_tests_cant": "Unbounded workflows.", "anchors": ["src/cwl_utils/cwl_v1_2_expression_refactor.py:rename_step_source", "src/cwl_utils/cwl_v1_2_expression_refactor.py:replace_wf_input_ref_with_step_output"]}
{"id": "C63", "title": "Refactor exit code", "statement": "The refactor command returns 0/7/1/-1 according to the documented cases.", "quantifier": "for every list of input files and outcomes", "why_tests_cant": "Order of outcomes matters.", "anchors": ["src/cwl_utils/expression_refactor.py:refactor"]}
{"id": "C64", "title": "A failing script raises JavascriptException", "statement": "If the script throws, evaluation raises JavascriptException, whatever the error text is and however it is split into reads; no value is returned.", "quantifier": "for every error text and every pipe schedule", "why_tests_cant": "The schedule and the error text are unbounded.", "anchors": ["src/cwl_utils/sandboxjs.py:NodeJSEngine.exec_js_process", "src/cwl_utils/sandboxjs.py:NodeJSEngine.eval"]}
{"id": "C65", "title": "A killed evaluation never returns a value", "statement": "An evaluation that is stopped by its timeout is reported as an error and never returns a (truncated) value.", "quantifier": "for every output read before the timeout and every state of the process afterwards", "why_tests_cant": "The race between the kill and the status check cannot be triggered by a test.", "anchors": ["src/cwl_utils/sandboxjs.py:NodeJSEngine.exec_js_process", "src/cwl_utils/sandboxjs.py:NodeJSEngine.eval"]}
{"id": "C66", "title": "Source text handed to the JavaScript engine", "statement": "An expression in function-body form is run as the body of a function, any other expression is returned as one parenthesised expression, and the library code is placed before it unchanged.", "quantifier": "for every expression and library text", "why_tests_cant": "Texts are unbounded.", "anchors": ["src/cwl_utils/sandboxjs.py:code_fragment_to_js"]}
{"id": "C67", "title": "Array shorthand keeps its number of levels", "statement": "Sanitising a schema field whose type is written with array shorthand keeps the number of array levels, with and without the optional mark.", "quantifier": "for every base type and number of levels", "why_tests_cant": "The number of levels is unbounded; tests can try a few.", "anchors": ["src/cwl_utils/utils.py:sanitise_schema_field"]}
{"id": "C68", "title": "Inlining does not depend on what was packed before", "statement": "Inlining the same types a second time in the same interpreter gives the same result, or the same error, except for the names given to the copies.", "quantifier": "for every type table, type expression and pair of interpreter states (histories)", "why_tests_cant": "The inliner has module-level state; a test sees one history.", "anchors": ["src/cwl_utils/schemadef.py:_inline_type", "src/cwl_utils/schemadef.py:_inline_type_name_uniq_id"]}
{"id": "C69", "title": "Inlining finishes", "statement": "Inlining ends with a result or an error for every table of valid type definitions, recursive ones included.", "quantifier": "for every type table and type expression", "why_tests_cant": "Non-termination and recursion depth cannot be exhausted by examples.", "anchors": ["src/cwl_utils/schemadef.py:_inline_type"]}
{"id": "C70", "title": "A packed workflow is self-contained", "statement": "After packing, the run of every step, at every nesting depth, is an embedded process, never a reference to a file.", "quantifier": "for every workflow document, file store and nesting depth", "why_tests_cant": "Nesting depth and file stores are unbounded.", "anchors": ["src/cwl_utils/pack.py:pack_process", "src/cwl_utils/pack.py:resolve_steps"]}
{"id": "C71", "title": "Type comparison ignores extra keys", "statement": "Whether a type can be assigned to another does not depend on keys that carry no type information, such as inputBinding, doc or name.", "quantifier": "all pairs of types and all ways of changing the extra keys at any depth", "why_tests_cant": "The nesting of types is unbounded and extra keys may occur at every level.", "anchors": ["src/cwl_utils/parser/utils.py:can_assign_src_to_sink", "src/cwl_utils/parser/utils.py:_compare_records"]}
{"id": "C72", "title": "A step input has the type of the parameter it feeds", "statement": "The type the checker uses for a step input is the type of the parameter with the same name of the process the step runs, wherever that process is written.", "quantifier": "all steps and processes", "why_tests_cant": "Tests can only try a few documents; identifiers depend on where the process is written.", "anchors": ["src/cwl_utils/parser/cwl_v1_2_utils.py:type_for_step_input"]}
{"id": "C73", "title": "Sources are resolved to exactly the parameters they name", "statement": "Looking up sources yields exactly the workflow inputs and step outputs they name, with the scatter setting of the step, and every unknown source is reported.", "quantifier": "all workflows, parents and lists of sources", "why_tests_cant": "The set of workflows is unbounded; an omitted or extra parameter silently changes types.", "anchors": ["src/cwl_utils/parser/utils.py:param_for_source_id"]}
{"id": "C74", "title": "The static checkers of the versions agree", "statement": "A workflow that uses no feature of v1.2 gets the same warnings and exceptions from the static checker whichever version it declares.", "quantifier": "all workflows, types and links", "why_tests_cant": "The versions have separate copies of the checker; tests can only compare a few documents.", "anchors": ["src/cwl_utils/parser/cwl_v1_0_utils.py:check_all_types", "src/cwl_utils/parser/cwl_v1_2_utils.py:check_all_types"]}
{"id": "C75", "title": "The checker works with the right types", "statement": "For every workflow input, workflow output, step input and step output the static checker uses the type that belongs to it, no other parameter replaces it.", "quantifier": "all workflows with distinct identifiers", "why_tests_cant": "The tables are merged from several places; the number of parameters is unbounded.", "anchors": ["src/cwl_utils/parser/utils.py:static_checker"]}
{"id": "C76", "title": "A step names the file its process was written to", "statement": "After splitting, a step that ran the packed process #x refers to the very file that process was written to.", "quantifier": "for every process identifier, document and step position", "why_tests_cant": "Samples use a handful of names; the file name is computed in two places.", "anchors": ["src/cwl_utils/graph_split.py:graph_split", "src/cwl_utils/graph_split.py:rewrite"]}
{"id": "C77", "title": "Different processes are split into different files", "statement": "Two processes of one packed document with different identifiers are never written to the same file.", "quantifier": "for every pair of identifiers", "why_tests_cant": "Collisions need specially related names.", "anchors": ["src/cwl_utils/graph_split.py:graph_split"]}
{"id": "C78", "title": "Every external type reaches its type file", "statement": "Each type of a SchemaDefRequirement that belongs to an external file is written to that file exactly once, under its short name and with its content, and the file can be read back.", "quantifier": "for every list of types", "why_tests_cant": "Unbounded lists of types per file.", "anchors": ["src/cwl_utils/graph_split.py:rewrite_schemadef", "src/cwl_utils/graph_split.py:rewrite_types"]}
{"id": "C79", "title": "The result of splitting does not depend on set order", "statement": "The imported type files are kept in a set; the split document is the same for every iteration order of that set.", "quantifier": "for every set of file names and every document", "why_tests_cant": "The order of a set of strings changes with the hash seed of the process.", "anchors": ["src/cwl_utils/graph_split.py:graph_split", "src/cwl_utils/graph_split.py:rewrite_types"]}
{"id": "C80", "title": "Type references are redirected to the type file", "statement": "At any position of a split document, a reference to a type of an imported file names that file and the type.", "quantifier": "for every document and position", "why_tests_cant": "Positions are unbounded.", "anchors": ["src/cwl_utils/graph_split.py:rewrite_types", "src/cwl_utils/graph_split.py:graph_split"]}
{"id": "C81", "title": "Splitting accepts every packed document", "statement": "Splitting a valid packed document never raises an exception.", "quantifier": "for every valid packed document", "why_tests_cant": "Valid documents are unbounded.", "anchors": ["src/cwl_utils/graph_split.py:rewrite", "src/cwl_utils/graph_split.py:rewrite_id", "src/cwl_utils/graph_split.py:graph_split"]}
{"id": "C82", "title": "Text contents read back", "statement": "Reading the contents of a UTF-8 file as text gives the text (v1.2, at most 64 KiB) or its beginning (v1.0, v1.1); a file that is no UTF-8 raises a decoding error.", "quantifier": "for every text and every byte content", "why_tests_cant": "The cut can fall on any byte of any character.", "anchors": ["src/cwl_utils/parser/cwl_v1_0_utils.py:content_limit_respected_read", "src/cwl_utils/parser/cwl_v1_1_utils.py:content_limit_respected_read", "src/cwl_utils/parser/cwl_v1_2_utils.py:content_limit_respected_read"]}
{"id": "C83", "title": "Made-up stream names differ", "statement": "If a tool names neither its stdout nor its stderr and uses both shortcuts, the two streams are captured in different files.", "quantifier": "for every command line tool", "why_tests_cant": "The names are hashes of intermediate states of the tool.", "anchors": ["src/cwl_utils/parser/cwl_v1_2_utils.py:convert_stdstreams_to_files"]}
{"id": "C84", "title": "Loads of a parsed packed document are independent", "statement": "Loading one entry of an already parsed packed document does not change the result of loading any entry of it afterwards.", "quantifier": "for every document, every pair of entries and every parser", "why_tests_cant": "Sequences of loads over arbitrary documents.", "anchors": ["src/cwl_utils/parser/__init__.py:load_document_by_yaml", "src/cwl_utils/parser/__init__.py:_get_id_from_graph"]}
{"id": "C85", "title": "docker-extract handles every image once", "statement": "A successful run returns every extracted requirement in order and, with docker, has run exactly one pull and, with a directory, one save command per image in this order; singularity without directory is refused before anything is run.", "quantifier": "all documents, arguments and behaviours of the external commands", "why_tests_cant": "Documents, images and outcomes of the commands are unbounded; the tests extract from a few documents and only where the container engine is installed.", "anchors": ["src/cwl_utils/docker_extract.py:run", "src/cwl_utils/image_puller.py:DockerImagePuller.save_docker_image"]}
{"id": "C86", "title": "Singularity version output is parsed", "statement": "The output `<flavour> version <n.n...>`, with white space around it, is parsed to exactly this flavour and these numbers.", "quantifier": "all flavours on one line, all lists of version numbers, all surrounding white space", "why_tests_cant": "Flavours, numbers and white space are unbounded; tests can only try a few outputs.", "anchors": ["src/cwl_utils/singularity.py:get_version"]}
{"id": "C87", "title": "Map loading keeps keys and order", "statement": "Loading a map with _MapLoader succeeds exactly if each value loads; the result has the same keys in the same order, each with its own loaded value. Errors of several values are all collected before the loading is refused.", "quantifier": "for all maps, all value loaders and all import and include results", "why_tests_cant": "Tests can only load a few maps; a dropped, swapped or doubly loaded entry needs all maps and all loaders.", "anchors": ["src/cwl_utils/parser/cwl_v1_2.py:144-181", "src/cwl_utils/parser/cwl_v1_2.py:824-848"]}
{"id": "C88", "title": "Primitive, Any and enum loaders accept exactly their type", "statement": "A primitive loader returns its argument unchanged if it has the declared type and otherwise refuses it; Any refuses only null; an enum accepts exactly its symbols.", "quantifier": "for all values and all primitive loaders", "why_tests_cant": "Tests can only try some values; an accepted value of a neighbouring type, such as a boolean for an integer, goes unnoticed.", "anchors": ["src/cwl_utils/parser/cwl_v1_2.py:54-85", "src/cwl_utils/parser/cwl_v1_2.py:184-206", "src/cwl_utils/parser/cwl_v1_2.py:27453-27458"]}
{"id": "C89", "title": "Requirements and hints in map form need mappings", "statement": "In the map form of requirements and hints each entry becomes an object with its key as class; since there is no predicate field, a value that is not a mapping is refused.", "quantifier": "for all maps", "why_tests_cant": "The values of the entries are unbounded; tests can try a few.", "anchors": ["src/cwl_utils/parser/cwl_v1_2.py:592-628", "src/cwl_utils/parser/cwl_v1_2.py:28285-28345"]}
{"id": "C90", "title": "Dependency list has one entry per definition", "statement": "The list of dependencies collected for the properties of a generated schema contains every reachable definition once.", "quantifier": "for all definitions and all properties", "why_tests_cant": "The result is only used for membership tests, so that duplicates are invisible in the output; the exponential growth appears only with many chained definitions.", "anchors": ["src/cwl_utils/inputs_schema_gen.py:get_property_dependencies"]}
{"id": "C91", "title": "Schema generation succeeds", "statement": "A JSON schema is generated for every process whose types are built from the CWL types and the types defined in its imports and SchemaDefRequirement.", "quantifier": "for all processes", "why_tests_cant": "The tests cover six tools with one job each and one mismatch; which combinations of definitions make the generation fail needs all of them.", "anchors": ["src/cwl_utils/inputs_schema_gen.py:cwl_to_jsonschema", "src/cwl_utils/inputs_schema_gen.py:generate_definition_from_schema"]}
{"id": "C92", "title": "Value of an identifier", "statement": "get_value_from_uri gives the part of the fragment after its last slash, and the whole fragment when it has no slash.", "quantifier": "for all fragments", "why_tests_cant": "Identifiers nest without bound.", "anchors": ["src/cwl_utils/utils.py:get_value_from_uri"]}
{"id": "C93", "title": "Inlined types mean what was written", "statement": "Inlining a type gives the type with each reference replaced by the definition that it names, references inside a definition being looked up from the file of that definition, everything else unchanged, at every depth; the same holds for each port.", "quantifier": "for every type expression, port list, file store and table on which inlining finishes", "why_tests_cant": "Definitions refer to each other across files without bound.", "anchors": ["src/cwl_utils/schemadef.py:_inline_type", "src/cwl_utils/schemadef.py:inline_types"]}
{"id": "C94", "title": "The type table holds exactly the declared types", "statement": "Every entry of the table of user-defined types is a definition that a requirement declares, linked or written there, under the key formed by its file and its name; and every declared definition has an entry. The requirements keep their order, and exactly the links to a SchemaDefRequirement are replaced with what they link to.", "quantifier": "for every requirement list (completeness: with at most one SchemaDefRequirement) and file store", "why_tests_cant": "Requirements, files and definitions are unbounded.", "anchors": ["src/cwl_utils/schemadef.py:build_user_defined_type_dict"]}
{"id": "C95", "title": "A packed step holds the process it ran", "statement": "In a packed workflow there is one step for each step of the document, in order and with the same identifier; a linked process is packed relative to its own file and with its own types, an embedded one relative to the workflow file and with the types known to the workflow.", "quantifier": "for every workflow, file store and enclosing type table on which packing finishes", "why_tests_cant": "Workflows nest across files without bound.", "anchors": ["src/cwl_utils/pack.py:pack_process", "src/cwl_utils/pack.py:resolve_steps"]}
{"id": "C96", "title": "Imported steps are packed", "statement": "A workflow with a step given as an import is packed as if the step stood there.", "quantifier": "for every workflow and file store", "why_tests_cant": "Steps and the documents they come from are unbounded; the documents that the tests pack have imports in types only.", "anchors": ["src/cwl_utils/pack.py:listify_everything", "src/cwl_utils/pack.py:resolve_imports"]}
{"id": "C97", "title": "An expression is found exactly when JavaScript is needed", "statement": "get_expression gives an expression exactly for the texts that cannot be evaluated without JavaScript; the expression it gives is ${return e;} for a text that is the single expression $(e), the text itself for ${b}, and it is always one complete expression.", "quantifier": "for every text, all mock inputs and every value of self", "why_tests_cant": "Texts and their nesting are unbounded; the error paths depend on evaluation.", "anchors": ["src/cwl_utils/cwl_v1_2_expression_refactor.py:get_expression"]}
{"id": "C98", "title": "A generated ExpressionTool computes the expression", "statement": "The expression of a generated ExpressionTool returns an object whose field result is the value of the function body of the given expression, with self set from the input of that name.", "quantifier": "for every expression ${b} and every name of self", "why_tests_cant": "Code texts are unbounded.", "anchors": ["src/cwl_utils/cwl_v1_2_expression_refactor.py:generate_etool_from_expr", "src/cwl_utils/cwl_v1_2_expression_refactor.py:generate_etool_from_expr2"]}
{"id": "C99", "title": "The script of a converted tool is the program meant", "statement": "After evaluation of the embedded references the script expression.js is: the inputs and runtime values, the library, the code as the body of a function, and the output of its value.", "quantifier": "for every expression, library, inputs, runtime values and both escaping rules", "why_tests_cant": "Code texts with backslashes, dollar signs and comments are unbounded.", "anchors": ["src/cwl_utils/cwl_v1_2_expression_refactor.py:etool_to_cltool"]}
{"id": "C100", "title": "Replacing an ExpressionTool keeps its code", "statement": "traverse (a whole tool) and traverse_workflow (a tool of a step) put a CommandLineTool in place of an ExpressionTool, whose script holds the library and the code of its expression.", "quantifier": "for every ExpressionTool with an expression of the form $(e) or ${b}", "why_tests_cant": "Expressions and libraries are unbounded.", "anchors": ["src/cwl_utils/cwl_v1_2_expression_refactor.py:traverse", "src/cwl_utils/cwl_v1_2_expression_refactor.py:traverse_workflow", "src/cwl_utils/cwl_v1_2_expression_refactor.py:etool_to_cltool"]}
{"id": "C101", "title": "Environment variables of a workflow reach its steps", "statement": "Expressions in the EnvVarRequirement of a workflow become generated steps; each step that has no such requirement of its own gets the requirement with references to connected inputs in place of the expressions and all else unchanged; the workflow loses it. Without expressions nothing happens. Hints are converted too.", "quantifier": "for every workflow with one EnvVarRequirement at any place", "why_tests_cant": "Numbers of definitions, requirements and steps are unbounded.", "anchors": ["src/cwl_utils/cwl_v1_2_expression_refactor.py:process_workflow_reqs_and_hints"]}
{"id": "C102", "title": "Resources of a workflow reach its steps", "statement": "Expressions in the ResourceRequirement of a workflow become generated steps; each step gets the requirement with references to connected inputs in place of the expressions and all other attributes unchanged; the workflow loses it. Without expressions nothing happens.", "quantifier": "for every workflow with one ResourceRequirement at any place", "why_tests_cant": "Numbers of requirements and steps are unbounded.", "anchors": ["src/cwl_utils/cwl_v1_2_expression_refactor.py:process_workflow_reqs_and_hints"]}
{"id": "C103", "title": "Listings of a workflow reach its steps", "statement": "Expressions in the InitialWorkDirRequirement of a workflow become generated steps; each step gets the requirement with complete references to inputs that are connected to them.", "quantifier": "for every workflow with one InitialWorkDirRequirement at any place, with any listing", "why_tests_cant": "Listings, inputs and expressions are unbounded; the tests of the refactoring convert a few fixed documents and check that this returns, the exit code, or that an error is raised.", "anchors": ["src/cwl_utils/cwl_v1_2_expression_refactor.py:process_workflow_reqs_and_hints"]}
{"id": "C104", "title": "Other requirements of a workflow stay", "statement": "Requirements of other classes stay in the same order; InlineJavascriptRequirement and StepInputExpressionRequirement are removed when no longer needed; a workflow whose requirements need no JavaScript is unchanged.", "quantifier": "for every workflow", "why_tests_cant": "Requirement lists are unbounded.", "anchors": ["src/cwl_utils/cwl_v1_2_expression_refactor.py:process_workflow_reqs_and_hints", "src/cwl_utils/cwl_v1_2_expression_refactor.py:traverse_workflow"]}
{"id": "C105", "title": "A linked file gives its own contents", "statement": "load_linked_file gives the text (for $include) or the parsed document (for $import) of the file that the link, followed through the symbolic links of GitHub, leads to, with its address; the text of a local file is never taken for a symbolic link; a failed download or a malformed document ends the program.", "quantifier": "for every file system, every network, every YAML parser, every base address and link", "why_tests_cant": "Chains of symbolic links are unbounded; tests can try a few, and need a network for it.", "anchors": ["src/cwl_utils/utils.py:load_linked_file", "src/cwl_utils/utils.py:_is_github_symbolic_link"]}
{"id": "C106", "title": "Following symbolic links comes to an end", "statement": "load_linked_file finishes for every link, and if the chain of symbolic links has an end its contents are given.", "quantifier": "for every network", "why_tests_cant": "A cycle needs remote files that name each other.", "anchors": ["src/cwl_utils/utils.py:load_linked_file"]}
{"id": "C107", "title": "A link is resolved against its document", "statement": "resolved_path gives the address itself for an absolute link, and otherwise the address of the link joined with that of the document it is in.", "quantifier": "for every base address and every link", "why_tests_cant": "Addresses are unbounded; the tests have one base and one link.", "anchors": ["src/cwl_utils/utils.py:resolved_path"]}
{"id": "C108", "title": "Converted valueFrom expressions keep the input object of a step", "statement": "After traverse_step has replaced the valueFrom expressions of step inputs by generated steps, the final input object of the step (of each instance, if it is scattered) is the same as before, whenever the generated tools compute their expressions.", "quantifier": "for every step, every workflow state, every way of merging links and every evaluation of expressions", "why_tests_cant": "Steps, inputs and expressions are unbounded; the tests of the refactoring convert a few fixed documents and check that this returns, the exit code, or that an error is raised.", "anchors": ["src/cwl_utils/cwl_v1_2_expression_refactor.py:traverse_step", "src/cwl_utils/cwl_v1_2_expression_refactor.py:replace_step_valueFrom_expr_with_etool", "src/cwl_utils/cwl_v1_2_expression_refactor.py:workflow_step_to_WorkflowInputParameters"]}
{"id": "C109", "title": "A converted condition keeps its value", "statement": "After traverse_step has replaced the when expression of a step by a generated step, the condition of the step (of each instance, if it is scattered) has the value of the original condition on the final input object.", "quantifier": "for every step, every workflow state and every evaluation of expressions", "why_tests_cant": "Steps, inputs and expressions are unbounded.", "anchors": ["src/cwl_utils/cwl_v1_2_expression_refactor.py:traverse_step", "src/cwl_utils/cwl_v1_2_expression_refactor.py:replace_step_when_expr_with_etool"]}
{"id": "C110", "title": "Converted expressions of a tool keep their values", "statement": "After traverse_CommandLineTool has replaced the expressions in arguments, stdout and stderr of the tool of a step by references to new inputs, which are linked to generated steps, each of them has the value of the original expression on the input object of the original tool, and all other fields of that object are unchanged, whenever the generated tools compute their expressions.", "quantifier": "for every step, every tool, every workflow state, every way of merging links and every evaluation of expressions", "why_tests_cant": "Tools, inputs and expressions are unbounded; the tests of the refactoring convert a few fixed documents and check that this returns, the exit code, or that an error is raised.", "anchors": ["src/cwl_utils/cwl_v1_2_expression_refactor.py:traverse_CommandLineTool", "src/cwl_utils/cwl_v1_2_expression_refactor.py:replace_step_clt_expr_with_etool", "src/cwl_utils/cwl_v1_2_expression_refactor.py:cltool_inputs_to_etool_inputs"]}
{"id": "C111", "title": "A converted tool needs no JavaScript", "statement": "Where traverse_CommandLineTool removes InlineJavascriptRequirement from a tool, no text of the tool needs JavaScript any more; otherwise its requirements are unchanged; nothing of the tool is changed apart from converted texts, new inputs and that requirement.", "quantifier": "for every step and every tool", "why_tests_cant": "Tools and their expressions are unbounded; the tests of the refactoring convert a few fixed documents and check that this returns, the exit code, or that an error is raised, and do not look at the requirements of the result.", "anchors": ["src/cwl_utils/cwl_v1_2_expression_refactor.py:traverse_CommandLineTool", "src/cwl_utils/cwl_v1_2_expression_refactor.py:replace_step_clt_expr_with_etool", "src/cwl_utils/cwl_v1_2_expression_refactor.py:cltool_inputs_to_etool_inputs", "src/cwl_utils/expression_refactor.py:remove_JSReq"]}
{"id": "C112", "title": "Converted expressions keep their library", "statement": "The steps that traverse_CommandLineTool generates evaluate their expressions with the expressionLib of the tool they are taken from.", "quantifier": "for every step and every tool with a library", "why_tests_cant": "The number and order of conversions before an expression is unbounded.", "anchors": ["src/cwl_utils/cwl_v1_2_expression_refactor.py:traverse_CommandLineTool", "src/cwl_utils/cwl_v1_2_expression_refactor.py:replace_step_clt_expr_with_etool", "src/cwl_utils/cwl_v1_2_expression_refactor.py:cltool_inputs_to_etool_inputs", "src/cwl_utils/expression_refactor.py:find_expressionLib"]}
{"id": "C113", "title": "A converted outputEval keeps the outputs of the tool", "statement": "When traverse_CommandLineTool moves the outputEval expression of an output into a step of a new workflow that takes the place of the tool, that workflow has the outputs of the tool with the same values, on every input object that the step is run with, of every instance if it is scattered, and it can be run whenever the tool can.", "quantifier": "for every step, every tool, every workflow state, every way of merging links, every evaluation of expressions and every way of finding files", "why_tests_cant": "Tools, inputs, expressions and files are unbounded; the tests of the refactoring convert a few fixed documents and check that this returns, the exit code, or that an error is raised.", "anchors": ["src/cwl_utils/cwl_v1_2_expression_refactor.py:traverse_CommandLineTool", "src/cwl_utils/cwl_v1_2_expression_refactor.py:cltool_inputs_to_etool_inputs"]}
{"id": "C114", "title": "A link refers to what it names", "statement": "A reference to a parameter or to the output of a step (source, outputSource), written inside of a declaration at some depth and resolved that many levels up, is exactly the identifier that the parser gives to what is declared under that name.", "quantifier": "for every document address, every fetcher, every vocabulary, every nesting and every name", "why_tests_cant": "Names, nesting and addresses are unbounded texts, and so are vocabularies; the tests load a few documents with ordinary names.", "anchors": ["src/cwl_utils/parser/cwl_v1_2.py:_expand_url"]}
{"id": "C115", "title": "Different declarations have different identifiers", "statement": "Two declarations with different names, or inside of different declarations of the same document, are given different identifiers by the parser.", "quantifier": "for every document address, every fetcher, every vocabulary, every nesting and every name", "why_tests_cant": "Names, nesting and addresses are unbounded texts, and so are vocabularies; the tests load a few documents with ordinary names.", "anchors": ["src/cwl_utils/parser/cwl_v1_2.py:_expand_url"]}
{"id": "C116", "title": "A type name refers to the type of the process", "statement": "A type name that is used in a parameter of a process, or in a field of its record, is resolved to the identifier of the type that is declared under that name in that process.", "quantifier": "for every document address, every fetcher, every vocabulary, every nesting and every name", "why_tests_cant": "Names, nesting and addresses are unbounded texts, and so are vocabularies; the tests load a few documents with ordinary names.", "anchors": ["src/cwl_utils/parser/cwl_v1_2.py:_expand_url"]}
{"id": "C117", "title": "Resolved addresses stay", "statement": "An identifier or reference that was resolved once (against an address whose scheme the fetcher supports, with a vocabulary that has no scheme of an address as a term, and without tabs and line breaks) is not changed when it is resolved again, against any other address and as a reference of any kind.", "quantifier": "for every document address, every fetcher, every vocabulary, every nesting and every name, and for every text without tabs and line breaks", "why_tests_cant": "Names, nesting and addresses are unbounded texts, and so are vocabularies; the tests load a few documents with ordinary names.", "anchors": ["src/cwl_utils/parser/cwl_v1_2.py:_expand_url"]}
{"id": "C118", "title": "Terms of the vocabulary are recognised, unknown ones rejected", "statement": "A term of the vocabulary, its full address and its address with a prefix are all resolved to the term; a name that is neither a term nor an address is rejected.", "quantifier": "for every document address, every fetcher, every vocabulary, every nesting and every name", "why_tests_cant": "Names, nesting and addresses are unbounded texts, and so are vocabularies; the tests load a few documents with ordinary names.", "anchors": ["src/cwl_utils/parser/cwl_v1_2.py:_expand_url"]}
{"id": "C119", "title": "Undefined references are rejected", "statement": "When links are checked, a reference is accepted by the loader exactly if the fetcher finds its target or cannot tell, whether it is a single reference or in a list.", "quantifier": "for every document address, every fetcher, every vocabulary, every nesting and every name, and for every answer of the fetcher", "why_tests_cant": "Names, nesting and addresses are unbounded texts, and so are vocabularies; the tests load a few documents with ordinary names.", "anchors": ["src/cwl_utils/parser/cwl_v1_2.py:_expand_url", "src/cwl_utils/parser/cwl_v1_2.py:_URILoader"]}
{"id": "C120", "title": "The programs for pickValue compute it", "statement": "The program that is generated for each pickValue (first_non_null, the_only_non_null, all_non_null) returns, for every array, the value that CWL defines for that pickValue, and throws if and only if there is none; the replacement CommandLineTool with the same program writes it as the result.", "quantifier": "for every array of values of any length, and every value of the elements", "why_tests_cant": "Arrays, their elements and the links of an output are unbounded; the tests convert a few workflows and mostly check only that the conversion returns.", "anchors": ["src/cwl_utils/cwl_v1_2_expression_refactor.py:process_workflow_inputs_and_outputs", "src/cwl_utils/cwl_v1_2_expression_refactor.py:generate_etool_from_expr", "src/cwl_utils/cwl_v1_2_expression_refactor.py:etool_to_cltool"]}
{"id": "C121", "title": "A converted pickValue keeps the value of the workflow output", "statement": "After the conversion every workflow output has the value it had before: the value that its pickValue gives for its merged links; and the converted workflow has a run if all outputs had values.", "quantifier": "for every workflow, every number of outputs and sources, every linkMerge, all values of the sources", "why_tests_cant": "Arrays, their elements and the links of an output are unbounded; the tests convert a few workflows and mostly check only that the conversion returns.", "anchors": ["src/cwl_utils/cwl_v1_2_expression_refactor.py:process_workflow_inputs_and_outputs", "src/cwl_utils/cwl_v1_2_expression_refactor.py:replace_expr_with_etool"]}
{"id": "C122", "title": "The input of a pickValue step takes what the pickValue is for", "statement": "The input of a step generated for a pickValue has a type that accepts every value of the type of the sources, and with an array type also arrays with null elements.", "quantifier": "for every workflow, every type of a source, every scatter, every number of sources", "why_tests_cant": "Arrays, their elements and the links of an output are unbounded; the tests convert a few workflows and mostly check only that the conversion returns.", "anchors": ["src/cwl_utils/cwl_v1_2_expression_refactor.py:process_workflow_inputs_and_outputs"]}
{"id": "C123", "title": "The conversion of pickValue leaves declared types unchanged", "statement": "The conversion of a pickValue does not change the types that are declared for inputs of the workflow and for outputs of the tools it runs.", "quantifier": "for every workflow, every declared type and every number of outputs", "why_tests_cant": "Arrays, their elements and the links of an output are unbounded; the tests convert a few workflows and mostly check only that the conversion returns.", "anchors": ["src/cwl_utils/cwl_v1_2_expression_refactor.py:process_workflow_inputs_and_outputs"]}
{"id": "C124", "title": "References written by the conversion are read again as the same", "statement": "The sources written for generated steps, saved and read again by the parser, resolve to the parameters and step outputs that they stand for.", "quantifier": "for every document address, every name of the workflow, its steps and parameters", "why_tests_cant": "Names and nesting are unbounded; the tests of the refactoring convert a few fixed documents and check that this returns, the exit code, or that an error is raised, and do not read the result again.", "anchors": ["src/cwl_utils/cwl_v1_2_expression_refactor.py:replace_expr_with_etool", "src/cwl_utils/cwl_v1_2_expression_refactor.py:process_workflow_inputs_and_outputs", "src/cwl_utils/parser/cwl_v1_2.py:_expand_url"]}
{"id": "C125", "title": "Expressions in workflow inputs are rejected", "statement": "A workflow with a JavaScript expression in the format or the secondaryFiles of an input, which the conversion cannot replace, is rejected with a WorkflowException, and no other is rejected for its inputs.", "quantifier": "for every list of inputs, every text of a format or a secondaryFiles entry, every number of entries", "why_tests_cant": "Inputs, entries and texts are unbounded; the tests have three workflows of each version that are rejected.", "anchors": ["src/cwl_utils/cwl_v1_2_expression_refactor.py:process_workflow_inputs_and_outputs"]}
{"id": "C126", "title": "An import stands for the content of the imported document", "statement": "Loading a document gives what one gets when every $import in it is replaced by the content of the document it names, read as what its place asks for and with the base of that document, whatever was loaded before; errors in imported documents are errors of the loading, and cycles of imports are reported.", "quantifier": "for every set of documents, every nesting of imports, every loader, every index of documents loaded before", "why_tests_cant": "Documents, their nesting and the documents they import are unbounded, and so is what was loaded before; tests can load a few files in a few orders.", "anchors": ["src/cwl_utils/parser/cwl_v1_0.py:_document_load_by_url", "src/cwl_utils/parser/cwl_v1_0.py:_document_load", "src/cwl_utils/parser/cwl_v1_0.py:_load_field", "src/cwl_utils/parser/cwl_v1_1.py:_document_load_by_url", "src/cwl_utils/parser/cwl_v1_1.py:_document_load", "src/cwl_utils/parser/cwl_v1_1.py:_load_field", "src/cwl_utils/parser/cwl_v1_2.py:_document_load_by_url", "src/cwl_utils/parser/cwl_v1_2.py:_document_load", "src/cwl_utils/parser/cwl_v1_2.py:_load_field"]}
{"id": "C127", "title": "An import with a fragment gives the named object", "statement": "The import of a URL with a fragment gives the object of that document whose identifier is the URL, or a validation error if there is none.", "quantifier": "for every document, every name, every loader, every index of documents loaded before", "why_tests_cant": "Documents, their nesting and the documents they import are unbounded, and so is what was loaded before; tests can load a few files in a few orders.", "anchors": ["src/cwl_utils/parser/cwl_v1_0.py:_document_load_by_url", "src/cwl_utils/parser/cwl_v1_0.py:_document_load", "src/cwl_utils/parser/cwl_v1_0.py:_load_field", "src/cwl_utils/parser/cwl_v1_1.py:_document_load_by_url", "src/cwl_utils/parser/cwl_v1_1.py:_document_load", "src/cwl_utils/parser/cwl_v1_1.py:_load_field", "src/cwl_utils/parser/cwl_v1_2.py:_document_load_by_url", "src/cwl_utils/parser/cwl_v1_2.py:_document_load", "src/cwl_utils/parser/cwl_v1_2.py:_load_field"]}
{"id": "C128", "title": "A document is read once", "statement": "After a document was imported successfully, and whatever is loaded afterwards with the same index, further imports of the URL are answered from the index, without reading the document and without a change of the index, with the same answer whatever the document is then.", "quantifier": "for every document, every sequence of other loadings between the imports, every loader of the later import, every later content of the documents", "why_tests_cant": "Documents, their nesting and the documents they import are unbounded, and so is what was loaded before; tests can load a few files in a few orders.", "anchors": ["src/cwl_utils/parser/cwl_v1_0.py:_document_load_by_url", "src/cwl_utils/parser/cwl_v1_0.py:_document_load", "src/cwl_utils/parser/cwl_v1_0.py:_load_field", "src/cwl_utils/parser/cwl_v1_1.py:_document_load_by_url", "src/cwl_utils/parser/cwl_v1_1.py:_document_load", "src/cwl_utils/parser/cwl_v1_1.py:_load_field", "src/cwl_utils/parser/cwl_v1_2.py:_document_load_by_url", "src/cwl_utils/parser/cwl_v1_2.py:_document_load", "src/cwl_utils/parser/cwl_v1_2.py:_load_field"]}
{"id": "C129", "title": "The identifier of an imported object", "statement": "An imported object whose class has identifiers has the identifier that it gives itself, resolved against its own document; otherwise that of the place of the import (the key of a mapping), and otherwise the URL of its document.", "quantifier": "for every document, every class, every loader that leads to the class", "why_tests_cant": "Documents, their nesting and the documents they import are unbounded, and so is what was loaded before; tests can load a few files in a few orders.", "anchors": ["src/cwl_utils/parser/cwl_v1_0.py:_document_load_by_url", "src/cwl_utils/parser/cwl_v1_0.py:_document_load", "src/cwl_utils/parser/cwl_v1_0.py:_load_field", "src/cwl_utils/parser/cwl_v1_1.py:_document_load_by_url", "src/cwl_utils/parser/cwl_v1_1.py:_document_load", "src/cwl_utils/parser/cwl_v1_1.py:_load_field", "src/cwl_utils/parser/cwl_v1_2.py:_document_load_by_url", "src/cwl_utils/parser/cwl_v1_2.py:_document_load", "src/cwl_utils/parser/cwl_v1_2.py:_load_field"]}
{"id": "C130", "title": "Resources of a step keep their values", "statement": "When expressions are refactored, each attribute of the ResourceRequirement of the process of a step with an expression becomes a reference to a new input whose value is that of the expression on the input object of the process; the other attributes stay.", "quantifier": "for every process and step, every list of requirements, all inputs and values of sources, every expression", "why_tests_cant": "Requirements, their number and order, listings, inputs and expressions are unbounded; the tests of the refactoring convert a few fixed documents and check that this returns, the exit code, or that an error is raised.", "anchors": ["src/cwl_utils/cwl_v1_2_expression_refactor.py:process_level_reqs", "src/cwl_utils/cwl_v1_2_expression_refactor.py:replace_clt_hintreq_expr_with_etool", "src/cwl_utils/expression_refactor.py:add_input_to_process"]}
{"id": "C131", "title": "Environment variables of a step keep their values", "statement": "When expressions are refactored, each environment variable of the process of a step has the same value as before.", "quantifier": "for every process and step, every list of requirements, all environment variables and expressions", "why_tests_cant": "Requirements, their number and order, listings, inputs and expressions are unbounded; the tests of the refactoring convert a few fixed documents and check that this returns, the exit code, or that an error is raised.", "anchors": ["src/cwl_utils/cwl_v1_2_expression_refactor.py:process_level_reqs", "src/cwl_utils/cwl_v1_2_expression_refactor.py:replace_clt_hintreq_expr_with_etool", "src/cwl_utils/expression_refactor.py:add_input_to_process"]}
{"id": "C132", "title": "Listings of a step keep their values", "statement": "When expressions are refactored, each entry of the listing of the InitialWorkDirRequirement of the process of a step with an expression becomes a reference to a new input whose value is that of the expression; names and entries without expressions stay.", "quantifier": "for every process and step, every listing, all inputs and values of sources, every expression", "why_tests_cant": "Requirements, their number and order, listings, inputs and expressions are unbounded; the tests of the refactoring convert a few fixed documents and check that this returns, the exit code, or that an error is raised.", "anchors": ["src/cwl_utils/cwl_v1_2_expression_refactor.py:process_level_reqs", "src/cwl_utils/cwl_v1_2_expression_refactor.py:replace_clt_hintreq_expr_with_etool", "src/cwl_utils/expression_refactor.py:add_input_to_process"]}
{"id": "C133", "title": "The program for a Dirent stages the same file", "statement": "For a Dirent with a name and an entry with an expression, the generated program gives an object that is staged as the value of the entry would be: a text as a file of that name with that content, a File or Directory under that name.", "quantifier": "for every name, every entry, every input object", "why_tests_cant": "Requirements, their number and order, listings, inputs and expressions are unbounded; the tests of the refactoring convert a few fixed documents and check that this returns, the exit code, or that an error is raised.", "anchors": ["src/cwl_utils/cwl_v1_2_expression_refactor.py:process_level_reqs", "src/cwl_utils/cwl_v1_2_expression_refactor.py:replace_clt_hintreq_expr_with_etool", "src/cwl_utils/expression_refactor.py:add_input_to_process"]}
{"id": "C134", "title": "Refactoring of requirements leaves the rest alone", "statement": "Requirements of other classes stay as they are and in their places, none is added or removed; inputs of the step and of the process stay, in front of new ones, and their values are the same; without expressions nothing is changed, and something is reported as modified exactly if there is a generated step.", "quantifier": "for every process and step, every list of requirements, all inputs and values of sources", "why_tests_cant": "Requirements, their number and order, listings, inputs and expressions are unbounded; the tests of the refactoring convert a few fixed documents and check that this returns, the exit code, or that an error is raised.", "anchors": ["src/cwl_utils/cwl_v1_2_expression_refactor.py:process_level_reqs", "src/cwl_utils/cwl_v1_2_expression_refactor.py:replace_clt_hintreq_expr_with_etool", "src/cwl_utils/expression_refactor.py:add_input_to_process"]}
{"id": "C135", "title": "Converted bindings of inputs and globs are computed and used", "statement": "When the valueFrom of an inputBinding of a tool, or the glob of an output, needs JavaScript, traverse_CommandLineTool adds a step that computes the value that the text has in the tool (with self being the value of that input, for a valueFrom), a new input of the step leads to it, and the tool reads its value from the new input.", "quantifier": "for every step, every tool, every workflow state, every way of merging links and every evaluation of expressions", "why_tests_cant": "Tools, inputs and expressions are unbounded; the tests of the refactoring convert a few fixed documents and check that this returns, the exit code, or that an error is raised, not the values of the generated steps.", "anchors": ["src/cwl_utils/cwl_v1_2_expression_refactor.py:traverse_CommandLineTool", "src/cwl_utils/cwl_v1_2_expression_refactor.py:replace_step_clt_expr_with_etool"]}
{"id": "C136", "title": "The traversal of a workflow ends and converts each step once", "statement": "The loop of traverse_workflow over the steps, which grows while it runs, ends; if it succeeds, the result is the steps of the workflow, each converted once, then the generated steps, each left alone or (for conditions) converted once, then what these generated; the workflow counts as modified if and only if a step was generated. It succeeds whenever the expressions can be found.", "quantifier": "for every workflow and every outcome of the functions that are called for a step", "why_tests_cant": "The list is changed while it is iterated over and its length is unbounded; the tests of the refactoring convert a few fixed documents and check that this returns, the exit code, or that an error is raised.", "anchors": ["src/cwl_utils/cwl_v1_2_expression_refactor.py:traverse_workflow", "src/cwl_utils/cwl_v1_2_expression_refactor.py:traverse_step", "src/cwl_utils/expression_refactor.py:get_input_for_id"]}
{"id": "C137", "title": "A converted workflow computes what the workflow did", "statement": "With the valueFrom and when expressions of all its steps converted, a workflow gives the same values for the outputs of its steps: every assignment of values that agrees with the converted workflow agrees with the original one, and every one that agrees with the original one extends, by values for the generated steps only, to one that agrees with the converted workflow.", "quantifier": "for every workflow, every way of merging links, every evaluation of expressions and every meaning of the processes of the steps", "why_tests_cant": "Workflows and values are unbounded; the tests of the refactoring convert a few fixed documents and check that this returns, the exit code, or that an error is raised, and do not run the result.", "anchors": ["src/cwl_utils/cwl_v1_2_expression_refactor.py:traverse_workflow", "src/cwl_utils/cwl_v1_2_expression_refactor.py:traverse_step", "src/cwl_utils/cwl_v1_2_expression_refactor.py:replace_step_valueFrom_expr_with_etool", "src/cwl_utils/cwl_v1_2_expression_refactor.py:replace_step_when_expr_with_etool"]}
{"id": "C138", "title": "A tool put into a workflow by the expression refactoring runs as before", "statement": "For a CommandLineTool that is a document of its own, the workflow that traverse puts around it has the parameters of the tool (name, type, default and the other copied fields), gives for every job what the tool gives and is refused for the jobs for which the tool is; this also holds for the document that is written and read again, where the sources lead to the input and to the output of the step. The tool itself is returned if nothing was converted.", "quantifier": "for every tool, job, way of checking types and meaning of the tool; for every identifier of the document", "why_tests_cant": "Tools and jobs are unbounded; for tools on their own the tests of the refactoring check the exit code only.", "anchors": ["src/cwl_utils/cwl_v1_2_expression_refactor.py:traverse", "src/cwl_utils/cwl_v1_2_expression_refactor.py:expand_stream_shortcuts"]}
{"id": "C139", "title": "Mock inputs stand for the inputs", "statement": "The mock object with which expressions are looked for has each input of the process or step under its name, with a value of its type; the mock File is one that CWL allows. For a step the value follows the valueFrom, the default or the type of the source, and an input is left out only if its type cannot be found.", "quantifier": "for every process, step and type, and every outcome of looking up the type of a source", "why_tests_cant": "Types and processes are unbounded; tests can only try a few.", "anchors": ["src/cwl_utils/cwl_v1_2_expression_refactor.py:empty_inputs", "src/cwl_utils/cwl_v1_2_expression_refactor.py:example_input"]}
{"id": "C140", "title": "An input file is loaded as what it stands for", "statement": "Loading an input file gives the input object as the loader of its version reads it, whatever was loaded before; a reference gives the content of the document it names; a document that is neither a mapping nor a list is rejected with a ValidationException, as is an unknown version.", "quantifier": "for every document, reference, base, index of loaded documents and loader", "why_tests_cant": "Documents, references and what was loaded before are unbounded; tests can only try a few.", "anchors": ["src/cwl_utils/parser/cwl_v1_0_utils.py:_inputfile_load", "src/cwl_utils/parser/cwl_v1_1_utils.py:_inputfile_load", "src/cwl_utils/parser/cwl_v1_2_utils.py:_inputfile_load", "src/cwl_utils/parser/cwl_v1_2_utils.py:load_inputfile", "src/cwl_utils/parser/utils.py:load_inputfile_by_yaml"]}
{"id": "C141", "title": "Packing does not depend on the place of the files", "statement": "If files, with the links between them kept, are copied to other places, packing a copy gives the same document as packing the original: no place occurs in the packed document, and which names the user-defined types get does not depend on the places.", "quantifier": "for every family of files, every copy of it, every document, nesting and state of the names given to types", "why_tests_cant": "Documents, links and places are unbounded, and linked files pull in others; tests can only try a few.", "anchors": ["src/cwl_utils/pack.py:pack", "src/cwl_utils/pack.py:pack_process", "src/cwl_utils/pack.py:resolve_imports", "src/cwl_utils/pack.py:resolve_steps", "src/cwl_utils/pack.py:load_schemadefs", "src/cwl_utils/pack.py:resolve_schemadefs", "src/cwl_utils/schemadef.py:build_user_defined_type_dict", "src/cwl_utils/schemadef.py:inline_types"]}
{"id": "C142", "title": "Every document gets its normalized form", "statement": "For each document it is given, the normalizer produces a document with it and all it links to packed together, upgraded to v1.2 and, unless this is switched off, with expressions refactored; a document of an unsupported version ends the run with code -1, otherwise the code is 0.", "quantifier": "for every list of documents, files, upgrader and converter", "why_tests_cant": "Lists of documents and the files they link to are unbounded; tests can only try a few.", "anchors": ["src/cwl_utils/normalizer.py:run", "src/cwl_utils/pack.py:pack"]}
{"id": "C143", "title": "Nothing is changed without a report", "statement": "Each part of the conversion of expressions (of the outputs of a workflow, the inputs and conditions of its steps, the tools, the requirements of processes and of the workflow) reports that something was modified exactly if it generated a step; if it reports nothing, what it worked on is exactly as before.", "quantifier": "for every workflow, step, tool, list of requirements, and every outcome of the evaluation of expressions", "why_tests_cant": "The report decides whether the converted document is written at all; documents and expressions are unbounded, tests can only try a few.", "anchors": ["src/cwl_utils/cwl_v1_2_expression_refactor.py:process_workflow_inputs_and_outputs", "src/cwl_utils/cwl_v1_2_expression_refactor.py:process_workflow_reqs_and_hints", "src/cwl_utils/cwl_v1_2_expression_refactor.py:process_level_reqs", "src/cwl_utils/cwl_v1_2_expression_refactor.py:traverse_CommandLineTool", "src/cwl_utils/cwl_v1_2_expression_refactor.py:traverse_step", "src/cwl_utils/cwl_v1_2_expression_refactor.py:traverse_workflow", "src/cwl_utils/expression_refactor.py:refactor"]}
{"id": "C144", "title": "The conversion reaches every process", "statement": "Converting a document converts every tool that needs it and, if this is asked for, replaces every ExpressionTool, in the document and in all files it links to, at any depth, and keeps everything else; it ends, reports a modification exactly if there was something to convert, and fails only if a linked file cannot be loaded or is of an unknown version.", "quantifier": "for every document, tree of steps and set of linked files", "why_tests_cant": "Nesting and links are unbounded; tests can only try a few.", "anchors": ["src/cwl_utils/cwl_v1_2_expression_refactor.py:traverse", "src/cwl_utils/cwl_v1_2_expression_refactor.py:traverse_workflow", "src/cwl_utils/cwl_v1_2_expression_refactor.py:traverse_step", "src/cwl_utils/expression_refactor.py:load_step"]}
{"id": "C145", "title": "An object is loaded from exactly the documents of its class", "statement": "For every generated class of every version: a mapping is loaded exactly when it names the class (where the class is named), has every required field and an identifier where one is needed, every field in it is accepted by its loader, and every other key is an address or has a prefix. The object then has in every field the loaded value, relative to the identifier of the object, and keeps every other key as an extension field. If a document of the class is not loaded, the error names all of its mistakes and nothing else.", "quantifier": "for every class of the three versions, every mapping, base, root and behaviour of the loaders of the fields", "why_tests_cant": "There are 187 classes with up to 18 fields, and mistakes can be combined at will; tests can only try a few documents.", "anchors": ["src/cwl_utils/parser/cwl_v1_2.py:WorkflowStep.fromDoc", "src/cwl_utils/parser/cwl_v1_2.py:Dirent.fromDoc", "src/cwl_utils/parser/cwl_v1_2.py:CommandLineTool.fromDoc", "src/cwl_utils/parser/cwl_v1_2.py:ToolTimeLimit.fromDoc", "src/cwl_utils/parser/cwl_v1_2.py:_RecordLoader", "src/cwl_utils/parser/cwl_v1_1.py:WorkflowStep.fromDoc", "src/cwl_utils/parser/cwl_v1_0.py:WorkflowStep.fromDoc"]}
{"id": "C146", "title": "A saved object is read as the same object", "statement": "For every generated class of every version: saving writes exactly the fields that are set, the class, the identifier and the extension fields, and at the top of a document the namespaces and schemas; what is loaded from the result is the object that was saved.", "quantifier": "for every class of the three versions, every object that was loaded, and every base", "why_tests_cant": "Objects are unbounded and the fields are many; tests can only try a few documents.", "anchors": ["src/cwl_utils/parser/cwl_v1_2.py:WorkflowStep.save", "src/cwl_utils/parser/cwl_v1_2.py:Dirent.save", "src/cwl_utils/parser/cwl_v1_2.py:ToolTimeLimit.save", "src/cwl_utils/parser/cwl_v1_2.py:WorkflowStep.fromDoc", "src/cwl_utils/parser/cwl_v1_1.py:WorkflowStep.save", "src/cwl_utils/parser/cwl_v1_0.py:WorkflowStep.save"]}
{"id": "C147", "title": "Equality of loaded objects is an equivalence with hashes", "statement": "For every generated class of every version: objects are equal exactly when they are of the same class and all their fields are equal, so that equality is an equivalence also between classes and their subclasses; equal objects are the same and have equal hashes, and every object has a hash.", "quantifier": "for every two objects of the classes of the three versions", "why_tests_cant": "Pairs of objects are unbounded; tests can only try a few.", "anchors": ["src/cwl_utils/parser/cwl_v1_2.py:WorkflowStep.__eq__", "src/cwl_utils/parser/cwl_v1_2.py:WorkflowStep.__hash__", "src/cwl_utils/parser/cwl_v1_2.py:Dirent.__eq__", "src/cwl_utils/parser/cwl_v1_2.py:Dirent.__hash__", "src/cwl_utils/parser/cwl_v1_1.py:WorkflowStep.__eq__", "src/cwl_utils/parser/cwl_v1_0.py:WorkflowStep.__eq__"]}
{"id": "C148", "title": "Loading a document ends with an object or a validation error", "statement": "Whatever a document holds, each loader of the parsers of the three versions comes to an end, and the number of nested calls is at most proportional to the nesting of the document (though the loaders refer to each other in cycles). The result is a loaded value or a ValidationException; another exception comes only from the functions that resolve addresses, look for documents and read them, and a document cannot make these raise another one than ValidationException.", "quantifier": "for every document, every loader of the three parsers, every base, and every behaviour of the functions that resolve addresses and read other documents", "why_tests_cant": "Documents are unbounded and there are 792 loaders that call each other in cycles; tests can only try a few documents.", "anchors": ["src/cwl_utils/parser/cwl_v1_2.py:_ArrayLoader.load", "src/cwl_utils/parser/cwl_v1_2.py:_MapLoader.load", "src/cwl_utils/parser/cwl_v1_2.py:_RecordLoader.load", "src/cwl_utils/parser/cwl_v1_2.py:_UnionLoader.load", "src/cwl_utils/parser/cwl_v1_2.py:_URILoader.load", "src/cwl_utils/parser/cwl_v1_2.py:_TypeDSLLoader.load", "src/cwl_utils/parser/cwl_v1_2.py:_IdMapLoader.load", "src/cwl_utils/parser/cwl_v1_2.py:_SecondaryDSLLoader.load", "src/cwl_utils/parser/cwl_v1_2.py:_ProxyLoader.load", "src/cwl_utils/parser/cwl_v1_2.py:_load_field", "src/cwl_utils/parser/cwl_v1_1.py:_UnionLoader.load", "src/cwl_utils/parser/cwl_v1_0.py:_UnionLoader.load"]}
{"id": "C149", "title": "Loaded objects have the types of the specification", "statement": "Whatever document is loaded as a process, if the parser accepts it, then each field of each object in the result, at any depth, has a value of one of the types that the specification of that version gives it: required fields are there, texts, numbers, booleans and symbols of enumerations stand where they are allowed, and objects are of a class that is allowed in their place.", "quantifier": "for every document, each of the three versions, every base, every behaviour of the functions that resolve addresses and every number of nested calls", "why_tests_cant": "Documents are unbounded and each class has fields of many types, some of them recursive; tests can only look at the fields of a few loaded documents.", "anchors": ["src/cwl_utils/parser/cwl_v1_2.py:_ArrayLoader.load", "src/cwl_utils/parser/cwl_v1_2.py:_MapLoader.load", "src/cwl_utils/parser/cwl_v1_2.py:_RecordLoader.load", "src/cwl_utils/parser/cwl_v1_2.py:_UnionLoader.load", "src/cwl_utils/parser/cwl_v1_2.py:_EnumLoader.load", "src/cwl_utils/parser/cwl_v1_2.py:_PrimitiveLoader.load", "src/cwl_utils/parser/cwl_v1_2.py:_IdMapLoader.load", "src/cwl_utils/parser/cwl_v1_2.py:_SecondaryDSLLoader.load", "src/cwl_utils/parser/cwl_v1_2.py:_TypeDSLLoader.load", "src/cwl_utils/parser/cwl_v1_2.py:CommandLineTool.fromDoc", "src/cwl_utils/parser/cwl_v1_1.py:CommandLineTool.fromDoc", "src/cwl_utils/parser/cwl_v1_0.py:CommandLineTool.fromDoc"]}
{"id": "C150", "title": "A default value is loaded as it is written", "statement": "A default value of a parameter that has no File or Directory, no import and no include in it is in the loaded parameter the same value as in the document.", "quantifier": "for every value, every class with a field default in the three versions, every base and every behaviour of the functions that resolve addresses", "why_tests_cant": "Values are nested without bound; the loaders for values try several alternatives at each level and merge lists.", "anchors": ["src/cwl_utils/parser/cwl_v1_2.py:_ArrayLoader.load", "src/cwl_utils/parser/cwl_v1_2.py:_MapLoader.load", "src/cwl_utils/parser/cwl_v1_2.py:_UnionLoader.load", "src/cwl_utils/parser/cwl_v1_2.py:CommandInputParameter.fromDoc", "src/cwl_utils/parser/cwl_v1_1.py:_ArrayLoader.load", "src/cwl_utils/parser/cwl_v1_0.py:_ArrayLoader.load"]}
{"id": "C151", "title": "Input values are loaded as they are written", "statement": "A value in an input file that has no File or Directory, no import and no include in it is after loading the same value as in the file, lists of lists included.", "quantifier": "for every input file with such values, each of the three versions, every base and every behaviour of the functions that resolve addresses", "why_tests_cant": "Values are nested without bound; in two versions each value is first tried as a list of requirements.", "anchors": ["src/cwl_utils/parser/cwl_v1_2.py:_ArrayLoader.load", "src/cwl_utils/parser/cwl_v1_2.py:_MapLoader.load", "src/cwl_utils/parser/cwl_v1_2.py:_UnionLoader.load", "src/cwl_utils/parser/cwl_v1_1.py:_MapLoader.load", "src/cwl_utils/parser/cwl_v1_0.py:_MapLoader.load", "src/cwl_utils/parser/__init__.py:load_inputfile"]}
{"id": "C152", "title": "A loaded document can be saved and loaded again without change", "statement": "If a document was loaded with the parser of its version and the result is saved with complete addresses, then loading what was saved, from whatever base, gives the same objects again, at every depth: the same classes, identifiers, fields, extension fields, lists and mappings.", "quantifier": "for every document, each of the three versions, every base, every number of nested calls and every behaviour of the functions that resolve addresses and read imports", "why_tests_cant": "Each place of a document is read by trying several loaders in order, and what is saved is another document (no imports, no short forms, addresses instead of names): whether an earlier alternative takes it differently depends on the whole table of loaders. Tests can only save and reload a few documents.", "anchors": ["src/cwl_utils/parser/__init__.py:save", "src/cwl_utils/parser/cwl_v1_2.py:_UnionLoader.load", "src/cwl_utils/parser/cwl_v1_2.py:_ArrayLoader.load", "src/cwl_utils/parser/cwl_v1_2.py:_URILoader.load", "src/cwl_utils/parser/cwl_v1_2.py:_TypeDSLLoader.load", "src/cwl_utils/parser/cwl_v1_2.py:_SecondaryDSLLoader.load", "src/cwl_utils/parser/cwl_v1_2.py:_expand_url", "src/cwl_utils/parser/cwl_v1_1.py:_UnionLoader.load", "src/cwl_utils/parser/cwl_v1_0.py:_UnionLoader.load"]}
{"id": "C153", "title": "Addresses in a loaded document are resolved in their scope and complete", "statement": "Every identifier in a loaded document is resolved against the base of its object, every reference and every name of a type in a field against the identifier of the object that the field belongs to (or, without an identifier in the document, against the base of that object), and (from version 1.1 on) the process in a step against the step's field run. What was resolved is complete: resolving it again, against whatever base, does not change it.", "quantifier": "for every document, each of the three versions, every base, every vocabulary and fetcher, at every depth", "why_tests_cant": "Which base an address has depends on all objects around it and on which loaders pass the base on, and whether an address in a list is resolved depends on the loader in front of the list. Tests can only look at some fields of some documents.", "anchors": ["src/cwl_utils/parser/cwl_v1_2.py:_URILoader.load", "src/cwl_utils/parser/cwl_v1_2.py:_TypeDSLLoader.resolve", "src/cwl_utils/parser/cwl_v1_2.py:_TypeDSLLoader.load", "src/cwl_utils/parser/cwl_v1_2.py:_IdMapLoader.load", "src/cwl_utils/parser/cwl_v1_2.py:_ArrayLoader.load", "src/cwl_utils/parser/cwl_v1_2.py:_RecordLoader.load", "src/cwl_utils/parser/cwl_v1_2.py:WorkflowStep.fromDoc", "src/cwl_utils/parser/cwl_v1_2.py:_expand_url", "src/cwl_utils/parser/cwl_v1_1.py:_URILoader.load", "src/cwl_utils/parser/cwl_v1_0.py:_URILoader.load"]}
{"id": "C154", "title": "The next parser loads the documents of the version before", "statement": "Every document that the parser of CWL v1.1 loads is loaded by the parser of CWL v1.2 when its version is changed to v1.2, as long as it uses no word that is new in v1.2: no class, field, symbol or alternative of a type got lost or became stricter. The same holds for lists of processes, for input files, and for the parts of documents.", "quantifier": "for every document, every pair of surroundings (base, vocabulary, fetcher) that treat the texts of the document alike, every depth of imports, and every loader of the parser of v1.1 with one of v1.2 that corresponds to it", "why_tests_cant": "The parsers are generated files of many thousand lines with about 270 loaders each; one of them that lacks an alternative matters only for documents that use it. Tests can only load a few documents with both.", "anchors": ["src/cwl_utils/parser/cwl_v1_1.py:_RecordLoader.load", "src/cwl_utils/parser/cwl_v1_1.py:_UnionLoader.load", "src/cwl_utils/parser/cwl_v1_1.py:_EnumLoader.load", "src/cwl_utils/parser/cwl_v1_1.py:_IdMapLoader.load", "src/cwl_utils/parser/cwl_v1_1.py:_document_load", "src/cwl_utils/parser/cwl_v1_2.py:_RecordLoader.load", "src/cwl_utils/parser/cwl_v1_2.py:_UnionLoader.load", "src/cwl_utils/parser/cwl_v1_2.py:_EnumLoader.load", "src/cwl_utils/parser/cwl_v1_2.py:_IdMapLoader.load", "src/cwl_utils/parser/cwl_v1_2.py:_document_load", "src/cwl_utils/parser/cwl_v1_2.py:load_document_by_string"]}
{"id": "C155", "title": "The file that a path or an address stands for is the one that is loaded", "statement": "A file address stands for the file whose path it spells, whichever characters of it are percent-encoded, and its fragment is the name of the process to load. A path given as a text or as a Path object stands for itself. What is fetched determines the file: different files have different addresses, and the address that is fetched stands for the same file again. Input files and the schema generator find files in the same way.", "quantifier": "for every path (any Unicode text), every way to spell it in an address, every fragment, every file system", "why_tests_cant": "There are infinitely many paths and spellings, and what goes wrong depends on single characters (plus, percent, semicolon, question mark, characters outside ASCII). Tests can only try a few file names.", "anchors": ["src/cwl_utils/parser/__init__.py:load_document_by_uri", "src/cwl_utils/parser/__init__.py:load_document_by_string", "src/cwl_utils/parser/utils.py:load_inputfile_by_uri", "src/cwl_utils/inputs_schema_gen.py:get_cwl_url", "src/cwl_utils/utils.py:is_uri", "src/cwl_utils/utils.py:is_local_uri"]}
{"id": "C156", "title": "The schema program writes the whole schema or leaves the output alone", "statement": "The program that generates JSON schemas ends with status 0 exactly if the document was found and loaded and its schema was made, and then the output has this schema and nothing else. Otherwise it writes nothing, and a file that was there before is left as it was.", "quantifier": "for every argument, output, and behaviour of the functions that load the document and make the schema", "why_tests_cant": "It is about every way to fail and about the state of a file before the program was started. Tests can only run the program in a few situations.", "anchors": ["src/cwl_utils/inputs_schema_gen.py:main", "src/cwl_utils/inputs_schema_gen.py:run", "src/cwl_utils/inputs_schema_gen.py:arg_parser", "src/cwl_utils/inputs_schema_gen.py:get_cwl_url", "src/cwl_utils/inputs_schema_gen.py:cwl_to_jsonschema"]}
{"id": "C157", "title": "The programs that extract images and packages find what is written in a document", "statement": "If a document without imports is loaded and the traversal ends without an error, then each Docker image that is written in a DockerRequirement is extracted (with the tag latest if it has none), and each package in a SoftwareRequirement is cited: in the requirements and hints of the document, of its steps, of the processes inside of steps, and of the documents that steps refer to, in the form of lists or of mappings. And nothing else is extracted: each extracted image or package is written there.", "quantifier": "for every document of the versions 1.0, 1.1 and 1.2 without imports and without lists in lists, every nesting of workflows and every set of documents that are referred to", "why_tests_cant": "A requirement can be at any place of a document, in several notations, and whether it is found depends on the loaders that the generated parsers use for the field. Tests can only try a few documents.", "anchors": ["src/cwl_utils/docker_extract.py:extract_docker_requirements", "src/cwl_utils/docker_extract.py:extract_docker_reqs", "src/cwl_utils/docker_extract.py:traverse", "src/cwl_utils/docker_extract.py:traverse_workflow", "src/cwl_utils/docker_extract.py:get_process_from_step", "src/cwl_utils/cite_extract.py:extract_software_reqs", "src/cwl_utils/cite_extract.py:process_software_requirement", "src/cwl_utils/cite_extract.py:traverse", "src/cwl_utils/cite_extract.py:traverse_workflow", "src/cwl_utils/cite_extract.py:get_process_from_step", "src/cwl_utils/parser/cwl_v1_2.py:_IdMapLoader", "src/cwl_utils/parser/cwl_v1_2.py:_UnionLoader"]}
{"id": "C158", "title": "The JSON that programs write stands for the document", "statement": "What cwl-pack, cwl-graph-split, cwl-normalizer and cwl-inputs-schema-gen write is a JSON text (RFC 8259) that stands for the document and for nothing else, whatever the indent; reading it gives the document back, so different documents have different texts. If a document has a value that JSON does not have (a date, an integer of more than 4300 digits), an exception is raised; what is in the output then is what was there before, and never a text that could be taken for a whole document.", "quantifier": "for every document, every indent and every state of the output", "why_tests_cant": "Strings, numbers, names and the nesting of a document are unbounded, and escapes, separators and indents interact. Tests can only try a few documents.", "anchors": ["src/cwl_utils/pack_cli.py:run", "src/cwl_utils/graph_split.py:json_dump", "src/cwl_utils/normalizer.py:run", "src/cwl_utils/inputs_schema_gen.py:run", "src/cwl_utils/expression.py:interpolate"]}
{"id": "C159", "title": "The value read from JSON is the one that the text stands for", "statement": "The text printed by a JavaScript expression is read as the value that it stands for according to the grammar of RFC 8259 (with NaN and Infinity, which Python adds): reading succeeds for exactly these texts (integers have at most 4300 digits), two escapes that make up one character are read as that character, and of members with the same name the last one counts. Any other text is an error.", "quantifier": "for every text", "why_tests_cant": "The texts are unbounded, and whether each malformed text is refused cannot be tried out.", "anchors": ["src/cwl_utils/sandboxjs.py:NodeJSEngine.eval", "src/cwl_utils/expression.py:interpolate"]}
{"id": "C160", "title": "An evaluation runs the script that was given and returns what it printed", "statement": "The engine in Node.js gets each script as exactly the text that was given, whatever characters it has and however the request is split into chunks; it runs each script once, in the order of the requests, and answers each of them once. A process with a context gets its context once and before all scripts; scripts with other contexts go to other processes. The value of an evaluation is exactly the one that the printed text stands for; if nothing or anything else than JSON is printed, JavascriptException is raised.", "quantifier": "for every history of scripts and contexts, every split of the requests into chunks, every printed text and every schedule of the reads", "why_tests_cant": "The splits of the streams, the characters of scripts and the histories of processes are unbounded. Tests can only try a few.", "anchors": ["src/cwl_utils/sandboxjs.py:NodeJSEngine.exec_js_process", "src/cwl_utils/sandboxjs.py:NodeJSEngine.eval", "src/cwl_utils/cwlNodeEngine.js", "src/cwl_utils/cwlNodeEngineWithContext.js", "src/cwl_utils/cwlNodeEngineJSConsole.js"]}
{"id": "C161", "title": "An expression sees its inputs, self and runtime as they were given", "statement": "During an evaluation `inputs` is the job, `self` the context and `runtime` the resources together with the two directories (`null` if there is none or its path is empty), with byte strings decoded. A reference has the value found along its path in them, with and without JavaScript. JavaScript code is run after the lines of the library and one line for each of the three names, whose JSON text stands for the value and as a literal has that value. In the middle of a text a string is put in as it is, and any other value as a JSON text that stands for it, with its names in order.", "quantifier": "for every expression, job, context, resources, directories and requirements", "why_tests_cant": "Expressions and contexts are unbounded, and what code sees goes through two languages. Tests can only try a few.", "anchors": ["src/cwl_utils/expression.py:do_eval", "src/cwl_utils/expression.py:jshead", "src/cwl_utils/expression.py:interpolate", "src/cwl_utils/utils.py:bytes2str_in_dicts"]}
{"id": "C162", "title": "The static checker gives a verdict on every workflow", "statement": "For a workflow of v1.0, v1.1 or v1.2 the static checker either returns or raises ValidationException: no other exception comes out of it. If the sources are inputs of the workflow or outputs of its steps and the steps run loadable processes with the listed outputs, it accepts the workflow unless a link has types that do not fit, and then it rejects it.", "quantifier": "for every workflow of a known version", "why_tests_cant": "The links are checked one by one with tables that change on the way (v1.2 writes types back), and a missing entry raises another exception than a type error. Tests can only try a few workflows.", "anchors": ["src/cwl_utils/parser/utils.py:static_checker", "src/cwl_utils/parser/cwl_v1_0_utils.py:check_all_types", "src/cwl_utils/parser/cwl_v1_1_utils.py:check_all_types", "src/cwl_utils/parser/cwl_v1_2_utils.py:check_all_types"]}
{"id": "C163", "title": "Expressions are run by a Node.js that works and is new enough, or in a container", "statement": "The process that `new_js_proc` returns was given the code and is either a local `nodejs` or `node` that passed the test and whose version is not below the minimum, or a container with the image and options of the container engine, and a container only if no local one passed. A local one that passes is found. Failing means JavascriptException. Every process that was started is remembered for being stopped, whatever happens.", "quantifier": "for every behaviour of the programs that are run, every state of the engine object and every container engine", "why_tests_cant": "What the programs on a machine do is not bounded, and a test runs on one machine. Tests can only try a few.", "anchors": ["src/cwl_utils/sandboxjs.py:new_js_proc", "src/cwl_utils/sandboxjs.py:check_js_threshold_version", "src/cwl_utils/utils.py:singularity_supports_userns"]}
{"id": "C164", "title": "The image for expressions is pulled exactly when it is needed", "statement": "Before the first use of a container engine its image is looked up (in the list of the engine, or as a file for Singularity), and it is pulled exactly if it is not there or a pull is forced. It is pulled under the name under which it is run. If the pull fails, no container is started unless the file is there now.", "quantifier": "for every behaviour of the container engine, every state of the engine object and every file system", "why_tests_cant": "The answers of container engines and the contents of caches are not bounded. Tests can only try a few.", "anchors": ["src/cwl_utils/sandboxjs.py:new_js_proc"]}
{"id": "C165", "title": "Splitting leaves exactly the processes and the types in the output directory", "statement": "Running graph_split on a packed document writes only into the output directory. When it ends without an exception, the file of every process holds the text of the rewritten process and nothing else, every type file holds the texts of the types of that file in order, and every other file is as it was. A document without $graph writes nothing. Splitting the same document again into the same directory leaves the same files.", "quantifier": "for all packed documents, main file names, source names, ways of writing a process or a type, exceptions from opening files or writing, and contents of the output directory before", "why_tests_cant": "Tests can only try a few packed documents and directories; ids with slashes, type files with the name of a process and repeated runs are easily left out.", "anchors": ["src/cwl_utils/graph_split.py:101-153", "src/cwl_utils/graph_split.py:248-280", "src/cwl_utils/graph_split.py:283-307"]}
{"id": "C166", "title": "A released JavaScript engine leaves no process behind", "statement": "When a NodeJSEngine is released (__del__), every process that it ever started is ended, in the order in which they were started: the container it runs is told to stop, its input is closed, it is waited for at most ten seconds, and it is killed. This holds whatever goes wrong with the other processes.", "quantifier": "for all sequences of calls of new_js_proc with all arguments, all behaviours of the programs outside, and all results and exceptions of reading files, starting, waiting for, closing and killing processes at the end", "why_tests_cant": "Tests can only start a few processes, and the end of an engine comes at a time they do not choose; exceptions while it is released are not seen by them.", "anchors": ["src/cwl_utils/sandboxjs.py:114-143", "src/cwl_utils/sandboxjs.py:279-470"]}
{"id": "C167", "title": "An evaluation returns what its own script printed, whatever happened before", "statement": "Whatever became of the evaluations before it (values, scripts that fail, time-outs, output that cannot be decoded, the end of the process), an evaluation returns the value that its own script printed or raises an exception; it never returns what another script printed. A script that prints a value in time on a process that goes on running gets this value.", "quantifier": "for every sequence of scripts and of their outputs, every schedule of the reads and every state of the process", "why_tests_cant": "The state of the pipes after a failure depends on the schedule, which the operating system chooses; tests can only try a few sequences and see one schedule of each.", "anchors": ["src/cwl_utils/sandboxjs.py:NodeJSEngine.exec_js_process", "src/cwl_utils/sandboxjs.py:NodeJSEngine.eval"]}
{"id": "C168", "title": "Every image of a document is in the directory after docker-extract", "statement": "If docker-extract ends without an error and a directory was given, then each image of a DockerRequirement that was extracted is in the file of its name in this directory: the last command that wrote to the file was the one for this image, or (Singularity without --force-download) the file was already there and was not touched. No file other than those of the images is written.", "quantifier": "for every document, every set of existing files, both engines, and every behaviour of the commands that writes no other file than the one named", "why_tests_cant": "Whether two images get in each other's way depends on their names and their order in the document, and on the files that are already there. Tests can only try a few.", "anchors": ["src/cwl_utils/docker_extract.py:run", "src/cwl_utils/image_puller.py:DockerImagePuller.save_docker_image", "src/cwl_utils/image_puller.py:SingularityImagePuller.save_docker_image", "src/cwl_utils/image_puller.py:DockerImagePuller.get_image_name", "src/cwl_utils/image_puller.py:SingularityImagePuller.get_image_name"]}
{"id": "C169", "title": "What is reported about an evaluation is what happened", "statement": "With js_console, eval logs exactly the lines that the script wrote with console.log and console.error, tagged and in order, also if the script throws or is killed. The listing of a script in an error message gives each of its (last 99) lines its own number. eval raises if the process failed or the output is no JSON, and only then; its message has the output and error output of the script, the whole text of a thrown exception, and the expression or the listing; and it speaks of a timeout if and only if the script was killed for its timeout.", "quantifier": "for every sequence of console calls with texts of any lines, every thrown text, every point at which the process is killed, every script and every kind of line end, every return code and every output", "why_tests_cant": "Tests can only try a few scripts; that no line of the console is lost or made up, and that a number belongs to its line, has to hold for texts with any line ends, tags inside of texts and cuts at any byte.", "anchors": ["src/cwl_utils/sandboxjs.py:linenum", "src/cwl_utils/sandboxjs.py:stdfmt", "src/cwl_utils/sandboxjs.py:NodeJSEngine.eval", "src/cwl_utils/sandboxjs.py:NodeJSEngine.exec_js_process", "src/cwl_utils/cwlNodeEngineJSConsole.js:js_console_log"]}
{"id": "C170", "title": "Evaluations in several threads and with several engines do not disturb each other", "statement": "Whatever the order in which evaluations of several threads, reads and writes of pipes, processes, timers and ends of engines go on, each thread has exactly the results that it could have alone, and no thread keeps another one from going on. A process gets the requests of the thread that started it only, one after the other. An evaluation that reads to the end returns what its own script printed. The process of an evaluation ends only by itself, by the timer of this evaluation, or with the engine of this evaluation. An evaluation whose timer has fired returns the code -1, unless its process had ended with zero by itself before. A thread starts a process for an engine file and context only if the one it used for them before has ended.", "quantifier": "for every number of threads, engines and processes, every interleaving of their actions and every behaviour of the processes", "why_tests_cant": "The interleaving is chosen by the operating system and unbounded; a test sees one of them.", "anchors": ["src/cwl_utils/sandboxjs.py:NodeJSEngine.exec_js_process", "src/cwl_utils/sandboxjs.py:NodeJSEngine.__del__", "src/cwl_utils/sandboxjs.py:NodeJSEngine"]}
{"id": "C171", "title": "A workflow the static checker has nothing to say about is safe", "statement": "Let the static checker accept a workflow without a warning. Let its processes give outputs of the types they declare when they get inputs of the types they declare, let defaults and the results of valueFrom have the types of their step inputs, and let the inputs of the workflow have their types. Then in every state that a run can reach, every process is invoked with values of the types of its parameters, and what arrives at a workflow output has the type of that output.", "quantifier": "for all workflows with identifiers that are different and sources that exist, all processes, all values of the inputs, and all executions (any order of the steps, any number of elements that are scattered over, any conditional steps skipped)", "why_tests_cant": "Tests can only try a few workflows, and compare the verdict of the checker with an expectation; that no execution goes wrong is a statement about all runs.", "anchors": ["src/cwl_utils/parser/utils.py:static_checker", "src/cwl_utils/parser/utils.py:check_types", "src/cwl_utils/parser/utils.py:can_assign_src_to_sink", "src/cwl_utils/parser/cwl_v1_0_utils.py:check_all_types", "src/cwl_utils/parser/cwl_v1_1_utils.py:check_all_types", "src/cwl_utils/parser/cwl_v1_2_utils.py:check_all_types", "src/cwl_utils/parser/cwl_v1_2_utils.py:type_for_step_input", "src/cwl_utils/parser/cwl_v1_2_utils.py:type_for_step_output"]}
{"id": "C172", "title": "Only parameter references are looked up, and only in the context", "statement": "A text is taken for a parameter reference exactly if it is an opening parenthesis, a word, segments of the forms `.name`, `['key']`, `[\"key\"]` and `[digits]`, and a closing parenthesis that ends the text or is followed only by a line break. Every other text, and every reference to a symbol other than inputs, self and runtime, goes to JavaScript unchanged, or raises a JavascriptException when JavaScript is not enabled; the only exception is `(null)`, which is null. A value that does not come from JavaScript is null of `(null)`, or lies inside the inputs, self or runtime of the context, or is the length of a list in there.", "quantifier": "for every text, every context and every behaviour of the JavaScript engine", "why_tests_cant": "The texts are unbounded, and the regular expression backtracks over words, escaped quotes and brackets; tests can only try a few.", "anchors": ["src/cwl_utils/sandboxjs.py:param_re", "src/cwl_utils/sandboxjs.py:segment_re", "src/cwl_utils/sandboxjs.py:NodeJSEngine.regex_eval", "src/cwl_utils/expression.py:evaluator", "src/cwl_utils/types.py:is_cwl_parameter_context_key"]}
{"id": "C173", "title": "Simplifying the type identifiers of generated tools changes names only", "statement": "An input of a generated expression tool takes exactly the values of the parameter (or of one of the parameters) that it stands for, and the static checker accepts exactly the same links to and from it. The names of the records and of the record fields in its type are simple names; simplifying again changes nothing.", "quantifier": "for every type and every value", "why_tests_cant": "Types nest without bound and values are unbounded; tests can only try a few.", "anchors": ["src/cwl_utils/cwl_v1_0_expression_refactor.py:clean_type_ids", "src/cwl_utils/cwl_v1_1_expression_refactor.py:clean_type_ids", "src/cwl_utils/cwl_v1_2_expression_refactor.py:clean_type_ids", "src/cwl_utils/cwl_v1_2_expression_refactor.py:generate_etool_from_expr"]}
{"id": "C174", "title": "Packing a packed document changes nothing", "statement": "If the document that cwl-pack gave is packed again, from any place, with any files around it and whatever was packed before, the same document results: no name, type, source, version or requirement changes, and no file is read but the document.", "quantifier": "for every document, every set of files and every state of the program", "why_tests_cant": "Documents and their links nest without bound, and packing consists of seven passes of which each could disturb what another has done; tests can only try a few documents.", "anchors": ["src/cwl_utils/pack.py:pack", "src/cwl_utils/pack.py:pack_process", "src/cwl_utils/pack.py:normalize_sources", "src/cwl_utils/schemadef.py:inline_types", "src/cwl_utils/schemadef.py:_inline_type"]}
{"id": "C175", "title": "A link is rejected exactly if nothing can pass it", "statement": "The check of a link answers \"exception\" exactly if there is no value of the type of its source, merged as the link says, that is a value of the type of its sink; so a workflow is rejected exactly if it has a link that nothing can pass.", "quantifier": "for every pair of types, every merge method and every workflow, whatever values the named types have", "why_tests_cant": "Types nest without bound and have infinitely many values; that an exception is justified means that none of them fits, which no test can try.", "anchors": ["src/cwl_utils/parser/utils.py:check_types", "src/cwl_utils/parser/utils.py:can_assign_src_to_sink", "src/cwl_utils/parser/utils.py:static_checker"]}
{"id": "C176", "title": "A link is warned about only if some value cannot pass it", "statement": "The check of a link answers \"warning\" only if there are a value of the type of its source, merged as the link says, that is a value of the type of its sink, and one that is not.", "quantifier": "for every pair of types and every merge method, whatever values the named types have", "why_tests_cant": "Types nest without bound, and a type with choices is compared in two ways, strictly and loosely, that change over from one depth to the next; tests can only try a few types.", "anchors": ["src/cwl_utils/parser/utils.py:check_types", "src/cwl_utils/parser/utils.py:can_assign_src_to_sink"]}
{"id": "C177", "title": "A type is inlined exactly if everything it names is there", "statement": "Inlining a type, or the ports of a process, gives a result exactly if each name in it is a type of CWL or the name of a definition in the table, each imported file can be loaded, each array has items, each record has fields, and every other dictionary has a type, in the type itself and in the definitions and files it refers to, at every depth; a port that is the only one must also have an id. Whether it gives a result does not depend on what was inlined before.", "quantifier": "for every type expression, port list, table, file store and history", "why_tests_cant": "Types nest and refer to each other across files without bound, and names of copies depend on all that was inlined before; tests can only try a few types.", "anchors": ["src/cwl_utils/schemadef.py:_inline_type", "src/cwl_utils/schemadef.py:inline_types"]}
{"id": "C178", "title": "The table of user-defined types is built exactly if its parts can be read", "statement": "The table of user-defined types is built, and no error raised, exactly if each link among the requirements loads to a requirement with a class and, where that is a SchemaDefRequirement, to a list of definitions with names; and, with the links replaced, the requirements are dictionaries up to the first SchemaDefRequirement, whose types, if it has any, are a list of dictionaries, each either a link to a definition with a name or to a list of such definitions, or a definition written in place, with a name or without. SchemaDefRequirements after the first are not looked at unless they are links.", "quantifier": "for every list of requirements and every file store, where names and links are strings and linked types are lists or dictionaries", "why_tests_cant": "Requirements, linked files and definitions are lists of any length in any order; tests can only try a few of them, and mostly ones that are well formed.", "anchors": ["src/cwl_utils/schemadef.py:build_user_defined_type_dict", "src/cwl_utils/schemadef.py:_build_user_defined_type_dict"]}
{"id": "C179", "title": "The static checker gives a verdict exactly if types and links can be looked up", "statement": "The static checker accepts or rejects a workflow, and does not end in another exception, exactly if the version is v1.0, v1.1 or v1.2; each step that has an input not made by valueFrom, or an output, runs a process that can be loaded and has the outputs that are listed; each source of a step input or workflow output is an input of the workflow or an output of one of its steps; each linkMerge that is looked at is merge_nested or merge_flattened; and in v1.2 no list of sources is empty. In v1.0 and v1.1 linkMerge is looked at for every list of sources that is not empty, in v1.2 for several sources whose pickValue does not choose one of them, and never where there is valueFrom. Identifiers may occur more than once.", "quantifier": "for every workflow of every version", "why_tests_cant": "Workflows have any number of steps and links, and the checker of v1.2 changes the table of types as it goes; tests can only try a few workflows.", "anchors": ["src/cwl_utils/parser/utils.py:static_checker", "src/cwl_utils/parser/cwl_v1_0_utils.py:check_all_types", "src/cwl_utils/parser/cwl_v1_1_utils.py:check_all_types", "src/cwl_utils/parser/cwl_v1_2_utils.py:check_all_types"]}
