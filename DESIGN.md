# Formal model of cwl-utils: design

Target: `common-workflow-language/cwl-utils`, source read as text from `/repo`; nothing here rests on building or running it.
(Once, by mistake, a script for checking wording was started inside `/repo/src/cwl_utils`, so that Python began to execute `types.py` in place of its own
module of that name and stopped with an ImportError. The cached bytecode file this left was removed; nothing was learnt from it.)
Statements about the tests in `why_tests_cant` are from reading `/repo/src/cwl_utils/tests`.
Model and proofs: Lean 4.33.0, Lake project `/verif/lean`, modules below `lean/Verif/`.

## Method

* Every modelled Python function is a total Lean function written branch by branch after the
  source; the doc comment of each definition cites the file and lines. Python exceptions are
  values of `Except Err`, where `Err` keeps the exception class (the message text is dropped).
* Dictionaries are insertion-ordered association lists with Python's assignment semantics
  (`Verif/Base/Val.lean`); in-place mutation is modelled by returning the new value.
* Property theorems live in files called `Props.lean` (one per area) and are stated against a small
  independent specification (`Spec` sections), not against the model's own helpers.
* If the code does not satisfy a property, the full property is written down as a `def ... : Prop`,
  its negation is proved from a concrete witness (`..._violated`), and what does hold is proved under
  the name `..._partial`. All such disagreements are listed in the section "Disagreements" below.
* Next to each theorem an `example` shows a concrete non-trivial instance of its hypotheses.

## Trusted base

* Lean's kernel. Axioms used by any theorem: at most `propext`, `Classical.choice`, `Quot.sound`.
  No own axioms, no `sorry`, no `native_decide`, no `bv_decide`.
* The reading of the Python code into the Lean definitions (each definition cites its lines).
* External libraries are not modelled, they are parameters: the JavaScript engine (a function from
  source text to a result), `json_dumps` (except in `Json/` and `Expr/RealJson`, where the encoder and decoder of Python's `json` are modelled), `schema_salad` (`shortname`, `save`, fetchers, `urljoin`),
  `rdflib` (an ontology is a list of triples), `urllib.parse` (except `urlsplit` and `urlunsplit` in `Loader/Uri` and `urlparse`, `quote` and `unquote` in `Front/Paths`, which follow the text of Python 3.11), YAML reading, the file system (a
  function from path to contents), `packaging.version` (a total preorder on versions), subprocesses.
* Python `str` is `List Char` or `String`; ints are `Int`/`Nat`; floats are not modelled except as an
  opaque tag. Regex engines are modelled by hand-written backtracking matchers for the exact patterns.

## Per-property plan

(C numbers refer to properties.jsonl.)

| Property | Module | What is modelled | How proved |
|---|---|---|---|
| C01, C02, C04, C05, C06, C11 | `Expr/` | `scanner`, `interpolate` as a stack machine over `List Char` | invariant on stack and positions; induction on remaining text |
| C03, C07, C08 | `Expr/` | `do_eval`, `needs_parsing`, `evaluator` | case analysis and list induction |
| C09, C10 | `Expr/` (ParamRef) | `segment_re`, `param_re`, `regex_eval` | print/parse round trip by induction on the path; counterexamples for the violated parts |
| C12 | `Sandbox/` | read loop of `exec_js_process` over an arbitrary schedule of chunks | invariant over schedules |
| C13 | `Sandbox/` | version comparison | lexicographic order lemma |
| C14, C15, C16, C17 | `Utils/` | `bytes2str_in_dicts`, `normalize_to_*`, `to_pascal_case`, `sanitise_schema_field` | structural induction; C14 negated by witness plus partial |
| C18, C19, C20 | `SchemaDef/` | `_inline_type` with its global counter and name set, fuel for recursion | induction on fuel |
| C21-C28 | `Pack/` | the packing pipeline over dict documents and an abstract file store | induction on documents |
| C29, C30 | `Split/` | `rewrite`, `rewrite_id`, `rewrite_schemadef` | induction; prefix collision by witness |
| C31-C35 | `Types/` | type assignability, link merge, `_compare_type` | induction on types |
| C36, C37 | `Types/` | `type_for_source`, `type_for_step_*` | induction |
| C38, C39 | `Checker/` | `check_all_types` (3 versions), `static_checker` | fold invariants; C39 negated by witness |
| C40, C41 | `Tool/` | content limit, stream shortcuts | list induction |
| C42, C43, C44 | `Front/` | graph selection, dispatch, save; `save_exact_partial` and `numbers_iff` say exactly which lists can be saved and which texts are versions | list induction |
| C45-C48 | `Loader/` | DSL loaders of the generated parsers | induction |
| C49, C50 | `Formats/` | `formatSubclassOf`, `check_format` | graph search invariant (visited set), reachability |
| C51, C52, C53 | `JsonSchema/` | schema generation, slimming, JSON schema semantics | graph search invariant; semantic induction |
| C54-C57 | `Docker/` | traversal, tags, image names, download state machine | induction on process trees; witnesses |
| C58 | `Docker/` | version predicates | arithmetic |
| C59-C63 | `Refactor/` | helper functions and exit codes of the refactor tool | induction |
| C64, C65, C66 | `Sandbox/` | script errors, timeout, source text handed to the engine | schedule invariant; equations on texts |
| C67, C92 | `Utils/` | array shorthand, value of an identifier | list induction |
| C68, C69, C93, C94 | `SchemaDef/` (Same, Finish, Meaning) | independence of history, termination, meaning of inlined types, type table | relational invariant between two states; well-founded induction over the reference graph; inductive specification `WrittenOut` |
| C70, C95, C96 | `Pack/` (Process, Steps) | the whole of `pack_process`, recursively through steps | induction on nesting |
| C71, C72, C73 | `Types/` (SourcesFound for C73) | extra keys, step input types, source lookup | induction on types and lists |
| C74, C75 | `Checker/` | agreement of the versions, the type table of the checker | fold invariants |
| C76-C81 | `Split/` (Files, Accepts) | file names, type files, import order, failures | induction on documents, commutation of rewritings |
| C82, C83 | `Tool/` | decoding of contents, made-up stream names | list induction |
| C84 | `Front/` | repeated loads of a parsed document | dict update algebra |
| C85, C86 | `Docker/` | command sequence of docker-extract, version parsing | induction over the list of images; parser correctness |
| C87, C88, C89 | `Loader/` | map, primitive and requirement loaders | list induction |
| C90, C91 | `JsonSchema/` | size of the dependency list, success of the generation | induction |
| C97-C100 | `Refactor/` (Etool) | `get_expression`, texts of generated tools, script of a converted tool | the specification `Expand` of embedded expressions, applied to the script; equations on texts |
| C101-C104 | `Refactor/` (WfReqs) | `process_workflow_reqs_and_hints` | loop invariants per class of requirement, frame lemmas between them |
| C105, C106, C107 | `Utils/` (Linked) | `load_linked_file`, symbolic links, `resolved_path` | inductive specification `Leads` of chains of links; induction on the bound and on the chain |
| C108, C109 | `Refactor/` (Steps) | `valueFrom` and `when` in `traverse_step` and the steps generated for them | semantics of steps (links, defaults, scatter, valueFrom, when) for an arbitrary evaluation of expressions; equality of input objects before and after; concrete engine for the counterexamples |
| C110, C111, C112 | `Refactor/` (ToolExprs, ToolLib) | `traverse_CommandLineTool`: arguments, stdout, stderr, inputBinding, glob, requirement and library | the same semantics of steps, extended by the inputs of the tool; invariants of the loops (what is added, what stays); concrete engine for the counterexamples |
| C113 | `Refactor/` (OutEval) | `traverse_CommandLineTool`: `outputEval`, the workflow put in the place of the tool | runs of the sub-workflow as valuations of its inputs and step outputs; values of outputs from an arbitrary way of finding files; invariants of the loops; concrete engine for the counterexamples |
| C114-C119 | `Loader/` (Uri, UriLemmas, UriProps, UriCases) | `_expand_url`, `_URILoader`; `urllib.parse.urlsplit` and `urlunsplit` as in Python 3.11 | specification: nested declarations (`nested`), addresses as lists of levels; `urlsplit` inverts `urlunsplit` on well-formed parts; induction on the nesting |
| C120-C125 | `Refactor/` (PickValue, PickJs, PickValueProps, ReloadProps) | `process_workflow_inputs_and_outputs`, `replace_expr_with_etool`; the three programs for `pickValue` as texts | specification: `pickValue` on arrays, a small part of JavaScript with its tokens (`Writes`) and meaning (`runJ`), values of links (`merged`), values of types (`Fits`); that a runner executes the generated tools as `runJ` says is assumed (`RunsPick`); `save_relative_uri` (external) is taken to leave texts without a scheme |
| C126-C129 | `Loader/` (Import, ImportSpec, ImportProps, ImportRun, ImportClaims, ImportCases, ImportParts; ImportEval for examples) | `_document_load`, `_document_load_by_url`, `_load_field`, and the skeletons of the loaders and of `fromDoc` around them | specification: the relation `Means`, which has no index; loaders that only compute, the resolution of identifiers, `fetch_text` with the YAML parser and `urljoin` are parameters; `LoadingOptions(copyfrom=…)` (external) is taken to share the index; random blank identifiers are not entered; `$import` as identifier or `class` and the expansion of names of extension fields are left out |
| C130-C134 | `Refactor/` (ToolReqs, ToolReqsProps, ToolReqsClaims, ToolReqsListing, DirentJs, ToolReqsCases) | `process_level_reqs`, `add_input_to_process`, `replace_clt_hintreq_expr_with_etool` of the v1.2 refactoring | meaning of steps as for C110; JavaScript of the program for a Dirent: a small language with its printer (`DirentJs.lean`), expressions in it are opaque; `empty_inputs` is assumed to succeed; the read process is the deep copy made before the conversion of the tool |
| C135 | `Refactor/` (ToolBindings) | the `inputBinding.valueFrom` and `glob` parts of `traverse_CommandLineTool` | as for C110; a generated tool with `self` bound to an input computes its expression with the value of that input (hypothesis `FaithfulAs`) |
| C136 | `Refactor/` (Traverse) | the loop of `traverse_workflow` over the growing list of steps | the environment of `traverse_step` is given for each state of the list; the parts on requirements and tools are left out (C110, C113, C130 to C135) |
| C137 | `Refactor/` (TraverseMeaning) | the same, with a store as meaning of a workflow | the processes of the document are any functions of the input object and are not changed; how a scattered step makes the scattered values of its instances (of those that it is scattered over) and collects its outputs is any function (for a step scattered over the one input with its expression: an instance for each element, an array of outputs); as for C108 and C109 |
| C138 | `Refactor/` (Wrap, WrapProps) | the workflow around a tool, as a list of parameters and one step; `expandUrl` for the links of the written document | what the tool computes and the check of types are any functions; `expand_stream_shortcuts` and `traverse_workflow` are parameters of the outcome theorem |
| C139 | `Refactor/` (Mock, MockProps) | `example_input` and `empty_inputs`; the values of a type are those of `Types/AssignSpec` (`Has`) | `type_for_source` is a parameter; whether a float is zero is not modelled |
| C140 | `Loader/` (Inputs, InputsProps) | `_inputfile_load` with the index as a state, and the choice of the version | fetching with the YAML parser, `urljoin`, `urldefrag` and the generated loader are parameters; the recursion is bounded by a number |
| C141 | `Pack/` (Moved) | `pack` on two families of files, one a copy of the other | simulation: what the second computation gives the first gives |
| C142 | `Pack/` (Normalize, NormalizeProps) | `normalizer.run`, with packing from C21-C28 | the upgrader, the loader with the conversion, and reading are parameters; outputs do not overwrite inputs; YAML is read as it was written |
| C143 | `Refactor/Reports` | the values of `modified` of the models for C98-C138 | the parts of `traverse_workflow` work on different views of a workflow, so the claim is made for each part |
| C144 | `Refactor/` (Nested, NestedProps) | `traverse`, `traverse_workflow`, `traverse_step`, `load_step` on trees of processes | what is inside a tool or workflow is a parameter (whether its conversion changes something) and is modelled for C98-C138; the three versions of the module are taken to be the same |
| C145 | `Loader/` (Records, RecordTable, RecordProps) | `fromDoc` of the 187 generated classes of the three versions | the methods are generated from one pattern, which is modelled once; a table transcribed from the text of the classes gives the fields of each; loaders of fields and `_expand_url` are parameters; error texts and positions are left out |
| C146 | `Loader/` (Records, RecordTable, RecordSave) | `save` of the generated classes | `save`, `save_relative_uri` and `prefix_url` of schema-salad are parameters; that values are read as they were saved is a hypothesis, except for the class |
| C147 | `Loader/` (Records, RecordTable, RecordEq) | `__eq__` and `__hash__` of the generated classes | subclassing is any order; equality and hashes of the values of fields are parameters; the rule of Python that the method of a subclass goes first is modelled |
| C148 | `Loader/` (Full, FullTable, FullWeights, FullEnds, FullEndsProps) | all loaders of the three parsers with the definitions at the end of the modules, `_load_field` | the loaders are data, a table transcribed from the text of the modules; `_expand_url`, `check_exists`, the value of an `$import` and the text of an `$include` are arbitrary functions; nested calls are counted, running out of them is a `RecursionError`; texts and positions of errors and the index of documents are left out |
| C149 | `Loader/` (Schema, FullTypes, FullTypesLemmas, FullTypesProps) | all loaders of the three parsers (the model of C148) | the specification is a table of the classes, fields and types of the three versions, written from the CWL specification and independent of the loaders; an imported value is one that the loader of the place gives |
| C150, C151 | `Loader/` (FullDefaults, FullDefaultsProps) | the same model: the loaders of fields `default` and of input files | identifiers are compared as written (in Python 1 and True are the same key) |
| C152 | `Loader/` (FullSave, FullSaveLemmas, FullSaveRes, FullSaveProps, FullSaveCheck, FullReload) | `save` of loaded values with `relative_uris=False` and `top=False`; a check of the tables of loaders (an earlier alternative never takes what a later one saved for something else), computed in the kernel | the name of a class is saved as it is; the world of the second loading may be another one; identifiers of mappings in lists as in C150 |
| C153 | `Loader/` (FullScope, FullScopeProps, FullScopeStays) | `Scoped` gives the base of every address of a loaded value, `Resolved` relates the value of a field with addresses to the text of the document, `Settled` says that nothing changes when it is resolved again | documents without `$import`, `$include` and lists directly in lists (`Flat`); for completeness: terms do not apply to addresses and the fetcher joins to addresses with a supported scheme (`Regular`), identifiers are such addresses or made up (`Usual`, which can be computed) |
| C154 | `Loader/` (FullNewer, FullNewerLemmas, FullNewerSim, FullNewerMain, FullNewerProps) | `Old` says which documents are meant, `Keeps` how the surroundings of the two parsers may differ; `simTab` checks a relation between the loaders of two parsers (a simulation), which is evaluated once for the tables of v1.1 and v1.2 | `importing` models `$import` with documents that are single processes, without `$graph` and metadata; the texts of the document (also those that are not resolved) are ones that the vocabularies treat alike, and this is so for their beginnings too (`cut`, because `?` and `[]` are removed from the names of types) |
| C155 | `Front/` (Paths, PathsLemmas, PathsProps) | `load_document_by_uri`, `load_inputfile_by_uri`, `get_cwl_url` with `urlparse`, `quote`, `unquote_plus`, UTF-8 and `as_uri` as in Python 3.11; specification `Spells`: the text of an address spells a path character by character (Lean's own UTF-8 encoding) | POSIX paths that are valid Unicode; `Path.resolve`, `Path.parent`, the fetcher and which network locations are accepted are parameters; one replacement character for each byte that is not UTF-8 |
| C156 | `JsonSchema/` (Program) | `main` and `run` of `inputs_schema_gen.py` with the output file before and after | loading, making the schema and `json.dumps` are parameters; errors of writing are not modelled |
| C157 | `Docker/` (Document, DocumentTable, DocumentLemmas, DocumentProps, DocumentExamples) | `procOf`: what `docker_extract.py` and `cite_extract.py` see of the objects that `Loader/Full` makes of a document; `Written`, `Hinted`, `Reaches` say what is written in a document and those it refers to | documents without imports and `$graph`; references that are absolute; the line that is cited for a package is the list of name, version and specs |
| C158 | `Json/` (Spec, Write, WriteProps, BackLemmas, HalfLemmas, Props) | `enc`, `dumps`, `dump`: the encoder of Python's `json`; `packRun`, `jsonDump`: the programs around it. Specification: the grammar of RFC 8259 as the relation `Denotes` between texts and values, and the value `jOf` of a document | the text of `repr` of a finite number is given; no documents that contain themselves; a file that was opened can be written |
| C159 | `Json/` (Read, ReadLemmas, ReadProps, BackLemmas, Props) | `scan`, `parse`, `loads`: the decoder of Python's `json`, against the same grammar (`Denotes`) and the Python object of a value (`PyFor`) | `float(text)` is a parameter; Python's stack has no limit |
| C160 | `Sandbox/` (Utf8, Engine, EngineProps), `Json/Strict` | `onData`, `ctxData`: the `data` handlers of the three JavaScript engines; `request`, `sendTo`: the requests and the table of processes; `utf8`, `decode`; `jsParse`: `JSON.parse`, proved to be the grammar of RFC 8259 | what a script does is a parameter (the text that `JSON.stringify` of its result gives, or an exception); the objects that scripts see are left out |
| C161 | `Expr/` (RealJson, SeenSpec, SeenLemmas, SeenProps) | `do_eval` as a whole with the real encoder (`pyOf`, `sortKeys`, `jsonIndent`, `jsonSorted`). Specification: the members of `runtime` (`Runtime`), the JSON value of a value (`jsonOf`), the value of a JSON text as a JavaScript literal (`literal`) | what code does is the engine's; the `repr` of floating point numbers is a parameter |
| C162 | `Checker/` (Verdict, Verdict12, Raised, RaisedSteps) | `static_checker` as a whole (the model of C38). Specification: what it is for a workflow to be connected (`Connected`): a known version, different identifiers, loadable processes with the listed outputs, sources that are inputs of the workflow or outputs of steps, merge methods of CWL, no empty list of sources in v1.2. `Raised` says which exception a step input or output raises that cannot be checked; the first of them decides. |
| C163, C164 | `Sandbox/` (NewProc, NewProcLemmas, NewProcProps) | `new_js_proc` and `singularity_supports_userns` with a state (trace, `processes_to_kill`, `have_node_slim`, `_USERNS`) and an outside world whose answers may depend on the whole history. Specification on the trace of events: which program passed (`Passed`), which image and options an engine has (`IsImage`, `IsOpts`), which event is a pull (`IsPull`). Not modelled: log messages, `__del__`. |
| C165 | `Split/Program.lean`, `Split/ProgramProps.lean`, `Split/ProgramComplete.lean` | the whole `graph_split` program over the files of the output directory; how a process or a type is written, and which exceptions opening a file raises, are parameters |
| C166 | `Sandbox/Release.lean`, `Sandbox/ReleaseProps.lean` | `NodeJSEngine.__del__` with an outside world that may answer anything, on the processes that any number of calls of `new_js_proc` (C163) started. Specification on the trace: which processes were ended, and in which order |
| C167 | `Sandbox/` (History) | sequences of evaluations that may fail, with what is left in the pipes | a request is sent in the first pass of the loop and answered before it is read; the timer of an evaluation that raised (it is not cancelled) acts only through the state of the process |
| C168 | `Docker/` (Saved) | the whole of docker-extract, with the commands as a log | what is in a file is told by the last command that wrote to it; commands write only the file that they name |
| C169 | `Sandbox/` (Report) | `linenum`, `stdfmt`, the messages of `eval`, the console of the script | texts as characters; the cut of the marker is counted in characters, which differs from bytes only for killed scripts with output that is not ASCII; `util.format` gives any text |
| C170 | `Sandbox/` (Threads) | `exec_js_process` as actions that are interleaved with those of other threads, processes, timers and the ends of engines | a round of the loop is one action, and may also happen after the timer has fired; processes are named by the thread that starts them and a number; the end of an engine is one action; starting a process succeeds or the evaluation does not begin (C163, C164); a process that is killed has ended at once (C167) |
| C171 | `Checker/` (Flow, Clean, FlowProps, FlowSound, FlowWitness), `Types/Tame` | the verdict of `static_checker` against the runs of a workflow: values along links, merging, picking, scattering, conditional steps | the runs are a specification of CWL, not code of the package; processes, defaults and `valueFrom` are relations that are assumed to keep the declared types; a value a process gives has no record fields besides the declared ones; loops are left out; sub-workflows are processes like others |
| C172 | `Expr/ParamShape` | the regular expression of parameter references as a grammar, and what `evaluator` does with texts outside of it | `\w` is a parameter |
| C173 | `Types/CleanIds` | `clean_type_ids` on types, values and links | the class and the name of a record are functions of its tag; schema objects have no attribute `id` |
| C174 | `Pack/Again`, `Pack/AgainProps` | packing again what packing gave | the second document is read as the value that was written (C158); tidiness of the result is a hypothesis |
| C175 | `Types/Rejected`, `Checker/Blocked`, `Checker/Verdict12` | when a link and a workflow are rejected | values given in full; types that can be told apart by their values; in v1.2 outputs of conditional steps and loops used at most once |
| C176 | `Types/Warned` | when a link is warned about, and the three answers together | types that have values and can be told apart by them |
| C177 | `SchemaDef/` (Resolves, PortsOk) | exactly which types and ports can be inlined | definitions are dictionaries whose names are strings |
| C178 | `SchemaDef/TableOk` | exactly when the table of user-defined types is built | names and links are strings; linked types are lists or dictionaries |
| C179 | `Checker/Answers` | exactly when `static_checker` gives a verdict | the model of C38; a ValidationException that ends the check is no verdict |

## Tests with wrong programs

`seeded/LOG.jsonl` has one line for each edit of a definition of the model that was tried in a copy of the project. Some edits were written by hand, as mistakes a programmer could make; others
were made by rules (negate a condition, swap two branches, drop an alternative, change a constant). Edits that do not type-check are left out.

* `claim` is the property the edited definition belongs to. It was chosen before the copy was built; in 13 lines it was changed afterwards, and `note` says so.
* `failed` lists what no longer compiles, `claim_theorems_no_longer_proved` the theorems of the manifest that depend on it.
* In the lines from 1119 on `note` also says so if no theorem of the claim failed (other theorems did, or none), and why the edit is no counterexample to the claim, or which theorem was added for it.
* An edit that only changes which exception is raised, or a text that no property speaks of, can leave every theorem standing.

## Disagreements between code and property

For each property below the code does something else than the property says. The negation of the full
statement is proved from a concrete witness (the theorems listed); what does hold is proved in the
`_partial` theorems named in MANIFEST.json.

* **C08, Evaluation failures surface as one exception type** (`src/cwl_utils/expression.py:do_eval`, `src/cwl_utils/expression.py:evaluator`)
  * `doEval_only_workflow_violated`: a requirement without a `class` raises `KeyError` outside the `try` block (`expression.py:313`).
  * `bytes_left_violated`: C161/C08: a byte string after the first element of a list stays in the context, and with JavaScript writing the context raises a bare `TypeError`, even for an expression that does not use it.
* **C09, A parameter reference denotes its path** (`src/cwl_utils/sandboxjs.py:NodeJSEngine.regex_eval`, `src/cwl_utils/sandboxjs.py:segment_re`, `src/cwl_utils/sandboxjs.py:param_re`, `src/cwl_utils/expression.py:evaluator`)
  * `paramref_prefix_violated`: C09 fails for quoted keys that hold the sequence `']`: the reference `$(inputs['a\']b'])` passes `param_re` as a whole, but `segment_re` stops at the escaped quote, so the value of the key `a\` is returned although the reference names the key `a']b`, which `inputs` does not have.
* **C10, Failed references fall back to JavaScript or give a workflow error** (`src/cwl_utils/sandboxjs.py:NodeJSEngine.regex_eval`, `src/cwl_utils/expression.py:evaluator`)
  * `paramref_empty_list_violated`: index 0 of an empty list raises a bare `IndexError`, even with full JavaScript (`if key and key >= len(current_value)` in `sandboxjs.py:569`).
* **C11, Expression conversion is stable under literal text** (`src/cwl_utils/expression.py:interpolate`, `src/cwl_utils/expression.py:_convert_dumper`)
  * `convert_literal_violated`: a double quote in the literal text ends the JavaScript literal early.
* **C12, JS process framing is independent of the pipe schedule** (`src/cwl_utils/sandboxjs.py:NodeJSEngine.exec_js_process`)
  * `exec_schedule_violated`: if a read ends between the two bytes of `é`, `process_finished()` raises `UnicodeDecodeError`.
* **C14, Byte strings are removed from the evaluation context** (`src/cwl_utils/utils.py:bytes2str_in_dicts`, `src/cwl_utils/expression.py:do_eval`)
  * `bytes2str_violated`: only the first element of a list is converted (`return inp` inside the loop).
* **C19, Inlined type names are unique** (`src/cwl_utils/schemadef.py:_inline_type`)
  * `inline_names_unique_violated`: C19 does not hold in full: a declared name can be the generated name of another copy.
* **C20, Malformed type definitions are reported as such** (`src/cwl_utils/schemadef.py:_inline_type`, `src/cwl_utils/errors.py:ArrayMissingItems`, `src/cwl_utils/errors.py:RecordMissingFields`)
  * `malformed_array_violated`: C20 does not hold for arrays: an array type without items raises `AttributeError` in place of the error meant for it, in every state and world.
  * `malformed_record_violated`: C20 does not hold for records either.
* **C24, Packing leaves no import behind** (`src/cwl_utils/pack.py:resolve_imports`)
  * `imports_resolved_violated`: C24 does not hold in full: an imported file that is itself an import is not resolved.
* **C25, Imports resolve relative to the file that contains them** (`src/cwl_utils/pack.py:resolve_imports`, `src/cwl_utils/utils.py:load_linked_file`, `src/cwl_utils/utils.py:resolved_path`)
  * `imports_relative_violated`: the nested import is looked up beside the outer document.
* **C29, Splitting rewrites references by whole names** (`src/cwl_utils/graph_split.py:rewrite`, `src/cwl_utils/graph_split.py:rewrite_id`)
  * `references_list_violated`: in the file of process `wf`, a reference in a list into the process `wf2` loses part of its name.
* **C31, Every type accepts itself** (`src/cwl_utils/parser/utils.py:can_assign_src_to_sink`, `src/cwl_utils/parser/utils.py:_compare_records`)
  * `accepts_itself_violated`: C31 does not hold in full: an optional array of nulls (no empty union) does not accept itself.
* **C32, Strict compatibility implies loose compatibility** (`src/cwl_utils/parser/utils.py:can_assign_src_to_sink`, `src/cwl_utils/parser/utils.py:check_types`)
  * `strict_implies_loose_violated`: C32 does not hold in full: `[null]` strictly fits `[null]` but not loosely; so does an empty union.
* **C33, Assignability agrees with the set-of-values meaning** (`src/cwl_utils/parser/utils.py:can_assign_src_to_sink`, `src/cwl_utils/parser/utils.py:_compare_records`)
  * `strict_violated`: C33 does not hold in full: `[int, string][]` passes the strict comparison with `int[]?`, although an array of strings is not a value of it (with `int[]` it does not pass).
* **C35, Type equality is an equivalence** (`src/cwl_utils/parser/cwl_v1_2_utils.py:_compare_type`)
  * `compare_array_violated`: every array is found equal to every other type.
  * `compare_record_violated`: comparing an optional record type with itself raises AttributeError.
  * `compare_symm_violated`: with repeated alternatives the comparison is not symmetric.
* **C36, The type of several sources covers all of them** (`src/cwl_utils/parser/cwl_v1_2_utils.py:type_for_source`)
  * `covers_array_violated`: after an array all further types are lost.
  * `covers_scatter_violated`: a scattered source whose unscattered type occurred before is lost.
  * `covers_record_violated`: two sources of the same optional record type make the function raise AttributeError.
* **C38, The static checker reports every incompatible link** (`src/cwl_utils/parser/cwl_v1_2_utils.py:check_all_types`, `src/cwl_utils/parser/cwl_v1_1_utils.py:check_all_types`, `src/cwl_utils/parser/cwl_v1_0_utils.py:check_all_types`)
  * `checkAll12_loop_violated`: C38 does not hold for v1.2: of two sinks that both expect the array of the values of a loop, the second is reported as incompatible.
  * `checkAll12_order_violated`: C38 does not hold for v1.2: the answer for a sink that picks the first value depends on whether it comes before or after another sink of the conditional source.
* **C39, The static checker rejects missing required inputs** (`src/cwl_utils/parser/utils.py:static_checker`)
  * `missing_required_violated`: a required step input without source, default or valueFrom is accepted.
* **C43, Version dispatch is total and exclusive** (`src/cwl_utils/parser/__init__.py:load_document_by_yaml`, `src/cwl_utils/parser/__init__.py:load_document`, `src/cwl_utils/parser/__init__.py:cwl_version`)
  * `load_all_text_violated`: for a text, the request for all entries is ignored.
* **C44, Saving several processes records the highest version** (`src/cwl_utils/parser/__init__.py:save`, `src/cwl_utils/parser/__init__.py:version_split`)
  * `save_violated`: an empty list, processes without version, and development versions cannot be saved.
* **C45, Type DSL expansion** (`src/cwl_utils/parser/cwl_v1_2.py:_TypeDSLLoader`)
  * `type_dsl_duplicates_violated`: C45, the disagreement: an array type given as text and then as mapping is listed twice.
* **C48, Union loading takes the first alternative that accepts** (`src/cwl_utils/parser/cwl_v1_2.py:_UnionLoader`, `src/cwl_utils/parser/cwl_v1_2.py:_ArrayLoader`)
  * `array_duplicate_violated`: C48, the disagreement: two entries of the loaded list share an identifier, because one of them was nested, or because the document was not read from YAML.
* **C50, Format check covers every file** (`src/cwl_utils/file_formats.py:check_format`)
  * `check_format_every_file_violated`: C50, the disagreement: the check returns at the first file with an allowed format, so a list with a wrong or missing format behind it is accepted.
* **C52, Generated schema accepts every valid input value** (`src/cwl_utils/inputs_schema_gen.py:JSONSchemaProperty`, `src/cwl_utils/inputs_schema_gen.py:cwl_to_jsonschema`)
  * `accepts_every_value_violated`: C52, the disagreement: an input of type `[int, float]` may be 1, but the schema demands that exactly one of the two fits.
  * `explicit_null_violated`: C52, the other disagreement: an optional field of a named record may be null, but the schema only allows to leave it out.
* **C53, Required inputs are exactly the mandatory ones** (`src/cwl_utils/inputs_schema_gen.py:get_is_required_from_input_parameter`, `src/cwl_utils/inputs_schema_gen.py:cwl_to_jsonschema`, `src/cwl_utils/inputs_schema_gen.py:JSONSchemaProperty.generate_type_dict`)
  * `required_exact_violated`: C53, the disagreement: an input of type `null` admits null, but is listed as required.
* **C54, Container extraction is complete and ordered** (`src/cwl_utils/docker_extract.py:traverse`, `src/cwl_utils/docker_extract.py:traverse_workflow`, `src/cwl_utils/cite_extract.py:traverse`)
  * `step_hints_extracted_violated`: C54, the disagreement: the hints of a step are not loaded as requirement objects, so a container given there is not extracted, while the same entry in the hints of the process is.
* **C55, Extracted images carry a tag** (`src/cwl_utils/docker_extract.py:extract_docker_requirements`, `src/cwl_utils/docker_extract.py:traverse_workflow`)
  * `image_tag_violated`: C55, the disagreements: the image of a step's requirement gets no tag, and an untagged image of a registry with port is taken for a tagged one.
* **C56, Distinct images are saved under distinct names** (`src/cwl_utils/image_puller.py:DockerImagePuller.get_image_name`, `src/cwl_utils/image_puller.py:SingularityImagePuller.get_image_name`)
  * `image_names_violated`: C56, the disagreement: different images get the same file name, for both programs and every supported version.
* **C57, Image download state machine** (`src/cwl_utils/image_puller.py:SingularityImagePuller.save_docker_image`, `src/cwl_utils/image_puller.py:DockerImagePuller.save_docker_image`)
  * `docker_download_violated`: C57, docker, the disagreement: with `force` the download fails if there is no file yet, although the image has been pulled, and whatever the commands do.
* **C59, Escaping removes every expression start** (`src/cwl_utils/cwl_v1_2_expression_refactor.py:escape_expression_field`)
  * `escape_recover_violated`: C59 is violated for other texts: two texts have the same escaped form, so that no function recovers both.
* **C60, Expression library lookup takes the innermost process** (`src/cwl_utils/expression_refactor.py:find_expressionLib`)
  * `expressionLib_innermost_violated`: C60 is violated if an inner process has an InlineJavascriptRequirement without library: the result is None though an outer process declares a library.
  * `expressionLib_hints_violated`: C60 is violated for a library declared in hints.
* **C61, Stream shortcut expansion in refactoring yields file outputs** (`src/cwl_utils/cwl_v1_2_expression_refactor.py:expand_stream_shortcuts`)
  * `streams_glob_violated`: C61 is violated, for every tool with a shortcut that has no glob (which a shortcut never has): the returned tool has an output of the type `File` in its place that has no glob.
  * `streams_argument_violated`: C61 is violated, for every such tool: the argument has changed after the call.
  * `streams_stderr_violated`: C61 is violated, for every tool with an output of the type `stderr`: the returned tool has it too.
* **C62, Step renaming rewires all references** (`src/cwl_utils/cwl_v1_2_expression_refactor.py:rename_step_source`, `src/cwl_utils/cwl_v1_2_expression_refactor.py:replace_wf_input_ref_with_step_output`)
  * `rename_outputs_violated`: C62 is violated for workflow outputs: a reference equal to the old name is not changed, and one that differs from it is.
  * `rename_list_violated`: C62 is violated for a list of output sources, and for an output taken directly from an input of an unnamed workflow: an exception is raised, before any step is changed.
* **C65, A killed evaluation never returns a value** (`src/cwl_utils/sandboxjs.py:NodeJSEngine.exec_js_process`, `src/cwl_utils/sandboxjs.py:NodeJSEngine.eval`)
  * `timeout_value_violated`: right after `kill()` the process may not be reaped yet, so that `poll()` is `None`; the return code is then 0 and a truncated number is returned as if it were the result.
* **C67, Array shorthand keeps its number of levels** (`src/cwl_utils/utils.py:sanitise_schema_field`)
  * `sanitise_nested_array_violated`: `string[][]` becomes an array of strings (all bracket pairs are removed at once).
* **C69, Inlining finishes** (`src/cwl_utils/schemadef.py:_inline_type`)
  * `inline_finishes_violated`: a record type that refers to itself through an optional field, which is a valid CWL type, is never inlined, at any recursion depth (in Python: `RecursionError`).
* **C71, Type comparison ignores extra keys** (`src/cwl_utils/parser/utils.py:can_assign_src_to_sink`, `src/cwl_utils/parser/utils.py:_compare_records`)
  * `extra_keys_enum_violated`: C71 does not hold for enums: the same symbols with another name or binding are not assignable.
* **C72, A step input has the type of the parameter it feeds** (`src/cwl_utils/parser/cwl_v1_2_utils.py:type_for_step_input`)
  * `stepInput_external_violated`: with the tool in a file of its own no parameter is found and the type is `Any`, so the static checker accepts any source.
* **C73, Sources are resolved to exactly the parameters they name** (`src/cwl_utils/parser/utils.py:param_for_source_id`)
  * `unknown_source_violated`: an unknown source beside a known one is not reported.
* **C74, The static checkers of the versions agree** (`src/cwl_utils/parser/cwl_v1_0_utils.py:check_all_types`, `src/cwl_utils/parser/cwl_v1_2_utils.py:check_all_types`)
  * `versions_agree_violated`: a list of one source with merge_nested is an array in v1.0 and v1.1, and so passes, but v1.2 ignores the method and reports the link as incompatible.
* **C76, A step names the file its process was written to** (`src/cwl_utils/graph_split.py:graph_split`, `src/cwl_utils/graph_split.py:rewrite`)
  * `run_names_file_violated`: C76 does not hold for a step that runs the main process, which is written to a file with another name.
* **C77, Different processes are split into different files** (`src/cwl_utils/graph_split.py:graph_split`)
  * `files_distinct_violated`: the processes `tool`, `tool.cwl` and `tool_cwl` are all written to `tool.cwl`.
* **C78, Every external type reaches its type file** (`src/cwl_utils/graph_split.py:rewrite_schemadef`, `src/cwl_utils/graph_split.py:rewrite_types`)
  * `typefile_violated`: a file with two types has repeated keys, so it cannot be read back.
  * `typefile_reference_violated`: in a type file, a reference to another type of the same file keeps the form it had in the packed document.
* **C80, Type references are redirected to the type file** (`src/cwl_utils/graph_split.py:rewrite_types`, `src/cwl_utils/graph_split.py:graph_split`)
  * `type_references_violated`: an optional type keeps the form it had in the packed document.
* **C81, Splitting accepts every packed document** (`src/cwl_utils/graph_split.py:rewrite`, `src/cwl_utils/graph_split.py:rewrite_id`, `src/cwl_utils/graph_split.py:graph_split`)
  * `split_accepts_violated`: a workflow output with several sources, and an array of alternatives one of which is written inline.
* **C82, Text contents read back** (`src/cwl_utils/parser/cwl_v1_0_utils.py:content_limit_respected_read`, `src/cwl_utils/parser/cwl_v1_1_utils.py:content_limit_respected_read`, `src/cwl_utils/parser/cwl_v1_2_utils.py:content_limit_respected_read`)
  * `text_reads_back_violated`: C82 does not hold for v1.0 and v1.1: there is a text whose file cannot be read, as it is cut inside a character.
* **C88, Primitive, Any and enum loaders accept exactly their type** (`src/cwl_utils/parser/cwl_v1_2.py:54-85`, `src/cwl_utils/parser/cwl_v1_2.py:184-206`, `src/cwl_utils/parser/cwl_v1_2.py:27453-27458`)
  * `primitive_exact_violated`: C88, the disagreement: a boolean loads where an integer is asked for, for example as the number of cores.
* **C89, Requirements and hints in map form need mappings** (`src/cwl_utils/parser/cwl_v1_2.py:592-628`, `src/cwl_utils/parser/cwl_v1_2.py:28285-28345`)
  * `requirement_map_violated`: C89, the disagreement: a requirement without a mapping as value is not refused for want of a predicate, but becomes an object with a field called "None".
* **C90, Dependency list has one entry per definition** (`src/cwl_utils/inputs_schema_gen.py:get_property_dependencies`)
  * `dependency_list_size_violated`: C90, the disagreement: the list of dependencies is not as long as the number of definitions in use: with each of them its length at least doubles.
* **C91, Schema generation succeeds** (`src/cwl_utils/inputs_schema_gen.py:cwl_to_jsonschema`, `src/cwl_utils/inputs_schema_gen.py:generate_definition_from_schema`)
  * `enum_definition_violated`: C91, the disagreement: an enumeration or array in the `SchemaDefRequirement` makes the generation fail with an `AttributeError`, even if no input uses it.
  * `fieldless_record_violated`: C91, the other disagreement: a named record without fields is defined, but a reference to it makes the generation fail with a `KeyError`.
* **C96, Imported steps are packed** (`src/cwl_utils/pack.py:listify_everything`, `src/cwl_utils/pack.py:resolve_imports`)
  * `packed_imported_step_fails`: a workflow that imports a step cannot be packed, whatever the files hold.
  * `packed_imported_step_violated`: imported steps. A step that is an import object gets an (empty) input list before imports are resolved, so it is no longer recognised as an import, and packing fails.
* **C97, An expression is found exactly when JavaScript is needed** (`src/cwl_utils/cwl_v1_2_expression_refactor.py:get_expression`)
  * `expression_whitespace_violated`: C97 fails for an expression with white space around it: the text is taken for a mixture of text and expressions, so that the value, whatever it is, becomes a text.
  * `expression_tail_violated`: C97 fails for a text that begins with `$(` and ends with `)` but is no single expression: the result is no balanced code, although the text has a meaning (the value of the expression, followed by `_(1)`).
* **C98, A generated ExpressionTool computes the expression** (`src/cwl_utils/cwl_v1_2_expression_refactor.py:generate_etool_from_expr`, `src/cwl_utils/cwl_v1_2_expression_refactor.py:generate_etool_from_expr2`)
  * `etool_body_violated`: C98 fails for every expression `${b}` with code in it: its last character is left out.
  * `etool_comment_violated`: C98 fails also when only a line break is left out: after a line comment the closing brackets of the function belong to the comment.
  * `etool_trailing_violated`: C98 fails for an expression followed by two or more characters: the bracket that ends it stays in the code.
* **C99, The script of a converted tool is the program meant** (`src/cwl_utils/cwl_v1_2_expression_refactor.py:etool_to_cltool`)
  * `script_template_violated`: C99 fails for code with a template literal (and for `$(`): the slash put in by the escaping stays in the script.
  * `script_backslash_violated`: C99 fails for code with two backslashes (v1.2): one of them is lost.
  * `script_old_backslash_violated`: C99 fails for code with any backslash under the old rules (v1.0, v1.1): a line break in a text becomes the letter n.
  * `script_library_violated`: C99 fails for a library with a template literal: the library is not escaped, so the literal is evaluated as a CWL expression when the script is written, and where that fails there is no script.
* **C100, Replacing an ExpressionTool keeps its code** (`src/cwl_utils/cwl_v1_2_expression_refactor.py:traverse`, `src/cwl_utils/cwl_v1_2_expression_refactor.py:traverse_workflow`, `src/cwl_utils/cwl_v1_2_expression_refactor.py:etool_to_cltool`)
  * `etool_reference_violated`: C100 fails for a parameter reference: the script has the reference as its code, without `return`, so that its output is undefined.
  * `etool_step_violated`: C100 fails for every `$(e)` in a step of a workflow: the expression is not normalised, and the script has `e` as its code, without `return`.
  * `etool_library_violated`: C100 fails for a tool with a library: the library never gets into the script.
* **C101, Environment variables of a workflow reach its steps** (`src/cwl_utils/cwl_v1_2_expression_refactor.py:process_workflow_reqs_and_hints`)
  * `env_own_violated`: C101 fails for a step that has an EnvVarRequirement of its own: it gets a second one (the inner loop with its `continue` does nothing), although the function is said to copy the requirement to the steps without that type.
  * `env_inputs_violated`: C101 fails for an expression that reads `inputs`: the generated step has no inputs.
  * `env_hint_violated`: C101 fails for hints, which the function is said to convert: they are never read.
* **C102, Resources of a workflow reach its steps** (`src/cwl_utils/cwl_v1_2_expression_refactor.py:process_workflow_reqs_and_hints`)
  * `res_literal_violated`: C102 fails for an attribute that needs no JavaScript beside one that does: it is lost, both from the workflow and from its steps.
* **C103, Listings of a workflow reach its steps** (`src/cwl_utils/cwl_v1_2_expression_refactor.py:process_workflow_reqs_and_hints`)
  * `listing_reference_violated`: C103 fails for a listing with entries: the reference put in place of an entry has no closing parenthesis, so that it has no value.
  * `listing_inputs_violated`: C103 fails for a listing with two expressions: the inputs connected to them have the same name, and the other name that is referred to is no input at all.
  * `dirent_entry_violated`: C103 fails for every listing that has a Dirent whose entry needs JavaScript: the entry is evaluated again without JavaScript, so that the whole conversion fails.
* **C104, Other requirements of a workflow stay** (`src/cwl_utils/cwl_v1_2_expression_refactor.py:process_workflow_reqs_and_hints`, `src/cwl_utils/cwl_v1_2_expression_refactor.py:traverse_workflow`)
  * `stepInput_violated`: C104 fails for StepInputExpressionRequirement: it is removed also if a step input still has a parameter reference as its `valueFrom` (which needs no JavaScript and is therefore not converted), and for a list that becomes empty.
* **C105, A linked file gives its own contents** (`src/cwl_utils/utils.py:load_linked_file`, `src/cwl_utils/utils.py:_is_github_symbolic_link`)
  * `local_contents_violated`: C105 does not hold for documents addressed with `file:`: the file `lib.js` with the one line `x.y` is taken for a symbolic link, and the file `x.y` is loaded in its place, or the load fails.
* **C106, Following symbolic links comes to an end** (`src/cwl_utils/utils.py:load_linked_file`)
  * `linked_finishes_violated`: a remote file whose only line is its own name is loaded for ever.
* **C107, A link is resolved against its document** (`src/cwl_utils/utils.py:resolved_path`)
  * `resolved_violated`: C107 does not hold for a link with a query in a remote document: the query is lost.
* **C108, Converted valueFrom expressions keep the input object of a step** (`src/cwl_utils/cwl_v1_2_expression_refactor.py:traverse_step`, `src/cwl_utils/cwl_v1_2_expression_refactor.py:replace_step_valueFrom_expr_with_etool`, `src/cwl_utils/cwl_v1_2_expression_refactor.py:workflow_step_to_WorkflowInputParameters`)
  * `valueFrom_own_violated`: C108 fails for an expression that reads its own input as a field of `inputs`: the generated step does not have it.
  * `valueFrom_suffix_violated`: C108 fails for an expression of the input `a` that reads the input `ba`: inputs whose names end with the name of the input are left out.
  * `valueFrom_self_violated`: C108 fails for every expression with `self` of an input named `f` (or `lf`, `elf`): the input `self` of the generated step is left out since its name ends with `f`.
  * `valueFrom_default_violated`: C108 fails for an expression that reads an input that has a default and no source: the generated tool does not declare it.
  * `valueFrom_selfDefault_violated`: C108 fails for an input with a source and a default: `self` of the generated step has no default.
  * `valueFrom_null_violated`: C108 fails for an expression whose value is null, if its input has a default: the default, which is for the source, takes its place.
  * `valueFrom_merge_violated`: C108 fails for an input with `linkMerge`: it is kept, and applied to the value of the expression.
  * `valueFrom_reference_violated`: C108 fails for an input whose `valueFrom` is a reference to an input with an expression: it now sees the value of the expression, not that of the source.
  * `valueFrom_scatter_violated`: C108 fails for a scattered step with an expression on an input that is not scattered over: the generated step is not scattered, and its expression gets the whole array.
* **C109, A converted condition keeps its value** (`src/cwl_utils/cwl_v1_2_expression_refactor.py:traverse_step`, `src/cwl_utils/cwl_v1_2_expression_refactor.py:replace_step_when_expr_with_etool`)
  * `when_default_violated`: C109 fails for a condition that reads an input that has a default and no source.
  * `when_scatter_violated`: C109 fails for a scattered step: the converted step is not scattered over `_when`, so that the condition of every instance is the array of all conditions.
* **C110, Converted expressions of a tool keep their values** (`src/cwl_utils/cwl_v1_2_expression_refactor.py:traverse_CommandLineTool`, `src/cwl_utils/cwl_v1_2_expression_refactor.py:replace_step_clt_expr_with_etool`, `src/cwl_utils/cwl_v1_2_expression_refactor.py:cltool_inputs_to_etool_inputs`)
  * `text_argument_violated`: C110 fails for every plain text argument with an expression: it is replaced by a reference to a new input of the tool, which has no default and which no input of the step sets, so that its value is null whatever the links are. (The new input of the step has the address of the generated step as its id, instead of its source.)
  * `tool_scatter_violated`: C110 fails for a scattered step: generated steps are not scattered, so the expression gets the whole array. (The step is scattered over `a`, with the values 5 and 7; its tool writes to the files named 6 and 8.)
* **C111, A converted tool needs no JavaScript** (`src/cwl_utils/cwl_v1_2_expression_refactor.py:traverse_CommandLineTool`, `src/cwl_utils/cwl_v1_2_expression_refactor.py:replace_step_clt_expr_with_etool`, `src/cwl_utils/cwl_v1_2_expression_refactor.py:cltool_inputs_to_etool_inputs`, `src/cwl_utils/expression_refactor.py:remove_JSReq`)
  * `remaining_javascript_violated`: C111 fails for `glob`, for the `valueFrom` of an inputBinding and for `stdin`: if an argument is converted, the converted tool has no InlineJavascriptRequirement left, while all of these are as before, so that those that need JavaScript cannot be evaluated.
* **C112, Converted expressions keep their library** (`src/cwl_utils/cwl_v1_2_expression_refactor.py:traverse_CommandLineTool`, `src/cwl_utils/cwl_v1_2_expression_refactor.py:replace_step_clt_expr_with_etool`, `src/cwl_utils/cwl_v1_2_expression_refactor.py:cltool_inputs_to_etool_inputs`, `src/cwl_utils/expression_refactor.py:find_expressionLib`)
  * `later_library_violated`: C112 fails after the first converted argument: the requirement was removed from the tool, so no later generated step has the library.
  * `replaced_library_violated`: C112 fails for every generated step when ExpressionTools are replaced (the default): their library is that of the workflow, and that of the tool is not used.
* **C113, A converted outputEval keeps the outputs of the tool** (`src/cwl_utils/cwl_v1_2_expression_refactor.py:traverse_CommandLineTool`, `src/cwl_utils/cwl_v1_2_expression_refactor.py:cltool_inputs_to_etool_inputs`)
  * `eval_dangling_violated`: C113 fails for every tool with an `outputEval` expression, if its `stdout` or `stderr` is converted as well, or if the step has an input whose name begins with an underscore (`_when`, for a converted condition): the step inside refers to inputs that the workflow does not have, so it cannot be run at all.
  * `eval_refused_violated`: C113 fails for every tool with an `outputEval` expression, if an input of the step has no source (but a default or a `valueFrom`), or if the outputs of the step are given as objects: the conversion fails with an exception.
  * `eval_contents_violated`: C113 fails for `loadContents`: the tool inside has lost it, and the step that evaluates the expression does not have it. (With the contents of the file the value is 11, without 2.)
  * `eval_valueFrom_violated`: C113 fails for a `valueFrom` that is left on the step: it is applied on the step, and again on the step inside. (The step gives `xu` for `a`; the tool gets `xxu`.)
  * `eval_scatter_violated`: C113 fails for a default of an input that the step is scattered over: the default is for a missing array, but on the step inside it is for a missing element. (The elements are null and 1; the instance for null has the default 5.)
  * `two_evals_violated`: C113 fails for two expressions: the second workflow is put around the first, and the tool keeps the second expression, without the JavaScript requirement; if it is evaluated nevertheless, it is evaluated once more by the step of the second workflow. (The files give 1, so the output is 2; it becomes 3.)
  * `eval_inline_violated`: C113 fails for a tool that is written inside the step, whose ids have the step in them: the output of the workflow is that of the tool, without the expression, and the step for the expression has as its source an output that the tool does not have.
* **C114, A link refers to what it names** (`src/cwl_utils/parser/cwl_v1_2.py:_expand_url`)
  * `link_target_violated`: C114 fails for every such name: the reference keeps the whole text, so it is not the identifier of what is declared under that name.
* **C115, Different declarations have different identifiers** (`src/cwl_utils/parser/cwl_v1_2.py:_expand_url`)
  * `names_distinct_violated`: C115 fails for every name with a colon after a text that is not a prefix of the vocabulary, for every name with a question mark, and for every name that begins with spaces or control characters: the identifier is that of the part after the colon, or before the question mark, or after the spaces.
* **C116, A type name refers to the type of the process** (`src/cwl_utils/parser/cwl_v1_2.py:_expand_url`)
  * `type_name_violated`: C116 fails for every process with an identifier: the type name refers to a type outside of the process.
* **C118, Terms of the vocabulary are recognised, unknown ones rejected** (`src/cwl_utils/parser/cwl_v1_2.py:_expand_url`)
  * `unknown_type_violated`: C118 fails for the types of parameters: a name that is neither a term nor declared anywhere is never rejected, but becomes an address.
* **C119, Undefined references are rejected** (`src/cwl_utils/parser/cwl_v1_2.py:_expand_url`, `src/cwl_utils/parser/cwl_v1_2.py:_URILoader`)
  * `undefined_violated`: C119 fails for references in lists: they are never checked. Whatever the fetcher says, a list of references that can be resolved gives the list of their addresses.
* **C121, A converted pickValue keeps the value of the workflow output** (`src/cwl_utils/cwl_v1_2_expression_refactor.py:process_workflow_inputs_and_outputs`, `src/cwl_utils/cwl_v1_2_expression_refactor.py:replace_expr_with_etool`)
  * `pick_nested_violated`: C121 fails for every output with `pickValue` and `linkMerge: merge_nested` that has several sources: the field stays, so that the single link to the generated step is wrapped in an array.
  * `pick_flattened_violated`: C121 fails for `linkMerge: merge_flattened`: the value of the converted output is always an array, so it is wrong whenever the value is none.
* **C123, The conversion of pickValue leaves declared types unchanged** (`src/cwl_utils/cwl_v1_2_expression_refactor.py:process_workflow_inputs_and_outputs`)
  * `declared_types_violated`: C123 fails for every single source without scatter whose declared type is an array without null items, or a list without null: the declaration of the source, in the inputs of the workflow or in the process of the step, gets another type.
* **C124, References written by the conversion are read again as the same** (`src/cwl_utils/cwl_v1_2_expression_refactor.py:replace_expr_with_etool`, `src/cwl_utils/cwl_v1_2_expression_refactor.py:process_workflow_inputs_and_outputs`, `src/cwl_utils/parser/cwl_v1_2.py:_expand_url`)
  * `reload_violated`: C124 fails for every workflow with an id: no reference is read again as the source it stands for.
* **C125, Expressions in workflow inputs are rejected** (`src/cwl_utils/cwl_v1_2_expression_refactor.py:process_workflow_inputs_and_outputs`)
  * `inputs_unchecked_violated`: C125 fails for `required` of secondaryFiles, and for `format` and secondaryFiles of the fields of a record: they are not looked at, so that an expression in them is neither converted nor rejected.
* **C126, An import stands for the content of the imported document** (`src/cwl_utils/parser/cwl_v1_0.py:_document_load_by_url`, `src/cwl_utils/parser/cwl_v1_0.py:_document_load`, `src/cwl_utils/parser/cwl_v1_0.py:_load_field`, `src/cwl_utils/parser/cwl_v1_1.py:_document_load_by_url`, `src/cwl_utils/parser/cwl_v1_1.py:_document_load`, `src/cwl_utils/parser/cwl_v1_1.py:_load_field`, `src/cwl_utils/parser/cwl_v1_2.py:_document_load_by_url`, `src/cwl_utils/parser/cwl_v1_2.py:_document_load`, `src/cwl_utils/parser/cwl_v1_2.py:_load_field`)
  * `import_type_violated`: a document that is imported as two types is of the first type at both places.
  * `import_text_violated`: an import of a document that is a single text, which stands for the document it names, ends with a `KeyError`.
  * `import_cycle_violated`: a cycle of imports is not recognised; the calls go on without end, whatever their bound is.
* **C127, An import with a fragment gives the named object** (`src/cwl_utils/parser/cwl_v1_0.py:_document_load_by_url`, `src/cwl_utils/parser/cwl_v1_0.py:_document_load`, `src/cwl_utils/parser/cwl_v1_0.py:_load_field`, `src/cwl_utils/parser/cwl_v1_1.py:_document_load_by_url`, `src/cwl_utils/parser/cwl_v1_1.py:_document_load`, `src/cwl_utils/parser/cwl_v1_1.py:_load_field`, `src/cwl_utils/parser/cwl_v1_2.py:_document_load_by_url`, `src/cwl_utils/parser/cwl_v1_2.py:_document_load`, `src/cwl_utils/parser/cwl_v1_2.py:_load_field`)
  * `fragment_graph_violated`: C127 is violated for documents with `$graph`: the whole list would have to be what the place asks for.
  * `fragment_missing_violated`: C127 is violated for names that the document does not have: the import ends with a `KeyError`, not with a `ValidationException`.
* **C129, The identifier of an imported object** (`src/cwl_utils/parser/cwl_v1_0.py:_document_load_by_url`, `src/cwl_utils/parser/cwl_v1_0.py:_document_load`, `src/cwl_utils/parser/cwl_v1_0.py:_load_field`, `src/cwl_utils/parser/cwl_v1_1.py:_document_load_by_url`, `src/cwl_utils/parser/cwl_v1_1.py:_document_load`, `src/cwl_utils/parser/cwl_v1_1.py:_load_field`, `src/cwl_utils/parser/cwl_v1_2.py:_document_load_by_url`, `src/cwl_utils/parser/cwl_v1_2.py:_document_load`, `src/cwl_utils/parser/cwl_v1_2.py:_load_field`)
  * `import_key_violated`: an entry `x: {$import: …}` of `inputs` is not named `x`, as it is if its content stands there.
  * `import_run_violated`: a tool that is imported as the `run` of a step, and has no identifier, does not have its URL as identifier but a blank one.
* **C130, Resources of a step keep their values** (`src/cwl_utils/cwl_v1_2_expression_refactor.py:process_level_reqs`, `src/cwl_utils/cwl_v1_2_expression_refactor.py:replace_clt_hintreq_expr_with_etool`, `src/cwl_utils/expression_refactor.py:add_input_to_process`)
  * `process_resources_violated`: C130 fails for every process that is no CommandLineTool (a subworkflow, for example): each attribute with an expression becomes a reference to an input that the process does not have.
  * `resource_scatter_violated`: C130 fails for a scattered step: generated steps are not scattered, so the expression gets the whole array.
  * `resource_type_violated`: C130 fails for values that are not integers, as CWL v1.2 allows for most attributes: the new input, and the result of the generated step, have the type `long`.
* **C131, Environment variables of a step keep their values** (`src/cwl_utils/cwl_v1_2_expression_refactor.py:process_level_reqs`, `src/cwl_utils/cwl_v1_2_expression_refactor.py:replace_clt_hintreq_expr_with_etool`, `src/cwl_utils/expression_refactor.py:add_input_to_process`)
  * `tool_env_violated`: C131 fails whenever a process has an environment variable with an expression: the refactoring ends with a TypeError (a requirement is indexed like a list).
* **C132, Listings of a step keep their values** (`src/cwl_utils/cwl_v1_2_expression_refactor.py:process_level_reqs`, `src/cwl_utils/cwl_v1_2_expression_refactor.py:replace_clt_hintreq_expr_with_etool`, `src/cwl_utils/expression_refactor.py:add_input_to_process`)
  * `listing_text_violated`: C132 fails for every text in a listing with an expression: it becomes a text without a closing parenthesis, and the generated step evaluates the expression on the empty input object.
  * `listing_whole_violated`: C132 fails for every listing that is one text with an expression: the generated step evaluates it on the empty input object.
  * `listing_name_violated`: C132 fails for every Dirent without an entry whose name has an expression: the name becomes a reference, but the generated step evaluates the expression on the empty input object.
  * `listing_entryname_violated`: C132 fails for every Dirent with an entry without expression and a name with one: the name is left as it is.
* **C133, The program for a Dirent stages the same file** (`src/cwl_utils/cwl_v1_2_expression_refactor.py:process_level_reqs`, `src/cwl_utils/cwl_v1_2_expression_refactor.py:replace_clt_hintreq_expr_with_etool`, `src/cwl_utils/expression_refactor.py:add_input_to_process`)
  * `dirent_name_violated`: C133 fails for every name with an expression: its text, `$(…)` and all, is put into the program, where it is the call of a function that does not exist.
  * `dirent_body_violated`: C133 fails for every entry that is a function body, `${…}`: it is put where an expression must be.
  * `dirent_shadow_violated`: C133 fails for an expression that uses one of the names `result`, `entryname` and `entry` (as a name of the expression library): in the program it is a local variable without a value. The entry is a text, so a file with the name `n` is staged, but the program gives null.
  * `dirent_quote_violated`: C133 fails for a name with a double quote, which ends the text in the program.
* **C135, Converted bindings of inputs and globs are computed and used** (`src/cwl_utils/cwl_v1_2_expression_refactor.py:traverse_CommandLineTool`, `src/cwl_utils/cwl_v1_2_expression_refactor.py:replace_step_clt_expr_with_etool`)
  * `binding_unread_violated`: C135, what does not hold: whatever is converted, the inputs and the outputs of the tool keep their texts, so none of them is a reference to the new input, and JavaScript is needed as before: the new `valueFrom` and the new `glob` are put in a copy of the tool.
* **C136, The traversal of a workflow ends and converts each step once** (`src/cwl_utils/cwl_v1_2_expression_refactor.py:traverse_workflow`, `src/cwl_utils/cwl_v1_2_expression_refactor.py:traverse_step`, `src/cwl_utils/expression_refactor.py:get_input_for_id`)
  * `when_valueFrom_violated`: C136, the failure: a workflow with a step that has a condition with an expression, and an input without a source whose `valueFrom` is an expression, is not converted, whatever else it contains. (The generated step for the condition is visited as well; its tool has no input of that name.)
* **C137, A converted workflow computes what the workflow did** (`src/cwl_utils/cwl_v1_2_expression_refactor.py:traverse_workflow`, `src/cwl_utils/cwl_v1_2_expression_refactor.py:traverse_step`, `src/cwl_utils/cwl_v1_2_expression_refactor.py:replace_step_valueFrom_expr_with_etool`, `src/cwl_utils/cwl_v1_2_expression_refactor.py:replace_step_when_expr_with_etool`)
  * `names_clash_violated`: C137 fails for two steps whose names clash: the workflow has a store, and the converted one has none with these inputs.
  * `no_instance_violated`: C137 fails for a scattered step without an instance: no expression is evaluated before the conversion, and the generated step evaluates one.
* **C138, A tool put into a workflow by the expression refactoring runs as before** (`src/cwl_utils/cwl_v1_2_expression_refactor.py:traverse`, `src/cwl_utils/cwl_v1_2_expression_refactor.py:expand_stream_shortcuts`)
  * `wrapped_links_violated`: C138 fails for every tool with an id: neither source of the written workflow leads where it should.
* **C139, Mock inputs stand for the inputs** (`src/cwl_utils/cwl_v1_2_expression_refactor.py:empty_inputs`, `src/cwl_utils/cwl_v1_2_expression_refactor.py:example_input`)
  * `mock_typed_violated`: C139 fails for every array, record and enum and for the other numbers.
  * `mock_file_violated`: C139 fails for the mock File: the name is not made of its parts.
  * `mock_names_violated`: C139 fails for a process with an identifier: none of its inputs is found under its name.
* **C140, An input file is loaded as what it stands for** (`src/cwl_utils/parser/cwl_v1_0_utils.py:_inputfile_load`, `src/cwl_utils/parser/cwl_v1_1_utils.py:_inputfile_load`, `src/cwl_utils/parser/cwl_v1_2_utils.py:_inputfile_load`, `src/cwl_utils/parser/cwl_v1_2_utils.py:load_inputfile`, `src/cwl_utils/parser/utils.py:load_inputfile_by_yaml`)
  * `fragment_violated`: C140 fails for references with a fragment to a document that was not loaded: if the document can be loaded, the result is a KeyError, unless the loader itself puts the reference into the index.
  * `stale_violated`: C140 fails for a reference that was loaded before as something else: the earlier value is given.
  * `endless_violated`: C140 fails for an input file that is a text naming the file itself: the recursion does not end.
* **C142, Every document gets its normalized form** (`src/cwl_utils/normalizer.py:run`, `src/cwl_utils/pack.py:pack`)
  * `normalized_overwritten_violated`: two documents of the same name. The second form takes the place of the first, and the code is 0.
  * `normalized_links_violated`: relative links. Without expression refactoring the links are still in the document when it is packed, but it is packed from the temporary directory, where they lead nowhere: a document that has a normalized form ends the run with an exception.
  * `normalized_version_violated`: the version of what is linked. Without expression refactoring only the document itself is upgraded; a tool of version 1.0 that it links to is packed as it is.
* **C143, Nothing is changed without a report** (`src/cwl_utils/cwl_v1_2_expression_refactor.py:process_workflow_inputs_and_outputs`, `src/cwl_utils/cwl_v1_2_expression_refactor.py:process_workflow_reqs_and_hints`, `src/cwl_utils/cwl_v1_2_expression_refactor.py:process_level_reqs`, `src/cwl_utils/cwl_v1_2_expression_refactor.py:traverse_CommandLineTool`, `src/cwl_utils/cwl_v1_2_expression_refactor.py:traverse_step`, `src/cwl_utils/cwl_v1_2_expression_refactor.py:traverse_workflow`, `src/cwl_utils/expression_refactor.py:refactor`)
  * `removed_unreported_violated`: The end of `traverse_workflow` removes requirements whether or not something was reported: a workflow that needs none of the conversions and states InlineJavascriptRequirement or StepInputExpressionRequirement comes back changed, with `modified` false.
* **C144, The conversion reaches every process** (`src/cwl_utils/cwl_v1_2_expression_refactor.py:traverse`, `src/cwl_utils/cwl_v1_2_expression_refactor.py:traverse_workflow`, `src/cwl_utils/cwl_v1_2_expression_refactor.py:traverse_step`, `src/cwl_utils/expression_refactor.py:load_step`)
  * `inner_unconverted_violated`: Violated: a workflow that is written inside a step is given back exactly as it is, whatever it contains.
  * `conversion_cycle_violated`: Violated for a file that leads to itself: the conversion never gives a result (the code fails with a RecursionError, which is no WorkflowException).
* **C145, An object is loaded from exactly the documents of its class** (`src/cwl_utils/parser/cwl_v1_2.py:WorkflowStep.fromDoc`, `src/cwl_utils/parser/cwl_v1_2.py:Dirent.fromDoc`, `src/cwl_utils/parser/cwl_v1_2.py:CommandLineTool.fromDoc`, `src/cwl_utils/parser/cwl_v1_2.py:ToolTimeLimit.fromDoc`, `src/cwl_utils/parser/cwl_v1_2.py:_RecordLoader`, `src/cwl_utils/parser/cwl_v1_1.py:WorkflowStep.fromDoc`, `src/cwl_utils/parser/cwl_v1_0.py:WorkflowStep.fromDoc`)
  * `ext_lost_violated`: **C145 (violated).** Two keys that stand for the same address: the value of the first is lost without an error.
* **C146, A saved object is read as the same object** (`src/cwl_utils/parser/cwl_v1_2.py:WorkflowStep.save`, `src/cwl_utils/parser/cwl_v1_2.py:Dirent.save`, `src/cwl_utils/parser/cwl_v1_2.py:ToolTimeLimit.save`, `src/cwl_utils/parser/cwl_v1_2.py:WorkflowStep.fromDoc`, `src/cwl_utils/parser/cwl_v1_1.py:WorkflowStep.save`, `src/cwl_utils/parser/cwl_v1_0.py:WorkflowStep.save`)
  * `fresh_ident_violated`: **C146 (violated).** An identifier made up for an object without one, written as it is, is read as another identifier.
* **C147, Equality of loaded objects is an equivalence with hashes** (`src/cwl_utils/parser/cwl_v1_2.py:WorkflowStep.__eq__`, `src/cwl_utils/parser/cwl_v1_2.py:WorkflowStep.__hash__`, `src/cwl_utils/parser/cwl_v1_2.py:Dirent.__eq__`, `src/cwl_utils/parser/cwl_v1_2.py:Dirent.__hash__`, `src/cwl_utils/parser/cwl_v1_1.py:WorkflowStep.__eq__`, `src/cwl_utils/parser/cwl_v1_0.py:WorkflowStep.__eq__`)
  * `eq_ext_violated`: **C147 (violated).** Equal objects are not the same: extension fields are not compared.
  * `unhashable_violated`: **C147 (violated).** `hash` of an object with a list in a field fails, as for the steps, tools and workflows, whose inputs and outputs are lists: here a step.
* **C148, Loading a document ends with an object or a validation error** (`src/cwl_utils/parser/cwl_v1_2.py:_ArrayLoader.load`, `src/cwl_utils/parser/cwl_v1_2.py:_MapLoader.load`, `src/cwl_utils/parser/cwl_v1_2.py:_RecordLoader.load`, `src/cwl_utils/parser/cwl_v1_2.py:_UnionLoader.load`, `src/cwl_utils/parser/cwl_v1_2.py:_URILoader.load`, `src/cwl_utils/parser/cwl_v1_2.py:_TypeDSLLoader.load`, `src/cwl_utils/parser/cwl_v1_2.py:_IdMapLoader.load`, `src/cwl_utils/parser/cwl_v1_2.py:_SecondaryDSLLoader.load`, `src/cwl_utils/parser/cwl_v1_2.py:_ProxyLoader.load`, `src/cwl_utils/parser/cwl_v1_2.py:_load_field`, `src/cwl_utils/parser/cwl_v1_1.py:_UnionLoader.load`, `src/cwl_utils/parser/cwl_v1_0.py:_UnionLoader.load`)
  * `value_violated`: The disagreement: a text that is no address, `//[`, as an identifier ends the loading of a tool with a `ValueError`, which is no `ValidationException`.
* **C149, Loaded objects have the types of the specification** (`src/cwl_utils/parser/cwl_v1_2.py:_ArrayLoader.load`, `src/cwl_utils/parser/cwl_v1_2.py:_MapLoader.load`, `src/cwl_utils/parser/cwl_v1_2.py:_RecordLoader.load`, `src/cwl_utils/parser/cwl_v1_2.py:_UnionLoader.load`, `src/cwl_utils/parser/cwl_v1_2.py:_EnumLoader.load`, `src/cwl_utils/parser/cwl_v1_2.py:_PrimitiveLoader.load`, `src/cwl_utils/parser/cwl_v1_2.py:_IdMapLoader.load`, `src/cwl_utils/parser/cwl_v1_2.py:_SecondaryDSLLoader.load`, `src/cwl_utils/parser/cwl_v1_2.py:_TypeDSLLoader.load`, `src/cwl_utils/parser/cwl_v1_2.py:CommandLineTool.fromDoc`, `src/cwl_utils/parser/cwl_v1_1.py:CommandLineTool.fromDoc`, `src/cwl_utils/parser/cwl_v1_0.py:CommandLineTool.fromDoc`)
  * `bool_violated`: The disagreement: the time limit of a loaded tool is an integer or an expression, but `true` is accepted, as in Python it is an integer.
  * `nested_violated`: The disagreement of version 1.0: `secondaryFiles` of a file is a list of files and directories, but inside of a mapping in a default value a list of lists is accepted, too.
* **C150, A default value is loaded as it is written** (`src/cwl_utils/parser/cwl_v1_2.py:_ArrayLoader.load`, `src/cwl_utils/parser/cwl_v1_2.py:_MapLoader.load`, `src/cwl_utils/parser/cwl_v1_2.py:_UnionLoader.load`, `src/cwl_utils/parser/cwl_v1_2.py:CommandInputParameter.fromDoc`, `src/cwl_utils/parser/cwl_v1_1.py:_ArrayLoader.load`, `src/cwl_utils/parser/cwl_v1_0.py:_ArrayLoader.load`)
  * `default_flattened_violated`: The disagreement: a list of lists as a default value is loaded as one list.
  * `default_twins_violated`: The disagreement: a list of two mappings with the same value for the key `id` is rejected as a default value.
* **C151, Input values are loaded as they are written** (`src/cwl_utils/parser/cwl_v1_2.py:_ArrayLoader.load`, `src/cwl_utils/parser/cwl_v1_2.py:_MapLoader.load`, `src/cwl_utils/parser/cwl_v1_2.py:_UnionLoader.load`, `src/cwl_utils/parser/cwl_v1_1.py:_MapLoader.load`, `src/cwl_utils/parser/cwl_v1_0.py:_MapLoader.load`, `src/cwl_utils/parser/__init__.py:load_inputfile`)
  * `inputs_twins_violated`: The disagreement: an input file with a list of two records that have the same value for the key `id` is rejected.
* **C152, A loaded document can be saved and loaded again without change** (`src/cwl_utils/parser/__init__.py:save`, `src/cwl_utils/parser/cwl_v1_2.py:_UnionLoader.load`, `src/cwl_utils/parser/cwl_v1_2.py:_ArrayLoader.load`, `src/cwl_utils/parser/cwl_v1_2.py:_URILoader.load`, `src/cwl_utils/parser/cwl_v1_2.py:_TypeDSLLoader.load`, `src/cwl_utils/parser/cwl_v1_2.py:_SecondaryDSLLoader.load`, `src/cwl_utils/parser/cwl_v1_2.py:_expand_url`, `src/cwl_utils/parser/cwl_v1_1.py:_UnionLoader.load`, `src/cwl_utils/parser/cwl_v1_0.py:_UnionLoader.load`)
  * `twins_violated`: The disagreement: two inputs whose identifiers are different texts for the same address are accepted, and the saved document is then invalid.
  * `marks_violated`: The disagreement: a name with two question marks is an optional type of a name with one question mark; saved and loaded again it is another type.
  * `made_up_violated`: The disagreement: the type `string[]` becomes an object with an identifier that was made up, which is saved, and is read as a name relative to that of the input.
* **C153, Addresses in a loaded document are resolved in their scope and complete** (`src/cwl_utils/parser/cwl_v1_2.py:_URILoader.load`, `src/cwl_utils/parser/cwl_v1_2.py:_TypeDSLLoader.resolve`, `src/cwl_utils/parser/cwl_v1_2.py:_TypeDSLLoader.load`, `src/cwl_utils/parser/cwl_v1_2.py:_IdMapLoader.load`, `src/cwl_utils/parser/cwl_v1_2.py:_ArrayLoader.load`, `src/cwl_utils/parser/cwl_v1_2.py:_RecordLoader.load`, `src/cwl_utils/parser/cwl_v1_2.py:WorkflowStep.fromDoc`, `src/cwl_utils/parser/cwl_v1_2.py:_expand_url`, `src/cwl_utils/parser/cwl_v1_1.py:_URILoader.load`, `src/cwl_utils/parser/cwl_v1_0.py:_URILoader.load`)
  * `nested_source_violated`: The disagreement: a list in a list of references is accepted, and put in its place without being resolved.
  * `brackets_violated`: The disagreement: the name of a type with two pairs of brackets is accepted, and stays as it is.
* **C154, The next parser loads the documents of the version before** (`src/cwl_utils/parser/cwl_v1_1.py:_RecordLoader.load`, `src/cwl_utils/parser/cwl_v1_1.py:_UnionLoader.load`, `src/cwl_utils/parser/cwl_v1_1.py:_EnumLoader.load`, `src/cwl_utils/parser/cwl_v1_1.py:_IdMapLoader.load`, `src/cwl_utils/parser/cwl_v1_1.py:_document_load`, `src/cwl_utils/parser/cwl_v1_2.py:_RecordLoader.load`, `src/cwl_utils/parser/cwl_v1_2.py:_UnionLoader.load`, `src/cwl_utils/parser/cwl_v1_2.py:_EnumLoader.load`, `src/cwl_utils/parser/cwl_v1_2.py:_IdMapLoader.load`, `src/cwl_utils/parser/cwl_v1_2.py:_document_load`, `src/cwl_utils/parser/cwl_v1_2.py:load_document_by_string`)
  * `nested_version_violated`: The disagreement: it is loaded by the parser of v1.1, but with the version of the workflow changed to v1.2 it is not loaded by the parser of v1.2.
  * `newer10_violated`: The disagreement for the versions before: an input without a type is loaded by the parser of v1.0, and with the version changed to v1.1 not by the parser of v1.1.
* **C155, The file that a path or an address stands for is the one that is loaded** (`src/cwl_utils/parser/__init__.py:load_document_by_uri`, `src/cwl_utils/parser/__init__.py:load_document_by_string`, `src/cwl_utils/parser/utils.py:load_inputfile_by_uri`, `src/cwl_utils/inputs_schema_gen.py:get_cwl_url`, `src/cwl_utils/utils.py:is_uri`, `src/cwl_utils/utils.py:is_local_uri`)
  * `plus_violated`: The disagreement for texts: a plus sign is taken for a space, a percent sign for the beginning of an encoded byte, a semicolon for the end of the path. Another file is loaded, or none.
  * `hash_violated`: The disagreement for `Path` objects: what follows a `#` in the name is taken for the name of a process, but stays in the name of the file.
  * `schema_violated`: The disagreements for schemas: a relative path of a file that exists raises a `ValueError`, and the address of a file with a space in its name is said not to exist.
* **C156, The schema program writes the whole schema or leaves the output alone** (`src/cwl_utils/inputs_schema_gen.py:main`, `src/cwl_utils/inputs_schema_gen.py:run`, `src/cwl_utils/inputs_schema_gen.py:arg_parser`, `src/cwl_utils/inputs_schema_gen.py:get_cwl_url`, `src/cwl_utils/inputs_schema_gen.py:cwl_to_jsonschema`)
  * `output_lost_violated`: The disagreement: an earlier output is lost though the document was not found.
* **C157, The programs that extract images and packages find what is written in a document** (`src/cwl_utils/docker_extract.py:extract_docker_requirements`, `src/cwl_utils/docker_extract.py:extract_docker_reqs`, `src/cwl_utils/docker_extract.py:traverse`, `src/cwl_utils/docker_extract.py:traverse_workflow`, `src/cwl_utils/docker_extract.py:get_process_from_step`, `src/cwl_utils/cite_extract.py:extract_software_reqs`, `src/cwl_utils/cite_extract.py:process_software_requirement`, `src/cwl_utils/cite_extract.py:traverse`, `src/cwl_utils/cite_extract.py:traverse_workflow`, `src/cwl_utils/cite_extract.py:get_process_from_step`, `src/cwl_utils/parser/cwl_v1_2.py:_IdMapLoader`, `src/cwl_utils/parser/cwl_v1_2.py:_UnionLoader`)
  * `step_hints_lost_violated`: **C157**, the disagreement: the image in the hints of the steps is not extracted, with none of the versions; all others are.
* **C158, The JSON that programs write stands for the document** (`src/cwl_utils/pack_cli.py:run`, `src/cwl_utils/graph_split.py:json_dump`, `src/cwl_utils/normalizer.py:run`, `src/cwl_utils/inputs_schema_gen.py:run`, `src/cwl_utils/expression.py:interpolate`)
  * `old_output_lost_violated`: **C158.** `cwl-graph-split` and `cwl-normalizer` truncate the output before they know that they can write it: a document that was there before is lost (here because of a date).
  * `keys_collide_violated`: **C158.** The keys `1` and `"1"` of a document get the same name, and one of the values is lost.
  * `infinite_not_json_violated`: **C158.** An infinite number (`.inf` in YAML) is written as a text that is not JSON.
  * `halves_join_violated`: **C158.** A string that has a character as its two halves is read back as another one.
* **C160, An evaluation runs the script that was given and returns what it printed** (`src/cwl_utils/sandboxjs.py:NodeJSEngine.exec_js_process`, `src/cwl_utils/sandboxjs.py:NodeJSEngine.eval`, `src/cwl_utils/cwlNodeEngine.js`, `src/cwl_utils/cwlNodeEngineWithContext.js`, `src/cwl_utils/cwlNodeEngineJSConsole.js`)
  * `exec_schedule_violated`: if a read ends between the two bytes of `é`, `process_finished()` raises `UnicodeDecodeError`.
* **C161, An expression sees its inputs, self and runtime as they were given** (`src/cwl_utils/expression.py:do_eval`, `src/cwl_utils/expression.py:jshead`, `src/cwl_utils/expression.py:interpolate`, `src/cwl_utils/utils.py:bytes2str_in_dicts`)
  * `proto_member_violated`: a member `__proto__` of an input sets the prototype of the object that the code sees; the member itself is not there. A reference `$(inputs.__proto__)` finds it.
  * `bytes_left_violated`: C161/C08: a byte string after the first element of a list stays in the context, and with JavaScript writing the context raises a bare `TypeError`, even for an expression that does not use it.
* **C162, The static checker gives a verdict on every workflow** (`src/cwl_utils/parser/utils.py:static_checker`, `src/cwl_utils/parser/cwl_v1_0_utils.py:check_all_types`, `src/cwl_utils/parser/cwl_v1_1_utils.py:check_all_types`, `src/cwl_utils/parser/cwl_v1_2_utils.py:check_all_types`)
  * `verdict_violated`: a dangling source in a list raises `KeyError` in all versions (a dangling single source is reported), and an empty list of sources `IndexError` in v1.2.
  * `verdict12_violated`: It fails: if the values of a loop are used twice, the second use is compared with an array of arrays, so a workflow is rejected though each of its links is fine.
* **C163, Expressions are run by a Node.js that works and is new enough, or in a container** (`src/cwl_utils/sandboxjs.py:new_js_proc`, `src/cwl_utils/sandboxjs.py:check_js_threshold_version`, `src/cwl_utils/utils.py:singularity_supports_userns`)
  * `usable_violated`: an old `nodejs` hides a good `node`; with docker a container is used instead, and without it the evaluation fails.
  * `only_javascript_violated`: an unknown engine raises a plain `Exception` and the version of a nightly build `ValueError`.
* **C164, The image for expressions is pulled exactly when it is needed** (`src/cwl_utils/sandboxjs.py:new_js_proc`)
  * `pulled_violated`: udocker pulls the image although it lists it, and after a use of docker nothing is looked up or pulled with podman.
* **C165, Splitting leaves exactly the processes and the types in the output directory** (`src/cwl_utils/graph_split.py:101-153`, `src/cwl_utils/graph_split.py:248-280`, `src/cwl_utils/graph_split.py:283-307`)
  * `inside_violated`: Nor: an id with a slash leads out of the output directory.
  * `directory_violated`: Nor: the types of a file that has the name of a process are lost.
  * `again_violated`: It does not hold: a second run appends the types to their files once more.
* **C166, A released JavaScript engine leaves no process behind** (`src/cwl_utils/sandboxjs.py:114-143`, `src/cwl_utils/sandboxjs.py:279-470`)
  * `released_violated`: It does not hold: if the input of one process cannot be closed, that one and all later ones are not killed.
  * `told_violated`: Part two does not hold: the containers that `new_js_proc` starts are never told to stop, since their command lines name no file for the id: only the program that started the container is killed.
* **C167, An evaluation returns what its own script printed, whatever happened before** (`src/cwl_utils/sandboxjs.py:NodeJSEngine.exec_js_process`, `src/cwl_utils/sandboxjs.py:NodeJSEngine.eval`)
  * `shifted_violated`: **C167** fails for every sequence of scripts after one whose output was read up to the middle of a character: the first two evaluations raise UnicodeDecodeError, and every further one returns the value of the script before it.
  * `stopped_violated`: **C167** fails after a time-out: the answer comes when the timer has fired, `poll()` does not yet show the end of the killed process, and the next evaluation returns the value of the script that was stopped.
* **C168, Every image of a document is in the directory after docker-extract** (`src/cwl_utils/docker_extract.py:run`, `src/cwl_utils/image_puller.py:DockerImagePuller.save_docker_image`, `src/cwl_utils/image_puller.py:SingularityImagePuller.save_docker_image`, `src/cwl_utils/image_puller.py:DockerImagePuller.get_image_name`, `src/cwl_utils/image_puller.py:SingularityImagePuller.get_image_name`)
  * `clash_docker_violated`: **C168** fails for docker and two images with the same file: the later one is there.
  * `clash_singularity_violated`: **C168** fails for Singularity and two images with the same file: the later one is never downloaded.
* **C169, What is reported about an evaluation is what happened** (`src/cwl_utils/sandboxjs.py:linenum`, `src/cwl_utils/sandboxjs.py:stdfmt`, `src/cwl_utils/sandboxjs.py:NodeJSEngine.eval`, `src/cwl_utils/sandboxjs.py:NodeJSEngine.exec_js_process`, `src/cwl_utils/cwlNodeEngineJSConsole.js:js_console_log`)
  * `thrown_shown_violated`: **C169, a line of an exception is taken for one of the console.** A script that throws a text whose second line begins with `[log]` seems to have logged it.
  * `killed_cut_violated`: **C169, the console of a killed script is cut.** The script logs a line, which is written and read, and does not end. Nothing of the line is shown: the length of the marker is cut from the output although the marker is not there.
  * `hangup_violated`: **C169, a timeout that there was not.** A process that the operating system ends by signal 1 (`SIGHUP`) has the return code -1: the message says that the script was killed after 20 seconds, although no timeout passed.
* **C170, Evaluations in several threads and with several engines do not disturb each other** (`src/cwl_utils/sandboxjs.py:NodeJSEngine.exec_js_process`, `src/cwl_utils/sandboxjs.py:NodeJSEngine.__del__`, `src/cwl_utils/sandboxjs.py:NodeJSEngine`)
  * `other_engine_violated`: C170 fails for a thread that uses two engines: an evaluation of the engine 2 gets the process that the engine 1 has started, and the end of the engine 1 kills it. The evaluation fails, though its engine goes on, its process has not ended by itself and its timer has not fired.
  * `late_timer_violated`: C170 fails after an evaluation whose output is not UTF-8: its timer is not cancelled, and ends the process while the next evaluation uses it.
* **C171, A workflow the static checker has nothing to say about is safe** (`src/cwl_utils/parser/utils.py:static_checker`, `src/cwl_utils/parser/utils.py:check_types`, `src/cwl_utils/parser/utils.py:can_assign_src_to_sink`, `src/cwl_utils/parser/cwl_v1_0_utils.py:check_all_types`, `src/cwl_utils/parser/cwl_v1_1_utils.py:check_all_types`, `src/cwl_utils/parser/cwl_v1_2_utils.py:check_all_types`, `src/cwl_utils/parser/cwl_v1_2_utils.py:type_for_step_input`, `src/cwl_utils/parser/cwl_v1_2_utils.py:type_for_step_output`)
  * `flow_sound_violated`: C171 fails, for seven reasons: a single link with `merge_nested`, several links into a choice of lists, an element picked from flattened lists, strictness lost below a union, a skipped step among several links, a step of which some invocations are skipped, and a process in a file of its own.
* **C173, Simplifying the type identifiers of generated tools changes names only** (`src/cwl_utils/cwl_v1_0_expression_refactor.py:clean_type_ids`, `src/cwl_utils/cwl_v1_1_expression_refactor.py:clean_type_ids`, `src/cwl_utils/cwl_v1_2_expression_refactor.py:clean_type_ids`, `src/cwl_utils/cwl_v1_2_expression_refactor.py:generate_etool_from_expr`)
  * `clean_nested_violated`: the names below a record in a record, in an array of arrays, in a list of alternatives (so in every optional record), and in the record of an output (which a step input is connected to) stay as they are.
* **C174, Packing a packed document changes nothing** (`src/cwl_utils/pack.py:pack`, `src/cwl_utils/pack.py:pack_process`, `src/cwl_utils/pack.py:normalize_sources`, `src/cwl_utils/schemadef.py:inline_types`, `src/cwl_utils/schemadef.py:_inline_type`)
  * `pack_again_violated`: the sources of imported outputs keep their `#` when the workflow is packed, and lose it when it is packed again.
* **C175, A link is rejected exactly if nothing can pass it** (`src/cwl_utils/parser/utils.py:check_types`, `src/cwl_utils/parser/utils.py:can_assign_src_to_sink`, `src/cwl_utils/parser/utils.py:static_checker`)
  * `rejected_violated`: `int` is not accepted for `long`, an optional `int` not for an optional `string`, a list of `int` not for a list of `string`, an enumeration not for `string` nor for an enumeration with the same symbols and another name, though the number, `null`, the empty list and the symbol are values of both types.
* **C176, A link is warned about only if some value cannot pass it** (`src/cwl_utils/parser/utils.py:check_types`, `src/cwl_utils/parser/utils.py:can_assign_src_to_sink`)
  * `warned_violated`: a choice of `int` and `long` goes into `long` with a warning, and so does a choice of an enumeration and `string` into `string`, though all their values pass.
