import Verif.Loader.Records
/-!
# The generated classes

One entry for each class with a `fromDoc` in `src/cwl_utils/parser/cwl_v1_0.py`, `cwl_v1_1.py` and `cwl_v1_2.py` (the line is that of the `class`
statement), transcribed from the text of the class: its module and name, the identifying field and whether it is needed, whether the class is named in the document, the other
fields with whether they are required, in the order in which `fromDoc` reads them; the names written by `save`, in that order; `attrs`; and the fields compared by `__eq__`
and hashed by `__hash__`, by the names they have in documents (the Python attributes `class_`, `type_`, `in_` … stand for `class`, `type`, `in` …).
-/
namespace CwlUtils.Loader.Rec

/-- The classes of `cwl_v1_0.py`. -/
def classes10 : List Cls := [
  -- cwl_v1_0.py:857
  ⟨"cwl_v1_0", "CWLArraySchema", none, false, [("items", true), ("type", true)],
   ["items", "type"],
   ["items", "type"],
   ["items", "type"], ["items", "type"]⟩,
  -- cwl_v1_0.py:1056
  ⟨"cwl_v1_0", "CWLRecordField", some ("name", true), false, [("doc", false), ("type", true)],
   ["name", "doc", "type"],
   ["doc", "name", "type"],
   ["doc", "name", "type"], ["doc", "name", "type"]⟩,
  -- cwl_v1_0.py:1324
  ⟨"cwl_v1_0", "CWLRecordSchema", none, false, [("fields", false), ("type", true)],
   ["fields", "type"],
   ["fields", "type"],
   ["fields", "type"], ["fields", "type"]⟩,
  -- cwl_v1_0.py:1523
  ⟨"cwl_v1_0", "File", none, true, [("location", false), ("path", false), ("basename", false), ("dirname", false), ("nameroot", false), ("nameext", false), ("checksum", false), ("size", false), ("secondaryFiles", false), ("format", false), ("contents", false)],
   ["class", "location", "path", "basename", "dirname", "nameroot", "nameext", "checksum", "size", "secondaryFiles", "format", "contents"],
   ["class", "location", "path", "basename", "dirname", "nameroot", "nameext", "checksum", "size", "secondaryFiles", "format", "contents"],
   ["class", "location", "path", "basename", "dirname", "nameroot", "nameext", "checksum", "size", "secondaryFiles", "format", "contents"], ["class", "location", "path", "basename", "dirname", "nameroot", "nameext", "checksum", "size", "secondaryFiles", "format", "contents"]⟩,
  -- cwl_v1_0.py:2305
  ⟨"cwl_v1_0", "Directory", none, true, [("location", false), ("path", false), ("basename", false), ("listing", false)],
   ["class", "location", "path", "basename", "listing"],
   ["class", "location", "path", "basename", "listing"],
   ["class", "location", "path", "basename", "listing"], ["class", "location", "path", "basename", "listing"]⟩,
  -- cwl_v1_0.py:2699
  ⟨"cwl_v1_0", "InputRecordField", some ("name", true), false, [("doc", false), ("type", true), ("inputBinding", false), ("label", false)],
   ["name", "doc", "type", "inputBinding", "label"],
   ["doc", "name", "type", "inputBinding", "label"],
   ["doc", "name", "type", "inputBinding", "label"], ["doc", "name", "type", "inputBinding", "label"]⟩,
  -- cwl_v1_0.py:3082
  ⟨"cwl_v1_0", "InputRecordSchema", some ("name", false), false, [("fields", false), ("type", true), ("label", false)],
   ["name", "fields", "type", "label"],
   ["fields", "type", "label", "name"],
   ["fields", "type", "label", "name"], ["fields", "type", "label", "name"]⟩,
  -- cwl_v1_0.py:3405
  ⟨"cwl_v1_0", "InputEnumSchema", some ("name", false), false, [("symbols", true), ("type", true), ("label", false), ("inputBinding", false)],
   ["name", "symbols", "type", "label", "inputBinding"],
   ["name", "symbols", "type", "label", "inputBinding"],
   ["name", "symbols", "type", "label", "inputBinding"], ["name", "symbols", "type", "label", "inputBinding"]⟩,
  -- cwl_v1_0.py:3790
  ⟨"cwl_v1_0", "InputArraySchema", none, false, [("items", true), ("type", true), ("label", false), ("inputBinding", false)],
   ["items", "type", "label", "inputBinding"],
   ["items", "type", "label", "inputBinding"],
   ["items", "type", "label", "inputBinding"], ["items", "type", "label", "inputBinding"]⟩,
  -- cwl_v1_0.py:4107
  ⟨"cwl_v1_0", "OutputRecordField", some ("name", true), false, [("doc", false), ("type", true), ("outputBinding", false)],
   ["name", "doc", "type", "outputBinding"],
   ["doc", "name", "type", "outputBinding"],
   ["doc", "name", "type", "outputBinding"], ["doc", "name", "type", "outputBinding"]⟩,
  -- cwl_v1_0.py:4435
  ⟨"cwl_v1_0", "OutputRecordSchema", none, false, [("fields", false), ("type", true), ("label", false)],
   ["fields", "type", "label"],
   ["fields", "type", "label"],
   ["fields", "type", "label"], ["fields", "type", "label"]⟩,
  -- cwl_v1_0.py:4692
  ⟨"cwl_v1_0", "OutputEnumSchema", some ("name", false), false, [("symbols", true), ("type", true), ("label", false), ("outputBinding", false)],
   ["name", "symbols", "type", "label", "outputBinding"],
   ["name", "symbols", "type", "label", "outputBinding"],
   ["name", "symbols", "type", "label", "outputBinding"], ["name", "symbols", "type", "label", "outputBinding"]⟩,
  -- cwl_v1_0.py:5077
  ⟨"cwl_v1_0", "OutputArraySchema", none, false, [("items", true), ("type", true), ("label", false), ("outputBinding", false)],
   ["items", "type", "label", "outputBinding"],
   ["items", "type", "label", "outputBinding"],
   ["items", "type", "label", "outputBinding"], ["items", "type", "label", "outputBinding"]⟩,
  -- cwl_v1_0.py:5394
  ⟨"cwl_v1_0", "InputParameter", some ("id", true), false, [("label", false), ("secondaryFiles", false), ("streamable", false), ("doc", false), ("format", false), ("inputBinding", false), ("default", false), ("type", false)],
   ["id", "label", "secondaryFiles", "streamable", "doc", "format", "inputBinding", "default", "type"],
   ["label", "secondaryFiles", "streamable", "doc", "id", "format", "inputBinding", "default", "type"],
   ["label", "secondaryFiles", "streamable", "doc", "id", "format", "inputBinding", "default", "type"], ["label", "secondaryFiles", "streamable", "doc", "id", "format", "inputBinding", "default", "type"]⟩,
  -- cwl_v1_0.py:6023
  ⟨"cwl_v1_0", "OutputParameter", some ("id", true), false, [("label", false), ("secondaryFiles", false), ("streamable", false), ("doc", false), ("outputBinding", false), ("format", false)],
   ["id", "label", "secondaryFiles", "streamable", "doc", "outputBinding", "format"],
   ["label", "secondaryFiles", "streamable", "doc", "id", "outputBinding", "format"],
   ["label", "secondaryFiles", "streamable", "doc", "id", "outputBinding", "format"], ["label", "secondaryFiles", "streamable", "doc", "id", "outputBinding", "format"]⟩,
  -- cwl_v1_0.py:6558
  ⟨"cwl_v1_0", "InlineJavascriptRequirement", none, true, [("expressionLib", false)],
   ["class", "expressionLib"],
   ["class", "expressionLib"],
   ["class", "expressionLib"], ["class", "expressionLib"]⟩,
  -- cwl_v1_0.py:6741
  ⟨"cwl_v1_0", "SchemaDefRequirement", none, true, [("types", true)],
   ["class", "types"],
   ["class", "types"],
   ["class", "types"], ["class", "types"]⟩,
  -- cwl_v1_0.py:6919
  ⟨"cwl_v1_0", "EnvironmentDef", none, false, [("envName", true), ("envValue", true)],
   ["envName", "envValue"],
   ["envName", "envValue"],
   ["envName", "envValue"], ["envName", "envValue"]⟩,
  -- cwl_v1_0.py:7126
  ⟨"cwl_v1_0", "CommandLineBinding", none, false, [("loadContents", false), ("position", false), ("prefix", false), ("separate", false), ("itemSeparator", false), ("valueFrom", false), ("shellQuote", false)],
   ["loadContents", "position", "prefix", "separate", "itemSeparator", "valueFrom", "shellQuote"],
   ["loadContents", "position", "prefix", "separate", "itemSeparator", "valueFrom", "shellQuote"],
   ["loadContents", "position", "prefix", "separate", "itemSeparator", "valueFrom", "shellQuote"], ["loadContents", "position", "prefix", "separate", "itemSeparator", "valueFrom", "shellQuote"]⟩,
  -- cwl_v1_0.py:7657
  ⟨"cwl_v1_0", "CommandOutputBinding", none, false, [("glob", false), ("loadContents", false), ("outputEval", false)],
   ["glob", "loadContents", "outputEval"],
   ["glob", "loadContents", "outputEval"],
   ["glob", "loadContents", "outputEval"], ["glob", "loadContents", "outputEval"]⟩,
  -- cwl_v1_0.py:7931
  ⟨"cwl_v1_0", "CommandInputRecordField", some ("name", true), false, [("doc", false), ("type", true), ("inputBinding", false), ("label", false)],
   ["name", "doc", "type", "inputBinding", "label"],
   ["doc", "name", "type", "inputBinding", "label"],
   ["doc", "name", "type", "inputBinding", "label"], ["doc", "name", "type", "inputBinding", "label"]⟩,
  -- cwl_v1_0.py:8314
  ⟨"cwl_v1_0", "CommandInputRecordSchema", some ("name", false), false, [("fields", false), ("type", true), ("label", false)],
   ["name", "fields", "type", "label"],
   ["fields", "type", "label", "name"],
   ["fields", "type", "label", "name"], ["fields", "type", "label", "name"]⟩,
  -- cwl_v1_0.py:8637
  ⟨"cwl_v1_0", "CommandInputEnumSchema", some ("name", false), false, [("symbols", true), ("type", true), ("label", false), ("inputBinding", false)],
   ["name", "symbols", "type", "label", "inputBinding"],
   ["name", "symbols", "type", "label", "inputBinding"],
   ["name", "symbols", "type", "label", "inputBinding"], ["name", "symbols", "type", "label", "inputBinding"]⟩,
  -- cwl_v1_0.py:9022
  ⟨"cwl_v1_0", "CommandInputArraySchema", none, false, [("items", true), ("type", true), ("label", false), ("inputBinding", false)],
   ["items", "type", "label", "inputBinding"],
   ["items", "type", "label", "inputBinding"],
   ["items", "type", "label", "inputBinding"], ["items", "type", "label", "inputBinding"]⟩,
  -- cwl_v1_0.py:9339
  ⟨"cwl_v1_0", "CommandOutputRecordField", some ("name", true), false, [("doc", false), ("type", true), ("outputBinding", false)],
   ["name", "doc", "type", "outputBinding"],
   ["doc", "name", "type", "outputBinding"],
   ["doc", "name", "type", "outputBinding"], ["doc", "name", "type", "outputBinding"]⟩,
  -- cwl_v1_0.py:9667
  ⟨"cwl_v1_0", "CommandOutputRecordSchema", some ("name", false), false, [("fields", false), ("type", true), ("label", false)],
   ["name", "fields", "type", "label"],
   ["fields", "type", "label", "name"],
   ["fields", "type", "label", "name"], ["fields", "type", "label", "name"]⟩,
  -- cwl_v1_0.py:9990
  ⟨"cwl_v1_0", "CommandOutputEnumSchema", some ("name", false), false, [("symbols", true), ("type", true), ("label", false), ("outputBinding", false)],
   ["name", "symbols", "type", "label", "outputBinding"],
   ["name", "symbols", "type", "label", "outputBinding"],
   ["name", "symbols", "type", "label", "outputBinding"], ["name", "symbols", "type", "label", "outputBinding"]⟩,
  -- cwl_v1_0.py:10375
  ⟨"cwl_v1_0", "CommandOutputArraySchema", none, false, [("items", true), ("type", true), ("label", false), ("outputBinding", false)],
   ["items", "type", "label", "outputBinding"],
   ["items", "type", "label", "outputBinding"],
   ["items", "type", "label", "outputBinding"], ["items", "type", "label", "outputBinding"]⟩,
  -- cwl_v1_0.py:10692
  ⟨"cwl_v1_0", "CommandInputParameter", some ("id", true), false, [("label", false), ("secondaryFiles", false), ("streamable", false), ("doc", false), ("format", false), ("inputBinding", false), ("default", false), ("type", false)],
   ["id", "label", "secondaryFiles", "streamable", "doc", "format", "inputBinding", "default", "type"],
   ["label", "secondaryFiles", "streamable", "doc", "id", "format", "inputBinding", "default", "type"],
   ["label", "secondaryFiles", "streamable", "doc", "id", "format", "inputBinding", "default", "type"], ["label", "secondaryFiles", "streamable", "doc", "id", "format", "inputBinding", "default", "type"]⟩,
  -- cwl_v1_0.py:11326
  ⟨"cwl_v1_0", "CommandOutputParameter", some ("id", true), false, [("label", false), ("secondaryFiles", false), ("streamable", false), ("doc", false), ("outputBinding", false), ("format", false), ("type", false)],
   ["id", "label", "secondaryFiles", "streamable", "doc", "outputBinding", "format", "type"],
   ["label", "secondaryFiles", "streamable", "doc", "id", "outputBinding", "format", "type"],
   ["label", "secondaryFiles", "streamable", "doc", "id", "outputBinding", "format", "type"], ["label", "secondaryFiles", "streamable", "doc", "id", "outputBinding", "format", "type"]⟩,
  -- cwl_v1_0.py:11903
  ⟨"cwl_v1_0", "CommandLineTool", some ("id", false), true, [("inputs", true), ("outputs", true), ("requirements", false), ("hints", false), ("label", false), ("doc", false), ("cwlVersion", false), ("baseCommand", false), ("arguments", false), ("stdin", false), ("stderr", false), ("stdout", false), ("successCodes", false), ("temporaryFailCodes", false), ("permanentFailCodes", false)],
   ["id", "class", "inputs", "outputs", "requirements", "hints", "label", "doc", "cwlVersion", "baseCommand", "arguments", "stdin", "stderr", "stdout", "successCodes", "temporaryFailCodes", "permanentFailCodes"],
   ["id", "inputs", "outputs", "requirements", "hints", "label", "doc", "cwlVersion", "class", "baseCommand", "arguments", "stdin", "stderr", "stdout", "successCodes", "temporaryFailCodes", "permanentFailCodes"],
   ["id", "inputs", "outputs", "requirements", "hints", "label", "doc", "cwlVersion", "class", "baseCommand", "arguments", "stdin", "stderr", "stdout", "successCodes", "temporaryFailCodes", "permanentFailCodes"], ["id", "inputs", "outputs", "requirements", "hints", "label", "doc", "cwlVersion", "class", "baseCommand", "arguments", "stdin", "stderr", "stdout", "successCodes", "temporaryFailCodes", "permanentFailCodes"]⟩,
  -- cwl_v1_0.py:12975
  ⟨"cwl_v1_0", "DockerRequirement", none, true, [("dockerPull", false), ("dockerLoad", false), ("dockerFile", false), ("dockerImport", false), ("dockerImageId", false), ("dockerOutputDirectory", false)],
   ["class", "dockerPull", "dockerLoad", "dockerFile", "dockerImport", "dockerImageId", "dockerOutputDirectory"],
   ["class", "dockerPull", "dockerLoad", "dockerFile", "dockerImport", "dockerImageId", "dockerOutputDirectory"],
   ["class", "dockerPull", "dockerLoad", "dockerFile", "dockerImport", "dockerImageId", "dockerOutputDirectory"], ["class", "dockerPull", "dockerLoad", "dockerFile", "dockerImport", "dockerImageId", "dockerOutputDirectory"]⟩,
  -- cwl_v1_0.py:13483
  ⟨"cwl_v1_0", "SoftwareRequirement", none, true, [("packages", true)],
   ["class", "packages"],
   ["class", "packages"],
   ["class", "packages"], ["class", "packages"]⟩,
  -- cwl_v1_0.py:13661
  ⟨"cwl_v1_0", "SoftwarePackage", none, false, [("package", true), ("version", false), ("specs", false)],
   ["package", "version", "specs"],
   ["package", "version", "specs"],
   ["package", "version", "specs"], ["package", "version", "specs"]⟩,
  -- cwl_v1_0.py:13917
  ⟨"cwl_v1_0", "Dirent", none, false, [("entryname", false), ("entry", true), ("writable", false)],
   ["entryname", "entry", "writable"],
   ["entryname", "entry", "writable"],
   ["entryname", "entry", "writable"], ["entryname", "entry", "writable"]⟩,
  -- cwl_v1_0.py:14182
  ⟨"cwl_v1_0", "InitialWorkDirRequirement", none, true, [("listing", true)],
   ["class", "listing"],
   ["class", "listing"],
   ["class", "listing"], ["class", "listing"]⟩,
  -- cwl_v1_0.py:14360
  ⟨"cwl_v1_0", "EnvVarRequirement", none, true, [("envDef", true)],
   ["class", "envDef"],
   ["class", "envDef"],
   ["class", "envDef"], ["class", "envDef"]⟩,
  -- cwl_v1_0.py:14538
  ⟨"cwl_v1_0", "ShellCommandRequirement", none, true, [],
   ["class"],
   ["class"],
   ["class"], ["class"]⟩,
  -- cwl_v1_0.py:14659
  ⟨"cwl_v1_0", "ResourceRequirement", none, true, [("coresMin", false), ("coresMax", false), ("ramMin", false), ("ramMax", false), ("tmpdirMin", false), ("tmpdirMax", false), ("outdirMin", false), ("outdirMax", false)],
   ["class", "coresMin", "coresMax", "ramMin", "ramMax", "tmpdirMin", "tmpdirMax", "outdirMin", "outdirMax"],
   ["class", "coresMin", "coresMax", "ramMin", "ramMax", "tmpdirMin", "tmpdirMax", "outdirMin", "outdirMax"],
   ["class", "coresMin", "coresMax", "ramMin", "ramMax", "tmpdirMin", "tmpdirMax", "outdirMin", "outdirMax"], ["class", "coresMin", "coresMax", "ramMin", "ramMax", "tmpdirMin", "tmpdirMax", "outdirMin", "outdirMax"]⟩,
  -- cwl_v1_0.py:15272
  ⟨"cwl_v1_0", "ExpressionToolOutputParameter", some ("id", true), false, [("label", false), ("secondaryFiles", false), ("streamable", false), ("doc", false), ("outputBinding", false), ("format", false), ("type", false)],
   ["id", "label", "secondaryFiles", "streamable", "doc", "outputBinding", "format", "type"],
   ["label", "secondaryFiles", "streamable", "doc", "id", "outputBinding", "format", "type"],
   ["label", "secondaryFiles", "streamable", "doc", "id", "outputBinding", "format", "type"], ["label", "secondaryFiles", "streamable", "doc", "id", "outputBinding", "format", "type"]⟩,
  -- cwl_v1_0.py:15844
  ⟨"cwl_v1_0", "ExpressionTool", some ("id", false), true, [("inputs", true), ("outputs", true), ("requirements", false), ("hints", false), ("label", false), ("doc", false), ("cwlVersion", false), ("expression", true)],
   ["id", "class", "inputs", "outputs", "requirements", "hints", "label", "doc", "cwlVersion", "expression"],
   ["id", "inputs", "outputs", "requirements", "hints", "label", "doc", "cwlVersion", "class", "expression"],
   ["id", "inputs", "outputs", "requirements", "hints", "label", "doc", "cwlVersion", "class", "expression"], ["id", "inputs", "outputs", "requirements", "hints", "label", "doc", "cwlVersion", "class", "expression"]⟩,
  -- cwl_v1_0.py:16509
  ⟨"cwl_v1_0", "WorkflowOutputParameter", some ("id", true), false, [("label", false), ("secondaryFiles", false), ("streamable", false), ("doc", false), ("outputBinding", false), ("format", false), ("outputSource", false), ("linkMerge", false), ("type", false)],
   ["id", "label", "secondaryFiles", "streamable", "doc", "outputBinding", "format", "outputSource", "linkMerge", "type"],
   ["label", "secondaryFiles", "streamable", "doc", "id", "outputBinding", "format", "outputSource", "linkMerge", "type"],
   ["label", "secondaryFiles", "streamable", "doc", "id", "outputBinding", "format", "outputSource", "linkMerge", "type"], ["label", "secondaryFiles", "streamable", "doc", "id", "outputBinding", "format", "outputSource", "linkMerge", "type"]⟩,
  -- cwl_v1_0.py:17203
  ⟨"cwl_v1_0", "WorkflowStepInput", some ("id", true), false, [("source", false), ("linkMerge", false), ("default", false), ("valueFrom", false)],
   ["id", "source", "linkMerge", "default", "valueFrom"],
   ["source", "linkMerge", "id", "default", "valueFrom"],
   ["source", "linkMerge", "id", "default", "valueFrom"], ["source", "linkMerge", "id", "default", "valueFrom"]⟩,
  -- cwl_v1_0.py:17609
  ⟨"cwl_v1_0", "WorkflowStepOutput", some ("id", true), false, [],
   ["id"],
   ["id"],
   ["id"], ["id"]⟩,
  -- cwl_v1_0.py:17767
  ⟨"cwl_v1_0", "WorkflowStep", some ("id", true), false, [("in", true), ("out", true), ("requirements", false), ("hints", false), ("label", false), ("doc", false), ("run", true), ("scatter", false), ("scatterMethod", false)],
   ["id", "in", "out", "requirements", "hints", "label", "doc", "run", "scatter", "scatterMethod"],
   ["id", "in", "out", "requirements", "hints", "label", "doc", "run", "scatter", "scatterMethod"],
   ["id", "in", "out", "requirements", "hints", "label", "doc", "run", "scatter", "scatterMethod"], ["id", "in", "out", "requirements", "hints", "label", "doc", "run", "scatter", "scatterMethod"]⟩,
  -- cwl_v1_0.py:18482
  ⟨"cwl_v1_0", "Workflow", some ("id", false), true, [("inputs", true), ("outputs", true), ("requirements", false), ("hints", false), ("label", false), ("doc", false), ("cwlVersion", false), ("steps", true)],
   ["id", "class", "inputs", "outputs", "requirements", "hints", "label", "doc", "cwlVersion", "steps"],
   ["id", "inputs", "outputs", "requirements", "hints", "label", "doc", "cwlVersion", "class", "steps"],
   ["id", "inputs", "outputs", "requirements", "hints", "label", "doc", "cwlVersion", "class", "steps"], ["id", "inputs", "outputs", "requirements", "hints", "label", "doc", "cwlVersion", "class", "steps"]⟩,
  -- cwl_v1_0.py:19166
  ⟨"cwl_v1_0", "SubworkflowFeatureRequirement", none, true, [],
   ["class"],
   ["class"],
   ["class"], ["class"]⟩,
  -- cwl_v1_0.py:19287
  ⟨"cwl_v1_0", "ScatterFeatureRequirement", none, true, [],
   ["class"],
   ["class"],
   ["class"], ["class"]⟩,
  -- cwl_v1_0.py:19408
  ⟨"cwl_v1_0", "MultipleInputFeatureRequirement", none, true, [],
   ["class"],
   ["class"],
   ["class"], ["class"]⟩,
  -- cwl_v1_0.py:19529
  ⟨"cwl_v1_0", "StepInputExpressionRequirement", none, true, [],
   ["class"],
   ["class"],
   ["class"], ["class"]⟩,
  -- cwl_v1_0.py:19650
  ⟨"cwl_v1_0", "LoadListingRequirement", none, true, [("loadListing", true)],
   ["class", "loadListing"],
   ["class", "loadListing"],
   ["class", "loadListing"], ["class", "loadListing"]⟩,
  -- cwl_v1_0.py:19828
  ⟨"cwl_v1_0", "InplaceUpdateRequirement", none, true, [("inplaceUpdate", true)],
   ["class", "inplaceUpdate"],
   ["class", "inplaceUpdate"],
   ["class", "inplaceUpdate"], ["class", "inplaceUpdate"]⟩,
  -- cwl_v1_0.py:20007
  ⟨"cwl_v1_0", "Secrets", none, true, [("secrets", true)],
   ["class", "secrets"],
   ["class", "secrets"],
   ["class", "secrets"], ["class", "secrets"]⟩,
  -- cwl_v1_0.py:20179
  ⟨"cwl_v1_0", "TimeLimit", none, true, [("timelimit", true)],
   ["class", "timelimit"],
   ["class", "timelimit"],
   ["class", "timelimit"], ["class", "timelimit"]⟩,
  -- cwl_v1_0.py:20362
  ⟨"cwl_v1_0", "WorkReuse", none, true, [("enableReuse", true)],
   ["class", "enableReuse"],
   ["class", "enableReuse"],
   ["class", "enableReuse"], ["class", "enableReuse"]⟩,
  -- cwl_v1_0.py:20547
  ⟨"cwl_v1_0", "NetworkAccess", none, true, [("networkAccess", true)],
   ["class", "networkAccess"],
   ["class", "networkAccess"],
   ["class", "networkAccess"], ["class", "networkAccess"]⟩,
  -- cwl_v1_0.py:20737
  ⟨"cwl_v1_0", "ProcessGenerator", some ("id", false), true, [("inputs", true), ("outputs", true), ("requirements", false), ("hints", false), ("label", false), ("doc", false), ("cwlVersion", false), ("run", true)],
   ["id", "class", "inputs", "outputs", "requirements", "hints", "label", "doc", "cwlVersion", "run"],
   ["id", "inputs", "outputs", "requirements", "hints", "label", "doc", "cwlVersion", "class", "run"],
   ["id", "inputs", "outputs", "requirements", "hints", "label", "doc", "cwlVersion", "class", "run"], ["id", "inputs", "outputs", "requirements", "hints", "label", "doc", "cwlVersion", "class", "run"]⟩,
  -- cwl_v1_0.py:21393
  ⟨"cwl_v1_0", "MPIRequirement", none, true, [("processes", true)],
   ["class", "processes"],
   ["class", "processes"],
   ["class", "processes"], ["class", "processes"]⟩,
  -- cwl_v1_0.py:21576
  ⟨"cwl_v1_0", "CUDARequirement", none, true, [("cudaComputeCapability", true), ("cudaDeviceCountMax", false), ("cudaDeviceCountMin", false), ("cudaVersionMin", true)],
   ["class", "cudaComputeCapability", "cudaDeviceCountMax", "cudaDeviceCountMin", "cudaVersionMin"],
   ["class", "cudaComputeCapability", "cudaDeviceCountMax", "cudaDeviceCountMin", "cudaVersionMin"],
   ["class", "cudaComputeCapability", "cudaDeviceCountMax", "cudaDeviceCountMin", "cudaVersionMin"], ["class", "cudaComputeCapability", "cudaDeviceCountMax", "cudaDeviceCountMin", "cudaVersionMin"]⟩,
  -- cwl_v1_0.py:21951
  ⟨"cwl_v1_0", "ShmSize", none, true, [("shmSize", true)],
   ["class", "shmSize"],
   ["class", "shmSize"],
   ["class", "shmSize"], ["class", "shmSize"]⟩]

/-- The classes of `cwl_v1_1.py`. -/
def classes11 : List Cls := [
  -- cwl_v1_1.py:857
  ⟨"cwl_v1_1", "CWLArraySchema", none, false, [("items", true), ("type", true)],
   ["items", "type"],
   ["items", "type"],
   ["items", "type"], ["items", "type"]⟩,
  -- cwl_v1_1.py:1056
  ⟨"cwl_v1_1", "CWLRecordField", some ("name", true), false, [("doc", false), ("type", true)],
   ["name", "doc", "type"],
   ["doc", "name", "type"],
   ["doc", "name", "type"], ["doc", "name", "type"]⟩,
  -- cwl_v1_1.py:1324
  ⟨"cwl_v1_1", "CWLRecordSchema", none, false, [("fields", false), ("type", true)],
   ["fields", "type"],
   ["fields", "type"],
   ["fields", "type"], ["fields", "type"]⟩,
  -- cwl_v1_1.py:1523
  ⟨"cwl_v1_1", "File", none, true, [("location", false), ("path", false), ("basename", false), ("dirname", false), ("nameroot", false), ("nameext", false), ("checksum", false), ("size", false), ("secondaryFiles", false), ("format", false), ("contents", false)],
   ["class", "location", "path", "basename", "dirname", "nameroot", "nameext", "checksum", "size", "secondaryFiles", "format", "contents"],
   ["class", "location", "path", "basename", "dirname", "nameroot", "nameext", "checksum", "size", "secondaryFiles", "format", "contents"],
   ["class", "location", "path", "basename", "dirname", "nameroot", "nameext", "checksum", "size", "secondaryFiles", "format", "contents"], ["class", "location", "path", "basename", "dirname", "nameroot", "nameext", "checksum", "size", "secondaryFiles", "format", "contents"]⟩,
  -- cwl_v1_1.py:2305
  ⟨"cwl_v1_1", "Directory", none, true, [("location", false), ("path", false), ("basename", false), ("listing", false)],
   ["class", "location", "path", "basename", "listing"],
   ["class", "location", "path", "basename", "listing"],
   ["class", "location", "path", "basename", "listing"], ["class", "location", "path", "basename", "listing"]⟩,
  -- cwl_v1_1.py:2707
  ⟨"cwl_v1_1", "InputBinding", none, false, [("loadContents", false)],
   ["loadContents"],
   ["loadContents"],
   ["loadContents"], ["loadContents"]⟩,
  -- cwl_v1_1.py:2866
  ⟨"cwl_v1_1", "InputRecordField", some ("name", true), false, [("doc", false), ("type", true), ("label", false), ("secondaryFiles", false), ("streamable", false), ("format", false), ("loadContents", false), ("loadListing", false)],
   ["name", "doc", "type", "label", "secondaryFiles", "streamable", "format", "loadContents", "loadListing"],
   ["doc", "name", "type", "label", "secondaryFiles", "streamable", "format", "loadContents", "loadListing"],
   ["doc", "name", "type", "label", "secondaryFiles", "streamable", "format", "loadContents", "loadListing"], ["doc", "name", "type", "label", "secondaryFiles", "streamable", "format", "loadContents", "loadListing"]⟩,
  -- cwl_v1_1.py:3499
  ⟨"cwl_v1_1", "InputRecordSchema", some ("name", false), false, [("fields", false), ("type", true), ("label", false), ("doc", false)],
   ["name", "fields", "type", "label", "doc"],
   ["fields", "type", "label", "doc", "name"],
   ["fields", "type", "label", "doc", "name"], ["fields", "type", "label", "doc", "name"]⟩,
  -- cwl_v1_1.py:3879
  ⟨"cwl_v1_1", "InputEnumSchema", some ("name", false), false, [("symbols", true), ("type", true), ("label", false), ("doc", false)],
   ["name", "symbols", "type", "label", "doc"],
   ["name", "symbols", "type", "label", "doc"],
   ["name", "symbols", "type", "label", "doc"], ["name", "symbols", "type", "label", "doc"]⟩,
  -- cwl_v1_1.py:4259
  ⟨"cwl_v1_1", "InputArraySchema", some ("name", false), false, [("items", true), ("type", true), ("label", false), ("doc", false)],
   ["name", "items", "type", "label", "doc"],
   ["items", "type", "label", "doc", "name"],
   ["items", "type", "label", "doc", "name"], ["items", "type", "label", "doc", "name"]⟩,
  -- cwl_v1_1.py:4639
  ⟨"cwl_v1_1", "OutputRecordField", some ("name", true), false, [("doc", false), ("type", true), ("label", false), ("secondaryFiles", false), ("streamable", false), ("format", false)],
   ["name", "doc", "type", "label", "secondaryFiles", "streamable", "format"],
   ["doc", "name", "type", "label", "secondaryFiles", "streamable", "format"],
   ["doc", "name", "type", "label", "secondaryFiles", "streamable", "format"], ["doc", "name", "type", "label", "secondaryFiles", "streamable", "format"]⟩,
  -- cwl_v1_1.py:5144
  ⟨"cwl_v1_1", "OutputRecordSchema", some ("name", false), false, [("fields", false), ("type", true), ("label", false), ("doc", false)],
   ["name", "fields", "type", "label", "doc"],
   ["fields", "type", "label", "doc", "name"],
   ["fields", "type", "label", "doc", "name"], ["fields", "type", "label", "doc", "name"]⟩,
  -- cwl_v1_1.py:5524
  ⟨"cwl_v1_1", "OutputEnumSchema", some ("name", false), false, [("symbols", true), ("type", true), ("label", false), ("doc", false)],
   ["name", "symbols", "type", "label", "doc"],
   ["name", "symbols", "type", "label", "doc"],
   ["name", "symbols", "type", "label", "doc"], ["name", "symbols", "type", "label", "doc"]⟩,
  -- cwl_v1_1.py:5904
  ⟨"cwl_v1_1", "OutputArraySchema", some ("name", false), false, [("items", true), ("type", true), ("label", false), ("doc", false)],
   ["name", "items", "type", "label", "doc"],
   ["items", "type", "label", "doc", "name"],
   ["items", "type", "label", "doc", "name"], ["items", "type", "label", "doc", "name"]⟩,
  -- cwl_v1_1.py:6312
  ⟨"cwl_v1_1", "InlineJavascriptRequirement", none, true, [("expressionLib", false)],
   ["class", "expressionLib"],
   ["class", "expressionLib"],
   ["class", "expressionLib"], ["class", "expressionLib"]⟩,
  -- cwl_v1_1.py:6499
  ⟨"cwl_v1_1", "SchemaDefRequirement", none, true, [("types", true)],
   ["class", "types"],
   ["class", "types"],
   ["class", "types"], ["class", "types"]⟩,
  -- cwl_v1_1.py:6677
  ⟨"cwl_v1_1", "SecondaryFileSchema", none, false, [("pattern", true), ("required", false)],
   ["pattern", "required"],
   ["pattern", "required"],
   ["pattern", "required"], ["pattern", "required"]⟩,
  -- cwl_v1_1.py:6878
  ⟨"cwl_v1_1", "LoadListingRequirement", none, true, [("loadListing", false)],
   ["class", "loadListing"],
   ["class", "loadListing"],
   ["class", "loadListing"], ["class", "loadListing"]⟩,
  -- cwl_v1_1.py:7060
  ⟨"cwl_v1_1", "EnvironmentDef", none, false, [("envName", true), ("envValue", true)],
   ["envName", "envValue"],
   ["envName", "envValue"],
   ["envName", "envValue"], ["envName", "envValue"]⟩,
  -- cwl_v1_1.py:7267
  ⟨"cwl_v1_1", "CommandLineBinding", none, false, [("loadContents", false), ("position", false), ("prefix", false), ("separate", false), ("itemSeparator", false), ("valueFrom", false), ("shellQuote", false)],
   ["loadContents", "position", "prefix", "separate", "itemSeparator", "valueFrom", "shellQuote"],
   ["loadContents", "position", "prefix", "separate", "itemSeparator", "valueFrom", "shellQuote"],
   ["loadContents", "position", "prefix", "separate", "itemSeparator", "valueFrom", "shellQuote"], ["loadContents", "position", "prefix", "separate", "itemSeparator", "valueFrom", "shellQuote"]⟩,
  -- cwl_v1_1.py:7798
  ⟨"cwl_v1_1", "CommandOutputBinding", none, false, [("loadContents", false), ("loadListing", false), ("glob", false), ("outputEval", false)],
   ["loadContents", "loadListing", "glob", "outputEval"],
   ["loadContents", "loadListing", "glob", "outputEval"],
   ["loadContents", "loadListing", "glob", "outputEval"], ["loadContents", "loadListing", "glob", "outputEval"]⟩,
  -- cwl_v1_1.py:8136
  ⟨"cwl_v1_1", "CommandInputRecordField", some ("name", true), false, [("doc", false), ("type", true), ("label", false), ("secondaryFiles", false), ("streamable", false), ("format", false), ("loadContents", false), ("loadListing", false), ("inputBinding", false)],
   ["name", "doc", "type", "label", "secondaryFiles", "streamable", "format", "loadContents", "loadListing", "inputBinding"],
   ["doc", "name", "type", "label", "secondaryFiles", "streamable", "format", "loadContents", "loadListing", "inputBinding"],
   ["doc", "name", "type", "label", "secondaryFiles", "streamable", "format", "loadContents", "loadListing", "inputBinding"], ["doc", "name", "type", "label", "secondaryFiles", "streamable", "format", "loadContents", "loadListing", "inputBinding"]⟩,
  -- cwl_v1_1.py:8829
  ⟨"cwl_v1_1", "CommandInputRecordSchema", some ("name", false), false, [("fields", false), ("type", true), ("label", false), ("doc", false), ("inputBinding", false)],
   ["name", "fields", "type", "label", "doc", "inputBinding"],
   ["fields", "type", "label", "doc", "name", "inputBinding"],
   ["fields", "type", "label", "doc", "name", "inputBinding"], ["fields", "type", "label", "doc", "name", "inputBinding"]⟩,
  -- cwl_v1_1.py:9278
  ⟨"cwl_v1_1", "CommandInputEnumSchema", some ("name", false), false, [("symbols", true), ("type", true), ("label", false), ("doc", false), ("inputBinding", false)],
   ["name", "symbols", "type", "label", "doc", "inputBinding"],
   ["name", "symbols", "type", "label", "doc", "inputBinding"],
   ["name", "symbols", "type", "label", "doc", "inputBinding"], ["name", "symbols", "type", "label", "doc", "inputBinding"]⟩,
  -- cwl_v1_1.py:9725
  ⟨"cwl_v1_1", "CommandInputArraySchema", some ("name", false), false, [("items", true), ("type", true), ("label", false), ("doc", false), ("inputBinding", false)],
   ["name", "items", "type", "label", "doc", "inputBinding"],
   ["items", "type", "label", "doc", "name", "inputBinding"],
   ["items", "type", "label", "doc", "name", "inputBinding"], ["items", "type", "label", "doc", "name", "inputBinding"]⟩,
  -- cwl_v1_1.py:10167
  ⟨"cwl_v1_1", "CommandOutputRecordField", some ("name", true), false, [("doc", false), ("type", true), ("label", false), ("secondaryFiles", false), ("streamable", false), ("format", false), ("outputBinding", false)],
   ["name", "doc", "type", "label", "secondaryFiles", "streamable", "format", "outputBinding"],
   ["doc", "name", "type", "label", "secondaryFiles", "streamable", "format", "outputBinding"],
   ["doc", "name", "type", "label", "secondaryFiles", "streamable", "format", "outputBinding"], ["doc", "name", "type", "label", "secondaryFiles", "streamable", "format", "outputBinding"]⟩,
  -- cwl_v1_1.py:10740
  ⟨"cwl_v1_1", "CommandOutputRecordSchema", some ("name", false), false, [("fields", false), ("type", true), ("label", false), ("doc", false)],
   ["name", "fields", "type", "label", "doc"],
   ["fields", "type", "label", "doc", "name"],
   ["fields", "type", "label", "doc", "name"], ["fields", "type", "label", "doc", "name"]⟩,
  -- cwl_v1_1.py:11120
  ⟨"cwl_v1_1", "CommandOutputEnumSchema", some ("name", false), false, [("symbols", true), ("type", true), ("label", false), ("doc", false)],
   ["name", "symbols", "type", "label", "doc"],
   ["name", "symbols", "type", "label", "doc"],
   ["name", "symbols", "type", "label", "doc"], ["name", "symbols", "type", "label", "doc"]⟩,
  -- cwl_v1_1.py:11500
  ⟨"cwl_v1_1", "CommandOutputArraySchema", some ("name", false), false, [("items", true), ("type", true), ("label", false), ("doc", false)],
   ["name", "items", "type", "label", "doc"],
   ["items", "type", "label", "doc", "name"],
   ["items", "type", "label", "doc", "name"], ["items", "type", "label", "doc", "name"]⟩,
  -- cwl_v1_1.py:11880
  ⟨"cwl_v1_1", "CommandInputParameter", some ("id", true), false, [("label", false), ("secondaryFiles", false), ("streamable", false), ("doc", false), ("format", false), ("loadContents", false), ("loadListing", false), ("default", false), ("type", true), ("inputBinding", false)],
   ["id", "label", "secondaryFiles", "streamable", "doc", "format", "loadContents", "loadListing", "default", "type", "inputBinding"],
   ["label", "secondaryFiles", "streamable", "doc", "id", "format", "loadContents", "loadListing", "default", "type", "inputBinding"],
   ["label", "secondaryFiles", "streamable", "doc", "id", "format", "loadContents", "loadListing", "default", "type", "inputBinding"], ["label", "secondaryFiles", "streamable", "doc", "id", "format", "loadContents", "loadListing", "default", "type", "inputBinding"]⟩,
  -- cwl_v1_1.py:12635
  ⟨"cwl_v1_1", "CommandOutputParameter", some ("id", true), false, [("label", false), ("secondaryFiles", false), ("streamable", false), ("doc", false), ("format", false), ("type", true), ("outputBinding", false)],
   ["id", "label", "secondaryFiles", "streamable", "doc", "format", "type", "outputBinding"],
   ["label", "secondaryFiles", "streamable", "doc", "id", "format", "type", "outputBinding"],
   ["label", "secondaryFiles", "streamable", "doc", "id", "format", "type", "outputBinding"], ["label", "secondaryFiles", "streamable", "doc", "id", "format", "type", "outputBinding"]⟩,
  -- cwl_v1_1.py:13213
  ⟨"cwl_v1_1", "CommandLineTool", some ("id", false), true, [("label", false), ("doc", false), ("inputs", true), ("outputs", true), ("requirements", false), ("hints", false), ("cwlVersion", false), ("baseCommand", false), ("arguments", false), ("stdin", false), ("stderr", false), ("stdout", false), ("successCodes", false), ("temporaryFailCodes", false), ("permanentFailCodes", false)],
   ["id", "class", "label", "doc", "inputs", "outputs", "requirements", "hints", "cwlVersion", "baseCommand", "arguments", "stdin", "stderr", "stdout", "successCodes", "temporaryFailCodes", "permanentFailCodes"],
   ["id", "label", "doc", "inputs", "outputs", "requirements", "hints", "cwlVersion", "class", "baseCommand", "arguments", "stdin", "stderr", "stdout", "successCodes", "temporaryFailCodes", "permanentFailCodes"],
   ["id", "label", "doc", "inputs", "outputs", "requirements", "hints", "cwlVersion", "class", "baseCommand", "arguments", "stdin", "stderr", "stdout", "successCodes", "temporaryFailCodes", "permanentFailCodes"], ["id", "label", "doc", "inputs", "outputs", "requirements", "hints", "cwlVersion", "class", "baseCommand", "arguments", "stdin", "stderr", "stdout", "successCodes", "temporaryFailCodes", "permanentFailCodes"]⟩,
  -- cwl_v1_1.py:14285
  ⟨"cwl_v1_1", "DockerRequirement", none, true, [("dockerPull", false), ("dockerLoad", false), ("dockerFile", false), ("dockerImport", false), ("dockerImageId", false), ("dockerOutputDirectory", false)],
   ["class", "dockerPull", "dockerLoad", "dockerFile", "dockerImport", "dockerImageId", "dockerOutputDirectory"],
   ["class", "dockerPull", "dockerLoad", "dockerFile", "dockerImport", "dockerImageId", "dockerOutputDirectory"],
   ["class", "dockerPull", "dockerLoad", "dockerFile", "dockerImport", "dockerImageId", "dockerOutputDirectory"], ["class", "dockerPull", "dockerLoad", "dockerFile", "dockerImport", "dockerImageId", "dockerOutputDirectory"]⟩,
  -- cwl_v1_1.py:14797
  ⟨"cwl_v1_1", "SoftwareRequirement", none, true, [("packages", true)],
   ["class", "packages"],
   ["class", "packages"],
   ["class", "packages"], ["class", "packages"]⟩,
  -- cwl_v1_1.py:14975
  ⟨"cwl_v1_1", "SoftwarePackage", none, false, [("package", true), ("version", false), ("specs", false)],
   ["package", "version", "specs"],
   ["package", "version", "specs"],
   ["package", "version", "specs"], ["package", "version", "specs"]⟩,
  -- cwl_v1_1.py:15231
  ⟨"cwl_v1_1", "Dirent", none, false, [("entryname", false), ("entry", true), ("writable", false)],
   ["entryname", "entry", "writable"],
   ["entryname", "entry", "writable"],
   ["entryname", "entry", "writable"], ["entryname", "entry", "writable"]⟩,
  -- cwl_v1_1.py:15496
  ⟨"cwl_v1_1", "InitialWorkDirRequirement", none, true, [("listing", true)],
   ["class", "listing"],
   ["class", "listing"],
   ["class", "listing"], ["class", "listing"]⟩,
  -- cwl_v1_1.py:15674
  ⟨"cwl_v1_1", "EnvVarRequirement", none, true, [("envDef", true)],
   ["class", "envDef"],
   ["class", "envDef"],
   ["class", "envDef"], ["class", "envDef"]⟩,
  -- cwl_v1_1.py:15852
  ⟨"cwl_v1_1", "ShellCommandRequirement", none, true, [],
   ["class"],
   ["class"],
   ["class"], ["class"]⟩,
  -- cwl_v1_1.py:15973
  ⟨"cwl_v1_1", "ResourceRequirement", none, true, [("coresMin", false), ("coresMax", false), ("ramMin", false), ("ramMax", false), ("tmpdirMin", false), ("tmpdirMax", false), ("outdirMin", false), ("outdirMax", false)],
   ["class", "coresMin", "coresMax", "ramMin", "ramMax", "tmpdirMin", "tmpdirMax", "outdirMin", "outdirMax"],
   ["class", "coresMin", "coresMax", "ramMin", "ramMax", "tmpdirMin", "tmpdirMax", "outdirMin", "outdirMax"],
   ["class", "coresMin", "coresMax", "ramMin", "ramMax", "tmpdirMin", "tmpdirMax", "outdirMin", "outdirMax"], ["class", "coresMin", "coresMax", "ramMin", "ramMax", "tmpdirMin", "tmpdirMax", "outdirMin", "outdirMax"]⟩,
  -- cwl_v1_1.py:16586
  ⟨"cwl_v1_1", "WorkReuse", none, true, [("enableReuse", true)],
   ["class", "enableReuse"],
   ["class", "enableReuse"],
   ["class", "enableReuse"], ["class", "enableReuse"]⟩,
  -- cwl_v1_1.py:16771
  ⟨"cwl_v1_1", "NetworkAccess", none, true, [("networkAccess", true)],
   ["class", "networkAccess"],
   ["class", "networkAccess"],
   ["class", "networkAccess"], ["class", "networkAccess"]⟩,
  -- cwl_v1_1.py:16961
  ⟨"cwl_v1_1", "InplaceUpdateRequirement", none, true, [("inplaceUpdate", true)],
   ["class", "inplaceUpdate"],
   ["class", "inplaceUpdate"],
   ["class", "inplaceUpdate"], ["class", "inplaceUpdate"]⟩,
  -- cwl_v1_1.py:17153
  ⟨"cwl_v1_1", "ToolTimeLimit", none, true, [("timelimit", true)],
   ["class", "timelimit"],
   ["class", "timelimit"],
   ["class", "timelimit"], ["class", "timelimit"]⟩,
  -- cwl_v1_1.py:17336
  ⟨"cwl_v1_1", "ExpressionToolOutputParameter", some ("id", true), false, [("label", false), ("secondaryFiles", false), ("streamable", false), ("doc", false), ("format", false), ("type", true)],
   ["id", "label", "secondaryFiles", "streamable", "doc", "format", "type"],
   ["label", "secondaryFiles", "streamable", "doc", "id", "format", "type"],
   ["label", "secondaryFiles", "streamable", "doc", "id", "format", "type"], ["label", "secondaryFiles", "streamable", "doc", "id", "format", "type"]⟩,
  -- cwl_v1_1.py:17841
  ⟨"cwl_v1_1", "WorkflowInputParameter", some ("id", true), false, [("label", false), ("secondaryFiles", false), ("streamable", false), ("doc", false), ("format", false), ("loadContents", false), ("loadListing", false), ("default", false), ("type", true), ("inputBinding", false)],
   ["id", "label", "secondaryFiles", "streamable", "doc", "format", "loadContents", "loadListing", "default", "type", "inputBinding"],
   ["label", "secondaryFiles", "streamable", "doc", "id", "format", "loadContents", "loadListing", "default", "type", "inputBinding"],
   ["label", "secondaryFiles", "streamable", "doc", "id", "format", "loadContents", "loadListing", "default", "type", "inputBinding"], ["label", "secondaryFiles", "streamable", "doc", "id", "format", "loadContents", "loadListing", "default", "type", "inputBinding"]⟩,
  -- cwl_v1_1.py:18591
  ⟨"cwl_v1_1", "ExpressionTool", some ("id", false), true, [("label", false), ("doc", false), ("inputs", true), ("outputs", true), ("requirements", false), ("hints", false), ("cwlVersion", false), ("expression", true)],
   ["id", "class", "label", "doc", "inputs", "outputs", "requirements", "hints", "cwlVersion", "expression"],
   ["id", "label", "doc", "inputs", "outputs", "requirements", "hints", "cwlVersion", "class", "expression"],
   ["id", "label", "doc", "inputs", "outputs", "requirements", "hints", "cwlVersion", "class", "expression"], ["id", "label", "doc", "inputs", "outputs", "requirements", "hints", "cwlVersion", "class", "expression"]⟩,
  -- cwl_v1_1.py:19256
  ⟨"cwl_v1_1", "WorkflowOutputParameter", some ("id", true), false, [("label", false), ("secondaryFiles", false), ("streamable", false), ("doc", false), ("format", false), ("outputSource", false), ("linkMerge", false), ("type", true)],
   ["id", "label", "secondaryFiles", "streamable", "doc", "format", "outputSource", "linkMerge", "type"],
   ["label", "secondaryFiles", "streamable", "doc", "id", "format", "outputSource", "linkMerge", "type"],
   ["label", "secondaryFiles", "streamable", "doc", "id", "format", "outputSource", "linkMerge", "type"], ["label", "secondaryFiles", "streamable", "doc", "id", "format", "outputSource", "linkMerge", "type"]⟩,
  -- cwl_v1_1.py:19891
  ⟨"cwl_v1_1", "WorkflowStepInput", some ("id", true), false, [("source", false), ("linkMerge", false), ("loadContents", false), ("loadListing", false), ("label", false), ("default", false), ("valueFrom", false)],
   ["id", "source", "linkMerge", "loadContents", "loadListing", "label", "default", "valueFrom"],
   ["id", "source", "linkMerge", "loadContents", "loadListing", "label", "default", "valueFrom"],
   ["id", "source", "linkMerge", "loadContents", "loadListing", "label", "default", "valueFrom"], ["id", "source", "linkMerge", "loadContents", "loadListing", "label", "default", "valueFrom"]⟩,
  -- cwl_v1_1.py:20486
  ⟨"cwl_v1_1", "WorkflowStepOutput", some ("id", true), false, [],
   ["id"],
   ["id"],
   ["id"], ["id"]⟩,
  -- cwl_v1_1.py:20646
  ⟨"cwl_v1_1", "WorkflowStep", some ("id", true), false, [("label", false), ("doc", false), ("in", true), ("out", true), ("requirements", false), ("hints", false), ("run", true), ("scatter", false), ("scatterMethod", false)],
   ["id", "label", "doc", "in", "out", "requirements", "hints", "run", "scatter", "scatterMethod"],
   ["id", "label", "doc", "in", "out", "requirements", "hints", "run", "scatter", "scatterMethod"],
   ["id", "label", "doc", "in", "out", "requirements", "hints", "run", "scatter", "scatterMethod"], ["id", "label", "doc", "in", "out", "requirements", "hints", "run", "scatter", "scatterMethod"]⟩,
  -- cwl_v1_1.py:21363
  ⟨"cwl_v1_1", "Workflow", some ("id", false), true, [("label", false), ("doc", false), ("inputs", true), ("outputs", true), ("requirements", false), ("hints", false), ("cwlVersion", false), ("steps", true)],
   ["id", "class", "label", "doc", "inputs", "outputs", "requirements", "hints", "cwlVersion", "steps"],
   ["id", "label", "doc", "inputs", "outputs", "requirements", "hints", "cwlVersion", "class", "steps"],
   ["id", "label", "doc", "inputs", "outputs", "requirements", "hints", "cwlVersion", "class", "steps"], ["id", "label", "doc", "inputs", "outputs", "requirements", "hints", "cwlVersion", "class", "steps"]⟩,
  -- cwl_v1_1.py:22047
  ⟨"cwl_v1_1", "SubworkflowFeatureRequirement", none, true, [],
   ["class"],
   ["class"],
   ["class"], ["class"]⟩,
  -- cwl_v1_1.py:22168
  ⟨"cwl_v1_1", "ScatterFeatureRequirement", none, true, [],
   ["class"],
   ["class"],
   ["class"], ["class"]⟩,
  -- cwl_v1_1.py:22289
  ⟨"cwl_v1_1", "MultipleInputFeatureRequirement", none, true, [],
   ["class"],
   ["class"],
   ["class"], ["class"]⟩,
  -- cwl_v1_1.py:22410
  ⟨"cwl_v1_1", "StepInputExpressionRequirement", none, true, [],
   ["class"],
   ["class"],
   ["class"], ["class"]⟩,
  -- cwl_v1_1.py:22531
  ⟨"cwl_v1_1", "Secrets", none, true, [("secrets", true)],
   ["class", "secrets"],
   ["class", "secrets"],
   ["class", "secrets"], ["class", "secrets"]⟩,
  -- cwl_v1_1.py:22703
  ⟨"cwl_v1_1", "ProcessGenerator", some ("id", false), true, [("label", false), ("doc", false), ("inputs", true), ("outputs", true), ("requirements", false), ("hints", false), ("cwlVersion", false), ("run", true)],
   ["id", "class", "label", "doc", "inputs", "outputs", "requirements", "hints", "cwlVersion", "run"],
   ["id", "label", "doc", "inputs", "outputs", "requirements", "hints", "cwlVersion", "class", "run"],
   ["id", "label", "doc", "inputs", "outputs", "requirements", "hints", "cwlVersion", "class", "run"], ["id", "label", "doc", "inputs", "outputs", "requirements", "hints", "cwlVersion", "class", "run"]⟩,
  -- cwl_v1_1.py:23361
  ⟨"cwl_v1_1", "MPIRequirement", none, true, [("processes", true)],
   ["class", "processes"],
   ["class", "processes"],
   ["class", "processes"], ["class", "processes"]⟩,
  -- cwl_v1_1.py:23544
  ⟨"cwl_v1_1", "CUDARequirement", none, true, [("cudaComputeCapability", true), ("cudaDeviceCountMax", false), ("cudaDeviceCountMin", false), ("cudaVersionMin", true)],
   ["class", "cudaComputeCapability", "cudaDeviceCountMax", "cudaDeviceCountMin", "cudaVersionMin"],
   ["class", "cudaComputeCapability", "cudaDeviceCountMax", "cudaDeviceCountMin", "cudaVersionMin"],
   ["class", "cudaComputeCapability", "cudaDeviceCountMax", "cudaDeviceCountMin", "cudaVersionMin"], ["class", "cudaComputeCapability", "cudaDeviceCountMax", "cudaDeviceCountMin", "cudaVersionMin"]⟩,
  -- cwl_v1_1.py:23919
  ⟨"cwl_v1_1", "ShmSize", none, true, [("shmSize", true)],
   ["class", "shmSize"],
   ["class", "shmSize"],
   ["class", "shmSize"], ["class", "shmSize"]⟩]

/-- The classes of `cwl_v1_2.py`. -/
def classes12 : List Cls := [
  -- cwl_v1_2.py:857
  ⟨"cwl_v1_2", "CWLArraySchema", none, false, [("items", true), ("type", true)],
   ["items", "type"],
   ["items", "type"],
   ["items", "type"], ["items", "type"]⟩,
  -- cwl_v1_2.py:1056
  ⟨"cwl_v1_2", "CWLRecordField", some ("name", true), false, [("doc", false), ("type", true)],
   ["name", "doc", "type"],
   ["doc", "name", "type"],
   ["doc", "name", "type"], ["doc", "name", "type"]⟩,
  -- cwl_v1_2.py:1324
  ⟨"cwl_v1_2", "CWLRecordSchema", none, false, [("fields", false), ("type", true)],
   ["fields", "type"],
   ["fields", "type"],
   ["fields", "type"], ["fields", "type"]⟩,
  -- cwl_v1_2.py:1523
  ⟨"cwl_v1_2", "File", none, true, [("location", false), ("path", false), ("basename", false), ("dirname", false), ("nameroot", false), ("nameext", false), ("checksum", false), ("size", false), ("secondaryFiles", false), ("format", false), ("contents", false)],
   ["class", "location", "path", "basename", "dirname", "nameroot", "nameext", "checksum", "size", "secondaryFiles", "format", "contents"],
   ["class", "location", "path", "basename", "dirname", "nameroot", "nameext", "checksum", "size", "secondaryFiles", "format", "contents"],
   ["class", "location", "path", "basename", "dirname", "nameroot", "nameext", "checksum", "size", "secondaryFiles", "format", "contents"], ["class", "location", "path", "basename", "dirname", "nameroot", "nameext", "checksum", "size", "secondaryFiles", "format", "contents"]⟩,
  -- cwl_v1_2.py:2305
  ⟨"cwl_v1_2", "Directory", none, true, [("location", false), ("path", false), ("basename", false), ("listing", false)],
   ["class", "location", "path", "basename", "listing"],
   ["class", "location", "path", "basename", "listing"],
   ["class", "location", "path", "basename", "listing"], ["class", "location", "path", "basename", "listing"]⟩,
  -- cwl_v1_2.py:2707
  ⟨"cwl_v1_2", "InputBinding", none, false, [("loadContents", false)],
   ["loadContents"],
   ["loadContents"],
   ["loadContents"], ["loadContents"]⟩,
  -- cwl_v1_2.py:2866
  ⟨"cwl_v1_2", "InputRecordField", some ("name", true), false, [("doc", false), ("type", true), ("label", false), ("secondaryFiles", false), ("streamable", false), ("format", false), ("loadContents", false), ("loadListing", false)],
   ["name", "doc", "type", "label", "secondaryFiles", "streamable", "format", "loadContents", "loadListing"],
   ["doc", "name", "type", "label", "secondaryFiles", "streamable", "format", "loadContents", "loadListing"],
   ["doc", "name", "type", "label", "secondaryFiles", "streamable", "format", "loadContents", "loadListing"], ["doc", "name", "type", "label", "secondaryFiles", "streamable", "format", "loadContents", "loadListing"]⟩,
  -- cwl_v1_2.py:3499
  ⟨"cwl_v1_2", "InputRecordSchema", some ("name", false), false, [("fields", false), ("type", true), ("label", false), ("doc", false)],
   ["name", "fields", "type", "label", "doc"],
   ["fields", "type", "label", "doc", "name"],
   ["fields", "type", "label", "doc", "name"], ["fields", "type", "label", "doc", "name"]⟩,
  -- cwl_v1_2.py:3879
  ⟨"cwl_v1_2", "InputEnumSchema", some ("name", false), false, [("symbols", true), ("type", true), ("label", false), ("doc", false)],
   ["name", "symbols", "type", "label", "doc"],
   ["name", "symbols", "type", "label", "doc"],
   ["name", "symbols", "type", "label", "doc"], ["name", "symbols", "type", "label", "doc"]⟩,
  -- cwl_v1_2.py:4259
  ⟨"cwl_v1_2", "InputArraySchema", some ("name", false), false, [("items", true), ("type", true), ("label", false), ("doc", false)],
   ["name", "items", "type", "label", "doc"],
   ["items", "type", "label", "doc", "name"],
   ["items", "type", "label", "doc", "name"], ["items", "type", "label", "doc", "name"]⟩,
  -- cwl_v1_2.py:4639
  ⟨"cwl_v1_2", "OutputRecordField", some ("name", true), false, [("doc", false), ("type", true), ("label", false), ("secondaryFiles", false), ("streamable", false), ("format", false)],
   ["name", "doc", "type", "label", "secondaryFiles", "streamable", "format"],
   ["doc", "name", "type", "label", "secondaryFiles", "streamable", "format"],
   ["doc", "name", "type", "label", "secondaryFiles", "streamable", "format"], ["doc", "name", "type", "label", "secondaryFiles", "streamable", "format"]⟩,
  -- cwl_v1_2.py:5144
  ⟨"cwl_v1_2", "OutputRecordSchema", some ("name", false), false, [("fields", false), ("type", true), ("label", false), ("doc", false)],
   ["name", "fields", "type", "label", "doc"],
   ["fields", "type", "label", "doc", "name"],
   ["fields", "type", "label", "doc", "name"], ["fields", "type", "label", "doc", "name"]⟩,
  -- cwl_v1_2.py:5524
  ⟨"cwl_v1_2", "OutputEnumSchema", some ("name", false), false, [("symbols", true), ("type", true), ("label", false), ("doc", false)],
   ["name", "symbols", "type", "label", "doc"],
   ["name", "symbols", "type", "label", "doc"],
   ["name", "symbols", "type", "label", "doc"], ["name", "symbols", "type", "label", "doc"]⟩,
  -- cwl_v1_2.py:5904
  ⟨"cwl_v1_2", "OutputArraySchema", some ("name", false), false, [("items", true), ("type", true), ("label", false), ("doc", false)],
   ["name", "items", "type", "label", "doc"],
   ["items", "type", "label", "doc", "name"],
   ["items", "type", "label", "doc", "name"], ["items", "type", "label", "doc", "name"]⟩,
  -- cwl_v1_2.py:6312
  ⟨"cwl_v1_2", "InlineJavascriptRequirement", none, true, [("expressionLib", false)],
   ["class", "expressionLib"],
   ["class", "expressionLib"],
   ["class", "expressionLib"], ["class", "expressionLib"]⟩,
  -- cwl_v1_2.py:6499
  ⟨"cwl_v1_2", "SchemaDefRequirement", none, true, [("types", true)],
   ["class", "types"],
   ["class", "types"],
   ["class", "types"], ["class", "types"]⟩,
  -- cwl_v1_2.py:6681
  ⟨"cwl_v1_2", "SecondaryFileSchema", none, false, [("pattern", true), ("required", false)],
   ["pattern", "required"],
   ["pattern", "required"],
   ["pattern", "required"], ["pattern", "required"]⟩,
  -- cwl_v1_2.py:6894
  ⟨"cwl_v1_2", "LoadListingRequirement", none, true, [("loadListing", false)],
   ["class", "loadListing"],
   ["class", "loadListing"],
   ["class", "loadListing"], ["class", "loadListing"]⟩,
  -- cwl_v1_2.py:7076
  ⟨"cwl_v1_2", "EnvironmentDef", none, false, [("envName", true), ("envValue", true)],
   ["envName", "envValue"],
   ["envName", "envValue"],
   ["envName", "envValue"], ["envName", "envValue"]⟩,
  -- cwl_v1_2.py:7283
  ⟨"cwl_v1_2", "CommandLineBinding", none, false, [("loadContents", false), ("position", false), ("prefix", false), ("separate", false), ("itemSeparator", false), ("valueFrom", false), ("shellQuote", false)],
   ["loadContents", "position", "prefix", "separate", "itemSeparator", "valueFrom", "shellQuote"],
   ["loadContents", "position", "prefix", "separate", "itemSeparator", "valueFrom", "shellQuote"],
   ["loadContents", "position", "prefix", "separate", "itemSeparator", "valueFrom", "shellQuote"], ["loadContents", "position", "prefix", "separate", "itemSeparator", "valueFrom", "shellQuote"]⟩,
  -- cwl_v1_2.py:7814
  ⟨"cwl_v1_2", "CommandOutputBinding", none, false, [("loadContents", false), ("loadListing", false), ("glob", false), ("outputEval", false)],
   ["loadContents", "loadListing", "glob", "outputEval"],
   ["loadContents", "loadListing", "glob", "outputEval"],
   ["loadContents", "loadListing", "glob", "outputEval"], ["loadContents", "loadListing", "glob", "outputEval"]⟩,
  -- cwl_v1_2.py:8152
  ⟨"cwl_v1_2", "CommandInputRecordField", some ("name", true), false, [("doc", false), ("type", true), ("label", false), ("secondaryFiles", false), ("streamable", false), ("format", false), ("loadContents", false), ("loadListing", false), ("inputBinding", false)],
   ["name", "doc", "type", "label", "secondaryFiles", "streamable", "format", "loadContents", "loadListing", "inputBinding"],
   ["doc", "name", "type", "label", "secondaryFiles", "streamable", "format", "loadContents", "loadListing", "inputBinding"],
   ["doc", "name", "type", "label", "secondaryFiles", "streamable", "format", "loadContents", "loadListing", "inputBinding"], ["doc", "name", "type", "label", "secondaryFiles", "streamable", "format", "loadContents", "loadListing", "inputBinding"]⟩,
  -- cwl_v1_2.py:8845
  ⟨"cwl_v1_2", "CommandInputRecordSchema", some ("name", false), false, [("fields", false), ("type", true), ("label", false), ("doc", false), ("inputBinding", false)],
   ["name", "fields", "type", "label", "doc", "inputBinding"],
   ["fields", "type", "label", "doc", "name", "inputBinding"],
   ["fields", "type", "label", "doc", "name", "inputBinding"], ["fields", "type", "label", "doc", "name", "inputBinding"]⟩,
  -- cwl_v1_2.py:9294
  ⟨"cwl_v1_2", "CommandInputEnumSchema", some ("name", false), false, [("symbols", true), ("type", true), ("label", false), ("doc", false), ("inputBinding", false)],
   ["name", "symbols", "type", "label", "doc", "inputBinding"],
   ["name", "symbols", "type", "label", "doc", "inputBinding"],
   ["name", "symbols", "type", "label", "doc", "inputBinding"], ["name", "symbols", "type", "label", "doc", "inputBinding"]⟩,
  -- cwl_v1_2.py:9741
  ⟨"cwl_v1_2", "CommandInputArraySchema", some ("name", false), false, [("items", true), ("type", true), ("label", false), ("doc", false), ("inputBinding", false)],
   ["name", "items", "type", "label", "doc", "inputBinding"],
   ["items", "type", "label", "doc", "name", "inputBinding"],
   ["items", "type", "label", "doc", "name", "inputBinding"], ["items", "type", "label", "doc", "name", "inputBinding"]⟩,
  -- cwl_v1_2.py:10183
  ⟨"cwl_v1_2", "CommandOutputRecordField", some ("name", true), false, [("doc", false), ("type", true), ("label", false), ("secondaryFiles", false), ("streamable", false), ("format", false), ("outputBinding", false)],
   ["name", "doc", "type", "label", "secondaryFiles", "streamable", "format", "outputBinding"],
   ["doc", "name", "type", "label", "secondaryFiles", "streamable", "format", "outputBinding"],
   ["doc", "name", "type", "label", "secondaryFiles", "streamable", "format", "outputBinding"], ["doc", "name", "type", "label", "secondaryFiles", "streamable", "format", "outputBinding"]⟩,
  -- cwl_v1_2.py:10756
  ⟨"cwl_v1_2", "CommandOutputRecordSchema", some ("name", false), false, [("fields", false), ("type", true), ("label", false), ("doc", false)],
   ["name", "fields", "type", "label", "doc"],
   ["fields", "type", "label", "doc", "name"],
   ["fields", "type", "label", "doc", "name"], ["fields", "type", "label", "doc", "name"]⟩,
  -- cwl_v1_2.py:11136
  ⟨"cwl_v1_2", "CommandOutputEnumSchema", some ("name", false), false, [("symbols", true), ("type", true), ("label", false), ("doc", false)],
   ["name", "symbols", "type", "label", "doc"],
   ["name", "symbols", "type", "label", "doc"],
   ["name", "symbols", "type", "label", "doc"], ["name", "symbols", "type", "label", "doc"]⟩,
  -- cwl_v1_2.py:11516
  ⟨"cwl_v1_2", "CommandOutputArraySchema", some ("name", false), false, [("items", true), ("type", true), ("label", false), ("doc", false)],
   ["name", "items", "type", "label", "doc"],
   ["items", "type", "label", "doc", "name"],
   ["items", "type", "label", "doc", "name"], ["items", "type", "label", "doc", "name"]⟩,
  -- cwl_v1_2.py:11896
  ⟨"cwl_v1_2", "CommandInputParameter", some ("id", true), false, [("label", false), ("secondaryFiles", false), ("streamable", false), ("doc", false), ("format", false), ("loadContents", false), ("loadListing", false), ("default", false), ("type", true), ("inputBinding", false)],
   ["id", "label", "secondaryFiles", "streamable", "doc", "format", "loadContents", "loadListing", "default", "type", "inputBinding"],
   ["label", "secondaryFiles", "streamable", "doc", "id", "format", "loadContents", "loadListing", "default", "type", "inputBinding"],
   ["label", "secondaryFiles", "streamable", "doc", "id", "format", "loadContents", "loadListing", "default", "type", "inputBinding"], ["label", "secondaryFiles", "streamable", "doc", "id", "format", "loadContents", "loadListing", "default", "type", "inputBinding"]⟩,
  -- cwl_v1_2.py:12651
  ⟨"cwl_v1_2", "CommandOutputParameter", some ("id", true), false, [("label", false), ("secondaryFiles", false), ("streamable", false), ("doc", false), ("format", false), ("type", true), ("outputBinding", false)],
   ["id", "label", "secondaryFiles", "streamable", "doc", "format", "type", "outputBinding"],
   ["label", "secondaryFiles", "streamable", "doc", "id", "format", "type", "outputBinding"],
   ["label", "secondaryFiles", "streamable", "doc", "id", "format", "type", "outputBinding"], ["label", "secondaryFiles", "streamable", "doc", "id", "format", "type", "outputBinding"]⟩,
  -- cwl_v1_2.py:13229
  ⟨"cwl_v1_2", "CommandLineTool", some ("id", false), true, [("label", false), ("doc", false), ("inputs", true), ("outputs", true), ("requirements", false), ("hints", false), ("cwlVersion", false), ("intent", false), ("baseCommand", false), ("arguments", false), ("stdin", false), ("stderr", false), ("stdout", false), ("successCodes", false), ("temporaryFailCodes", false), ("permanentFailCodes", false)],
   ["id", "class", "label", "doc", "inputs", "outputs", "requirements", "hints", "cwlVersion", "intent", "baseCommand", "arguments", "stdin", "stderr", "stdout", "successCodes", "temporaryFailCodes", "permanentFailCodes"],
   ["id", "label", "doc", "inputs", "outputs", "requirements", "hints", "cwlVersion", "intent", "class", "baseCommand", "arguments", "stdin", "stderr", "stdout", "successCodes", "temporaryFailCodes", "permanentFailCodes"],
   ["id", "label", "doc", "inputs", "outputs", "requirements", "hints", "cwlVersion", "intent", "class", "baseCommand", "arguments", "stdin", "stderr", "stdout", "successCodes", "temporaryFailCodes", "permanentFailCodes"], ["id", "label", "doc", "inputs", "outputs", "requirements", "hints", "cwlVersion", "intent", "class", "baseCommand", "arguments", "stdin", "stderr", "stdout", "successCodes", "temporaryFailCodes", "permanentFailCodes"]⟩,
  -- cwl_v1_2.py:14357
  ⟨"cwl_v1_2", "DockerRequirement", none, true, [("dockerPull", false), ("dockerLoad", false), ("dockerFile", false), ("dockerImport", false), ("dockerImageId", false), ("dockerOutputDirectory", false)],
   ["class", "dockerPull", "dockerLoad", "dockerFile", "dockerImport", "dockerImageId", "dockerOutputDirectory"],
   ["class", "dockerPull", "dockerLoad", "dockerFile", "dockerImport", "dockerImageId", "dockerOutputDirectory"],
   ["class", "dockerPull", "dockerLoad", "dockerFile", "dockerImport", "dockerImageId", "dockerOutputDirectory"], ["class", "dockerPull", "dockerLoad", "dockerFile", "dockerImport", "dockerImageId", "dockerOutputDirectory"]⟩,
  -- cwl_v1_2.py:14869
  ⟨"cwl_v1_2", "SoftwareRequirement", none, true, [("packages", true)],
   ["class", "packages"],
   ["class", "packages"],
   ["class", "packages"], ["class", "packages"]⟩,
  -- cwl_v1_2.py:15047
  ⟨"cwl_v1_2", "SoftwarePackage", none, false, [("package", true), ("version", false), ("specs", false)],
   ["package", "version", "specs"],
   ["package", "version", "specs"],
   ["package", "version", "specs"], ["package", "version", "specs"]⟩,
  -- cwl_v1_2.py:15303
  ⟨"cwl_v1_2", "Dirent", none, false, [("entryname", false), ("entry", true), ("writable", false)],
   ["entryname", "entry", "writable"],
   ["entryname", "entry", "writable"],
   ["entryname", "entry", "writable"], ["entryname", "entry", "writable"]⟩,
  -- cwl_v1_2.py:15570
  ⟨"cwl_v1_2", "InitialWorkDirRequirement", none, true, [("listing", true)],
   ["class", "listing"],
   ["class", "listing"],
   ["class", "listing"], ["class", "listing"]⟩,
  -- cwl_v1_2.py:15748
  ⟨"cwl_v1_2", "EnvVarRequirement", none, true, [("envDef", true)],
   ["class", "envDef"],
   ["class", "envDef"],
   ["class", "envDef"], ["class", "envDef"]⟩,
  -- cwl_v1_2.py:15926
  ⟨"cwl_v1_2", "ShellCommandRequirement", none, true, [],
   ["class"],
   ["class"],
   ["class"], ["class"]⟩,
  -- cwl_v1_2.py:16047
  ⟨"cwl_v1_2", "ResourceRequirement", none, true, [("coresMin", false), ("coresMax", false), ("ramMin", false), ("ramMax", false), ("tmpdirMin", false), ("tmpdirMax", false), ("outdirMin", false), ("outdirMax", false)],
   ["class", "coresMin", "coresMax", "ramMin", "ramMax", "tmpdirMin", "tmpdirMax", "outdirMin", "outdirMax"],
   ["class", "coresMin", "coresMax", "ramMin", "ramMax", "tmpdirMin", "tmpdirMax", "outdirMin", "outdirMax"],
   ["class", "coresMin", "coresMax", "ramMin", "ramMax", "tmpdirMin", "tmpdirMax", "outdirMin", "outdirMax"], ["class", "coresMin", "coresMax", "ramMin", "ramMax", "tmpdirMin", "tmpdirMax", "outdirMin", "outdirMax"]⟩,
  -- cwl_v1_2.py:16662
  ⟨"cwl_v1_2", "WorkReuse", none, true, [("enableReuse", true)],
   ["class", "enableReuse"],
   ["class", "enableReuse"],
   ["class", "enableReuse"], ["class", "enableReuse"]⟩,
  -- cwl_v1_2.py:16847
  ⟨"cwl_v1_2", "NetworkAccess", none, true, [("networkAccess", true)],
   ["class", "networkAccess"],
   ["class", "networkAccess"],
   ["class", "networkAccess"], ["class", "networkAccess"]⟩,
  -- cwl_v1_2.py:17037
  ⟨"cwl_v1_2", "InplaceUpdateRequirement", none, true, [("inplaceUpdate", true)],
   ["class", "inplaceUpdate"],
   ["class", "inplaceUpdate"],
   ["class", "inplaceUpdate"], ["class", "inplaceUpdate"]⟩,
  -- cwl_v1_2.py:17229
  ⟨"cwl_v1_2", "ToolTimeLimit", none, true, [("timelimit", true)],
   ["class", "timelimit"],
   ["class", "timelimit"],
   ["class", "timelimit"], ["class", "timelimit"]⟩,
  -- cwl_v1_2.py:17412
  ⟨"cwl_v1_2", "ExpressionToolOutputParameter", some ("id", true), false, [("label", false), ("secondaryFiles", false), ("streamable", false), ("doc", false), ("format", false), ("type", true)],
   ["id", "label", "secondaryFiles", "streamable", "doc", "format", "type"],
   ["label", "secondaryFiles", "streamable", "doc", "id", "format", "type"],
   ["label", "secondaryFiles", "streamable", "doc", "id", "format", "type"], ["label", "secondaryFiles", "streamable", "doc", "id", "format", "type"]⟩,
  -- cwl_v1_2.py:17917
  ⟨"cwl_v1_2", "WorkflowInputParameter", some ("id", true), false, [("label", false), ("secondaryFiles", false), ("streamable", false), ("doc", false), ("format", false), ("loadContents", false), ("loadListing", false), ("default", false), ("type", true), ("inputBinding", false)],
   ["id", "label", "secondaryFiles", "streamable", "doc", "format", "loadContents", "loadListing", "default", "type", "inputBinding"],
   ["label", "secondaryFiles", "streamable", "doc", "id", "format", "loadContents", "loadListing", "default", "type", "inputBinding"],
   ["label", "secondaryFiles", "streamable", "doc", "id", "format", "loadContents", "loadListing", "default", "type", "inputBinding"], ["label", "secondaryFiles", "streamable", "doc", "id", "format", "loadContents", "loadListing", "default", "type", "inputBinding"]⟩,
  -- cwl_v1_2.py:18667
  ⟨"cwl_v1_2", "ExpressionTool", some ("id", false), true, [("label", false), ("doc", false), ("inputs", true), ("outputs", true), ("requirements", false), ("hints", false), ("cwlVersion", false), ("intent", false), ("expression", true)],
   ["id", "class", "label", "doc", "inputs", "outputs", "requirements", "hints", "cwlVersion", "intent", "expression"],
   ["id", "label", "doc", "inputs", "outputs", "requirements", "hints", "cwlVersion", "intent", "class", "expression"],
   ["id", "label", "doc", "inputs", "outputs", "requirements", "hints", "cwlVersion", "intent", "class", "expression"], ["id", "label", "doc", "inputs", "outputs", "requirements", "hints", "cwlVersion", "intent", "class", "expression"]⟩,
  -- cwl_v1_2.py:19388
  ⟨"cwl_v1_2", "WorkflowOutputParameter", some ("id", true), false, [("label", false), ("secondaryFiles", false), ("streamable", false), ("doc", false), ("format", false), ("outputSource", false), ("linkMerge", false), ("pickValue", false), ("type", true)],
   ["id", "label", "secondaryFiles", "streamable", "doc", "format", "outputSource", "linkMerge", "pickValue", "type"],
   ["label", "secondaryFiles", "streamable", "doc", "id", "format", "outputSource", "linkMerge", "pickValue", "type"],
   ["label", "secondaryFiles", "streamable", "doc", "id", "format", "outputSource", "linkMerge", "pickValue", "type"], ["label", "secondaryFiles", "streamable", "doc", "id", "format", "outputSource", "linkMerge", "pickValue", "type"]⟩,
  -- cwl_v1_2.py:20082
  ⟨"cwl_v1_2", "WorkflowStepInput", some ("id", true), false, [("source", false), ("linkMerge", false), ("pickValue", false), ("loadContents", false), ("loadListing", false), ("label", false), ("default", false), ("valueFrom", false)],
   ["id", "source", "linkMerge", "pickValue", "loadContents", "loadListing", "label", "default", "valueFrom"],
   ["id", "source", "linkMerge", "pickValue", "loadContents", "loadListing", "label", "default", "valueFrom"],
   ["id", "source", "linkMerge", "pickValue", "loadContents", "loadListing", "label", "default", "valueFrom"], ["id", "source", "linkMerge", "pickValue", "loadContents", "loadListing", "label", "default", "valueFrom"]⟩,
  -- cwl_v1_2.py:20783
  ⟨"cwl_v1_2", "WorkflowStepOutput", some ("id", true), false, [],
   ["id"],
   ["id"],
   ["id"], ["id"]⟩,
  -- cwl_v1_2.py:20943
  ⟨"cwl_v1_2", "WorkflowStep", some ("id", true), false, [("label", false), ("doc", false), ("in", true), ("out", true), ("requirements", false), ("hints", false), ("run", true), ("when", false), ("scatter", false), ("scatterMethod", false)],
   ["id", "label", "doc", "in", "out", "requirements", "hints", "run", "when", "scatter", "scatterMethod"],
   ["id", "label", "doc", "in", "out", "requirements", "hints", "run", "when", "scatter", "scatterMethod"],
   ["id", "label", "doc", "in", "out", "requirements", "hints", "run", "when", "scatter", "scatterMethod"], ["id", "label", "doc", "in", "out", "requirements", "hints", "run", "when", "scatter", "scatterMethod"]⟩,
  -- cwl_v1_2.py:21728
  ⟨"cwl_v1_2", "Workflow", some ("id", false), true, [("label", false), ("doc", false), ("inputs", true), ("outputs", true), ("requirements", false), ("hints", false), ("cwlVersion", false), ("intent", false), ("steps", true)],
   ["id", "class", "label", "doc", "inputs", "outputs", "requirements", "hints", "cwlVersion", "intent", "steps"],
   ["id", "label", "doc", "inputs", "outputs", "requirements", "hints", "cwlVersion", "intent", "class", "steps"],
   ["id", "label", "doc", "inputs", "outputs", "requirements", "hints", "cwlVersion", "intent", "class", "steps"], ["id", "label", "doc", "inputs", "outputs", "requirements", "hints", "cwlVersion", "intent", "class", "steps"]⟩,
  -- cwl_v1_2.py:22470
  ⟨"cwl_v1_2", "SubworkflowFeatureRequirement", none, true, [],
   ["class"],
   ["class"],
   ["class"], ["class"]⟩,
  -- cwl_v1_2.py:22591
  ⟨"cwl_v1_2", "ScatterFeatureRequirement", none, true, [],
   ["class"],
   ["class"],
   ["class"], ["class"]⟩,
  -- cwl_v1_2.py:22712
  ⟨"cwl_v1_2", "MultipleInputFeatureRequirement", none, true, [],
   ["class"],
   ["class"],
   ["class"], ["class"]⟩,
  -- cwl_v1_2.py:22833
  ⟨"cwl_v1_2", "StepInputExpressionRequirement", none, true, [],
   ["class"],
   ["class"],
   ["class"], ["class"]⟩,
  -- cwl_v1_2.py:22954
  ⟨"cwl_v1_2", "OperationInputParameter", some ("id", true), false, [("label", false), ("secondaryFiles", false), ("streamable", false), ("doc", false), ("format", false), ("loadContents", false), ("loadListing", false), ("default", false), ("type", true)],
   ["id", "label", "secondaryFiles", "streamable", "doc", "format", "loadContents", "loadListing", "default", "type"],
   ["label", "secondaryFiles", "streamable", "doc", "id", "format", "loadContents", "loadListing", "default", "type"],
   ["label", "secondaryFiles", "streamable", "doc", "id", "format", "loadContents", "loadListing", "default", "type"], ["label", "secondaryFiles", "streamable", "doc", "id", "format", "loadContents", "loadListing", "default", "type"]⟩,
  -- cwl_v1_2.py:23649
  ⟨"cwl_v1_2", "OperationOutputParameter", some ("id", true), false, [("label", false), ("secondaryFiles", false), ("streamable", false), ("doc", false), ("format", false), ("type", true)],
   ["id", "label", "secondaryFiles", "streamable", "doc", "format", "type"],
   ["label", "secondaryFiles", "streamable", "doc", "id", "format", "type"],
   ["label", "secondaryFiles", "streamable", "doc", "id", "format", "type"], ["label", "secondaryFiles", "streamable", "doc", "id", "format", "type"]⟩,
  -- cwl_v1_2.py:24159
  ⟨"cwl_v1_2", "Operation", some ("id", false), true, [("label", false), ("doc", false), ("inputs", true), ("outputs", true), ("requirements", false), ("hints", false), ("cwlVersion", false), ("intent", false)],
   ["id", "class", "label", "doc", "inputs", "outputs", "requirements", "hints", "cwlVersion", "intent"],
   ["id", "label", "doc", "inputs", "outputs", "requirements", "hints", "cwlVersion", "intent", "class"],
   ["id", "label", "doc", "inputs", "outputs", "requirements", "hints", "cwlVersion", "intent", "class"], ["id", "label", "doc", "inputs", "outputs", "requirements", "hints", "cwlVersion", "intent", "class"]⟩,
  -- cwl_v1_2.py:24819
  ⟨"cwl_v1_2", "Secrets", none, true, [("secrets", true)],
   ["class", "secrets"],
   ["class", "secrets"],
   ["class", "secrets"], ["class", "secrets"]⟩,
  -- cwl_v1_2.py:24991
  ⟨"cwl_v1_2", "ProcessGenerator", some ("id", false), true, [("label", false), ("doc", false), ("inputs", true), ("outputs", true), ("requirements", false), ("hints", false), ("cwlVersion", false), ("intent", false), ("run", true)],
   ["id", "class", "label", "doc", "inputs", "outputs", "requirements", "hints", "cwlVersion", "intent", "run"],
   ["id", "label", "doc", "inputs", "outputs", "requirements", "hints", "cwlVersion", "intent", "class", "run"],
   ["id", "label", "doc", "inputs", "outputs", "requirements", "hints", "cwlVersion", "intent", "class", "run"], ["id", "label", "doc", "inputs", "outputs", "requirements", "hints", "cwlVersion", "intent", "class", "run"]⟩,
  -- cwl_v1_2.py:25705
  ⟨"cwl_v1_2", "MPIRequirement", none, true, [("processes", true)],
   ["class", "processes"],
   ["class", "processes"],
   ["class", "processes"], ["class", "processes"]⟩,
  -- cwl_v1_2.py:25888
  ⟨"cwl_v1_2", "CUDARequirement", none, true, [("cudaComputeCapability", true), ("cudaDeviceCountMax", false), ("cudaDeviceCountMin", false), ("cudaVersionMin", true)],
   ["class", "cudaComputeCapability", "cudaDeviceCountMax", "cudaDeviceCountMin", "cudaVersionMin"],
   ["class", "cudaComputeCapability", "cudaDeviceCountMax", "cudaDeviceCountMin", "cudaVersionMin"],
   ["class", "cudaComputeCapability", "cudaDeviceCountMax", "cudaDeviceCountMin", "cudaVersionMin"], ["class", "cudaComputeCapability", "cudaDeviceCountMax", "cudaDeviceCountMin", "cudaVersionMin"]⟩,
  -- cwl_v1_2.py:26263
  ⟨"cwl_v1_2", "LoopInput", some ("id", false), false, [("default", false), ("linkMerge", false), ("loopSource", false), ("pickValue", false), ("valueFrom", false)],
   ["id", "default", "linkMerge", "loopSource", "pickValue", "valueFrom"],
   ["default", "id", "linkMerge", "loopSource", "pickValue", "valueFrom"],
   ["default", "id", "linkMerge", "loopSource", "pickValue", "valueFrom"], ["default", "id", "linkMerge", "loopSource", "pickValue", "valueFrom"]⟩,
  -- cwl_v1_2.py:26705
  ⟨"cwl_v1_2", "Loop", none, true, [("loop", true), ("loopWhen", true), ("outputMethod", true)],
   ["class", "loop", "loopWhen", "outputMethod"],
   ["class", "loop", "loopWhen", "outputMethod"],
   ["class", "loop", "loopWhen", "outputMethod"], ["class", "loop", "loopWhen", "outputMethod"]⟩,
  -- cwl_v1_2.py:27011
  ⟨"cwl_v1_2", "ShmSize", none, true, [("shmSize", true)],
   ["class", "shmSize"],
   ["class", "shmSize"],
   ["class", "shmSize"], ["class", "shmSize"]⟩]

/-- The classes of all versions. -/
def classes : List Cls := classes10 ++ classes11 ++ classes12

end CwlUtils.Loader.Rec
