/-!
# The classes of CWL and the types of their fields

Written by hand after the CWL specification, versions 1.0, 1.1 and 1.2 (the tables "Fields" of the sections on `CommandLineTool`, `Workflow`, `ExpressionTool`, `Operation`, their
parameters and requirements), not after the parsers: for each class its fields apart from `class` and the identifier.  The types of the specification are read as types
of loaded values: `string` and `Expression` are texts, as are names of types and references; enumerations are lists of symbols; `long` is `int`; a list may be written with
lists inside, which are spliced into it.
-/
namespace CwlUtils.Loader.Full

/-- The kinds of values that are not lists. -/
inductive Atom where
  | any | null | bool | int | float | text
  | sym (symbols : List String)
  | inst (cls : String)
  deriving DecidableEq, Repr

/-- A type: the kinds that a value may have, and, if it may be a list, the kinds of the members. -/
structure Ty where
  one : List Atom
  many : Option (List Atom)
  deriving DecidableEq, Repr

/-- A field of a class. -/
structure Fld where
  name : String
  required : Bool
  ty : Ty

inductive Ver where | v10 | v11 | v12
  deriving DecidableEq, Repr

namespace Schema

/-- an optional field -/
def opt (f : String) (one : List Atom) (many : Option (List Atom) := none) : Fld := ⟨f, false, ⟨one, many⟩⟩
/-- a required field -/
def req (f : String) (one : List Atom) (many : Option (List Atom) := none) : Fld := ⟨f, true, ⟨one, many⟩⟩
/-- fields that came with version 1.1 -/
def from11 : Ver → List Fld → List Fld
  | .v10, _ => []
  | _, l => l
/-- fields that came with version 1.2 -/
def from12 : Ver → List Fld → List Fld
  | .v12, l => l
  | _, _ => []
/-- fields that were dropped in version 1.1 -/
def only10 : Ver → List Fld → List Fld
  | .v10, l => l
  | _, _ => []

def texts : Option (List Atom) := some [.text]

/-- the types that a parameter may have: a name or a definition -/
def types (kind : String) : List Atom := [.text, .inst (kind ++ "RecordSchema"), .inst (kind ++ "EnumSchema"), .inst (kind ++ "ArraySchema")]

/-- `secondaryFiles` of parameters -/
def secondary : Ver → Fld
  | .v10 => opt "secondaryFiles" [.text] texts
  | _ => opt "secondaryFiles" [.inst "SecondaryFileSchema"] (some [.inst "SecondaryFileSchema"])

def loadListing : List Atom := [.sym ["no_listing", "shallow_listing", "deep_listing"]]
def linkMerge : List Atom := [.sym ["merge_nested", "merge_flattened"]]
def pickValue : List Atom := [.sym ["first_non_null", "the_only_non_null", "all_non_null"]]

def doc : Fld := opt "doc" [.text] texts
def label : Fld := opt "label" [.text]

/-- the fields of every parameter of a process -/
def parameter (v : Ver) : List Fld := [label, secondary v, opt "streamable" [.bool], doc]

/-- `type` of parameters, which version 1.0 does not require -/
def typeOf (v : Ver) (kind : String) (more : List String) : Fld :=
  ⟨"type", v != .v10, ⟨.sym more :: types kind, some (types kind)⟩⟩

/-- input parameters -/
def input (v : Ver) (kind binding : String) (more : List String) : List Fld :=
  parameter v ++ [opt "format" [.text] texts, opt "default" [.any], typeOf v kind more] ++
  from11 v [opt "loadContents" [.bool], opt "loadListing" loadListing] ++
  (if binding = "" then [] else [opt "inputBinding" [.inst binding]])

/-- output parameters -/
def output (v : Ver) (kind : String) (bound : Bool) (more : List String) : List Fld :=
  parameter v ++ [opt "format" [.text], typeOf v kind more] ++
  (if bound = true then [opt "outputBinding" [.inst "CommandOutputBinding"]] else [])

/-- the requirements of the specification, and the extensions of cwltool that the parsers know -/
def requirements : Ver → List Atom
  | .v10 => ["InlineJavascriptRequirement", "SchemaDefRequirement", "DockerRequirement", "SoftwareRequirement", "InitialWorkDirRequirement", "EnvVarRequirement",
      "ShellCommandRequirement", "ResourceRequirement", "SubworkflowFeatureRequirement", "ScatterFeatureRequirement", "MultipleInputFeatureRequirement",
      "StepInputExpressionRequirement", "LoadListingRequirement", "InplaceUpdateRequirement", "Secrets", "TimeLimit", "WorkReuse", "NetworkAccess", "MPIRequirement",
      "CUDARequirement", "ShmSize"].map .inst
  | _ => ["InlineJavascriptRequirement", "SchemaDefRequirement", "LoadListingRequirement", "DockerRequirement", "SoftwareRequirement", "InitialWorkDirRequirement",
      "EnvVarRequirement", "ShellCommandRequirement", "ResourceRequirement", "WorkReuse", "NetworkAccess", "InplaceUpdateRequirement", "ToolTimeLimit",
      "SubworkflowFeatureRequirement", "ScatterFeatureRequirement", "MultipleInputFeatureRequirement", "StepInputExpressionRequirement", "Secrets", "MPIRequirement",
      "CUDARequirement", "Loop", "ShmSize"].map .inst

def version : Ver → String
  | .v10 => "v1.0"
  | .v11 => "v1.1"
  | .v12 => "v1.2"

/-- the fields of every process -/
def process (v : Ver) (inputs outputs : String) : List Fld :=
  [req "inputs" [] (some [.inst inputs]), req "outputs" [] (some [.inst outputs]), opt "requirements" [] (some (requirements v)), opt "hints" [] (some [.any]),
   label, opt "doc" [.text] (if v = .v10 then none else texts), opt "cwlVersion" [.sym [version v]]] ++ from12 v [opt "intent" [] texts]

def commandLineTool (v : Ver) : List Fld :=
  process v "CommandInputParameter" "CommandOutputParameter" ++
  [opt "baseCommand" [.text] texts, opt "arguments" [] (some [.text, .inst "CommandLineBinding"]), opt "stdin" [.text], opt "stderr" [.text], opt "stdout" [.text],
   opt "successCodes" [] (some [.int]), opt "temporaryFailCodes" [] (some [.int]), opt "permanentFailCodes" [] (some [.int])]

/-- the input parameters of workflows and expressions -/
def inputParameter : Ver → String
  | .v10 => "InputParameter"
  | _ => "WorkflowInputParameter"

def processes : Ver → List Atom
  | .v12 => ["CommandLineTool", "ExpressionTool", "Workflow", "Operation", "ProcessGenerator"].map .inst
  | _ => ["CommandLineTool", "ExpressionTool", "Workflow", "ProcessGenerator"].map .inst

def workflowStep (v : Ver) : List Fld :=
  [req "in" [] (some [.inst "WorkflowStepInput"]), req "out" [] (some [.text, .inst "WorkflowStepOutput"]), req "run" (.text :: processes v),
   opt "requirements" [] (some (requirements v)), opt "hints" [] (some [.any]), label, opt "doc" [.text] (if v = .v10 then none else texts),
   opt "scatter" [.text] texts, opt "scatterMethod" [.sym ["dotproduct", "nested_crossproduct", "flat_crossproduct"]]] ++ from12 v [opt "when" [.text]]

def workflowStepInput (v : Ver) : List Fld :=
  [opt "source" [.text] texts, opt "linkMerge" linkMerge, opt "default" [.any], opt "valueFrom" [.text]] ++
  from11 v [opt "loadContents" [.bool], opt "loadListing" loadListing, label] ++ from12 v [opt "pickValue" pickValue]

def amount : Ver → List Atom
  | .v12 => [.int, .float, .text]
  | _ => [.int, .text]

/-- The specification. -/
def schema (v : Ver) : List (String × List Fld) := [
  ("CommandLineTool", commandLineTool v),
  ("ExpressionTool", process v (inputParameter v) "ExpressionToolOutputParameter" ++ [req "expression" [.text]]),
  ("Workflow", process v (inputParameter v) "WorkflowOutputParameter" ++ [req "steps" [] (some [.inst "WorkflowStep"])]),
  ("WorkflowStep", workflowStep v),
  ("WorkflowStepInput", workflowStepInput v),
  ("WorkflowStepOutput", []),
  (inputParameter v, input v "Input" (if v = .v10 then "CommandLineBinding" else "InputBinding") []),
  ("CommandInputParameter", input v "CommandInput" "CommandLineBinding" (if v = .v10 then [] else ["stdin"])),
  ("CommandOutputParameter", output v "CommandOutput" true ["stdout", "stderr"]),
  ("ExpressionToolOutputParameter", output v "Output" (v = .v10) []),
  ("WorkflowOutputParameter", output v "Output" (v = .v10) [] ++ [opt "outputSource" [.text] texts, opt "linkMerge" linkMerge] ++ from12 v [opt "pickValue" pickValue]),
  ("CommandLineBinding", [opt "loadContents" [.bool], opt "position" (if v = .v10 then [.int] else [.int, .text]), opt "prefix" [.text], opt "separate" [.bool],
    opt "itemSeparator" [.text], opt "valueFrom" [.text], opt "shellQuote" [.bool]]),
  ("CommandOutputBinding", [opt "loadContents" [.bool], opt "glob" [.text] texts, opt "outputEval" [.text]] ++ from11 v [opt "loadListing" loadListing]),
  ("InlineJavascriptRequirement", [opt "expressionLib" [] texts]),
  ("DockerRequirement", ["dockerPull", "dockerLoad", "dockerFile", "dockerImport", "dockerImageId", "dockerOutputDirectory"].map (opt · [.text])),
  ("SoftwareRequirement", [req "packages" [] (some [.inst "SoftwarePackage"])]),
  ("SoftwarePackage", [req "package" [.text], opt "version" [] texts, opt "specs" [] texts]),
  ("InitialWorkDirRequirement", [req "listing" [.text] (some ((if v = .v10 then [] else [.null]) ++ [.text, .inst "Dirent", .inst "File", .inst "Directory"]))]),
  ("Dirent", [req "entry" [.text], opt "entryname" [.text], opt "writable" [.bool]]),
  ("EnvVarRequirement", [req "envDef" [] (some [.inst "EnvironmentDef"])]),
  ("EnvironmentDef", [req "envName" [.text], req "envValue" [.text]]),
  ("ShellCommandRequirement", []),
  ("ResourceRequirement", ["coresMin", "coresMax", "ramMin", "ramMax", "tmpdirMin", "tmpdirMax", "outdirMin", "outdirMax"].map (opt · (amount v))),
  ("SubworkflowFeatureRequirement", []),
  ("ScatterFeatureRequirement", []),
  ("MultipleInputFeatureRequirement", []),
  ("StepInputExpressionRequirement", []),
  ("InplaceUpdateRequirement", [req "inplaceUpdate" [.bool]]),
  ("NetworkAccess", [req "networkAccess" [.bool, .text]]),
  ("WorkReuse", [req "enableReuse" [.bool, .text]]),
  (if v = .v10 then "TimeLimit" else "ToolTimeLimit", [req "timelimit" [.int, .text]]),
  ("SchemaDefRequirement", [req "types" [] (some ((types (if v = .v10 then "Input" else "CommandInput")).erase .text))]),
  ("File", ["location", "path", "basename", "dirname", "nameroot", "nameext", "checksum", "format", "contents"].map (opt · [.text]) ++
    [opt "size" [.int], opt "secondaryFiles" [] (some [.inst "File", .inst "Directory"])]),
  ("Directory", ["location", "path", "basename"].map (opt · [.text]) ++ [opt "listing" [] (some [.inst "File", .inst "Directory"])]),
  ("CommandInputArraySchema", [req "items" (types "CommandInput") (some (types "CommandInput")), req "type" [.sym ["array"]], label,
    opt "inputBinding" [.inst "CommandLineBinding"]] ++ from11 v [doc]),
  ("CommandInputEnumSchema", [req "symbols" [] texts, req "type" [.sym ["enum"]], label, opt "inputBinding" [.inst "CommandLineBinding"]] ++ from11 v [doc]),
  ("CommandInputRecordSchema", [opt "fields" [] (some [.inst "CommandInputRecordField"]), req "type" [.sym ["record"]], label] ++
    from11 v [doc, opt "inputBinding" [.inst "CommandLineBinding"]]),
  ("CommandInputRecordField", [doc, req "type" (types "CommandInput") (some (types "CommandInput")), opt "inputBinding" [.inst "CommandLineBinding"], label] ++
    from11 v [secondary v, opt "streamable" [.bool], opt "format" [.text] texts, opt "loadContents" [.bool], opt "loadListing" loadListing]),
  ("CommandOutputArraySchema", [req "items" (types "CommandOutput") (some (types "CommandOutput")), req "type" [.sym ["array"]], label] ++
    only10 v [opt "outputBinding" [.inst "CommandOutputBinding"]] ++ from11 v [doc]),
  ("CommandOutputRecordSchema", [opt "fields" [] (some [.inst "CommandOutputRecordField"]), req "type" [.sym ["record"]], label] ++ from11 v [doc]),
  ("CommandOutputRecordField", [doc, req "type" (types "CommandOutput") (some (types "CommandOutput")), opt "outputBinding" [.inst "CommandOutputBinding"]] ++
    from11 v [label, secondary v, opt "streamable" [.bool], opt "format" [.text]])] ++
  (if v = .v10 then [] else [
    ("SecondaryFileSchema", [req "pattern" [.text], opt "required" [.bool, .text]]),
    ("LoadListingRequirement", [opt "loadListing" loadListing])]) ++
  (if v = .v12 then [("Operation", process v "OperationInputParameter" "OperationOutputParameter"),
    ("OperationInputParameter", input v "Input" "" []), ("OperationOutputParameter", output v "Output" false [])] else [])

end Schema

end CwlUtils.Loader.Full
