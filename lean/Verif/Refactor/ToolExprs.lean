import Verif.Refactor.Steps
/-!
# Expression refactoring: the expressions of a CommandLineTool

`src/cwl_utils/cwl_v1_2_expression_refactor.py:1343-1623`: `traverse_CommandLineTool`, with
`replace_step_clt_expr_with_etool`, `cltool_inputs_to_etool_inputs`, `cltool_step_outputs_to_workflow_outputs`,
`process_CommandLineTool_output` and `remove_JSReq`.

The tool that is read (`clt`) is a deep copy, made before, of the tool that is written (`target_clt`, the `run` of the
step), so changes of the one are not seen in the other.

Environment: `G t self` is `get_expression(t, inputs, self)` with the mock inputs of the tool, `X inp` is
`example_input(inp.type_)`, `wlib` the `expressionLib` of the first InlineJavascriptRequirement among the requirements of
the workflow, if there is one, `slib` that of the step, `num` writes an index in decimal.
-/
namespace CwlUtils.Refactor
open CwlUtils.Expr

/-- A requirement or hint of a tool: InlineJavascriptRequirement with its library, or another one. -/
inductive TReq where
  | js (lib : Option (List String))
  | other (name : String)
  deriving DecidableEq

/-- A CommandInputParameter: its id, its default, and the `valueFrom` of its inputBinding. -/
structure TIn where
  id : String
  dflt : Option Val
  valueFrom : Option String
  deriving DecidableEq

/-- An entry of `arguments`: a text, or a CommandLineBinding with its `valueFrom` and its other fields. -/
inductive Arg where
  | text (s : String)
  | binding (valueFrom : Option String) (rest : Val)
  deriving DecidableEq

/-- A CommandOutputParameter with the `glob`, `loadContents` and `outputEval` of its outputBinding (None without one). -/
structure TOut where
  id : String
  glob : Option Val
  loadContents : Bool
  outputEval : Option String
  deriving DecidableEq

/-- A CommandLineTool, as far as it is read or written. -/
structure CTool where
  inputs : List TIn
  arguments : Option (List Arg)
  stdin : Option String
  stdout : Option String
  stderr : Option String
  outputs : List TOut
  requirements : Option (List TReq)
  hints : Option (List TReq)
  deriving DecidableEq

/-- A generated step: its inputs, the inputs of its ExpressionTool with their defaults, the expression, and the library that
is in effect for it.  Its only output is `result`; it is not scattered.  (With `replace_etool` the tool is then converted;
see `Etool.lean`.  The requirements copied from the tool are not modelled, nor are types.) -/
structure TGen where
  id : String
  ins : List SIn
  params : List (String × Option Val)
  code : Str
  lib : Option (List String)
  deriving DecidableEq

/-- The workflow that takes the place of the tool for an output with `outputEval`: its inputs with their defaults, its
outputs with their sources, and its two steps: the tool (`run` of the state) with id, inputs and condition, and the
evaluation. -/
structure SubWf where
  inputs : List (String × Option Val)
  outputs : List (String × String)
  toolId : String
  toolIns : List SIn
  cond : Option String
  eval : TGen
  deriving DecidableEq

/-- The state: the tool that is written, the inputs of the step, the generated steps, the workflows around the tool (the
innermost first), and whether something was modified. -/
structure TSt where
  tool : CTool
  ins : List SIn
  gens : List TGen
  wraps : List SubWf
  modified : Bool
  deriving DecidableEq

/-- The environment. -/
structure TEnv where
  G : String → Val → Except Err (Option Str)
  X : TIn → Val
  wlib : Option (Option (List String))
  slib : Option (Option (List String))
  replace : Bool
  num : Nat → String

/-- `id.split("#")[-1].split("/")[-1]` -/
def nameOf (id : String) : String := lastSlash (lastHash id)

/-- `name.startswith("_")` -/
def hidden (n : String) : Bool := "_".toList.isPrefixOf n.toList

/-- `src/cwl_utils/cwl_v1_2_expression_refactor.py:1749-1772`: `cltool_inputs_to_etool_inputs`. -/
def etoolParams (inputs : List TIn) : List (String × Option Val) :=
  (inputs.map (fun p => (nameOf p.id, p.dflt))).filter (fun p => !hidden p.1)

/-- `1688-1691`: the inputs of a generated step. -/
def shortIns (ins : List SIn) : List SIn :=
  (ins.map (fun i => { i with id := lastSlash i.id })).filter (fun i => !hidden i.id)

/-- The library of the first InlineJavascriptRequirement (`src/cwl_utils/expression_refactor.py:242-245`). -/
def libReq : List TReq → Option (Option (List String))
  | [] => none
  | .js lib :: _ => some lib
  | .other _ :: rs => libReq rs

/-- `src/cwl_utils/expression_refactor.py:232-246`, `274-279`: `find_expressionLib` for a tool and the workflow: the workflow comes first.  (`Refactor.findExpressionLib` is the function
itself.) -/
def libOf (env : TEnv) (requirements : Option (List TReq)) : Option (List String) :=
  match env.wlib with
  | some l => l
  | none => (libReq (requirements.getD [])).getD none

/-- The inputs of `step.run` (`1666-1668`), as `cltool_inputs_to_etool_inputs` gives them: of the tool, or of the outermost workflow. -/
def runParams (st : TSt) : List (String × Option Val) :=
  match st.wraps.getLast? with
  | none => etoolParams st.tool.inputs
  | some w => w.inputs

/-- The requirements of `step.run`; a workflow around the tool has none. -/
def runReqs (st : TSt) : Option (List TReq) := if st.wraps.isEmpty then st.tool.requirements else none

/-- `src/cwl_utils/cwl_v1_2_expression_refactor.py:1656-1699`: `replace_step_clt_expr_with_etool`. -/
def toolGen (env : TEnv) (expr : Str) (name : String) (selfName : Option String) (st : TSt) : TSt :=
  { st with
    modified := true
    gens := st.gens ++ [⟨name, shortIns st.ins, runParams st, etoolText (selfName.map String.toList) expr,
      if env.replace then env.wlib.getD none else libOf env (runReqs st)⟩] }

/-- `not isinstance(req, InlineJavascriptRequirement)` -/
def TReq.isOther : TReq → Bool
  | .js _ => false
  | .other _ => true

/-- `src/cwl_utils/expression_refactor.py:586-602`: one list of `remove_JSReq`. -/
def noJs : Option (List TReq) → Option (List TReq)
  | none => none
  | some rs =>
    let rs' := rs.filter TReq.isOther
    if rs.isEmpty then some rs else if rs'.isEmpty then none else some rs'

/-- `src/cwl_utils/expression_refactor.py:579-602`: `remove_JSReq` for a CommandLineTool. -/
def removeJs (skip1 : Bool) (t : CTool) : CTool :=
  if skip1 then t else { t with hints := noJs t.hints, requirements := noJs t.requirements }

/-- `target_clt.inputs.append(…)` (`1378-1384`, for example) -/
def addInput (inpId : String) (st : TSt) : TSt :=
  { st with tool := { st.tool with inputs := st.tool.inputs ++ [⟨inpId, none, none⟩] } }

/-- `step.in_.append(WorkflowStepInput(id=inp_id, source=f"{etool_id}/result"))` (`1414-1416`, for example) -/
def addLink (inpId etoolId : String) (st : TSt) : TSt :=
  { st with ins := st.ins ++ [⟨inpId, some (.one (etoolId ++ "/result")), none, none, none, none⟩] }

/-- `step.in_.append(WorkflowStepInput(f"{etool_id}/result", None, inp_id, None, None))` (`1385-1389`): the arguments are
given by position, and the class takes the id first, then the source, then `linkMerge`
(`src/cwl_utils/parser/cwl_v1_2.py`, `WorkflowStepInput.__init__`). -/
def addTextLink (inpId etoolId : String) (st : TSt) : TSt :=
  { st with ins := st.ins ++ [⟨etoolId ++ "/result", none, some inpId, none, none, none⟩] }

/-- `target_clt.arguments[index] = …` (`1372-1377`, `1404-1406`) -/
def setArg (i : Nat) (f : Arg → Arg) (st : TSt) : TSt :=
  { st with tool := { st.tool with arguments := st.tool.arguments.map (fun l => l.modify i f) } }

/-- `"$(inputs.{})".format(inp_id)` (`1404`) -/
def refText (inpId : String) : String := "$(inputs." ++ inpId ++ ")"

/-- The name of a generated step (`1366`, for example). -/
def toolName (stepId inpId : String) : String := "_expression_" ++ stepId ++ inpId

/-- `1361-1419`: the body of the loop over `arguments`. -/
def argOne (env : TEnv) (stepId : String) (i : Nat) (a : Arg) (st : TSt) : Except Err TSt :=
  let inpId := "_arguments_" ++ env.num i
  let etoolId := toolName stepId inpId
  match a with
  | .text s => match env.G s .null with
    | .error e => .error e
    | .ok r => match found r with
      | none => .ok st
      | some e =>
        let st := addTextLink inpId etoolId (addInput inpId (setArg i (fun _ => .binding (some (refText inpId)) .null)
          (toolGen env e etoolId none st)))
        .ok { st with tool := removeJs false st.tool }
  | .binding vf _ =>
    if textTruthy vf then match env.G (vf.getD "") .null with
      | .error e => .error e
      | .ok r => match found r with
        | none => .ok st
        | some e =>
          let st := addLink inpId etoolId (addInput inpId (setArg i (fun a => match a with
              | .text s => .text s
              | .binding _ rest => .binding (some (refText inpId)) rest)
            (toolGen env e etoolId none st)))
          .ok { st with tool := removeJs false st.tool }
    else .ok st

/-- `1360-1419`: the loop over `arguments`. -/
def argLoop (env : TEnv) (stepId : String) : Nat → List Arg → TSt → Except Err TSt
  | _, [], st => .ok st
  | i, a :: as, st => match argOne env stepId i a st with
    | .error e => .error e
    | .ok st => argLoop env stepId (i + 1) as st

/-- `1421-1443`: the body of the loop over `stdout` and `stderr`; `set` is `setattr(target_clt, streamtype, …)`. -/
def streamOne (env : TEnv) (stepId name : String) (value : Option String) (set : String → CTool → CTool) (st : TSt) :
    Except Err TSt :=
  if textTruthy value then match env.G (value.getD "") .null with
    | .error e => .error e
    | .ok r => match found r with
      | none => .ok st
      | some e =>
        let inpId := "_" ++ name
        let etoolId := toolName stepId inpId
        let st := toolGen env e etoolId none st
        .ok (addLink inpId etoolId (addInput inpId { st with tool := set (refText inpId) st.tool }))
  else .ok st

/-- `1445-1465`: the body of the loop over the inputs.  The new `valueFrom` is put in `clt`, so the tool keeps its own. -/
def inputOne (env : TEnv) (stepId : String) (p : TIn) (st : TSt) : Except Err TSt :=
  if textTruthy p.valueFrom then match env.G (p.valueFrom.getD "") (env.X p) with
    | .error e => .error e
    | .ok r => match found r with
      | none => .ok st
      | some e =>
        let selfId := lastHash p.id
        let inpId := "_" ++ selfId ++ "_valueFrom"
        let etoolId := toolName stepId inpId
        .ok (addLink inpId etoolId (addInput inpId (toolGen env e etoolId (some selfId) st)))
  else .ok st

/-- `1444-1465`: the loop over the inputs. -/
def inputLoop (env : TEnv) (stepId : String) : List TIn → TSt → Except Err TSt
  | [], st => .ok st
  | p :: ps, st => match inputOne env stepId p st with
    | .error e => .error e
    | .ok st => inputLoop env stepId ps st

/-- `1468-1489`: the `glob` of an output.  The new `glob` is put in `clt`, so the tool keeps its own.  (`get_expression` gives
None for a list.) -/
def globOne (env : TEnv) (stepId : String) (o : TOut) (st : TSt) : Except Err TSt :=
  match o.glob with
  | some (.str g) =>
    if g = "" then .ok st else match env.G g .null with
    | .error e => .error e
    | .ok r => match found r with
      | none => .ok st
      | some e =>
        let inpId := "_" ++ lastHash o.id ++ "_glob"
        let etoolId := toolName stepId inpId
        .ok (addLink inpId etoolId (addInput inpId (toolGen env e etoolId none st)))
  | _ => .ok st

/-- The example of `self` for `outputEval` (`1491-1502`). -/
def evalSelf (loadContents : Bool) : Val :=
  .arr [.obj ([("class", .str "File"), ("basename", .str "base.name"), ("nameroot", .str "base"), ("nameext", .str "name"),
    ("path", .str "/tmp/base.name"), ("dirname", .str "/tmp")] ++ if loadContents then [("contents", .str "stuff")] else [])]

/-- `src/cwl_utils/cwl_v1_2_expression_refactor.py:1775-1810`: `cltool_step_outputs_to_workflow_outputs`, for the names of the
outputs of `step.run`. -/
def wfOutputs (names : List String) (stepId etoolId outId : String) : List (String × String) :=
  (names.map (fun n => (n, if n = outId then etoolId ++ "/result" else stepId ++ "/" ++ n))).filter (fun o => !hidden o.1)

/-- The names of the outputs of `step.run`. -/
def runOutputs (st : TSt) : List String :=
  match st.wraps.getLast? with
  | none => st.tool.outputs.map (fun o => nameOf o.id)
  | some w => w.outputs.map (·.1)

/-- `1537-1551`, `1584-1587`: `inp.id.split("/")[-1]`, `source = id`, `linkMerge = None` for an input of an inner step. -/
def innerIn (i : SIn) : SIn :=
  { i with id := lastSlash i.id, source := some (.one (lastSlash i.id)), linkMerge := none }

/-- `src/cwl_utils/cwl_v1_2_expression_refactor.py:632-655`: `process_CommandLineTool_output` (types are not modelled; for a
workflow nothing else changes). -/
def plainOutput (outId : String) (t : CTool) : CTool :=
  { t with outputs := t.outputs.map (fun o => if lastHash o.id = outId then { o with outputEval := none, loadContents := false } else o) }

/-- `1590-1593`: `tool_inp.id = tool_inp.id.split("#")[-1]`, and the same for the outputs (the objects are shared by the copies). -/
def shortTool (t : CTool) : CTool :=
  { t with inputs := t.inputs.map (fun p => { p with id := lastHash p.id }), outputs := t.outputs.map (fun o => { o with id := lastHash o.id }) }

/-- `1490-1622`: the `outputEval` of an output; `clt` is the tool that is read, `plainOut` tells whether all entries of
`step.out` are texts.  `rename_step_source` is applied to sources without `/` and to outputs that lead to `etoolId/result` or
`stepId/name`; it changes nothing unless such a text is `stepId/outId` with its first part removed, which is not modelled.
The requirement SubworkflowFeatureRequirement that the workflow gets is not modelled either. -/
def evalOne (env : TEnv) (skip1 plainOut : Bool) (stepId : String) (cond : Option String) (clt : CTool) (o : TOut) (st : TSt) :
    Except Err TSt :=
  if textTruthy o.outputEval then match env.G (o.outputEval.getD "") (evalSelf o.loadContents) with
    | .error e => .error e
    | .ok r => match found r with
      | none => .ok st
      | some e =>
        let outId := lastHash o.id
        let etoolId := "expression_" ++ outId ++ "_outputEval"
        if st.ins.any (fun i => i.source.isNone) then .error .attribute
        else if !plainOut then .error .attribute
        else
          let lib := match env.wlib with
            | some l => l
            | none => match env.slib with
              | some l => l
              | none => (libReq (clt.requirements.getD [])).getD none
          let eval : TGen := ⟨etoolId,
            (st.ins.map innerIn).filter (fun i => !hidden i.id) ++ [⟨"self", some (.one (stepId ++ "/" ++ outId)), none, none, none, none⟩],
            ("self", none) :: etoolParams clt.inputs, etoolText (some "self".toList) e,
            if env.replace then env.wlib.getD none else lib⟩
          let w : SubWf := ⟨etoolParams clt.inputs, wfOutputs (runOutputs st) stepId etoolId outId, stepId, st.ins.map innerIn, cond, eval⟩
          .ok { st with
            modified := true
            wraps := st.wraps ++ [w]
            tool := if st.wraps.isEmpty then shortTool (plainOutput outId (removeJs skip1 st.tool)) else st.tool }
  else .ok st

/-- `1466-1622`: the loop over the outputs. -/
def outputLoop (env : TEnv) (skip1 skip2 plainOut : Bool) (stepId : String) (cond : Option String) (clt : CTool) :
    List TOut → TSt → Except Err TSt
  | [], st => .ok st
  | o :: os, st => match globOne env stepId o st with
    | .error e => .error e
    | .ok st => match (if skip2 then .ok st else evalOne env skip1 plainOut stepId cond clt o st) with
      | .error e => .error e
      | .ok st => outputLoop env skip1 skip2 plainOut stepId cond clt os st

/-- `src/cwl_utils/cwl_v1_2_expression_refactor.py:1343-1623`: `traverse_CommandLineTool` for the step with the given id,
condition and inputs, whose `run` is the tool `target` and whose tool was `clt` before. -/
def convertTool (env : TEnv) (skip1 skip2 plainOut : Bool) (id : String) (cond : Option String) (ins : List SIn) (clt target : CTool) :
    Except Err TSt :=
  let st : TSt := ⟨target, ins, [], [], false⟩
  if id = "" then .ok st
  else
    let stepId := lastHash id
    match (if skip1 then .ok st else argLoop env stepId 0 (clt.arguments.getD []) st) with
    | .error e => .error e
    | .ok st => match streamOne env stepId "stdout" clt.stdout (fun v t => { t with stdout := some v }) st with
      | .error e => .error e
      | .ok st => match streamOne env stepId "stderr" clt.stderr (fun v t => { t with stderr := some v }) st with
        | .error e => .error e
        | .ok st => match (if skip1 then .ok st else inputLoop env stepId clt.inputs st) with
          | .error e => .error e
          | .ok st => outputLoop env skip1 skip2 plainOut stepId cond clt clt.outputs st

end CwlUtils.Refactor
