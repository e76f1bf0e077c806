import Verif.Types.Sources
/-!
# The static checker
-/
namespace CwlUtils.Checker
open CwlUtils.Types

/-- The `source` field of a step input or the `outputSource` field of a workflow output. -/
inductive Source where
  | none
  | one (s : String)
  | many (l : List String)
  deriving DecidableEq

/-- A sink: a step input or a workflow output.  For a workflow output `valueFrom` and `hasDefault` are false
(the class has no such field); `pickValue` exists in v1.2 only. -/
structure Sink where
  id : String
  source : Source
  linkMerge : Option String
  pickValue : Option String
  valueFrom : Bool
  hasDefault : Bool
  deriving DecidableEq

/-- The `message` of a finding. -/
inductive Msg where
  | none
  /-- "pickValue is ..." -/
  | pickValue
  /-- "Source is from conditional step, but pickValue is not used" -/
  | conditionalNoPick
  /-- "pickValue is used but only a single input source is declared" -/
  | pickSingle
  /-- "Source is from conditional step and may produce `null`" -/
  | mayBeNull
  deriving DecidableEq

/-- `SrcSink` (`cwl_v1_0_utils.py:26`), with the identifiers of the objects. -/
structure Finding where
  src : String
  sink : String
  linkMerge : Option String
  message : Msg
  deriving DecidableEq

/-- The dict `{"warning": [...], "exception": [...]}`. -/
structure Report where
  warnings : List Finding
  exceptions : List Finding
  deriving DecidableEq

/-- The loop over the sources of one sink, `cwl_v1_0_utils.py:144-153` and `cwl_v1_2_utils.py:232-243`.
`sinkType` is the outcome of looking up the type of the sink. -/
def checkLinks (short : String → String) (types : Dict Ty) (sinkType : Option Ty) (sink : Sink) (lm : Option String) (msg : Msg) :
    List String → Report → Except Err Report
  | [], r => .ok r
  | s :: ss, r =>
    match types.get? s, sinkType with
    | some ts, some tk =>
      match checkTypes short ts tk lm sink.valueFrom with
      | .error e => .error e
      | .ok .pass => checkLinks short types sinkType sink lm msg ss r
      | .ok .warning => checkLinks short types sinkType sink lm msg ss { r with warnings := r.warnings ++ [⟨s, sink.id, lm, msg⟩] }
      | .ok .exception => checkLinks short types sinkType sink lm msg ss { r with exceptions := r.exceptions ++ [⟨s, sink.id, lm, msg⟩] }
    | _, _ => .error .key

/-- `sink.linkMerge or ("merge_nested" if len(sourceField) > 1 else None)` -/
def listMerge (sink : Sink) (l : List String) : Option String :=
  match sink.linkMerge with
  | some m => some m
  | none => if l.length > 1 then some "merge_nested" else none

/-- One sink of `cwl_v1_0_utils.py:120-153` (v1.1: `186-219`). -/
def checkSink10 (short : String → String) (srcs : List String) (types : Dict Ty) (sink : Sink) (r : Report) : Except Err Report :=
  match sink.source with
  | .none => .ok r
  | .many l => if ∀ s ∈ l, s ∈ srcs then checkLinks short types (types.get? sink.id) sink (listMerge sink l) .none l r
      else .error .key
  | .one s => if s ∈ srcs then checkLinks short types (types.get? sink.id) sink none .none [s] r
      else .error .validation

/-- `src/cwl_utils/parser/cwl_v1_0_utils.py:113-154` and `cwl_v1_1_utils.py:179-220`: `check_all_types`.  `srcs` are the
keys of `src_dict` (each maps to the parameter with that identifier). -/
def checkAll10 (short : String → String) (srcs : List String) (types : Dict Ty) : List Sink → Report → Except Err Report
  | [], r => .ok r
  | k :: ks, r => match checkSink10 short srcs types k r with
    | .error e => .error e
    | .ok r' => checkAll10 short srcs types ks r'

/-- `aslist(t)` -/
def asListTy : Ty → List Ty
  | .union l => l
  | t => [t]

/-- `src_typ = aslist(t); if "null" not in src_typ: src_typ = ["null"] + src_typ` -/
def addNull (t : Ty) : Ty :=
  if tNull ∈ asListTy t then .union (asListTy t) else .union (tNull :: asListTy t)

/-- `isinstance(t, MutableSequence) and "null" in t` -/
def hasNull : Ty → Bool
  | .union l => decide (tNull ∈ l)
  | _ => false

/-- What `param_to_step` says about the step a parameter belongs to: whether it is conditional
(`cwl_v1_2_utils.py:64-70`) and whether it is a loop with outputMethod "all" (`54-61`). -/
structure Marks where
  cond : String → Bool
  loopAll : String → Bool

/-- `cwl_v1_2_utils.py:164-186`, the body of the loop over several sources: the new types and the new warnings. -/
def touchMany (m : Marks) (types : Dict Ty) (sinkType : Ty) (sink : Sink) (lm : Option String) (s : String) :
    Except Err (Dict Ty × List Finding) :=
  match types.get? s with
  | none => if (m.cond s && sink.pickValue.isNone) || m.loopAll s then .error .key else .ok (types, [])
  | some t =>
    let c := m.cond s && sink.pickValue.isNone
    let t1 := if c then addNull t else t
    let types1 := if c then types.set s t1 else types
    let w := if c && !hasNull sinkType then [⟨s, sink.id, lm, .conditionalNoPick⟩] else []
    .ok (if m.loopAll s then types1.set s (.array 0 t1) else types1, w)

/-- `cwl_v1_2_utils.py:163-191`: the loop. -/
def touchAll (m : Marks) (srcs : List String) (sinkType : Ty) (sink : Sink) (lm : Option String) :
    List String → Dict Ty → List Finding → Except Err (Dict Ty × List Finding)
  | [], types, w => .ok (types, w)
  | s :: ss, types, w =>
    if s ∈ srcs then
      match touchMany m types sinkType sink lm s with
      | .error e => .error e
      | .ok (types', w') => touchAll m srcs sinkType sink lm ss types' (w ++ w')
    else .error .key

/-- `cwl_v1_2_utils.py:203-231`: a single source. -/
def touchOne (m : Marks) (types : Dict Ty) (sinkType : Ty) (sink : Sink) (s : String) : Except Err (Dict Ty × List Finding) :=
  let w0 : List Finding := if sink.pickValue.isSome then [⟨s, sink.id, none, .pickSingle⟩] else []
  match types.get? s with
  | none => if m.cond s || m.loopAll s then .error .key else .ok (types, w0)
  | some t =>
    let t1 := if m.cond s then addNull t else t
    let types1 := if m.cond s then types.set s t1 else types
    let w := if m.cond s && !hasNull sinkType then [⟨s, sink.id, none, .mayBeNull⟩] else []
    .ok (if m.loopAll s then types1.set s (.array 0 t1) else types1, w0 ++ w)

/-- `cwl_v1_2_utils.py:155-161`: the merge method used for a list of several sources. -/
def listMerge12 (sink : Sink) (l : List String) : Option String :=
  if sink.pickValue = some "first_non_null" ∨ sink.pickValue = some "the_only_non_null" then none else listMerge sink l

/-- One single source, `cwl_v1_2_utils.py:192-243`. -/
def checkOne12 (short : String → String) (m : Marks) (srcs : List String) (types : Dict Ty) (tk : Ty) (sink : Sink) (msg : Msg)
    (s : String) (r : Report) : Except Err (Dict Ty × Report) :=
  if s ∈ srcs then
    match touchOne m types tk sink s with
    | .error e => .error e
    | .ok (types', w) =>
      match checkLinks short types' (some tk) sink none msg [s] { r with warnings := r.warnings ++ w } with
      | .error e => .error e
      | .ok r' => .ok (types', r')
  else .error .validation

/-- One sink of `cwl_v1_2_utils.py:141-243`; the new types and report. -/
def checkSink12 (short : String → String) (m : Marks) (srcs : List String) (types : Dict Ty) (sink : Sink) (r : Report) :
    Except Err (Dict Ty × Report) :=
  match types.get? sink.id with
  | none => .error .key
  | some tk =>
    let msg := if sink.pickValue.isSome then Msg.pickValue else Msg.none
    match sink.source with
    | .none => .ok (types, r)
    | .one s => checkOne12 short m srcs types tk sink msg s r
    | .many [] => .error .index
    | .many [s] => checkOne12 short m srcs types tk sink msg s r
    | .many l =>
      match touchAll m srcs tk sink (listMerge12 sink l) l types [] with
      | .error e => .error e
      | .ok (types', w) =>
        match checkLinks short types' (some tk) sink (listMerge12 sink l) msg l { r with warnings := r.warnings ++ w } with
        | .error e => .error e
        | .ok r' => .ok (types', r')

/-- `src/cwl_utils/parser/cwl_v1_2_utils.py:133-244`: `check_all_types`; the code changes `type_dict` in place. -/
def checkAll12 (short : String → String) (m : Marks) (srcs : List String) : List Sink → Dict Ty → Report → Except Err (Dict Ty × Report)
  | [], types, r => .ok (types, r)
  | k :: ks, types, r => match checkSink12 short m srcs types k r with
    | .error e => .error e
    | .ok (types', r') => checkAll12 short m srcs ks types' r'

/-! ## The whole checker -/

/-- A step of a workflow as the static checker sees it: the step, its inputs, whether it has `when` and whether it has a
`Loop` requirement with outputMethod "all".  `in_` and `out` are lists (the code skips them if None). -/
structure WStep where
  step : Step
  inputs : List Sink
  conditional : Bool
  loopAll : Bool

/-- A workflow. -/
structure Workflow where
  version : String
  inputs : List Param
  outputs : List (Sink × Ty)
  steps : List WStep

/-- The types of the inputs of a step, `utils.py:356-365`. -/
def inputTypes (s : WStep) : List Sink → Except Err (Dict Ty)
  | [] => .ok []
  | k :: ks => match typeForStepInput s.step k.id k.valueFrom with
    | .error e => .error e
    | .ok t => match inputTypes s ks with
      | .error e => .error e
      | .ok d => .ok ((k.id, t) :: d)

/-- The types of the outputs of a step, `utils.py:387-392`. -/
def outputTypes (s : WStep) : List String → Except Err (Dict Ty)
  | [] => .ok []
  | o :: os => match typeForStepOutput s.step o with
    | .error e => .error e
    | .ok t => match outputTypes s os with
      | .error e => .error e
      | .ok d => .ok ((o, t) :: d)

/-- `utils.py:354-392`: the loop over the steps, for the types. -/
def stepTypes : List WStep → Dict Ty → Except Err (Dict Ty)
  | [], d => .ok d
  | s :: ss, d => match inputTypes s s.inputs with
    | .error e => .error e
    | .ok di => match outputTypes s s.step.out with
      | .error e => .error e
      | .ok dO => stepTypes ss ((d.update di).update dO)

/-- `utils.py:393-401`: the complete types. -/
def allTypes (w : Workflow) : Except Err (Dict Ty) :=
  match stepTypes w.steps [] with
  | .error e => .error e
  | .ok d => .ok ((d.update (w.inputs.map (fun p => (p.id, p.type)))).update (w.outputs.map (fun p => (p.1.id, p.2))))

/-- `utils.py:393-396`: the keys of `src_dict`. -/
def sourceIds (w : Workflow) : List String := w.inputs.map (·.id) ++ w.steps.flatMap (·.step.out)

/-- `param_to_step`: the last step that has the parameter. -/
def stepOf (w : Workflow) (p : String) : Option WStep :=
  w.steps.reverse.find? (fun s => p ∈ s.inputs.map (·.id) ∨ p ∈ s.step.out)

/-- The marks of the steps. -/
def marks (w : Workflow) : Marks :=
  ⟨fun p => match stepOf w p with | some s => s.conditional | none => false,
   fun p => match stepOf w p with | some s => s.loopAll | none => false⟩

/-- `utils.py:502-510`: a required step input without a value. -/
def missingValue (types : Dict Ty) (k : Sink) : Bool :=
  match types.get? k.id with
  | some t => decide (t ≠ tNull) && !hasNull t && decide (k.source = .none) && !k.hasDefault && !k.valueFrom
  | none => false

/-- What `static_checker` does: it ends in an exception of its own making (`crash`), it logs the warnings and returns, or it
logs the warnings and raises ValidationException with a message for each exception and each missing value. -/
inductive Outcome where
  | crash (e : Err)
  | accepted (warnings : List Finding)
  | rejected (warnings exceptions : List Finding) (missing : List String)
  deriving DecidableEq

/-- The two calls of `check_all_types`, `utils.py:404-430`. -/
def checkBoth (short : String → String) (w : Workflow) (types : Dict Ty) : Except Err (Dict Ty × Report × Report) :=
  let sinks := w.steps.flatMap (·.inputs)
  let outs := w.outputs.map (·.1)
  let srcs := sourceIds w
  if w.version = "v1.0" ∨ w.version = "v1.1" then
    match checkAll10 short srcs types sinks ⟨[], []⟩ with
    | .error e => .error e
    | .ok r => match checkAll10 short srcs types outs ⟨[], []⟩ with
      | .error e => .error e
      | .ok r' => .ok (types, r, r')
  else
    match checkAll12 short (marks w) srcs sinks types ⟨[], []⟩ with
    | .error e => .error e
    | .ok (types', r) => match checkAll12 short (marks w) srcs outs types' ⟨[], []⟩ with
      | .error e => .error e
      | .ok (types'', r') => .ok (types'', r, r')

/-- `src/cwl_utils/parser/utils.py:348-520`: `static_checker`.  The texts of the messages are left out.  For an
unknown version nothing is looked up before the first `raise Exception`. -/
def staticChecker (short : String → String) (w : Workflow) : Outcome :=
  if w.version ≠ "v1.0" ∧ w.version ≠ "v1.1" ∧ w.version ≠ "v1.2" then .crash .generic
  else match allTypes w with
  | .error e => .crash e
  | .ok types => match checkBoth short w types with
    | .error e => .crash e
    | .ok (types', r, r') =>
      let ws := r.warnings ++ r'.warnings
      let es := r.exceptions ++ r'.exceptions
      if es ≠ [] then .rejected ws es (((w.steps.flatMap (·.inputs)).filter (missingValue types')).map (·.id))
      else .accepted ws

end CwlUtils.Checker
