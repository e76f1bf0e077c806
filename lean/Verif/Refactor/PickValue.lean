import Verif.Refactor.Steps
import Verif.Types.Sources
/-!
# Expression refactoring: inputs and outputs of a workflow

`src/cwl_utils/cwl_v1_2_expression_refactor.py:587-745`: the programs for `pickValue`, and `process_workflow_inputs_and_outputs`
(with `replace_expr_with_etool`, 420-462).  CWL v1.0 and v1.1 have no `pickValue`.
-/
namespace CwlUtils.Refactor
open CwlUtils.Expr CwlUtils.Types

/-! ## The programs -/

/-- `cwl_v1_2_expression_refactor.py:587-595`: `PICKVALUE_FIRST_NON_NULL_EXPR` -/
def firstText : Str := "${
for (let i = 0; i < self.length; i++) {
  if (self[i] !== null){
    return self[i];
  }
}
throw 'pickValue=first_non_null, but no non-null value found: ' + self;
}
".toList

/-- `cwl_v1_2_expression_refactor.py:597-613`: `PICKVALUE_THE_ONLY_NON_NULL_EXPR` -/
def onlyText : Str := "${
var found = null;
self.forEach(function(item) {
  if (item !== null) {
    if (found !== null) {
      throw 'pickValue=the_only_non_null, but multiple non-null values found: ' + self;
    } else {
      found = item;
    }
  }
})
if (found !== null) {
  return found;
}
throw 'pickValue=the_only_non_null, but no non-null value found: ' + self;
}
".toList

/-- `cwl_v1_2_expression_refactor.py:615-624`: `PICKVALUE_ALL_NON_NULL_EXPR` -/
def allText : Str := "${
var results = [];
self.forEach(function(item) {
  if (item !== null){
    results.push(item);
  }
})
return results;
}
".toList

/-! ## Workflow inputs -/

/-- `format` of a parameter: a text, or a list of texts. -/
inductive Fmt where
  | text (s : String)
  | list (l : List String)
  deriving DecidableEq

/-- A SecondaryFileSchema: `pattern`, and the text of `required` if that is an expression. -/
structure Sec where
  pattern : String
  required : Option String
  deriving DecidableEq

/-- `secondaryFiles` of a parameter. -/
inductive Secs where
  | one (s : Sec)
  | many (l : List Sec)
  deriving DecidableEq

/-- A WorkflowInputParameter, as far as it is read here, and the fields of its type if that is a record (which are not read). -/
structure WIn where
  id : String
  format : Option Fmt
  secondary : Option Secs
  fields : List (Option Fmt × Option Secs)
  deriving DecidableEq

/-- `get_expression(text, inputs, self)` on the mock inputs. -/
abbrev Get := String → Val → Except Err (Option Str)

/-- `if get_expression(...)` -/
def isExpr (G : Get) (s : String) (self : Val) : Except Err Bool :=
  match G s self with
  | .error e => .error e
  | .ok r => .ok (found r).isSome

/-- `EMPTY_FILE`, `cwl_v1_2_expression_refactor.py:564-571`. -/
def emptyFile : Val := .obj [("class", .str "File"), ("basename", .str "em.pty"), ("nameroot", .str "em"), ("nameext", .str "pty")]

/-- `cwl_v1_2_expression_refactor.py:665-670`: `param.format and get_expression(param.format, inputs, None)`; for a list the result is None. -/
def fmtExpr (G : Get) : Option Fmt → Except Err Bool
  | some (.text s) => if s = "" then .ok false else isExpr G s .null
  | _ => .ok false

/-- The patterns of a list, in order, up to the first expression (`681-690`). -/
def anyPattern (G : Get) : List Sec → Except Err Bool
  | [] => .ok false
  | s :: ss => match isExpr G s.pattern emptyFile with
    | .error e => .error e
    | .ok true => .ok true
    | .ok false => anyPattern G ss

/-- `cwl_v1_2_expression_refactor.py:671-690` -/
def secExpr (G : Get) : Option Secs → Except Err Bool
  | none => .ok false
  | some (.one s) => isExpr G s.pattern emptyFile
  | some (.many l) => anyPattern G l

/-- `cwl_v1_2_expression_refactor.py:663-690`: one input.  The block is inside of a `with SourceLine(…, WorkflowException)`, which turns every exception
into a WorkflowException. -/
def checkInput (G : Get) (p : WIn) : Except Err Unit :=
  match fmtExpr G p.format with
  | .ok false => match secExpr G p.secondary with
    | .ok false => .ok ()
    | _ => .error .workflow
  | _ => .error .workflow

/-- The loop over the inputs. -/
def checkInputs (G : Get) : List WIn → Except Err Unit
  | [] => .ok ()
  | p :: ps => match checkInput G p with
    | .error e => .error e
    | .ok () => checkInputs G ps

/-! ## Types -/

/-- The object that `type_for_source` returns, by what is shared with the document: the type of a parameter itself, or a new array or list around it
(`cwl_v1_2_utils.py:431-478` without `linkMerge` and `pickValue`). -/
inductive TObj where
  | decl (p : Param)
  | array (items : TObj)
  | list (l : List Ty)

/-- The type that an object stands for. -/
def TObj.ty : TObj → Ty
  | .decl p => p.type
  | .array o => .array 0 o.ty
  | .list l => .union l

/-- `n` new arrays around an object. -/
def wrapObj : Nat → TObj → TObj
  | 0, o => o
  | n + 1, o => .array (wrapObj n o)

/-- `cwl_v1_2_utils.py:433-438, 459-464`: the array levels of an entry of the scatter context. -/
def contextObj (p : Param) : Option (Nat × String) → TObj
  | none => .decl p
  | some (n, m) => if m = "nested_crossproduct" then wrapObj n (.decl p) else .array (.decl p)

/-- `cwl_v1_2_utils.py:447-465`: the alternatives, as in `Types.collect`, as objects. -/
def collectObj (short : String → String) : List (Param × Option (Nat × String)) → List TObj → Except Err (List TObj)
  | [], acc => .ok acc
  | (p, c) :: rest, acc =>
    match anyE (fun t => compareType short t p.type) (acc.map TObj.ty) with
    | .error e => .error e
    | .ok true => collectObj short rest acc
    | .ok false => collectObj short rest (acc ++ [contextObj p c])

/-- `cwl_v1_2_utils.py:419-478`: `type_for_source(workflow, sources)` as an object; `typeObj_ty` relates it to `Types.typeForSource`. -/
def typeObj (short : String → String) (w : Types.Proc) (sources : List String) : Except Err TObj :=
  match paramForSource w none sources with
  | .error e => .error e
  | .ok [(p, c)] => .ok (contextObj p c)
  | .ok l =>
    match collectObj short l [] with
    | .error e => .error e
    | .ok alts =>
      let o := match alts with
        | [o] => o
        | _ => .list (alts.map TObj.ty)
      .ok (if sources.length > 1 then .array o else o)

/-- `"null" in l` -/
def hasNull (l : List Ty) : Bool := decide (Ty.name "null" ∈ l)

/-- A type with `null` as one of the alternatives, if it is not there yet: `l.append("null")` for a list (which is then the same list object, changed), a
new list `["null", t]` for anything else. -/
def orNull : Ty → Ty
  | .union l => if hasNull l then .union l else .union (l ++ [.name "null"])
  | .name s => if s = "null" then .name s else .union [.name "null", .name s]
  | t => .union [.name "null", t]

/-- The list object of a type is changed by `orNull`. -/
def appends : Ty → Bool
  | .union l => !hasNull l
  | _ => false

/-- `cwl_v1_2_expression_refactor.py:717-729`: the type of `self` from the type of the sources. -/
def selfType : Ty → Ty
  | .array m t => .array m (orNull t)
  | t => orNull t

/-- `cwl_v1_2_expression_refactor.py:717-729`: the parameter whose declared type is changed on the way, with its new type: the array object of a
declaration gets new `items`, the list object of a declaration gets an element. -/
def changed : TObj → Option (String × Ty)
  | .decl p => match p.type with
    | .array m t => if orNull t = t then none else some (p.id, .array m (orNull t))
    | t => if appends t then some (p.id, orNull t) else none
  | .array (.decl p) => if appends p.type then some (p.id, orNull p.type) else none
  | _ => none

/-- The declared type of a parameter, changed. -/
def setParam (c : String × Ty) (p : Param) : Param := if p.id = c.1 then { p with type := c.2 } else p

/-- The workflow after the change.  (The processes of the steps are part of the document: `traverse_workflow` has loaded them before.) -/
def setType (c : String × Ty) (w : Types.Proc) : Types.Proc :=
  { w with
    inputs := w.inputs.map (setParam c)
    steps := w.steps.map (fun s => { s with run := s.run.map (fun r => (r.1.map (setParam c), r.2.map (setParam c))) }) }

/-! ## Workflow outputs -/

/-- A WorkflowOutputParameter, as far as it is read or written here. -/
structure WOut where
  id : String
  outputSource : Option Src
  linkMerge : Option String
  pickValue : Option String
  deriving DecidableEq

/-- A generated step: its name, the source and the type of its only input `self`, and the expression of its tool.  Its only output is `result`. -/
structure PStep where
  id : String
  source : Src
  selfTy : Ty
  code : Str

/-- The sources of a field as a list. -/
def srcList : Src → List String
  | .one s => [s]
  | .many l => l

/-- `cwl_v1_2_expression_refactor.py:695-702`: the program of a `pickValue`. -/
def pickText (pv : String) : Except Err Str :=
  if pv = "first_non_null" then .ok firstText
  else if pv = "the_only_non_null" then .ok onlyText
  else if pv = "all_non_null" then .ok allText
  else .error .workflow

/-- The name of a generated step (`705-707`). -/
def pickName (o : WOut) : String := "_pickValue_workflow_step_" ++ lastHash o.id

/-- `712-715`: `sources`. -/
def shortSources : Src → Src
  | .one s => .one (lastHash s)
  | .many l => .many (l.map lastHash)

/-- `cwl_v1_2_expression_refactor.py:692-744`: one output: the output, the generated step and the workflow after it.  All exceptions become
WorkflowExceptions, as above (an `outputSource` of None gives an AttributeError).  The label and the other fields of parameters are not modelled. -/
def convertOutput (short : String → String) (w : Types.Proc) (o : WOut) : Except Err (WOut × Option PStep × Types.Proc) :=
  if textTruthy o.pickValue then
    match pickText (o.pickValue.getD "") with
    | .error _ => .error .workflow
    | .ok expr => match o.outputSource with
      | none => .error .workflow
      | some src => match typeObj short w (srcList (shortSources src)) with
        | .error _ => .error .workflow
        | .ok t =>
          .ok ({ o with outputSource := some (.one (pickName o ++ "/result")), pickValue := none },
            some ⟨pickName o, shortSources src, selfType t.ty, etoolText (some "self".toList) expr⟩,
            match changed t with
            | none => w
            | some c => setType c w)
  else .ok (o, none, w)

/-- The loop over the outputs.  (The generated steps are appended to the steps of the workflow; nothing has a source there, so they are left out of
`w`.) -/
def convertOutputs (short : String → String) (w : Types.Proc) : List WOut → Except Err (List WOut × List PStep × Types.Proc)
  | [] => .ok ([], [], w)
  | o :: os => match convertOutput short w o with
    | .error e => .error e
    | .ok (o', g, w1) => match convertOutputs short w1 os with
      | .error e => .error e
      | .ok (os', gs, w2) => .ok (o' :: os', g.toList ++ gs, w2)

/-- `src/cwl_utils/cwl_v1_2_expression_refactor.py:656-745`: `process_workflow_inputs_and_outputs`: the outputs, the generated steps, the workflow, and
`modified`. -/
def processInOut (G : Get) (short : String → String) (w : Types.Proc) (ins : List WIn) (outs : List WOut) :
    Except Err (List WOut × List PStep × Types.Proc × Bool) :=
  match checkInputs G ins with
  | .error e => .error e
  | .ok () => match convertOutputs short w outs with
    | .error e => .error e
    | .ok (os, gs, w') => .ok (os, gs, w', outs.any (fun o => textTruthy o.pickValue))

end CwlUtils.Refactor
