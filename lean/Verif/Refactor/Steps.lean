import Verif.Refactor.WfReqs
/-!
# Expression refactoring: `valueFrom` and `when` of a step

`src/cwl_utils/cwl_v1_2_expression_refactor.py:1864-2207`: the part of `traverse_step` on the step itself,
`workflow_step_to_WorkflowInputParameters`, `replace_step_valueFrom_expr_with_etool` and
`replace_step_when_expr_with_etool`.

Environment: `G t self` is `get_expression(t, inputs, self)` with the mock inputs of the step, `S i` is the mock value of
`self` for a step input (from `type_for_source` and `example_input`), `T id` tells whether `get_input_for_id` finds the
input in the process, `P s` is the outcome of `param_for_source_id` for a source, `Q s` that of `type_for_source`.
-/
namespace CwlUtils.Refactor
open CwlUtils.Expr

/-- `s.split("/")[-1]` -/
def lastSlash (s : String) : String := String.ofList (s.toList.reverse.takeWhile (· ≠ '/')).reverse

/-- A WorkflowStepInput.  (`loadContents`, `loadListing` and `label` are not modelled.) -/
structure SIn where
  id : String
  source : Option Src
  linkMerge : Option String
  pickValue : Option String
  dflt : Option Val
  valueFrom : Option String
  deriving DecidableEq

/-- A WorkflowStep, as far as it is read or written here. -/
structure VStep where
  id : String
  ins : List SIn
  scatter : Option Src
  cond : Option String
  deriving DecidableEq

/-- A generated step: its inputs, the names of the inputs of its ExpressionTool, the expression, and `scatter`.  Its only
output is `result`.  (With `replace_etool` the tool is then converted; see `Etool.lean`.) -/
structure GStep where
  id : String
  ins : List SIn
  params : List String
  code : Str
  scatter : Option (List String)
  deriving DecidableEq

/-- The environment. -/
structure SEnv where
  G : String → Val → Except Err (Option Str)
  S : SIn → Except Err Val
  T : String → Bool
  P : Src → Except Err Unit
  Q : String → Except Err Unit

/-- `if source:` -/
def srcTruthy : Option Src → Bool
  | none => false
  | some (.one s) => s ≠ ""
  | some (.many l) => !l.isEmpty

/-- `if text:` for an optional text. -/
def textTruthy : Option String → Bool
  | none => false
  | some s => s ≠ ""

/-- `source.split("#")[-1]` for a source or each of a list. -/
def shortSrc : Option Src → Option Src
  | none => none
  | some (.one s) => some (.one (lastHash s))
  | some (.many l) => some (.many (l.map lastHash))

/-- `cwl_v1_2_expression_refactor.py:2014-2042`: `workflow_step_to_WorkflowInputParameters`, the names of the parameters.
(A list of sources gives several parameters of the same name; one stands for them.  Their types are not modelled.) -/
def paramIds (P : Src → Except Err Unit) (except : String) : List SIn → Except Err (List String)
  | [] => .ok []
  | i :: is =>
    if i.id = "" then paramIds P except is
    else
      let n := lastSlash (lastHash i.id)
      match i.source with
      | none => paramIds P except is
      | some s =>
        if srcTruthy (some s) ∧ n ≠ except then
          match P s with
          | .error e => .error e
          | .ok () => match paramIds P except is with
            | .error e => .error e
            | .ok ns => .ok (n :: ns)
        else paramIds P except is

/-- `2099-2110`: the changes of one input of a generated step for a `valueFrom`. -/
def plainIn (i : SIn) : SIn :=
  if i.id = "" then i
  else { i with
    id := lastSlash i.id
    valueFrom := if textTruthy i.valueFrom then none else i.valueFrom
    source := if srcTruthy i.source then shortSrc i.source else i.source }

/-- `2096-2115`: the inputs of a generated step for the `valueFrom` of the input `inp`, whose short name is `n`. -/
def vfIns (orig : List SIn) (inp : SIn) (n : String) : List SIn :=
  ((orig ++ (if srcTruthy inp.source then [(⟨"self", inp.source, none, none, none, none⟩ : SIn)] else [])).map plainIn).filter
    (fun x => x.id ≠ "" ∧ ¬ ("_".toList.isPrefixOf x.id.toList ∨ n.toList.isSuffixOf x.id.toList))

/-- `2116-2126`: the scatter of a generated step for a `valueFrom`. -/
def vfScatter (scatter : Option Src) (n : String) : Option (List String) :=
  let l := match scatter with
    | none => []
    | some (.one s) => [lastSlash s]
    | some (.many l) => l.map lastSlash
  if n ∈ l then some ["self"] else none

/-- `src/cwl_utils/cwl_v1_2_expression_refactor.py:2045-2136`: `replace_step_valueFrom_expr_with_etool`: the step that is
appended to the workflow. -/
def vfStep (P : Src → Except Err Unit) (expr : Str) (name : String) (scatter : Option Src) (inp : SIn) (orig : List SIn) :
    Except Err GStep :=
  if inp.id = "" then .error .workflow
  else
    let n := lastSlash inp.id
    match paramIds P n orig with
    | .error e => .error e
    | .ok ps => .ok ⟨name, vfIns orig inp n, ps ++ (if srcTruthy inp.source then ["self"] else []),
        etoolText (if srcTruthy inp.source then some "self".toList else none) expr, vfScatter scatter n⟩

/-- `1926-1941`: the calls of `type_for_source` for the sources of an input (only for a list). -/
def checkSources (Q : String → Except Err Unit) : Option Src → Except Err Unit
  | some (.many l) => match mapE (fun s => Q (lastHash s)) l with
    | .error e => .error e
    | .ok _ => .ok ()
  | _ => .ok ()

/-- The name of the generated step of an input (`1918`). -/
def vfName (stepId : String) (i : SIn) : String := "_expression_" ++ lastHash stepId ++ "_" ++ lastSlash i.id

/-- `1879-1980`: the body of the loop over the inputs of a step: the input after it, and the generated step if there is
one.  (For a step that holds an ExpressionTool a missing InlineJavascriptRequirement is added to it, `1945-1966`; not
modelled.) -/
def vfOne (env : SEnv) (st : VStep) (i : SIn) : Except Err (SIn × Option GStep) :=
  if textTruthy i.valueFrom then
    match (if srcTruthy i.source then env.S i else .ok .null) with
    | .error e => .error e
    | .ok self => match env.G (i.valueFrom.getD "") self with
      | .error e => .error e
      | .ok r => match found r with
        | none => .ok (i, none)
        | some expr =>
          if env.T i.id then
            match (if srcTruthy i.source then checkSources env.Q i.source else .ok ()) with
            | .error e => .error e
            | .ok () => match vfStep env.P expr (vfName st.id i) st.scatter i st.ins with
              | .error e => .error e
              | .ok g => .ok ({ i with valueFrom := none, source := some (.one (vfName st.id i ++ "/result")) }, some g)
          else .error .workflow
  else .ok (i, none)

/-- The changes of one input of a generated step for `when` (`2178-2187`). -/
def whenIn (i : SIn) : SIn :=
  if i.id = "" then i
  else { i with id := lastSlash i.id, source := if srcTruthy i.source then shortSrc i.source else i.source }

/-- The inputs of a generated step for `when` (`2177-2188`). -/
def whenIns (orig : List SIn) : List SIn :=
  (orig.map whenIn).filter (fun x => x.id ≠ "" ∧ ¬ "_".toList.isPrefixOf x.id.toList)

/-- The name of the generated step for `when` (`2149`). -/
def whenName (stepId : String) : String := "_when_expression_" ++ lastHash stepId

/-- `step.scatter` as it is given to the generated step (`2189-2195`: the shortened copy is overwritten). -/
def whenScatter : Option Src → Option (List String)
  | none => none
  | some (.one s) => some [s]
  | some (.many l) => some l

/-- `src/cwl_utils/cwl_v1_2_expression_refactor.py:2139-2207`: `replace_step_when_expr_with_etool`: the generated step. -/
def whenStep (P : Src → Except Err Unit) (expr : Str) (st : VStep) : Except Err GStep :=
  match paramIds P "" st.ins with
  | .error e => .error e
  | .ok ps => .ok ⟨whenName st.id, whenIns st.ins, ps, etoolText none expr, whenScatter st.scatter⟩

/-- `1981-1987`: `when`: the condition and the inputs of the step after it, and the generated step. -/
def whenOne (env : SEnv) (st : VStep) (ins : List SIn) : Except Err (VStep × Option GStep) :=
  if textTruthy st.cond then
    match env.G (st.cond.getD "") .null with
    | .error e => .error e
    | .ok r => match found r with
      | none => .ok ({ st with ins := ins }, none)
      | some expr => match whenStep env.P expr st with
        | .error e => .error e
        | .ok g => .ok ({ st with
            ins := ins ++ [⟨"_when", some (.one (whenName st.id ++ "/result")), none, none, none, none⟩]
            cond := some "$(inputs._when)" }, some g)
  else .ok ({ st with ins := ins }, none)

/-- `src/cwl_utils/cwl_v1_2_expression_refactor.py:1872-1987`: the part of `traverse_step` on the inputs and the condition:
the step after it, the steps appended to the workflow, and whether something was modified. -/
def convertStep (env : SEnv) (st : VStep) : Except Err (VStep × List GStep × Bool) :=
  if st.id = "" then .ok (st, [], false)
  else match mapE (vfOne env st) st.ins with
    | .error e => .error e
    | .ok rs => match whenOne env st (rs.map (·.1)) with
      | .error e => .error e
      | .ok (st', g) =>
        let gens := rs.filterMap (·.2) ++ g.toList
        .ok (st', gens, !gens.isEmpty)

end CwlUtils.Refactor
