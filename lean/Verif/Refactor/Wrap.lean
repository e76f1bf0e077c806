import Verif.Refactor.Traverse
/-!
# Expression refactoring: a whole CommandLineTool

`src/cwl_utils/cwl_v1_2_expression_refactor.py:231-305`: `traverse` puts a CommandLineTool that is a document of its own into a workflow with one step.
-/
namespace CwlUtils.Refactor
open CwlUtils.Expr

/-- An input parameter: `shared` are the fields label, secondaryFiles, streamable, doc, format and the extension fields. -/
structure IPar where
  id : String
  type : Val
  dflt : Option Val
  shared : Dict Val
  deriving DecidableEq

/-- An output parameter. -/
structure OPar where
  id : String
  type : Val
  shared : Dict Val
  deriving DecidableEq

/-- A CommandLineTool: its parameters (their bindings stay with the tool and are part of `rest`, as is everything else). -/
structure WTool where
  ins : List IPar
  outs : List OPar
  version : Option String
  rest : Val
  deriving DecidableEq

/-- An output of a workflow. -/
structure WOPar where
  par : OPar
  source : String
  deriving DecidableEq

/-- The workflow: inputs, outputs, and the only step with its inputs (identifier and source), outputs and process. -/
structure Wrapped where
  ins : List IPar
  outs : List WOPar
  step : String
  stepIns : List (String × String)
  stepOuts : List String
  run : WTool
  version : Option String
  deriving DecidableEq

/-- `cwl_v1_2_expression_refactor.py:243-299`: the workflow around a tool.  (The extension fields that are copied to the inputs of the step as well are not modelled.) -/
def wrapTool (t : WTool) : Wrapped where
  ins := t.ins.map (fun p => { p with id := lastHash p.id })
  outs := t.outs.map (fun p => ⟨{ p with id := lastHash p.id }, "main/" ++ lastHash p.id⟩)
  step := "#main"
  stepIns := t.ins.map (fun p => (lastHash p.id, lastHash p.id))
  stepOuts := t.outs.map (fun p => lastHash p.id)
  run := t
  version := t.version

/-- `cwl_v1_2_expression_refactor.py:239-305`: what `traverse` gives for a tool that is a document: `expand` is `expand_stream_shortcuts`, `conv` is
`traverse_workflow`. -/
def traverseTool {α : Type} (expand : WTool → Except Err WTool) (conv : Wrapped → Except Err (α × Bool)) (t : WTool) : Except Err ((WTool ⊕ α) × Bool) :=
  match expand t with
  | .error e => .error e
  | .ok t' => match conv (wrapTool t') with
    | .error e => .error e
    | .ok (w, m) => .ok (if m then (.inr w, true) else (.inl t', false))

end CwlUtils.Refactor
