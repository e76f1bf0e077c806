import Verif.Refactor.Steps
/-!
# Expression refactoring: the steps of a whole workflow

`src/cwl_utils/cwl_v1_2_expression_refactor.py:2210-2249`: the loop of `traverse_workflow` over `workflow.steps`.  The loop
runs over the list itself while `traverse_step` appends to it (`2128-2136`, `2199-2207`), so that generated steps are
visited as well.
-/
namespace CwlUtils.Refactor
open CwlUtils.Expr

/-- `step.run`: the process of the document, of which only the names of the inputs and outputs are read, or a generated
ExpressionTool. -/
inductive RunOf where
  | own (params outs : List String)
  | tool (params : List String) (code : Str)
  deriving DecidableEq

/-- A step of a workflow together with its process. -/
structure FStep where
  step : VStep
  proc : RunOf
  deriving DecidableEq

/-- The `scatter` of a generated step as a field of a step. -/
def genScatter : Option (List String) → Option Src
  | none => none
  | some l => some (.many l)

/-- `2128-2136`, `2199-2207`: a generated step as it is appended to `workflow.steps`: it has no `when`. -/
def ofGen (g : GStep) : FStep := ⟨⟨g.id, g.ins, genScatter g.scatter, none⟩, .tool g.params g.code⟩

/-- The names of the inputs of a process. -/
def RunOf.params : RunOf → List String
  | .own ps _ => ps
  | .tool ps _ => ps

/-- `src/cwl_utils/expression_refactor.py:474-493`: `get_input_for_id` finds an input of the process: the last parts of the
names are compared.  (The search among the steps of a workflow, `486-492`, needs a slash in the last part of a name split at
slashes and is never done.) -/
def findsInput (p : RunOf) (id : String) : Bool := p.params.any (fun q => q ≠ "" ∧ lastSlash (lastHash q) = lastSlash id)

/-- `2228`: `step.id.startswith("_expression")` -/
def skipped (s : FStep) : Bool := "_expression".toList.isPrefixOf s.step.id.toList

/-- `src/cwl_utils/cwl_v1_2_expression_refactor.py:2227-2234`: the loop over the steps: those that were visited, those that
were not, and `modified`; the outcome is the list at the end, or the exception.  `E` gives the environment of `traverse_step` (which
reads the whole workflow) for each state of the list and step.  The number bounds the visits: `none` means that it did not
suffice.  (`process_level_reqs` and `traverse_CommandLineTool`, `1990-2011`, are modelled in `ToolReqs.lean` and
`ToolExprs.lean`; they are left out here.) -/
def sweep (E : List FStep → FStep → SEnv) : Nat → List FStep → List FStep → Bool → Option (Except Err (List FStep × Bool))
  | _, done, [], m => some (.ok (done, m))
  | 0, _, _ :: _, _ => none
  | n + 1, done, s :: todo, m =>
    if skipped s then sweep E n (done ++ [s]) todo m
    else match convertStep (E (done ++ s :: todo) s) s.step with
      | .error e => some (.error e)
      | .ok (st, gens, m') => sweep E n (done ++ [⟨st, s.proc⟩]) (todo ++ gens.map ofGen) (m || m')

/-- The loop over the steps of a workflow, without a bound (`TraverseProps.lean`: it always ends). -/
def Traverses (E : List FStep → FStep → SEnv) (W : List FStep) (r : Except Err (List FStep × Bool)) : Prop :=
  ∃ n, sweep E n [] W false = some r

end CwlUtils.Refactor
