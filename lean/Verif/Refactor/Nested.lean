import Verif.Refactor.Model

/-!
# `expression_refactor`: which processes of a document are reached

Model of `traverse` (`src/cwl_utils/cwl_v1_2_expression_refactor.py:231-309`), `traverse_workflow` (`2210-2249`), the last part of
`traverse_step` (`1990-2011`) and `load_step` (`src/cwl_utils/expression_refactor.py:496-554`) on documents as trees of processes:
what is inside a process is modelled elsewhere and is a parameter here.
-/

namespace CwlUtils.Refactor.Nested

/-- A process: CommandLineTool, the same after its conversion, the CommandLineTool made from an ExpressionTool, ExpressionTool,
Operation, Workflow (with the id and the process of each step); or, as the process of a step, the URI of a file. -/
inductive Tree where
  | tool (n : String)
  | done (n : String)
  | script (n : String)
  | etool (n : String)
  | oper (n : String)
  | wf (n : String) (steps : List (String × Tree))
  | link (uri : String)

/-- The environment: `load` is `load_document_by_uri` (the version and the process), `replace` is `replace_etool`, `tools` tells for
which tools the conversion of a step (`traverse_step`) changes something, and `flows` the same for the inputs, outputs, requirements
and conditions of a workflow and its steps. -/
structure Env where
  load : String → Except Err (String × Tree)
  replace : Bool
  tools : String → Bool
  flows : String → Bool

/-- The outcome: the process and `modified`; `none` if the number of calls did not suffice. -/
abbrev Result := Option (Except Err (Tree × Bool))

/-- `src/cwl_utils/expression_refactor.py:503-553`: the versions for which there is a `traverse`. -/
def known (v : String) : Bool := v = "v1.0" ∨ v = "v1.1" ∨ v = "v1.2"

/-- `src/cwl_utils/cwl_v1_2_expression_refactor.py:2217-2226` with `load_step`: the process of a step in the first loop; `go` is
`traverse` with `inside`. -/
def enter (E : Env) (go : Tree → Result) : Tree → Result
  | .etool m => some (.ok (if E.replace then (.script m, true) else (.etool m, false)))
  | .link u => match E.load u with
    | .error e => some (.error e)
    | .ok (v, p) => if known v then go p else some (.error .workflow)
  | t => some (.ok (t, false))

/-- `2227-2234` with `1999-2010`: the process of a step in the second loop: a CommandLineTool is converted; a step whose id starts
with `_expression` is left out. -/
def visit (E : Env) (id : String) : Tree → Tree × Bool
  | .tool m => if "_expression".toList.isPrefixOf id.toList then (.tool m, false)
    else if E.tools m then (.done m, true) else (.tool m, false)
  | t => (t, false)

/-- The steps of a workflow: both loops. -/
def eachStep (E : Env) (go : Tree → Result) : List (String × Tree) → Option (Except Err (List (String × Tree) × Bool))
  | [] => some (.ok ([], false))
  | (id, t) :: rest => match enter E go t with
    | none => none
    | some (.error e) => some (.error e)
    | some (.ok (t1, m1)) => match eachStep E go rest with
      | none => none
      | some (.error e) => some (.error e)
      | some (.ok (rest', m)) => some (.ok ((id, (visit E id t1).1) :: rest', m1 || (visit E id t1).2 || m))

/-- `231-309`: `traverse`; for a CommandLineTool that is no process of a step a workflow is made around it.  The number bounds the depth of the calls. -/
def traverse (E : Env) : Nat → Bool → Tree → Result
  | 0, _, _ => none
  | n + 1, inside, t => match t with
    | .tool m =>
      if inside then some (.ok (.tool m, false))
      else if E.tools m then some (.ok (.wf m [("#main", .done m)], true)) else some (.ok (.tool m, false))
    | .etool m => some (.ok (if E.replace then (.script m, true) else (.etool m, false)))
    | .wf m steps => match eachStep E (traverse E n true) steps with
      | none => none
      | some (.error e) => some (.error e)
      | some (.ok (steps', b)) => some (.ok (.wf m steps', E.flows m || b))
    | t => some (.ok (t, false))

end CwlUtils.Refactor.Nested
