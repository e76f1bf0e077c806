import Verif.Expr.DoEval
import Verif.Refactor.Model
/-!
# Expression refactoring: from an expression to an ExpressionTool and to a CommandLineTool

`src/cwl_utils/cwl_v1_2_expression_refactor.py`: `get_expression`, the text built by `generate_etool_from_expr` and
`generate_etool_from_expr2`, the script built by `etool_to_cltool`, and its callers.  (The files for v1.0 and v1.1 hold
the same text.)
-/
namespace CwlUtils.Refactor
open CwlUtils.Expr

/-- Python slice `s[2:-2]`. -/
def slice2m2 (s : Str) : Str := (s.take (s.length - 2)).drop 2

/-- `len(s.split("$(")) - 1`: the number of occurrences of `$(` (they cannot overlap). -/
def countOpen : Str → Nat
  | [] => 0
  | [_] => 0
  | a :: b :: s => (if a = '$' ∧ b = '(' then 1 else 0) + countOpen (b :: s)

/-- The options of the call of `interpolate` at `cwl_v1_2_expression_refactor.py:138-149`. -/
def convOpts (W : World) : Opts where
  conv := true
  escaping := 2
  ev := fun _ => .ok .null
  J := W.J
  jsonStr := W.jsonStr

/-- `cwl_v1_2_expression_refactor.py:131-152`: the handler of the failed evaluation. -/
def normalise (W : World) (s : Str) : Except Err (Option Str) :=
  if s.take 2 ≠ "$(".toList ∨ s.getLast? ≠ some ')' ∨ countOpen s + 1 > 2 then
    match interpolate (convOpts W) W.ws true s with
    | .error e => .error e
    | .ok (.str t) => .ok (some t.toList)
    | .ok _ => .ok none
  else .ok (some ("${return ".toList ++ (slice2m1 (strip W.ws s) ++ ";}".toList)))

/-- The arguments of the call of `do_eval` at `cwl_v1_2_expression_refactor.py:122-130` (no requirements, so no
JavaScript; the default version `""`, which has the new escaping rules). -/
def probe (s : String) (inputs : Dict Val) (self : Val) : EvalArgs :=
  ⟨.str s, inputs, [], some "", some "", [], self, true, ""⟩

/-- `src/cwl_utils/cwl_v1_2_expression_refactor.py:100-153`: `get_expression`.  (`interpolate` in conversion mode always
gives a text, so the third case of `normalise` does not occur; the caught classes are WorkflowException and
JavascriptException.) -/
def getExpression (W : World) (string : Val) (inputs : Dict Val) (self : Val) : Except Err (Option Str) :=
  match string with
  | .str s =>
    if "${".toList.isPrefixOf (strip W.ws s.toList) then .ok (some s.toList)
    else if containsSub "$(".toList s.toList then
      match doEval W (probe s inputs self) with
      | .ok _ => .ok none
      | .error .workflow => normalise W s.toList
      | .error .javascript => normalise W s.toList
      | .error e => .error e
    else .ok none
  | _ => .ok none

/-- `cwl_v1_2_expression_refactor.py:395-404` (with `selfName` none if `no_inputs`, else `self`) and `1843-1852`: the
expression of a generated ExpressionTool. -/
def etoolText (selfName : Option Str) (expr : Str) : Str :=
  "${".toList ++ ((match selfName with
    | none => []
    | some n => if n = [] then [] else "\n  var self=inputs.".toList ++ (n ++ ";".toList)) ++
  ("\n  return {\"result\": function(){".toList ++ (slice2m2 expr ++ "}()};\n }".toList)))

/-- The text before the library in a script (`cwl_v1_2_expression_refactor.py:197-199`). -/
def scriptHead : Str := "\"use strict\";\nvar inputs=$(inputs);\nvar runtime=$(runtime);".toList

/-- `cwl_v1_2_expression_refactor.py:200-201`: the library in a script; None and the empty list add nothing. -/
def scriptLib : Option (List Str) → Str
  | none => []
  | some [] => []
  | some (l :: ls) => "\n".toList ++ joinStr "\n".toList (l :: ls)

/-- `cwl_v1_2_expression_refactor.py:197-209`: the content of the script `expression.js` that `etool_to_cltool` writes
for an ExpressionTool with the given expression. -/
def scriptText (W : World) (lib : Option (List Str)) (expression : Str) : Str :=
  scriptHead ++ (scriptLib lib ++ ("\nvar ret = function(){".toList ++ (escape (slice2m1 (strip W.ws expression)) ++
    "}();\nprocess.stdout.write(JSON.stringify(ret));".toList)))

/-- An ExpressionTool, as far as it is read: its expression, the library of its InlineJavascriptRequirement, and the
mock inputs made from its input parameters (`empty_inputs`). -/
structure Etool where
  expression : String
  lib : Option (List Str)
  mock : Dict Val

/-- `cwl_v1_2_expression_refactor.py:310-319`: `traverse` for an ExpressionTool: the script of the tool it returns. -/
def traverseEtool (W : World) (t : Etool) : Except Err Str :=
  match getExpression W (.str t.expression) t.mock .null with
  | .error e => .error e
  | .ok none => .ok (scriptText W none t.expression.toList)
  | .ok (some []) => .ok (scriptText W none t.expression.toList)
  | .ok (some (c :: cs)) => .ok (scriptText W none (c :: cs))

/-- `cwl_v1_2_expression_refactor.py:2218-2221`: `traverse_workflow` for a step that holds an ExpressionTool: the script
of the tool put in its place. -/
def traverseStepEtool (W : World) (t : Etool) : Str := scriptText W none t.expression.toList

end CwlUtils.Refactor
