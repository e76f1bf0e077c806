import Verif.Base.Val
import Verif.Sandbox.Version
/-!
# Expression refactoring: text escaping, library lookup, stream shortcuts, renaming, and the command

`src/cwl_utils/expression_refactor.py` and `src/cwl_utils/cwl_v1_2_expression_refactor.py` (the files for v1.0 and v1.1
contain the same functions with the same text, apart from the version names).
-/
namespace CwlUtils.Refactor

/-! ## Escaping -/

/-- Python `s.replace(old, new)` for a text `old` of the two characters `a`, `b`: occurrences are replaced from left to
right without overlap. -/
def replace2 (a b : Char) (new : List Char) : List Char → List Char
  | [] => []
  | [x] => [x]
  | x :: y :: r => if x = a ∧ y = b then new ++ replace2 a b new r else x :: replace2 a b new (y :: r)

/-- `src/cwl_utils/cwl_v1_2_expression_refactor.py:60-62`: `escape_expression_field`. -/
def escape (s : List Char) : List Char :=
  replace2 '$' '(' ['$', '/', '('] (replace2 '$' '{' ['$', '/', '{'] s)

/-! ## Library lookup -/

/-- A requirement: an InlineJavascriptRequirement with its expressionLib (a reference to a list object, or None), or
any other. -/
inductive Req where
  | js (lib : Option Nat)
  | other (name : String)
  deriving DecidableEq

/-- A process or step, as far as it is read; `requirements` is None or a list. -/
structure Proc where
  requirements : Option (List Req)
  hints : Option (List Req)
  deriving DecidableEq

/-- The list objects in memory: their contents by address; the next address is the length. -/
abbrev Heap := List (List String)

/-- `copy.deepcopy` of an optional list of texts: a new object with the same content. -/
def deepcopy (h : Heap) : Option Nat → Heap × Option Nat
  | none => (h, none)
  | some a => (h ++ [(h[a]?).getD []], some h.length)

/-- The inner loop of `find_expressionLib` (`src/cwl_utils/expression_refactor.py:243-245`); `none` if the loop ends
without return. -/
def findReq : List Req → Option (Option Nat)
  | [] => none
  | .js lib :: _ => some lib
  | .other _ :: rs => findReq rs

/-- The outer loop of `find_expressionLib` (`expression_refactor.py:241-246`), on the reversed list. -/
def findRev : List Proc → Option Nat
  | [] => none
  | p :: ps => match p.requirements with
    | none => findRev ps
    | some rs => match findReq rs with
      | some lib => lib
      | none => findRev ps

/-- `src/cwl_utils/expression_refactor.py:232-246`: `find_expressionLib`. -/
def findExpressionLib (h : Heap) (processes : List Proc) : Heap × Option Nat :=
  deepcopy h (findRev processes.reverse)

/-! ## Stream shortcuts -/

/-- An output of a command line tool: its type, the glob of its outputBinding if there is one, and the rest. -/
structure Outp where
  id : String
  type : Val
  glob : Option String
  deriving DecidableEq

/-- A command line tool, as far as it is read or written. -/
structure Clt where
  outputs : List Outp
  stdout : Option String
  stderr : Option String
  rest : Val
  deriving DecidableEq

/-- The body of the loop of `expand_stream_shortcuts` (`cwl_v1_2_expression_refactor.py:43-54`) for the output at
`index`: the states of the variable `result` and of the argument `process`.  An empty stdout counts as missing.
`hash` is the sha1 of the saved tool. -/
def expandStep (hash : Clt → String) (index : Nat) (st : Option Clt × Clt) : Option Clt × Clt :=
  match st.2.outputs[index]? with
  | none => st
  | some o =>
    if o.type = .str "stdout" then
      let result := st.1.getD st.2
      let missing := st.2.stdout = none ∨ st.2.stdout = some ""
      let path := if missing then hash st.2 else st.2.stdout.getD ""
      let result := if missing then { result with stdout := some path } else result
      (some { result with outputs := result.outputs.modify index (fun o => { o with type := .str "File" }) },
       { st.2 with outputs := st.2.outputs.modify index (fun o => { o with glob := some path }) })
    else st

/-- The loop over the indices. -/
def expandLoop (hash : Clt → String) : List Nat → Option Clt × Clt → Option Clt × Clt
  | [], st => st
  | i :: is, st => expandLoop hash is (expandStep hash i st)

/-- `src/cwl_utils/cwl_v1_2_expression_refactor.py:38-57`: `expand_stream_shortcuts`: the returned tool, and the
argument after the call. -/
def expandStreams (hash : Clt → String) (process : Clt) : Clt × Clt :=
  let st := expandLoop hash (List.range process.outputs.length) (none, process)
  (st.1.getD st.2, st.2)

/-! ## Renaming sources -/

/-- A `source` or `outputSource`: a text or a list of texts. -/
inductive Src where
  | one (s : String)
  | many (l : List String)
  deriving DecidableEq

/-- A workflow, as far as it is read: the outputSource of each output and the sources of the inputs of each step
(None, or a value; a step whose `in_` is empty has no sources). -/
structure Wf where
  outputs : List (Option Src)
  steps : List (List (Option Src))
  deriving DecidableEq

/-- `uri.split("#")[-1]` -/
def lastHash (s : String) : String := String.ofList (s.toList.reverse.takeWhile (· ≠ '#')).reverse

/-- `cwl_v1_2_expression_refactor.py:1629-1630`: `simplify_wf_id`. -/
def simplifyWfId (uri : String) : Except Err String :=
  let l := (lastHash uri).toList
  if '/' ∈ l then .ok (String.ofList ((l.dropWhile (· ≠ '/')).drop 1)) else .error .index

/-- `cwl_v1_2_expression_refactor.py:1635-1637`: one workflow output.  A list has no attribute `split`. -/
def renameOutput (old new : String) : Option Src → Except Err (Option Src)
  | none => .ok none
  | some (.one "") => .ok (some (.one ""))
  | some (.many []) => .ok (some (.many []))
  | some (.many _) => .error .attribute
  | some (.one s) => match simplifyWfId s with
    | .error e => .error e
    | .ok s' => if s' = old then .ok (some (.one new)) else .ok (some (.one s))

/-- `cwl_v1_2_expression_refactor.py:1641-1653`: one source of a step input.  (`"#" in s` makes no difference:
without `#` the last part is the text itself.) -/
def renameSource (old new : String) : Option Src → Option Src
  | none => none
  | some (.one s) => if s = "" then some (.one s) else if lastHash s = old then some (.one new) else some (.one s)
  | some (.many l) => some (.many (l.map (fun s => if lastHash s = old then new else s)))

/-- Mapping with exceptions. -/
def mapE {α β : Type} (f : α → Except Err β) : List α → Except Err (List β)
  | [] => .ok []
  | x :: xs => match f x with
    | .error e => .error e
    | .ok y => match mapE f xs with
      | .error e => .error e
      | .ok ys => .ok (y :: ys)

/-- `src/cwl_utils/cwl_v1_2_expression_refactor.py:1626-1653`: `rename_step_source`. -/
def renameStepSource (w : Wf) (old new : String) : Except Err Wf :=
  match mapE (renameOutput old new) w.outputs with
  | .error e => .error e
  | .ok outs => .ok ⟨outs, w.steps.map (fun st => st.map (renameSource old new))⟩

/-- `cwl_v1_2_expression_refactor.py:473-479` and `482-488`: one reference; empty ones are skipped. -/
def replaceRef (name target : String) : Option Src → Option Src
  | none => none
  | some (.one s) => if s = "" then some (.one s) else if s = name then some (.one target) else some (.one s)
  | some (.many l) => some (.many (l.map (fun s => if s = name then target else s)))

/-- `src/cwl_utils/cwl_v1_2_expression_refactor.py:465-488`: `replace_wf_input_ref_with_step_output`. -/
def replaceInputRef (w : Wf) (name target : String) : Wf :=
  ⟨w.outputs.map (replaceRef name target), w.steps.map (fun st => st.map (replaceRef name target))⟩

/-! ## The command -/

/-- What happens to one document (`expression_refactor.py:619-686`): it cannot be read, or has no cwlVersion, or an
exception other than WorkflowException is raised (`raises`); its version is not supported; a WorkflowException is raised
while it is loaded, traversed, saved or written (`workflowError`); it is traversed without modification; or it is
modified, and written. -/
inductive Outcome where
  | raises (e : Err)
  | unsupported
  | workflowError
  | unmodified
  | modified
  deriving DecidableEq

/-- What is put in the output directory for a document. -/
inductive Action where
  | copied (doc : String)
  | written (doc : String)
  deriving DecidableEq

/-- The loop of `refactor` (`expression_refactor.py:619-688`): `single` tells whether there is one input only, `rc` is
`return_code`.  The result is the exit code or the exception, and the files made. -/
def refactorLoop (single : Bool) (rc : Int) : List (String × Outcome) → Except Err Int × List Action
  | [] => (.ok rc, [])
  | (doc, o) :: ds => match o with
    | .raises e => (.error e, [])
    | .unsupported => (.ok (-1), [])
    | .workflowError => refactorLoop single 1 ds
    | .unmodified =>
      if single then (.ok 7, [])
      else let r := refactorLoop single rc ds; (r.1, .copied doc :: r.2)
    | .modified => let r := refactorLoop single rc ds; (r.1, .written doc :: r.2)

/-- `src/cwl_utils/expression_refactor.py:614-688`: `refactor`. -/
def refactor (docs : List (String × Outcome)) : Except Err Int × List Action :=
  refactorLoop (!decide (docs.length > 1)) 0 docs

end CwlUtils.Refactor
