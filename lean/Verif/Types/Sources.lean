import Verif.Types.Compare
/-!
# Types of step inputs, step outputs and sources
-/
namespace CwlUtils.Types

/-- `s.split(c)[-1]` -/
def afterLast (c : Char) (s : String) : String :=
  String.ofList ((s.toList.reverse.takeWhile (· ≠ c)).reverse)

/-- `"/".join(s.split("/")[:-1])` -/
def beforeLast (c : Char) (s : String) : String :=
  String.ofList (((s.toList.reverse.dropWhile (· ≠ c)).drop 1).reverse)

/-- A parameter of a process: what the type functions look at. -/
structure Param where
  id : String
  type : Ty
  deriving DecidableEq

/-- The `scatter` field of a step. -/
inductive Scatter where
  | none
  | one (s : String)
  | many (l : List String)
  deriving DecidableEq

/-- `aslist(step.scatter)` (for a scatter that is not None). -/
def Scatter.toList : Scatter → List String
  | .none => []
  | .one s => [s]
  | .many l => l

/-- A workflow step.  `run` is the outcome of `load_step` (`utils.py:231-244`, which may fail to load a file) followed by
`convert_stdstreams_to_files`: the inputs and outputs of the process.  `out` are the ids of the step outputs. -/
structure Step where
  id : String
  out : List String
  scatter : Scatter
  scatterMethod : Option String
  run : Except Err (List Param × List Param)

/-- A process: a workflow has steps. -/
structure Proc where
  isWorkflow : Bool
  inputs : List Param
  steps : List Step

/-- `n` array levels around a type. -/
def wrap : Nat → Ty → Ty
  | 0, t => t
  | n + 1, t => .array 0 (wrap n t)

/-- `cwl_v1_2_utils.py:403-409`, `433-437`, `460-464`: the array levels of a scattered output, given number of
scattered inputs and method. -/
def scatterType (n : Nat) (method : String) (t : Ty) : Ty :=
  if method = "nested_crossproduct" then wrap n t else .array 0 t

/-- `src/cwl_utils/parser/cwl_v1_2_utils.py:371-387` (v1.0: 261-277, v1.1: 343-359): `type_for_step_input`. -/
def typeForStepInput (step : Step) (inId : String) (valueFrom : Bool) : Except Err Ty :=
  if valueFrom then .ok (.name "Any")
  else match step.run with
  | .error e => .error e
  | .ok (inputs, _) =>
    match inputs.find? (fun p => afterLast '#' p.id == afterLast '#' inId) with
    | some p => .ok (if step.scatter ≠ .none ∧ inId ∈ step.scatter.toList then .array 0 p.type else p.type)
    | none => .ok (.name "Any")

/-- `src/cwl_utils/parser/cwl_v1_2_utils.py:390-416` (v1.0: 280-306, v1.1: 362-388): `type_for_step_output`. -/
def typeForStepOutput (step : Step) (source : String) : Except Err Ty :=
  match step.run with
  | .error e => .error e
  | .ok (_, outputs) =>
    match outputs.find? (fun p => afterLast '/' (afterLast '#' p.id) == afterLast '/' (afterLast '#' source)) with
    | some p => .ok (if step.scatter = .none then p.type
        else scatterType step.scatter.toList.length (step.scatterMethod.getD "") p.type)
    | none => .error .validation

/-- The entry appended to the scatter context, `utils.py:306-331`. -/
def scatterContext (s : Step) : Option (Nat × String) :=
  match s.scatter with
  | .none => none
  | .one _ => some (1, s.scatterMethod.getD "dotproduct")
  | .many l => some (l.length, s.scatterMethod.getD "dotproduct")

/-- `utils.py:284-332`: the matches of one source in one step. -/
def matchStep (source : String) (s : Step) : Except Err (List (Param × Option (Nat × String))) :=
  if beforeLast '/' (afterLast '#' source) = afterLast '#' s.id ∧ s.out ≠ [] then
    match s.run with
    | .error e => .error e
    | .ok (_, outputs) =>
      .ok ((s.out.filter (fun o => afterLast '/' (afterLast '#' o) == afterLast '/' (afterLast '#' source))).flatMap
        (fun _ => (outputs.filter (fun p => afterLast '/' (afterLast '#' p.id) == afterLast '/' (afterLast '#' source))).map
          (fun p => (p, scatterContext s))))
  else .ok []

/-- Concatenation of the results over a list, stopping at the first exception. -/
def concatE {α β : Type} (f : α → Except Err (List β)) : List α → Except Err (List β)
  | [] => .ok []
  | x :: xs => match f x with
    | .error e => .error e
    | .ok l => match concatE f xs with
      | .error e => .error e
      | .ok m => .ok (l ++ m)

/-- `utils.py:277-283`: the inputs of a process that match a source. -/
def matchInputs (source : String) (inputs : List Param) : List (Param × Option (Nat × String)) :=
  (inputs.filter (fun p => afterLast '#' p.id == afterLast '#' source)).map (fun p => (p, none))

/-- `utils.py:277-332`: the matches of one source in one workflow. -/
def matchWorkflow (source : String) (w : Proc) : Except Err (List (Param × Option (Nat × String))) :=
  match concatE (matchStep source) w.steps with
  | .error e => .error e
  | .ok l => .ok (matchInputs source w.inputs ++ l)

/-- `utils.py:270-332`: the matches of one source, with their scatter context.  The code appends to two
lists at the same places; here they are one list of pairs. -/
def matchSource (process : Proc) (parent : Option Proc) (source : String) : Except Err (List (Param × Option (Nat × String))) :=
  let own := if process.isWorkflow then [] else matchInputs source process.inputs
  match concatE (matchWorkflow source) ((process :: parent.toList).filter (·.isWorkflow)) with
  | .error e => .error e
  | .ok l => .ok (own ++ l)

/-- `src/cwl_utils/parser/utils.py:256-345`: `param_for_source_id` for a list of names.  An empty list of names
leaves the variable used in the message unset (NameError, here `generic`). -/
def paramForSource (process : Proc) (parent : Option Proc) (sources : List String) :
    Except Err (List (Param × Option (Nat × String))) :=
  match concatE (matchSource process parent) sources with
  | .error e => .error e
  | .ok [] => if sources = [] then .error .generic else .error .workflow
  | .ok l => .ok l

/-- The array levels of an entry of the scatter context. -/
def withContext (c : Option (Nat × String)) (t : Ty) : Ty :=
  match c with
  | none => t
  | some (n, m) => scatterType n m t

/-- `cwl_v1_2_utils.py:447-465`: the loop collecting the alternatives. -/
def collect (short : String → String) : List (Param × Option (Nat × String)) → List Ty → Except Err (List Ty)
  | [], acc => .ok acc
  | (p, c) :: rest, acc =>
    match anyE (fun t => compareType short t p.type) acc with
    | .error e => .error e
    | .ok true => collect short rest acc
    | .ok false => collect short rest (acc ++ [withContext c p.type])

/-- `pickValue`, `cwl_v1_2_utils.py:443-446, 474-477`. -/
def pick (pickValue : Option String) (t : Ty) : Ty :=
  match t with
  | .array m items =>
    if pickValue = some "first_non_null" ∨ pickValue = some "the_only_non_null" then items else .array m items
  | t => t

/-- `linkMerge`. -/
def merge (linkMerge : Option String) (many : Bool) (t : Ty) : Ty :=
  if linkMerge = some "merge_nested" then .array 0 t
  else if linkMerge = some "merge_flattened" then mergeFlatten t
  else if many then .array 0 t
  else t

/-- `src/cwl_utils/parser/cwl_v1_2_utils.py:419-478`: `type_for_source`; v1.0 (`309-359`) and v1.1 (`391-442`) are
the same with `pickValue` None.  A single name is a list of one. -/
def typeForSource (short : String → String) (process : Proc) (parent : Option Proc) (sources : List String)
    (linkMerge pickValue : Option String) : Except Err Ty :=
  match paramForSource process parent sources with
  | .error e => .error e
  | .ok [(p, c)] => .ok (pick pickValue (merge linkMerge false (withContext c p.type)))
  | .ok l =>
    match collect short l [] with
    | .error e => .error e
    | .ok alts =>
      let t := match alts with
        | [t] => t
        | _ => .union alts
      .ok (pick pickValue (merge linkMerge (decide (sources.length > 1)) t))

end CwlUtils.Types
