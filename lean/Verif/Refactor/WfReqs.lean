import Verif.Refactor.Etool
/-!
# Expression refactoring: requirements of a workflow

`src/cwl_utils/cwl_v1_2_expression_refactor.py:748-1071`: `process_workflow_reqs_and_hints`.

Environment: `G v` is `get_expression(v, inputs, None)` with the mock inputs of the workflow, `E s` is
`do_eval(ex=s, jobinput=inputs, requirements=[], ...)` (both are `getExpression` and `doEval` of the model for the theorems
that need it), `num` writes an index in decimal.
-/
namespace CwlUtils.Refactor
open CwlUtils.Expr

/-- An entry of a listing: a text, a Dirent (entry and entryname), or another object (File, Directory). -/
inductive Entry where
  | text (s : String)
  | dirent (entry : String) (entryname : Option String)
  | object (v : Val)
  deriving DecidableEq

/-- The listing of an InitialWorkDirRequirement. -/
inductive Listing where
  | text (s : String)
  | entries (l : List Entry)
  deriving DecidableEq

/-- A requirement: EnvVarRequirement (name and value of each definition), ResourceRequirement (its attributes, without
those that are None), InitialWorkDirRequirement, InlineJavascriptRequirement, StepInputExpressionRequirement, or another. -/
inductive WReq where
  | env (defs : List (String × String))
  | res (attrs : Dict Val)
  | iwd (listing : Listing)
  | js
  | stepInput
  | other (name : String)
  deriving DecidableEq

/-- A workflow step, as far as it is read or written: its id, requirements (None or a list), inputs (id and source), and,
for a generated step, the expression of its ExpressionTool. -/
structure WStep where
  id : String
  requirements : Option (List WReq)
  ins : List (String × String)
  gen : Option Str
  deriving DecidableEq

/-- A workflow, as far as it is read or written, and its hints (which the function does not read, in spite of its name). -/
structure Work where
  requirements : Option (List WReq)
  hints : Option (List WReq)
  steps : List WStep
  deriving DecidableEq

/-- The local variables of `process_workflow_reqs_and_hints` (`763-778`), with the steps appended to the workflow;
`propEnv`, `propRes`, `propIwd` tell which classes are in `prop_reqs`; `index` is the variable of the inner loops. -/
structure RSt where
  modified : Bool
  steps : List WStep
  env : Option (List (String × String))
  genEnv : List (String × Nat)
  res : Option (Dict Val)
  genRes : List (String × String)
  iwd : Option Listing
  genIwd : List (String × Nat)
  propEnv : Bool
  propRes : Bool
  propIwd : Bool
  index : Option Nat
  deriving DecidableEq

/-- `if expression:` -/
def found : Option Str → Option Str
  | some [] => none
  | r => r

/-- `cwl_v1_2_expression_refactor.py:420-462`: `replace_expr_with_etool` with source None and no extra process: a step
without inputs whose ExpressionTool has no inputs.  (With `replace_etool` the tool is then converted; see `Etool.lean`.) -/
def genStep (name : String) (expr : Str) : WStep := ⟨name, none, [], some (etoolText none expr)⟩

/-- `if this_attr:` -/
def truthyVal : Val → Bool
  | .null => false
  | .bool b => b
  | .int n => n ≠ 0
  | .flt s => s ≠ "0.0"
  | .str s => s ≠ ""
  | .bytes b => !b.isEmpty
  | .arr xs => !xs.isEmpty
  | .obj kv => !kv.isEmpty

/-- `782-811`: the loop over the definitions of an EnvVarRequirement; `all` is `req.envDef`. -/
def envLoop (G : Val → Except Err (Option Str)) (num : Nat → String) (all : List (String × String)) :
    Nat → List (String × String) → RSt → Except Err RSt
  | _, [], st => .ok st
  | i, (n, v) :: ds, st =>
    let st := { st with index := some i }
    if v = "" then envLoop G num all (i + 1) ds st
    else match G (.str v) with
      | .error e => .error e
      | .ok r => match found r with
        | none => envLoop G num all (i + 1) ds st
        | some e =>
          let id := "_expression_workflow_EnvVarRequirement_" ++ num i
          let copy := st.env.getD all
          if i < copy.length then
            envLoop G num all (i + 1) ds { st with
              modified := true, steps := st.steps ++ [genStep id e],
              env := some (copy.set i (n, "$(inputs._envDef" ++ num i ++ ")")),
              genEnv := st.genEnv ++ [(id, i)], propEnv := true }
          else .error .index

/-- `812-839`: the loop over the attributes of a ResourceRequirement, in the order of the frozen set `attrs`. -/
def resLoop (G : Val → Except Err (Option Str)) (req : Dict Val) : List String → RSt → Except Err RSt
  | [], st => .ok st
  | a :: as, st =>
    match Dict.get? req a with
    | none => resLoop G req as st
    | some v =>
      if truthyVal v then
        match G v with
        | .error e => .error e
        | .ok r => match found r with
          | none => resLoop G req as st
          | some e =>
            let id := "_expression_workflow_ResourceRequirement_" ++ a
            resLoop G req as { st with
              modified := true, steps := st.steps ++ [genStep id e],
              res := some (Dict.set (st.res.getD []) a (.str ("$(inputs._" ++ a ++ ")"))),
              genRes := st.genRes ++ [(id, a)], propRes := true }
      else resLoop G req as st

/-- `listing[index] = text` on the copy of the requirement. -/
def setEntry (l : Option Listing) (i : Nat) (s : String) : Except Err (Option Listing) :=
  match l with
  | some (.entries es) => if i < es.length then .ok (some (.entries (es.set i (.text s)))) else .error .index
  | _ => .error .type

/-- The statements common to the branches of the loop over a listing: a generated step, the replaced entry (without
closing parenthesis, as in the code), and the record of the step. -/
def iwdGen (num : Nat → String) (i : Nat) (e : Str) (st : RSt) : Except Err RSt :=
  let id := "_expression_workflow_InitialWorkDirRequirement_" ++ num i
  match setEntry st.iwd i ("$(inputs._iwdr_listing_" ++ num i) with
  | .error e => .error e
  | .ok l => .ok { st with
      modified := true, steps := st.steps ++ [genStep id e], iwd := l, genIwd := st.genIwd ++ [(id, i)] }

/-- `867-996`: the loop over the entries of a listing.  In the branch of a Dirent with an expression as its entry, the
entry is evaluated again without JavaScript; what follows a successful evaluation is not modelled (`notImplemented`),
since it cannot be reached: `dirent_entry_violated`. -/
def iwdLoop (G : Val → Except Err (Option Str)) (E : String → Except Err Val) (num : Nat → String) :
    Nat → List Entry → RSt → Except Err RSt
  | _, [], st => .ok st
  | i, x :: xs, st =>
    let st := { st with index := some i }
    match x with
    | .object _ => iwdLoop G E num (i + 1) xs st
    | .text s => match G (.str s) with
      | .error e => .error e
      | .ok r => match found r with
        | none => iwdLoop G E num (i + 1) xs st
        | some e => match iwdGen num i e st with
          | .error e => .error e
          | .ok st => iwdLoop G E num (i + 1) xs st
    | .dirent entry name =>
      if entry ≠ "" then
        match G (.str entry) with
        | .error e => .error e
        | .ok r => match found r with
          | none => iwdLoop G E num (i + 1) xs st
          | some _ => match E entry with
            | .error e => .error e
            | .ok _ => .error .notImplemented
      else match name with
        | none => iwdLoop G E num (i + 1) xs st
        | some n => if n = "" then iwdLoop G E num (i + 1) xs st else match G (.str n) with
          | .error e => .error e
          | .ok r => match found r with
            | none => iwdLoop G E num (i + 1) xs st
            | some e => match iwdGen num i e st with
              | .error e => .error e
              | .ok st => iwdLoop G E num (i + 1) xs st

/-- `840-1000`: an InitialWorkDirRequirement. -/
def iwdReq (G : Val → Except Err (Option Str)) (E : String → Except Err Val) (num : Nat → String) (l : Listing) (st : RSt) :
    Except Err RSt :=
  match l with
  | .text s =>
    if s = "" then .ok st else match G (.str s) with
      | .error e => .error e
      | .ok r => match found r with
        | none => .ok st
        | some e => .ok { st with
            modified := true, steps := st.steps ++ [genStep "_expression_workflow_InitialWorkDirRequirement" e],
            iwd := some (.text "$(inputs._iwdr_listing)"), propIwd := true }
  | .entries [] => .ok st
  | .entries (x :: xs) =>
    match iwdLoop G E num 0 (x :: xs) { st with iwd := some (.entries (x :: xs)) } with
    | .error e => .error e
    | .ok st => if st.genIwd = [] then .ok { st with iwd := none } else .ok { st with propIwd := true }

/-- `779-1000`: the loop over the requirements; `attrs` is the frozen set of attribute names in its iteration order. -/
def collect (G : Val → Except Err (Option Str)) (E : String → Except Err Val) (num : Nat → String) (attrs : List String) :
    List WReq → RSt → Except Err RSt
  | [], st => .ok st
  | r :: rs, st =>
    match (match r with
      | .env defs => envLoop G num defs 0 defs st
      | .res d => resLoop G d attrs st
      | .iwd l => iwdReq G E num l st
      | _ => .ok st) with
    | .error e => .error e
    | .ok st => collect G E num attrs rs st

/-- The state before the loop. -/
def start : RSt := ⟨false, [], none, [], none, [], none, [], false, false, false, none⟩

/-- `1002-1018`, `1021-1037`, `1040-1064` (bodies of the three loops over the steps): a step named `_expression_...` is
left out; the inner loop with its `continue` has no effect; the requirement and the inputs are appended. -/
def deliver (r : WReq) (ins : List (String × String)) (s : WStep) : WStep :=
  if "_expression_".toList.isPrefixOf (lastHash s.id).toList then s
  else { s with requirements := some (s.requirements.getD [] ++ [r]), ins := s.ins ++ ins }

/-- The three loops over the steps (`1001-1064`).  The name of a listing input is made with the value that the loop
variable `index` happens to have. -/
def deliverAll (num : Nat → String) (st : RSt) (steps : List WStep) : List WStep :=
  let steps := match st.env with
    | none => steps
    | some defs => steps.map (deliver (.env defs) (st.genEnv.map (fun g => ("_envDef" ++ num g.2, g.1 ++ "/result"))))
  let steps := match st.res with
    | none => steps
    | some d => steps.map (deliver (.res d) (st.genRes.map (fun g => ("_" ++ g.2, g.1 ++ "/result"))))
  match st.iwd with
    | none => steps
    | some l => steps.map (deliver (.iwd l)
        (if st.genIwd = [] then [("_iwdr_listing", "_expression_workflow_InitialWorkDirRequirement/result")]
         else st.genIwd.map (fun g => ("_iwdr_listing_" ++ num (st.index.getD 0), g.1 ++ "/result"))))

/-- `not isinstance(x, prop_reqs)` -/
def keepReq (st : RSt) : WReq → Bool
  | .env _ => !st.propEnv
  | .res _ => !st.propRes
  | .iwd _ => !st.propIwd
  | _ => true

/-- `src/cwl_utils/cwl_v1_2_expression_refactor.py:748-1071`: `process_workflow_reqs_and_hints`: the workflow after the
call, and whether it was modified. -/
def processReqs (G : Val → Except Err (Option Str)) (E : String → Except Err Val) (num : Nat → String) (attrs : List String)
    (w : Work) : Except Err (Work × Bool) :=
  match collect G E num attrs (w.requirements.getD []) start with
  | .error e => .error e
  | .ok st => .ok (⟨w.requirements.map (fun rs => rs.filter (keepReq st)), w.hints, deliverAll num st (w.steps ++ st.steps)⟩,
      st.modified)

/-- `src/cwl_utils/cwl_v1_2_expression_refactor.py:2239-2248`: the end of `traverse_workflow`: the requirements that are
no longer needed are removed.  (An empty list counts as missing and becomes None.) -/
def dropReqs (w : Work) : Work :=
  match w.requirements with
  | none => { w with requirements := none }
  | some [] => { w with requirements := none }
  | some (r :: rs) => { w with requirements := some ((r :: rs).filter (fun r => r ≠ .js ∧ r ≠ .stepInput)) }

end CwlUtils.Refactor
