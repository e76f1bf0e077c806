import Verif.Base.Val
/-!
# Extraction of containers and software packages, and image download

Processes are reduced to their requirements, hints and steps.  Documents that steps refer to by URI are supplied by a function `load`.  Generators are
modelled as the list of the yielded values and the exception that ends the iteration, if any.
-/
namespace CwlUtils.Docker

/-- `DockerRequirement`: `dockerPull` and the remaining fields. -/
structure DockerReq where
  pull : Option String
  rest : Val := .null

/-- A requirement or hint, told apart by `isinstance`. -/
inductive Req where
  | docker (r : DockerReq)
  | software (packages : List Val)
  | other (v : Val)

mutual
/-- A process: its requirements and hints (absent or a list), and for a workflow its steps. -/
inductive Proc where
  | tool (reqs hints : Option (List Req))
  | workflow (reqs hints : Option (List Req)) (steps : List Step)
/-- A workflow step. -/
inductive Step where
  | mk (reqs hints : Option (List Req)) (run : Run)
/-- The `run` field of a step: a reference or an embedded process. -/
inductive Run where
  | uri (s : String)
  | proc (p : Proc)
end

def Proc.reqs : Proc → Option (List Req) | .tool r _ => r | .workflow r _ _ => r
def Proc.hints : Proc → Option (List Req) | .tool _ h => h | .workflow _ h _ => h
def Step.reqs : Step → Option (List Req) | .mk r _ _ => r
def Step.hints : Step → Option (List Req) | .mk _ h _ => h
def Step.run : Step → Run | .mk _ _ r => r

/-- A finished iteration over a generator. -/
structure Gen (α : Type) where
  items : List α
  err : Option Err

/-- `yield from a` followed by `yield from b`. -/
def Gen.andThen {α} (a b : Gen α) : Gen α := match a.err with
  | some e => ⟨a.items, some e⟩
  | none => ⟨a.items ++ b.items, b.err⟩

/-- `isinstance(req, cwl.DockerRequirementTypes)`. -/
def selDocker : Req → Option DockerReq | .docker r => some r | _ => none

/-- `isinstance(req, cwl.SoftwareRequirementTypes)`. -/
def selSoftware : Req → Option (List Val) | .software p => some p | _ => none

/-- `src/cwl_utils/docker_extract.py:105-114`: `extract_docker_reqs`; `src/cwl_utils/cite_extract.py:35-46`: `extract_software_reqs`. -/
def extract {α} (sel : Req → Option α) (reqs hints : Option (List Req)) : List α :=
  (reqs.getD []).filterMap sel ++ (hints.getD []).filterMap sel

/-- `src/cwl_utils/docker_extract.py:95-102`: `extract_docker_requirements` adds the tag `latest` to an image without colon. -/
def normalise (r : DockerReq) : DockerReq := match r.pull with
  | some s => if ':' ∈ s.toList then r else { r with pull := some (s ++ ":latest") }
  | none => r

/-- `src/cwl_utils/docker_extract.py:124-128`, `src/cwl_utils/cite_extract.py:67-71`: `get_process_from_step`. -/
def getProcess (load : String → Except Err Proc) (s : Step) : Except Err Proc := match s.run with
  | .uri u => load u
  | .proc p => .ok p

/-- `yield from traverse(get_process_from_step(step))`, with `rec` for `traverse`. -/
def stepGen {α} (load : String → Except Err Proc) (rec : Proc → Gen α) (s : Step) : Gen α := match getProcess load s with
  | .error e => ⟨[], some e⟩
  | .ok p => rec p

/-- `if isinstance(process, cwl.WorkflowTypes)`: iterate over the steps. -/
def ifWorkflow {α} (rec : List Step → Gen α) : Proc → Gen α
  | .tool _ _ => ⟨[], none⟩
  | .workflow _ _ steps => rec steps

/-- `src/cwl_utils/docker_extract.py:131-135`, `src/cwl_utils/cite_extract.py:74-78`: `traverse_workflow`, with `rec` for `traverse`. -/
def traverseSteps {α} (load : String → Except Err Proc) (sel : Req → Option α) (rec : Proc → Gen α) : List Step → Gen α
  | [] => ⟨[], none⟩
  | s :: ss =>
    (Gen.andThen ⟨extract sel s.reqs s.hints, none⟩ (stepGen load rec s)).andThen (traverseSteps load sel rec ss)

/-- `src/cwl_utils/docker_extract.py:117-121`, `src/cwl_utils/cite_extract.py:60-64`: `traverse`.  `norm` is what is done to the requirements of a process:
`normalise` or nothing.  `fuel` bounds the nesting depth; documents that contain themselves recurse until Python's limit. -/
def traverse {α} (load : String → Except Err Proc) (sel : Req → Option α) (norm : α → α) : Nat → Proc → Gen α
  | 0, _ => ⟨[], some .fuel⟩
  | fuel + 1, p => Gen.andThen ⟨(extract sel p.reqs p.hints).map norm, none⟩ 
    (ifWorkflow (traverseSteps load sel (traverse load sel norm fuel)) p)

/-- `docker_extract.traverse`. -/
def traverseDocker (load : String → Except Err Proc) (fuel : Nat) (p : Proc) : Gen DockerReq := traverse load selDocker normalise fuel p

/-- `cite_extract.traverse`. -/
def traverseSoftware (load : String → Except Err Proc) (fuel : Nat) (p : Proc) : Gen (List Val) := traverse load selSoftware id fuel p

/-- The requirement that an entry of a `requirements` field, or of the `hints` of a process, is loaded as
(`src/cwl_utils/parser/cwl_v1_2.py:13661-13663`, a union of all requirement types and `Any`). -/
def loadReq (v : Val) : Req := match v with
  | .obj d => match Dict.get? d "class" with
    | some (.str "DockerRequirement") => match Dict.get? d "dockerPull" with
      | some (.str s) => .docker ⟨some s, v⟩
      | none => .docker ⟨none, v⟩
      | some _ => .other v
    | some (.str "SoftwareRequirement") => match Dict.get? d "packages" with
      | some (.arr ps) => .software ps
      | _ => .other v
    | _ => .other v
  | _ => .other v

/-- The entries of the `hints` of a *step* are of type `Any` (`src/cwl_utils/parser/cwl_v1_2.py:21368-21373`,
`idmap_hints_union_of_None_type_or_array_of_Any_type`; the same in the other versions), so they stay plain mappings (`_AnyLoader`, 54-65). -/
def loadStepHint (v : Val) : Req := .other v

end CwlUtils.Docker
