import Verif.Docker.Props
import Verif.Loader.FullScopeProps
/-!
# From the document to the extracted requirements

The objects that `docker_extract.py` and `cite_extract.py` look at are those that the parsers make of a document (`Loader/Full.lean`, with the tables of the three versions).
`procOf` says what these programs see of a loaded object.
-/
namespace CwlUtils.Docker

open CwlUtils.Loader
open CwlUtils.Loader.Full (LV Tab World Ver Ldr Opts Class Flat)

/-- A field of an object, unless it is `None`. -/
def fieldOf (vals : List (String × Option LV)) (f : String) : Option LV := (Dict.get? vals f).getD none

/-- `isinstance(x, str)` -/
def textIn : Option LV → Option String
  | some (.val (.str s)) => some s
  | _ => none

def listIn : Option LV → Option (List LV)
  | some (.list l) => some l
  | _ => none

/-- `type(x).__name__` for objects of the classes of a parser: `cwl.DockerRequirementTypes`, `cwl.SoftwareRequirementTypes` and `cwl.WorkflowTypes` are the classes of this name of all versions
(`src/cwl_utils/parser/__init__.py:190`, 214, 85). -/
def className (T : Tab) (c : Nat) : String := match T.classes[c]? with
  | some cl => cl.cls.name
  | none => ""

def valIn (T : Tab) : Option LV → Val
  | some x => Full.save T x
  | none => .null

/-- `package.package`, `package.version` and `package.specs` (`cite_extract.py:49-56`), of which a line is printed; all members of `packages` are objects. -/
def packageOf (T : Tab) : LV → Val
  | .inst _ _ vals _ => .arr [valIn T (fieldOf vals "package"), valIn T (fieldOf vals "version"), valIn T (fieldOf vals "specs")]
  | _ => .null

/-- What the programs see of a requirement or hint: `isinstance(req, cwl.DockerRequirementTypes)` and `req.dockerPull` (`docker_extract.py:100`, 109),
`isinstance(req, cwl.SoftwareRequirementTypes)` and `req.packages` (`cite_extract.py:41`, 51). -/
def reqOf (T : Tab) (x : LV) : Req := match x with
  | .inst c _ vals _ =>
    if className T c = "DockerRequirement" then .docker ⟨textIn (fieldOf vals "dockerPull"), Full.save T x⟩
    else if className T c = "SoftwareRequirement" then .software (((listIn (fieldOf vals "packages")).getD []).map (packageOf T))
    else .other (Full.save T x)
  | x => .other (Full.save T x)

/-- `process.requirements`, `process.hints`, and those of steps. -/
def reqsOf (T : Tab) (vals : List (String × Option LV)) (f : String) : Option (List Req) := (listIn (fieldOf vals f)).map (·.map (reqOf T))

/-- `isinstance(process, cwl.WorkflowTypes)` (`docker_extract.py:120`, `cite_extract.py:62`) -/
def processOf (T : Tab) (c : Nat) (vals : List (String × Option LV)) (steps : List Step) : Proc :=
  if className T c = "Workflow" then .workflow (reqsOf T vals "requirements") (reqsOf T vals "hints") steps
  else .tool (reqsOf T vals "requirements") (reqsOf T vals "hints")

mutual
/-- What the programs see of a process. -/
def procOf (T : Tab) : LV → Proc
  | .inst c _ vals _ => processOf T c vals (stepsIn T vals)
  | _ => .tool none none
/-- `workflow.steps` -/
def stepsIn (T : Tab) : List (String × Option LV) → List Step
  | [] => []
  | (k, some (.list l)) :: m => if k = "steps" then stepsOf T l else stepsIn T m
  | (k, _) :: m => if k = "steps" then [] else stepsIn T m
def stepsOf (T : Tab) : List LV → List Step
  | [] => []
  | x :: l => stepOf T x :: stepsOf T l
/-- What the programs see of a step. -/
def stepOf (T : Tab) : LV → Step
  | .inst _ _ vals _ => .mk (reqsOf T vals "requirements") (reqsOf T vals "hints") (runIn T vals)
  | _ => .mk none none (.proc (.tool none none))
/-- `step.run` -/
def runIn (T : Tab) : List (String × Option LV) → Run
  | [] => .proc (.tool none none)
  | (k, some x) :: m => if k = "run" then runOf T x else runIn T m
  | (k, none) :: m => if k = "run" then .proc (.tool none none) else runIn T m
/-- `isinstance(step.run, str)` (`docker_extract.py:126`, `cite_extract.py:69`) -/
def runOf (T : Tab) : LV → Run
  | .val (.str s) => .uri s
  | .inst c _ vals _ => .proc (processOf T c vals (stepsIn T vals))
  | _ => .proc (.tool none none)
end

/-! ## What is written in a document -/

/-- The mapping `d` is a member of the list `v`, or of the mapping that stands for one, with the key as the field `subject`; a member of it that is no mapping stands for the one with the single
field `predicate`.  Where the schema has no such field, the generated parsers use the text `None` (`cwl_v1_2.py:28292`, for example), and no class has a field of this name. -/
inductive ItemIn (subject predicate : String) : Val → Dict Val → Prop
  | list {l d} : .obj d ∈ l → ItemIn subject predicate (.arr l) d
  | map {m k d} : (k, .obj d) ∈ m → ItemIn subject predicate (.obj m) (Dict.set d subject (.str k))
  | short {m k v} : (k, v) ∈ m → (∀ d, v ≠ .obj d) → ItemIn subject predicate (.obj m) (Dict.set [(predicate, v)] subject (.str k))

section
variable (means : String → String → Prop)

/-- A step of a workflow; `means u N`: the text `u` stands for the class `N`. -/
def StepOf (d s : Dict Val) : Prop := (∃ u, Dict.get? d "class" = some (.str u) ∧ means u "Workflow") ∧ ∃ v, Dict.get? d "steps" = some v ∧ ItemIn "id" "None" v s

/-- The processes in a document: it, and those that stand in steps of a process in it. -/
inductive Inside : Dict Val → Dict Val → Prop
  | here {d} : Inside d d
  | run {d s p q} : StepOf means d s → Dict.get? s "run" = some (.obj p) → Inside p q → Inside d q

/-- `r` is a requirement of the class `N` in the field `f` of `d`. -/
def ReqAt (f N : String) (d r : Dict Val) : Prop := ∃ v, Dict.get? d f = some v ∧ ItemIn "class" "None" v r ∧ ∃ u, Dict.get? r "class" = some (.str u) ∧ means u N

/-- The requirement is written in the requirements of a process in the document, or in those of a step. -/
def Written (N : String) (d r : Dict Val) : Prop := ∃ p, Inside means d p ∧ (ReqAt means "requirements" N p r ∨ ∃ s, StepOf means p s ∧ ReqAt means "requirements" N s r)

/-- The requirement is written in the hints of a process in the document. -/
def Hinted (N : String) (d r : Dict Val) : Prop := ∃ p, Inside means d p ∧ ReqAt means "hints" N p r

/-- A package of a requirement, written as an entry with its name. -/
def PackageOf (r k : Dict Val) : Prop := ∃ v, Dict.get? r "packages" = some v ∧ ItemIn "package" "specs" v k

end

/-- The text stands for the class, in some context. -/
def Names (w : World) (u N : String) : Prop := ∃ base t, w.expand base false true none u = .ok t ∧ (t = N ∨ w.vocab N = some t)

end CwlUtils.Docker
