import Verif.Docker.DocumentLemmas
/-!
# The requirements written in a document are those that are extracted (C157)
-/
namespace CwlUtils.Docker

open CwlUtils.Loader
open CwlUtils.Loader.Full (LV Tab World Ver Ldr Opts Class Flat)

/-! ## The tables -/

def isProc (T : Tab) (c : Nat) : Bool := ["CommandLineTool", "ExpressionTool", "Workflow", "ProcessGenerator", "Operation"].contains (className T c)

def isStep (T : Tab) (c : Nat) : Bool := className T c == "WorkflowStep"

def isPackage (T : Tab) (c : Nat) : Bool := className T c == "SoftwarePackage"

def isClassed (T : Tab) (c : Nat) : Bool := match T.classes[c]? with
  | some cl => cl.cls.classed
  | none => false

/-- The classes of the requirements that are looked for. -/
def wanted (T : Tab) : List Nat := (List.range T.classes.length).filter (fun c => ["DockerRequirement", "SoftwareRequirement"].contains (className T c))

/-- The class has this field, and its loader is as said. -/
def has (cl : Class) (f : String) (p : Nat → Bool) : Bool := cl.cls.fields.any (·.1 == f) && (match Dict.get? cl.loaders f with
  | some j => p j
  | none => false)

/-- A loader of references. -/
def isLink (T : Tab) (i : Nat) : Bool := match T.ldrs[i]? with
  | some (.uri j false false none _) => Full.isCore T j
  | _ => false

/-- What is needed of the loaders of a class. -/
def docClass (T : Tab) (c : Nat) : Bool := match T.classes[c]? with
  | none => true
  | some cl =>
    (!isProc T c || (cl.cls.classed && has cl "requirements" (readsMap T none (isClassed T) "class" "None") && has cl "hints" (readsMap T (some (wanted T)) (isClassed T) "class" "None"))) &&
    (className T c != "Workflow" || has cl "steps" (readsMap T none (isStep T) "id" "None")) &&
    (!isStep T c || (has cl "requirements" (readsMap T none (isClassed T) "class" "None") && has cl "hints" (readsMap T (some []) (fun _ => false) "class" "None") &&
      has cl "run" (fun i => reads T none (isProc T) 8 [] i && isLink T i))) &&
    (className T c != "DockerRequirement" || has cl "dockerPull" (Full.isCore T)) &&
    (className T c != "SoftwareRequirement" || has cl "packages" (readsMap T none (isPackage T) "package" "specs")) &&
    (!isPackage T c || has cl "package" (Full.isCore T))

def docTable (T : Tab) : Bool := (List.range T.classes.length).all (docClass T) && T.classes.all (fun cl => decide (cl.cls ∈ Rec.classes)) &&
  ["Workflow", "DockerRequirement", "SoftwareRequirement"].all (fun N => T.classes.any (·.cls.name == N))

theorem ver_table : ∀ v : Ver, docTable v.tab = true
  | .v10 => by decide +kernel
  | .v11 => by decide +kernel
  | .v12 => by decide +kernel

theorem ver_top : ∀ v : Ver, reads v.tab none (isProc v.tab) 8 [] v.top = true
  | .v10 => by decide +kernel
  | .v11 => by decide +kernel
  | .v12 => by decide +kernel

end CwlUtils.Docker
