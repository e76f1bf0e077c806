import Verif.Docker.DocumentProps
import Verif.Loader.FullScopeStays
/-!
# Examples and disagreements for C157
-/
namespace CwlUtils.Docker

open CwlUtils.Loader
open CwlUtils.Loader.Full (LV Tab World Ver Ldr Opts Class Flat)

/-- The vocabularies have the classes of the version. -/
def exEnv (v : Ver) : UEnv := { Full.exSaveEnv with
  vocab := fun t => if t ∈ (["string", "null", "int", "array"] ++ v.tab.classes.map (·.cls.name)).map String.toList then some ("https://w3id.org/cwl/cwl#".toList ++ t) else none }

def exW (v : Ver) : World := Full.worldOf (exEnv v) (fun _ => .ok true)

theorem exW_knows (v : Ver) : (exW v).Knows v.tab := by
  refine Full.knows_sound (fun _ => .inl rfl) ?_
  cases v <;> decide +kernel

/-- A tool with an image. -/
def exTool (img : String) : Dict Val := [("class", .str "CommandLineTool"), ("inputs", .arr []), ("outputs", .arr []), ("requirements", .arr [.obj [("class", .str "DockerRequirement"), ("dockerPull", .str img)]]),
  ("hints", .obj [("SoftwareRequirement", .obj [("packages", .obj [("blast", .obj [("version", .arr [.str "1"])]), ("samtools", .arr [.str "https://samtools"])])])])]

def exStep (run : Val) : Val := .obj [("run", run), ("in", .arr []), ("out", .arr []), ("requirements", .obj [("DockerRequirement", .obj [("dockerPull", .str "step")])]),
  ("hints", .obj [("DockerRequirement", .obj [("dockerPull", .str "lost")])])]

def exDoc : Dict Val := [("class", .str "Workflow"), ("inputs", .arr []), ("outputs", .arr []), ("requirements", .obj [("DockerRequirement", .obj [("dockerPull", .str "ubuntu")])]),
  ("steps", .obj [("s", exStep (.obj (exTool "tool:1"))), ("t", exStep (.str "file:///t.cwl"))])]

def exDocs (u : String) : Option (Ver × Dict Val) := if u = "file:///t.cwl" then some (.v10, exTool "old") else none

def exFetch (u : String) : Except Err Proc := if u = "file:///t.cwl" then (Full.load (exW .v10) Ver.v10.tab 60 ⟨true, false⟩ (some u) u Ver.v10.top (.obj (exTool "old"))).map (procOf Ver.v10.tab)
  else .error .fileNotFound

theorem exTool_loads : Full.okAnd (fun _ => true) (Full.load (exW .v10) Ver.v10.tab 60 ⟨true, false⟩ (some "file:///t.cwl") "file:///t.cwl" Ver.v10.top (.obj (exTool "old"))) = true := by
  decide +kernel

theorem ex_given : Given exW exDocs exFetch := by
  intro u v d h
  unfold exDocs at h
  split at h
  · rename_i hu
    cases h
    refine ⟨Full.flat_sound (by decide +kernel), ?_⟩
    obtain ⟨x, hx, _⟩ := Full.okAnd_some exTool_loads
    refine ⟨60, ⟨true, false⟩, some "file:///t.cwl", "file:///t.cwl", x, hx, ?_⟩
    subst hu
    rw [exFetch, if_pos rfl, hx]
    rfl
  · cases h

theorem ex_served : Served exW exDocs exFetch := by
  intro u p h
  unfold exFetch at h
  split at h
  · rename_i hu
    subst hu
    obtain ⟨x, hx, _⟩ := Full.okAnd_some exTool_loads
    rw [hx] at h
    cases h
    exact ⟨.v10, exTool "old", rfl, Full.flat_sound (by decide +kernel), 60, ⟨true, false⟩, some "file:///t.cwl", "file:///t.cwl", x, hx, rfl⟩
  · cases h

/-- The images and the packages that are found in the document, with the parser of a version. -/
def exFound (v : Ver) : Option (List (Option String) × List (List Val) × Option Err) :=
  (Full.load (exW v) v.tab 60 ⟨true, false⟩ (some "file:///w.cwl") "file:///w.cwl" v.top (.obj exDoc)).toOption.map (fun x =>
    ((traverseDocker exFetch 5 (procOf v.tab x)).items.map (·.pull), (traverseSoftware exFetch 5 (procOf v.tab x)).items, (traverseDocker exFetch 5 (procOf v.tab x)).err))

/-- **C157**, the disagreement: the image in the hints of the steps is not extracted, with none of the versions; all others are. -/
theorem step_hints_lost_violated : (∃ s r, StepOf Eq exDoc s ∧ ReqAt Eq "hints" "DockerRequirement" s r ∧ Dict.get? r "dockerPull" = some (.str "lost")) ∧
    ∀ v, exFound v = some ([some "ubuntu:latest", some "step", some "tool:1", some "step", some "old:latest"],
      [[.arr [.str "blast", .arr [.str "1"], .null], .arr [.str "samtools", .null, .arr [.str "https://samtools"]]],
       [.arr [.str "blast", .arr [.str "1"], .null], .arr [.str "samtools", .null, .arr [.str "https://samtools"]]]], none) := by
  refine ⟨⟨_, _, ⟨⟨"Workflow", rfl, rfl⟩, _, rfl, .map List.mem_cons_self⟩, ⟨_, rfl, .map List.mem_cons_self, "DockerRequirement", rfl, rfl⟩, rfl⟩, ?_⟩
  intro v
  cases v <;> decide +kernel

/-- The hypotheses are met: the document can be loaded, it refers to the other one, and there are requirements and hints. -/
example : Flat (.obj exDoc) ∧ Reaches exW exDocs .v12 exDoc .v10 (exTool "old") ∧ Written Eq "DockerRequirement" exDoc [("dockerPull", .str "ubuntu"), ("class", .str "DockerRequirement")] ∧
    (∃ r, Hinted Eq "SoftwareRequirement" (exTool "old") r ∧ PackageOf r [("version", .arr [.str "1"]), ("package", .str "blast")]) := by
  refine ⟨Full.flat_sound (by decide +kernel), ?_, ?_, ?_⟩
  · refine .link (t := "file:///t.cwl") .here ⟨⟨"Workflow", rfl, rfl⟩, _, rfl, .map (List.mem_cons_of_mem _ List.mem_cons_self)⟩ rfl ?_ rfl .here
    exact Full.stays_sound (by decide +kernel) _ _
  · exact ⟨exDoc, .here, .inl ⟨_, rfl, .map List.mem_cons_self, "DockerRequirement", rfl, rfl⟩⟩
  · exact ⟨_, ⟨_, .here, _, rfl, .map List.mem_cons_self, "SoftwareRequirement", rfl, rfl⟩, _, rfl, .map List.mem_cons_self⟩

end CwlUtils.Docker
