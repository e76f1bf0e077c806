import Verif.Docker.Model
import Verif.Sandbox.Version
/-!
# Singularity versions, image names and image download

External programs are a parameter: a command maps the set of existing files to a new one or fails.
-/
namespace CwlUtils.Docker

/-! ## Versions -/

/-- The text that follows `" version "`, if the text starts with it and `[0-9\.]+` matches behind it. -/
def afterVersion : List Char → Option (List Char)
  | ' ' :: 'v' :: 'e' :: 'r' :: 's' :: 'i' :: 'o' :: 'n' :: ' ' :: r =>
    match r.takeWhile (fun c => c.isDigit || c == '.') with
    | [] => none
    | v => some v
  | _ => none

/-- `re.match(r"(.+) version ([0-9\.]+)", text)` (`src/cwl_utils/singularity.py:36`): the first group is as long as possible, not empty, and on one line.
`pre` is the text passed so far, reversed. -/
def lastMatch (pre : List Char) : List Char → Option (List Char × List Char)
  | [] => none
  | c :: cs =>
    let here : Option (List Char × List Char) := if pre = [] then none else (afterVersion (c :: cs)).map (fun v => (pre.reverse, v))
    if c = '\n' then here
    else match lastMatch (c :: pre) cs with
      | some r => some r
      | none => here

/-- `src/cwl_utils/singularity.py:31-41`: version numbers and flavour in the output of `singularity --version`. -/
def parseVersion (ws : Char → Bool) (out : List Char) : Except Err (List Nat × List Char) :=
  match lastMatch [] (Sandbox.stripBy ws out) with
  | none => .error .runtime
  | some (flavor, v) => match Sandbox.parseAll (Sandbox.splitOn '.' v) with
    | .error e => .error e
    | .ok ns => .ok (ns, flavor)

/-- The module variables `_SINGULARITY_VERSION` and `_SINGULARITY_FLAVOR`, and how often `singularity --version` was run. -/
structure Cache where
  version : Option (List Nat × List Char)
  calls : Nat

/-- `src/cwl_utils/singularity.py:19-47`: `get_version`.  `out n` is what the `n`-th run of the command yields. -/
def getVersion (ws : Char → Bool) (out : Nat → Except Err (List Char)) (c : Cache) : Except Err (List Nat × List Char) × Cache :=
  match c.version with
  | some v => (.ok v, c)
  | none => match out c.calls with
    | .error e => (.error e, ⟨none, c.calls + 1⟩)
    | .ok o => match parseVersion ws o with
      | .error e => (.error e, ⟨none, c.calls + 1⟩)
      | .ok v => (.ok v, ⟨some v, c.calls + 1⟩)

/-- `v[0][i]`. -/
def nth (v : List Nat) (i : Nat) : Except Err Nat := match v[i]? with
  | some n => .ok n
  | none => .error .index

/-- `src/cwl_utils/singularity.py:50-60`: `is_apptainer_1_or_newer`, for a given version. -/
def isApptainer1 (v : List Nat × List Char) : Except Err Bool :=
  if v.2 ≠ "apptainer".toList then .ok false else (nth v.1 0).map (fun n => decide (1 ≤ n))

/-- `src/cwl_utils/singularity.py:63-72`: `is_version_2_6`. -/
def is26 (v : List Nat × List Char) : Except Err Bool :=
  if v.2 ≠ "singularity".toList ∧ v.2 ≠ "singularity-ce".toList then .ok false
  else match nth v.1 0 with
    | .error e => .error e
    | .ok a => if a = 2 then (nth v.1 1).map (fun b => decide (b = 6)) else .ok false

/-- `src/cwl_utils/singularity.py:75-80`: `is_version_3_or_newer`. -/
def is3 (v : List Nat × List Char) : Except Err Bool := match isApptainer1 v with
  | .error e => .error e
  | .ok true => .ok true
  | .ok false => (nth v.1 0).map (fun n => decide (3 ≤ n))

/-- `src/cwl_utils/singularity.py:83-96`: `is_version_3_1_or_newer` (`k = 1`) and `is_version_3_4_or_newer` (`k = 4`). -/
def is3dot (k : Nat) (v : List Nat × List Char) : Except Err Bool := match isApptainer1 v with
  | .error e => .error e
  | .ok true => .ok true
  | .ok false => match nth v.1 0 with
    | .error e => .error e
    | .ok a => if 4 ≤ a then .ok true else if a = 3 then (nth v.1 1).map (fun b => decide (k ≤ b)) else .ok false

/-! ## Image names -/

/-- `src/cwl_utils/image_puller.py:54-58`: `DockerImagePuller.get_image_name`. -/
def dockerName (req : List Char) : List Char :=
  ((req.filter (· ≠ '/')) ++ ".tar".toList).map (fun c => if c = ':' then '_' else c)

/-- The replacement in `SingularityImagePuller.get_image_name` (`src/cwl_utils/image_puller.py:94-96`). -/
def replaceChars (req : List Char) : List Char :=
  (req.map (fun c => if c = '/' then '_' else c)).map (fun c => if c = ':' then '_' else c)

/-- `src/cwl_utils/image_puller.py:92-105`: `SingularityImagePuller.get_image_name`, for a given version. -/
def singularityName (v : List Nat × List Char) (req : List Char) : Except Err (List Char) := match is26 v with
  | .error e => .error e
  | .ok true => .ok (replaceChars req ++ ".img".toList)
  | .ok false => match is3 v with
    | .error e => .error e
    | .ok true => .ok (replaceChars req ++ ".sif".toList)
    | .ok false => .error .generic

/-! ## Download -/

/-- The existing files and the commands run so far. -/
structure World where
  files : List (List Char)
  log : List (List (List Char))

/-- What running a command does to the files. -/
abbrev Exec := List (List Char) → List (List Char) → Except Err (List (List Char))

/-- `subprocess.run(cmd, check=True)`; the command is logged also if it fails. -/
def runCmd (exec : Exec) (cmd : List (List Char)) (w : World) : Except Err Unit × World := match exec cmd w.files with
  | .ok files => (.ok (), ⟨files, w.log ++ [cmd]⟩)
  | .error e => (.error e, ⟨w.files, w.log ++ [cmd]⟩)

/-- An image puller (`src/cwl_utils/image_puller.py:17-29`). -/
structure Puller where
  req : List Char
  dir : Option (List Char)
  cmd : List Char
  force : Bool

/-- `if self.save_directory`. -/
def Puller.dir? (p : Puller) : Option (List Char) := p.dir.bind (fun d => if d = [] then none else some d)

/-- `Path(directory, name)`. -/
def joinPath (d n : List Char) : List Char := d ++ '/' :: n

/-- `src/cwl_utils/image_puller.py:64-83`: `DockerImagePuller.save_docker_image`. -/
def saveDocker (exec : Exec) (p : Puller) (w : World) : Except Err Unit × World :=
  match runCmd exec [p.cmd, "pull".toList, p.req] w with
  | (.error e, w) => (.error e, w)
  | (.ok (), w) => match p.dir? with
    | none => (.ok (), w)
    | some d =>
      let dest := joinPath d (dockerName p.req)
      if p.force = true then
        if dest ∈ w.files then runCmd exec [p.cmd, "save".toList, "-o".toList, dest, p.req] ⟨w.files.filter (· ≠ dest), w.log⟩
        else (.error .fileNotFound, w)
      else runCmd exec [p.cmd, "save".toList, "-o".toList, dest, p.req] w

/-- `src/cwl_utils/image_puller.py:107-133`: `SingularityImagePuller.save_docker_image`, for a given version.  Without directory the local variable is not set
(`UnboundLocalError`, here `generic`). -/
def saveSingularity (exec : Exec) (v : List Nat × List Char) (p : Puller) (w : World) : Except Err Unit × World := match p.dir? with
  | none => (.error .generic, w)
  | some d => match singularityName v p.req with
    | .error e => (.error e, w)
    | .ok n =>
      if joinPath d n ∈ w.files ∧ p.force = false then (.ok (), w)
      else runCmd exec ([p.cmd, "pull".toList] ++ (if p.force = true then ["--force".toList] else []) ++
        ["--name".toList, joinPath d n, "docker://".toList ++ p.req]) w

/-- The arguments of `docker_extract` (`src/cwl_utils/docker_extract.py:19-44`). -/
structure Args where
  singularity : Bool
  dir : Option (List Char)
  engine : Option (List Char)
  force : Bool

/-- One round of the loop in `docker_extract.run` (`src/cwl_utils/docker_extract.py:59-91`): an image without `dockerPull` is skipped. -/
def pullOne (exec : Exec) (v : List Nat × List Char) (a : Args) (r : DockerReq) (w : World) : Except Err Unit × World := match r.pull with
  | none => (.ok (), w)
  | some s =>
    if s = "" then (.ok (), w)
    else if a.singularity = true then saveSingularity exec v ⟨s.toList, a.dir, a.engine.getD "singularity".toList, a.force⟩ w
    else saveDocker exec ⟨s.toList, a.dir, a.engine.getD "docker".toList, a.force⟩ w

/-- The loop. -/
def pullAll (exec : Exec) (v : List Nat × List Char) (a : Args) : List DockerReq → World → Except Err Unit × World
  | [], w => (.ok (), w)
  | r :: rs, w => match pullOne exec v a r w with
    | (.error e, w) => (.error e, w)
    | (.ok (), w) => pullAll exec v a rs w

/-- `src/cwl_utils/docker_extract.py:47-92`: `run`; `gen` is the traversal of the loaded document.  The requirements are handled while they are
found. -/
def run (exec : Exec) (v : List Nat × List Char) (a : Args) (gen : Gen DockerReq) (w : World) : Except Err (List DockerReq) × World :=
  if a.singularity = true ∧ a.dir.getD [] = [] then (.error .systemExit, w)
  else match pullAll exec v a gen.items w with
    | (.error e, w) => (.error e, w)
    | (.ok (), w) => match gen.err with
      | some e => (.error e, w)
      | none => (.ok gen.items, w)

end CwlUtils.Docker
