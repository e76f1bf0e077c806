import Verif.Sandbox.Version
/-!
# Model of the choice of an interpreter for expressions

`NodeJSEngine.new_js_proc`, `sandboxjs.py:279-470`, with `utils.py:213-232`
(`singularity_supports_userns`).  The commands that are run, the processes that are started and the file
system are the outside world: their results may be anything and may depend on all that went on before.
Everything that is done outside is written down in a trace.
-/
namespace CwlUtils.Sandbox

/-- The exceptions that matter here: `FileNotFoundError` (errno `ENOENT`), other `OSError`,
`CalledProcessError`, `ValueError`, the plain `Exception` for an unknown engine, `JavascriptException`,
and any other one. -/
inductive Exc where
  | enoent | osError | called | value | unknownEngine | javascript | other
  deriving DecidableEq, Repr

/-- The result of a command that is run to its end (`subprocess.check_output`). -/
inductive Ran where
  | out (text : String)
  | raise (e : Exc)
  deriving DecidableEq, Repr

/-- The result of the test of `--userns`: the text on the error stream, or no end within a minute. -/
inductive Probe where
  | text (s : String)
  | timeout
  | raise (e : Exc)
  deriving DecidableEq, Repr

/-- What is done outside, with its result. -/
inductive Event where
  | ran (args : List String) (cwd : Option String) (r : Ran)
  | started (args : List String) (r : Option Exc)
  | globbed (pattern : String) (found : List String)
  | probed (r : Probe)
  deriving DecidableEq, Repr

/-- The outside world. `cache` is the environment variable `CWL_SINGULARITY_CACHE`, `cwd` the current
directory, `path` joins `node_alpine.sif` to a directory as `pathlib` does, `ws` is white space. -/
structure Outside where
  run : List Event → List String → Option String → Ran
  start : List Event → List String → Option Exc
  glob : List Event → String → List String
  probe : List Event → Probe
  cache : Option String
  cwd : String
  path : String → String
  ws : Char → Bool

/-- The state: what was done, `processes_to_kill` (the command lines), `have_node_slim` and the global
`_USERNS`. -/
structure St where
  trace : List Event
  kill : List (List String)
  haveSlim : Bool
  userns : Option Bool
  deriving DecidableEq, Repr

/-- Run a command to its end. -/
def doRun (W : Outside) (args : List String) (cwd : Option String) (st : St) : Ran × St :=
  (W.run st.trace args cwd, { st with trace := st.trace ++ [.ran args cwd (W.run st.trace args cwd)] })

/-- `subprocess.Popen(...)` and, if that works, `self.processes_to_kill.append(nodejs)`. -/
def doStart (W : Outside) (args : List String) (st : St) : Option Exc × St :=
  (W.start st.trace args,
    { st with
      trace := st.trace ++ [.started args (W.start st.trace args)]
      kill := if W.start st.trace args = none then st.kill ++ [args] else st.kill })

/-- `glob.glob(pattern)`. -/
def doGlob (W : Outside) (pattern : String) (st : St) : List String × St :=
  (W.glob st.trace pattern, { st with trace := st.trace ++ [.globbed pattern (W.glob st.trace pattern)] })

/-- Is the exception a `CalledProcessError` or an `OSError`? -/
def Exc.ofProcess : Exc → Bool
  | .enoent | .osError | .called => true
  | _ => false

/-- The command that tests whether a name is Node.js (`sandboxjs.py:291-297`). -/
def testCmd (n : String) : List String := [n, "--eval", "process.stdout.write('t')"]

/-- `sandboxjs.py:288-311`: the loop over the names.  A process is its index in `processes_to_kill`;
`cur` is the variable `nodejs`.  The result is `nodejs` and `required_node_version`. -/
def tryNodes (W : Outside) (minimum js : String) : List String → Option Nat → St →
    Except Exc (Option Nat × Bool) × St
  | [], cur, st => (.ok (cur, false), st)
  | n :: ns, cur, st =>
      match doRun W (testCmd n) none st with
      | (.raise e, st1) => if e.ofProcess then tryNodes W minimum js ns cur st1 else (.error e, st1)
      | (.out t, st1) =>
          if t ≠ "t" then tryNodes W minimum js ns cur st1
          else
            match doStart W [n, "--eval", js] st1 with
            | (some e, st2) => if e.ofProcess then tryNodes W minimum js ns cur st2 else (.error e, st2)
            | (none, st2) =>
                match doRun W [n, "-v"] none st2 with
                | (.raise e, st3) =>
                    if e.ofProcess then tryNodes W minimum js ns (some (st2.kill.length - 1)) st3 else (.error e, st3)
                | (.out v, st3) =>
                    match checkVersion W.ws v.toList minimum.toList with
                    | .error _ => (.error .value, st3)
                    | .ok b => (.ok (some (st2.kill.length - 1), b), st3)

/-- `sandboxjs.py:315-319`: the name of the image. -/
def nodeImage (engine : String) : String :=
  if engine = "singularity" then "docker://docker.io/node:alpine"
  else if engine = "podman" ∨ engine = "udocker" then "docker.io/library/node:alpine"
  else "node:alpine"

/-- `sub in s` for texts. -/
def hasText (sub s : String) : Bool := decide (sub.toList <:+: s.toList)

/-- `len(text.split("\n")) <= 1`. -/
def oneLine (text : String) : Bool := !decide ('\n' ∈ text.toList)

/-- The directory of the images of Singularity, if the variable is set and not empty. -/
def cacheDir (W : Outside) : Option String :=
  match W.cache with
  | none => none
  | some d => if d = "" then none else some d

/-- `sandboxjs.py:330-338`: where the file of the image is looked for. -/
def sifPattern (W : Outside) : String :=
  match cacheDir W with
  | some d => d ++ "/node_alpine.sif"
  | none => W.path W.cwd

/-- `sandboxjs.py:321-363`: look for the image. The result is its name and whether it is missing. -/
def lookup (W : Outside) (engine : String) (st : St) : Except Exc (String × Bool) × St :=
  if engine = "docker" ∨ engine = "podman" then
    match doRun W [engine, "images", "-q", nodeImage engine] none st with
    | (.raise e, st1) => (.error e, st1)
    | (.out t, st1) => (.ok (nodeImage engine, oneLine t), st1)
  else if engine = "singularity" then
    match doGlob W (sifPattern W) st with
    | ([], st1) => (.ok (nodeImage engine, true), st1)
    | (f :: _, st1) => (.ok (f, false), st1)
  else if engine = "udocker" then
    match doRun W [engine, "images"] none st with
    | (.raise e, st1) => (.error e, st1)
    | (.out t, st1) =>
        (.ok (nodeImage engine, oneLine (if hasText (nodeImage engine) t then nodeImage engine else "")), st1)
  else (.error .unknownEngine, st)

/-- `sandboxjs.py:365-369`: the command that pulls the image. -/
def pullCmd (engine : String) (force : Bool) (img : String) : List String :=
  [engine, "pull"] ++ (if force then ["--force"] else []) ++ [img]

/-- `sandboxjs.py:364-388`: pull the image if needed; `need` is `need_singularity or need_docker`. -/
def pull (W : Outside) (engine : String) (force need : Bool) (img : String) (st : St) : Except Exc Unit × St :=
  if need || force then
    match doRun W (pullCmd engine force img) (some ((cacheDir W).getD W.cwd)) st with
    | (.out _, st1) => (.ok (), st1)
    | (.raise e, st1) =>
        if e.ofProcess then
          if engine = "singularity" ∧ need then
            match doGlob W (W.path ((cacheDir W).getD W.cwd)) st1 with
            | ([], st2) => (.error e, st2)
            | (_ :: _, st2) => (.ok (), st2)
          else (.error e, st1)
        else (.error e, st1)
  else (.ok (), st)

/-- `sandboxjs.py:321-389`: the image that is used; the first time it is looked up and pulled if needed. -/
def prepare (W : Outside) (engine : String) (force : Bool) (st : St) : Except Exc String × St :=
  if st.haveSlim then (.ok (nodeImage engine), st)
  else
    match lookup W engine st with
    | (.error e, st1) => (.error e, st1)
    | (.ok (img, need), st1) =>
        match pull W engine force need img st1 with
        | (.error e, st2) => (.error e, st2)
        | (.ok (), st2) => (.ok img, { st2 with haveSlim := true })

/-- `utils.py:225-229`. -/
def usernsText (s : String) : Bool :=
  hasText "No valid /bin/sh" s || hasText "/bin/sh doesn't exist in container" s ||
    hasText "executable file not found in" s

/-- `utils.py:213-232`: `singularity_supports_userns`. -/
def supportsUserns (W : Outside) (st : St) : Except Exc Bool × St :=
  match st.userns with
  | some b => (.ok b, st)
  | none =>
      let r := W.probe st.trace
      let st1 := { st with trace := st.trace ++ [.probed r] }
      match r with
      | .raise e => (.error e, st1)
      | .timeout => (.ok false, { st1 with userns := some false })
      | .text s => (.ok (usernsText s), { st1 with userns := some (usernsText s) })

/-- `sandboxjs.py:390-424`: the options between the engine and the image. -/
def engineArgs (W : Outside) (engine : String) (st : St) : Except Exc (List String) × St :=
  if engine ≠ "singularity" ∧ hasText "udocker" engine = false then
    (.ok ["run", "--attach=STDIN", "--attach=STDOUT", "--attach=STDERR", "--sig-proxy=true", "--interactive",
      "--rm"], st)
  else if hasText "singularity" engine = true then
    match supportsUserns W st with
    | (.error e, st1) => (.error e, st1)
    | (.ok b, st1) => (.ok ["exec", "--contain", "--ipc", "--cleanenv", if b then "--userns" else "--pid"], st1)
  else (.ok ["run", "--device=/dev/stdin", "--device=/dev/stdout", "--device=/dev/stderr"], st)

/-- `sandboxjs.py:314-442`: the body of the `try` for containers. The result is the new process. -/
def container (W : Outside) (engine js : String) (force : Bool) (st : St) : Except Exc Nat × St :=
  match prepare W engine force st with
  | (.error e, st1) => (.error e, st1)
  | (.ok img, st1) =>
      match engineArgs W engine st1 with
      | (.error e, st2) => (.error e, st2)
      | (.ok opts, st2) =>
          match doStart W (engine :: opts ++ [img, "node", "--eval", js]) st2 with
          | (some e, st3) => (.error e, st3)
          | (none, st3) => (.ok (st3.kill.length - 1), st3)

/-- `sandboxjs.py:443-468`: what is caught from the part for containers.  Without a container there is no
process (452-459) or one that is too old (462-468). -/
def catchContainer : Except Exc Nat × St → Except Exc Nat × St
  | (.ok p, st) => (.ok p, st)
  | (.error .enoent, st) => (.error .javascript, st)
  | (.error .called, st) => (.error .javascript, st)
  | (.error e, st) => (.error e, st)

/-- `sandboxjs.py:279-470`: `new_js_proc`; `minimum` is `minimum_node_version_str`. -/
def newProc (W : Outside) (minimum engine js : String) (force : Bool) (st : St) : Except Exc Nat × St :=
  match tryNodes W minimum js ["nodejs", "node"] none st with
  | (.error e, st1) => (.error e, st1)
  | (.ok (some p, true), st1) => (.ok p, st1)
  | (.ok (_, _), st1) => catchContainer (container W engine js force st1)

end CwlUtils.Sandbox
