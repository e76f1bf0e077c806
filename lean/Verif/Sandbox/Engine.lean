import Verif.Json.Strict
import Verif.Sandbox.Utf8
import Verif.Sandbox.Props
/-!
# The JavaScript side of an evaluation

`src/cwl_utils/cwlNodeEngine.js`, `src/cwl_utils/cwlNodeEngineWithContext.js` and
`src/cwl_utils/cwlNodeEngineJSConsole.js` (which differs from the first only in the object that scripts
see as `console`), with the text that `src/cwl_utils/sandboxjs.py:228-234` sends to them.

What a script does is a parameter: the text that `JSON.stringify` of its result gives (`undefined` if it
has none), or that an exception is thrown.  Chunks are the texts that a `data` event delivers.
-/
namespace CwlUtils.Sandbox

open CwlUtils.Json (Text J PStr Py Flt)

/-- `incoming.indexOf("\n")`, `incoming.substr(0, i)` and `incoming.substr(i+1)`
(`cwlNodeEngine.js:6,9,10`). -/
def firstLine : Text → Option (Text × Text)
  | [] => none
  | c :: r => if c = '\n' then some ([], r) else (firstLine r).map (fun p => (c :: p.1, p.2))

/-- `JSON.stringify(require("vm").runInNewContext(fn, {}))` for a line (`cwlNodeEngine.js:9,11`); `none`
if an exception is thrown, in particular if the line is not JSON or not a string. -/
def answer (run : List Nat → Option Text) (line : Text) : Option Text :=
  match CwlUtils.Json.jsParse line with
  | some (.str u) => run u
  | _ => none

/-- `cwlNodeEngine.js:4-20`: a chunk arrives.  The result is what remains in `incoming`, and the line
that is written for each evaluation (`none`: a message on stderr instead); the markers follow each of
them (`wire`).  If the line is not JSON, `incoming` is not shortened. -/
def onData (run : List Nat → Option Text) (incoming chunk : Text) : Text × List (Option Text) :=
  match firstLine (incoming ++ chunk) with
  | none => (incoming ++ chunk, [])
  | some (line, rest) =>
      (if (CwlUtils.Json.jsParse line).isSome = true then rest else incoming ++ chunk, [answer run line])

/-- All chunks, one after the other. -/
def onChunks (run : List Nat → Option Text) : Text → List Text → Text × List (Option Text)
  | incoming, [] => (incoming, [])
  | incoming, c :: cs =>
      ((onChunks run (onData run incoming c).1 cs).1,
        (onData run incoming c).2 ++ (onChunks run (onData run incoming c).1 cs).2)

/-- State of `cwlNodeEngineWithContext.js:3-5`: `E` is what the object `context` can be. -/
structure CtxState (E : Type) where
  incoming : Text
  first : Bool
  env : E

/-- What scripts do: `make` is the first one, `run` the others, which can change the context. -/
structure Scripts (E : Type) where
  make : List Nat → Option E
  run : E → List Nat → Option Text × E

/-- One pass of the loop (`cwlNodeEngineWithContext.js:11-33`), after the line is taken off. -/
def ctxLine {E : Type} (S : Scripts E) (first : Bool) (env : E) (line : Text) : E × List (Option Text) :=
  match CwlUtils.Json.jsParse line with
  | some (.str u) => if first then ((S.make u).getD env, []) else ((S.run env u).2, [(S.run env u).1])
  | _ => if first then (env, []) else (env, [none])

/-- `cwlNodeEngineWithContext.js:11-35`: the loop over the lines; the number bounds it. -/
def ctxLoop {E : Type} (S : Scripts E) : Nat → CtxState E → CtxState E × List (Option Text)
  | 0, st => (st, [])
  | n + 1, st => match firstLine st.incoming with
    | none => (st, [])
    | some (line, rest) =>
        ((ctxLoop S n ⟨rest, false, (ctxLine S st.first st.env line).1⟩).1,
          (ctxLine S st.first st.env line).2 ++
            (ctxLoop S n ⟨rest, false, (ctxLine S st.first st.env line).1⟩).2)

/-- A chunk arrives (`cwlNodeEngineWithContext.js:7-36`). -/
def ctxData {E : Type} (S : Scripts E) (st : CtxState E) (chunk : Text) : CtxState E × List (Option Text) :=
  ctxLoop S ((st.incoming ++ chunk).length + 1) ⟨st.incoming ++ chunk, st.first, st.env⟩

def ctxChunks {E : Type} (S : Scripts E) : CtxState E → List Text → CtxState E × List (Option Text)
  | st, [] => (st, [])
  | st, c :: cs => ((ctxChunks S (ctxData S st c).1 cs).1, (ctxData S st c).2 ++ (ctxChunks S (ctxData S st c).1 cs).2)

/-- `json_dumps(text) + "\n"` for a string (`sandboxjs.py:230-231`). -/
def requestLine (s : PStr) : Except CwlUtils.Json.WErr Text :=
  (CwlUtils.Json.dumps none (.str s)).map (· ++ ['\n'])

/-- `stdin_text` (`sandboxjs.py:228-231`): before the first script of a new process comes the context. -/
def request (created : Bool) (context : Option PStr) (s : PStr) : Except CwlUtils.Json.WErr Text :=
  match created, context with
  | true, some c => match requestLine c, requestLine s with
    | .ok a, .ok b => .ok (a ++ b)
    | .error e, _ => .error e
    | _, .error e => .error e
  | _, _ => requestLine s

/-- Which engine a request is for (`sandboxjs.py:179-187`). -/
inductive EngineFile
  | console | context | plain
deriving DecidableEq, Repr

/-- `sandboxjs.py:176-187`: the engine, and the key of the process in `localdata.procs`
(`191-194,210-214`): the engine alone, or with the context. -/
def engineFor (jsConsole : Bool) (context : Option PStr) : Except Err (EngineFile × Option PStr) :=
  if jsConsole = true ∧ context.isSome = true then .error .notImplemented
  else if jsConsole = true then .ok (.console, none)
  else if context.isSome = true then .ok (.context, context)
  else .ok (.plain, none)

/-- A call of `exec_js_process`; `dead`: the process found in the table has ended
(`nodejs.poll() is not None`). -/
structure Request where
  jsConsole : Bool
  context : Option PStr
  script : PStr
  dead : Bool

/-- The processes of a thread by their keys, each with the text that was sent to it. -/
abbrev Procs := List ((EngineFile × Option PStr) × Text)

/-- `self.localdata.procs[key] = proc` -/
def setProc (k : EngineFile × Option PStr) (t : Text) : Procs → Procs
  | [] => [(k, t)]
  | (k', t') :: r => if k' = k then (k, t) :: r else (k', t') :: setProc k t r

def getProc (k : EngineFile × Option PStr) : Procs → Option Text
  | [] => none
  | (k', t') :: r => if k' = k then some t' else getProc k r

/-- `sandboxjs.py:176-234`: find or start the process, and send it the request. -/
def sendTo (ps : Procs) (r : Request) : Except Err Procs :=
  match engineFor r.jsConsole r.context with
  | .error e => .error e
  | .ok k =>
      match getProc k ps with
      | some t =>
          match request r.dead r.context r.script with
          | .ok q => .ok (setProc k ((if r.dead = true then [] else t) ++ q) ps)
          | .error _ => .error .value
      | none =>
          match request true r.context r.script with
          | .ok q => .ok (setProc k q ps)
          | .error _ => .error .value

/-- A history of requests. -/
def sendAll : Procs → List Request → Except Err Procs
  | ps, [] => .ok ps
  | ps, r :: rs => match sendTo ps r with
    | .error e => .error e
    | .ok ps' => sendAll ps' rs

/-- `json.loads(stdout)` where `stdout` was decoded from the bytes (`sandboxjs.py:277,519`). -/
def jsLoads (F : Text → Flt) (b : Bytes) : Option Py := (decode b).bind (CwlUtils.Json.loads F)

end CwlUtils.Sandbox
