import Verif.Sandbox.NewProc
/-!
# Model of the end of a JavaScript engine

`NodeJSEngine.__del__`, `sandboxjs.py:114-143`.  As in `NewProc.lean` the outside world may answer anything; what is done
is written down in a trace.  A process is its place in `processes_to_kill`.
-/
namespace CwlUtils.Sandbox

/-- The exceptions that matter at the end: `FileNotFoundError`, `subprocess.TimeoutExpired`, `TypeError`, `IndexError` and any other. -/
inductive DExc where
  | enoent | timeout | typeError | index | other
  deriving DecidableEq, Repr

/-- What is done: a command that stops the container of a process is started; that command is killed; the input of a process is closed; the
process is waited for (at most ten seconds); it is killed. -/
inductive DEvent where
  | told (i : Nat) (args : List String)
  | gaveUp (i : Nat)
  | closed (i : Nat)
  | waited (i : Nat)
  | killed (i : Nat)
  deriving DecidableEq, Repr

/-- The outside world at the end: reading the file with the id of a container; starting the command that stops it, waiting for that command and
killing it; whether a process has an input, closing it; waiting for the process; killing it. -/
structure Closing where
  read : Nat → String → Except DExc String
  tell : Nat → List String → Option DExc
  tellWait : Nat → Option DExc
  tellKill : Nat → Option DExc
  stdin : Nat → Bool
  close : Nat → Option DExc
  wait : Nat → Option DExc
  kill : Nat → Option DExc

/-- `text.split("=")[1]`; `none`: `IndexError`. -/
def secondPart (s : String) : Option String :=
  match s.toList.dropWhile (· ≠ '=') with
  | [] => none
  | _ :: r => some (String.ofList (r.takeWhile (· ≠ '=')))

/-- `sandboxjs.py:122-124`: the files with the ids of containers.  The arguments of a process are a list of strings here
(119-121). -/
def cidFiles : List String → Except DExc (List String)
  | [] => .ok []
  | a :: as =>
    if hasText "--cidfile" a then
      match secondPart a with
      | none => .error .index
      | some f => match cidFiles as with
        | .error e => .error e
        | .ok fs => .ok (f :: fs)
    else cidFiles as

/-- `sandboxjs.py:131-136`: wait for the command that stops the container. A `FileNotFoundError` is suppressed (126). -/
def tellEnd (C : Closing) (i : Nat) (tr : List DEvent) : Option DExc × List DEvent :=
  match C.tellWait i with
  | none => (none, tr)
  | some .timeout =>
    match C.tellKill i with
    | none => (none, tr ++ [.gaveUp i])
    | some .enoent => (none, tr)
    | some e => (some e, tr)
  | some .enoent => (none, tr)
  | some e => (some e, tr)

/-- `sandboxjs.py:127-136`: read the id and run the command. -/
def tell (C : Closing) (i : Nat) (program file : String) (tr : List DEvent) : Option DExc × List DEvent :=
  match C.read i file with
  | .error .enoent => (none, tr)
  | .error e => (some e, tr)
  | .ok cid =>
    match C.tell i [program, "kill", cid] with
    | some .enoent => (none, tr)
    | some e => (some e, tr)
    | none => tellEnd C i (tr ++ [.told i [program, "kill", cid]])

/-- `sandboxjs.py:122-136`: stop the container of a process, if it has one. -/
def stopContainer (C : Closing) (i : Nat) (args : List String) (tr : List DEvent) : Option DExc × List DEvent :=
  match cidFiles args, args with
  | .error e, _ => (some e, tr)
  | .ok [], _ => (none, tr)
  | .ok (f :: _), p :: _ => tell C i p f tr
  | .ok (_ :: _), [] => (some .index, tr)

/-- `sandboxjs.py:141`. -/
def killIt (C : Closing) (i : Nat) (tr : List DEvent) : Option DExc × List DEvent :=
  match C.kill i with
  | none => (none, tr ++ [.killed i])
  | some e => (some e, tr)

/-- `sandboxjs.py:139-141`. -/
def waitKill (C : Closing) (i : Nat) (tr : List DEvent) : Option DExc × List DEvent :=
  match C.wait i with
  | none => killIt C i (tr ++ [.waited i])
  | some .timeout => killIt C i (tr ++ [.waited i])
  | some e => (some e, tr)

/-- `sandboxjs.py:137-141`. -/
def closeIt (C : Closing) (i : Nat) (tr : List DEvent) : Option DExc × List DEvent :=
  if C.stdin i then
    match C.close i with
    | none => waitKill C i (tr ++ [.closed i])
    | some e => (some e, tr)
  else waitKill C i tr

/-- `sandboxjs.py:118-141`: one process. -/
def releaseOne (C : Closing) (i : Nat) (args : List String) (tr : List DEvent) : Option DExc × List DEvent :=
  match stopContainer C i args tr with
  | (some e, tr1) => (some e, tr1)
  | (none, tr1) => closeIt C i tr1

/-- `sandboxjs.py:116-141`: the loop. The result is the exception, what is left of `processes_to_kill`, and the trace. -/
def release (C : Closing) : Nat → List (List String) → List DEvent → Option DExc × List (List String) × List DEvent
  | _, [], tr => (none, [], tr)
  | i, p :: ps, tr =>
    match releaseOne C i p tr with
    | (some e, tr1) => (some e, ps, tr1)
    | (none, tr1) => release C (i + 1) ps tr1

/-- `sandboxjs.py:114-143`: `__del__`; a `TypeError` is caught. -/
def del (C : Closing) (ps : List (List String)) : Option DExc × List (List String) × List DEvent :=
  match release C 0 ps [] with
  | (some .typeError, q, tr) => (none, q, tr)
  | o => o

end CwlUtils.Sandbox
