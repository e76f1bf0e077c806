import Verif.Sandbox.Exec
import Verif.Sandbox.Engine
/-!
# Model of evaluations in several threads and with several engines

`NodeJSEngine.exec_js_process` (`sandboxjs.py:159-277`) as actions that may be interleaved with those of other threads, with those of the
Node.js processes, with timers and with the end of engines (`__del__`, `sandboxjs.py:114-143`).  `localdata` (`sandboxjs.py:97`) is an
attribute of the class: the table of processes belongs to a thread and is the same for all engines, while `processes_to_kill`
(`sandboxjs.py:110`) belongs to an engine.

Simplifications: a process is named by the thread that starts it and a number (the operating system gives no number twice as long as a process is in
a table, as a process that is not waited for keeps its number); `new_js_proc` gives a process or the evaluation does not begin (C163, C164); a round of
the loop (`sandboxjs.py:247-260`) is one action, and may happen after the timer has fired (it may fire inside of a round), so there are more
behaviours here than there are of the program; the end of an engine kills its processes at once (C166), and a process that is killed has ended at once
(C167 says what happens if it has not).
-/
namespace CwlUtils.Sandbox.Threads
open CwlUtils.Sandbox CwlUtils.Json

/-- The key of a process in `localdata.procs` (`sandboxjs.py:191-194,210-214`). -/
abbrev Key := EngineFile × Option PStr

/-- A process: the thread that started it, and a number. -/
abbrev Pid := Nat × Nat

/-- A Node.js process: what was written to it, what it has written so far, what of that is still in the pipes, its return code if it has ended, and
the number of timers that were left behind by evaluations on it that ended with an exception of `process_finished`. -/
structure Proc where
  inp : Bytes := []
  wroteOut : Bytes := []
  wroteErr : Bytes := []
  pipeOut : Bytes := []
  pipeErr : Bytes := []
  ended : Option Int := none
  timers : Nat := 0
  deriving DecidableEq

/-- The variables of `exec_js_process` in its loop: the process, what is left of `stdin_buf`, `stdout_buf`, `stderr_buf`, and whether its timer has
fired (`killed`). -/
structure Frame where
  pid : Pid
  rest : Bytes
  bo : Bytes := []
  be : Bytes := []
  fired : Bool := false
  deriving DecidableEq

/-- A return of `exec_js_process` or an exception. -/
abbrev Result := Except Err (Int × Bytes × Bytes)

/-- What a thread does: it begins an evaluation of the engine `e` on the process of its table or on a new one; it writes and reads; the timer of
its evaluation fires; the evaluation ends with an exception of `process_finished`, or behind the loop. -/
inductive Act
  | enter (e : Nat) (k : Key) (req : Bytes)
  | create (e : Nat) (k : Key) (n : Nat) (req : Bytes)
  | round (write : Bool) (n m : Nat)
  | fire
  | abandon
  | leave (why : Stop) (r : Result)

/-- What happens to a process: it writes, ends, or is killed by a timer of an earlier evaluation. -/
inductive PAct
  | emit (out err : Bytes)
  | exit (rc : Int)
  | late
  deriving DecidableEq

/-- What happens: a thread or a process does something, or an engine ends. -/
inductive Ev
  | thread (t : Nat) (a : Act)
  | proc (p : Pid) (a : PAct)
  | release (e : Nat)

/-- The tables of the threads, their evaluations, the processes, and `processes_to_kill` of the engines. -/
structure World where
  procs : Pid → Option Proc
  table : Nat → Key → Option Pid
  now : Nat → Option Frame
  owns : Nat → List Pid

/-- Before anything has happened. -/
def start : World := ⟨fun _ => none, fun _ _ => none, fun _ => none, fun _ => []⟩

/-- The process is in the table and `poll()` is `None` (`sandboxjs.py:191-196`). -/
def running (procs : Pid → Option Proc) (tab : Key → Option Pid) (k : Key) : Option Pid :=
  (tab k).bind (fun p => (procs p).bind (fun x => if x.ended = none then some p else none))

/-- `nodejs.kill()`. -/
def Proc.kill (x : Proc) : Proc := { x with ended := some (x.ended.getD (-9)) }

/-- `nodejs.poll()` and the return code (`sandboxjs.py:267-275`). -/
def returnCode (x : Proc) (fired : Bool) : Int :=
  match x.ended with
  | none => 0
  | some rc => if rc = 0 then 0 else if fired then -1 else rc

/-- `sandboxjs.py:262-277`: what is returned after the loop. -/
def result (x : Proc) (f : Frame) : Result :=
  if utf8Valid (cutMarker f.bo) && utf8Valid (cutMarker f.be) then .ok (returnCode x f.fired, cutMarker f.bo, cutMarker f.be) else .error .unicode

/-- Why the loop may end (`sandboxjs.py:247,258-260`): the end was read, the timer is not alive, or the write failed since the process has ended. -/
def mayStop (x : Proc) (f : Frame) : Stop → Bool
  | .finished => match processFinished f.bo f.be with
    | .ok b => b
    | .error _ => false
  | .timer => f.fired
  | .oserror => x.ended.isSome && !f.rest.isEmpty

/-- The loop is still to be run (`sandboxjs.py:247`). -/
def waits (f : Frame) : Bool :=
  match processFinished f.bo f.be with
  | .ok b => !b
  | .error _ => false

/-- `process_finished` raises `UnicodeDecodeError`. -/
def raises (f : Frame) : Bool :=
  match processFinished f.bo f.be with
  | .ok _ => false
  | .error _ => true

/-- `select.PIPE_BUF` -/
def pipeBuf : Nat := 4096

/-- `sandboxjs.py:250-257`: a round of the loop, with the numbers of bytes read. -/
def readsOn (x : Proc) (f : Frame) (write : Bool) (n m : Nat) : Option (Proc × Frame) :=
  if waits f && n ≤ pipeBuf && m ≤ pipeBuf && (!write || x.ended.isNone || f.rest.isEmpty) then
    some ({ x with
        inp := if write then x.inp ++ f.rest.take pipeBuf else x.inp
        pipeOut := x.pipeOut.drop n
        pipeErr := x.pipeErr.drop m },
      { f with
        rest := if write then f.rest.drop pipeBuf else f.rest
        bo := f.bo ++ x.pipeOut.take n
        be := f.be ++ x.pipeErr.take m })
  else none

/-- What changes with an action of a thread: its table, its evaluation, a process, and the processes of an engine. -/
structure Change where
  tab : Key → Option Pid
  now : Option Frame
  pid : Pid
  proc : Proc
  own : Option Nat := none

def setKey (tab : Key → Option Pid) (k : Key) (p : Pid) : Key → Option Pid := fun k' => if k' = k then some p else tab k'

/-- An action in the evaluation `f` on the process `x`. -/
def inside (tab : Key → Option Pid) (f : Frame) (x : Proc) : Act → Option Change
  | .enter _ _ _ => none
  | .create _ _ _ _ => none
  | .round w n m => (readsOn x f w n m).map (fun r => ⟨tab, some r.2, f.pid, r.1, none⟩)
  | .fire => if f.fired then none else some ⟨tab, some { f with fired := true }, f.pid, x.kill, none⟩
  | .abandon => if raises f && !f.fired then some ⟨tab, none, f.pid, { x with timers := x.timers + 1 }, none⟩
    else if raises f then some ⟨tab, none, f.pid, x, none⟩ else none
  | .leave why r => if mayStop x f why = true ∧ r = result x f then some ⟨tab, none, f.pid, x, none⟩ else none

/-- The beginning of an evaluation (`sandboxjs.py:191-231`): the process of the table is used if it runs; otherwise a new one is started, which
is put into the table and into `processes_to_kill` of the engine. -/
def begins (t : Nat) (procs : Pid → Option Proc) (tab : Key → Option Pid) : Act → Option Change
  | .enter _ k req => (running procs tab k).bind (fun p => (procs p).map (fun x => ⟨tab, some ⟨p, req, [], [], false⟩, p, x, none⟩))
  | .create e k n req =>
    if (running procs tab k).isNone && (procs (t, n)).isNone then
      some ⟨setKey tab k (t, n), some ⟨(t, n), req, [], [], false⟩, (t, n), {}, some e⟩
    else none
  | _ => none

/-- An action of the thread `t`. -/
def act (t : Nat) (procs : Pid → Option Proc) (tab : Key → Option Pid) (now : Option Frame) (a : Act) : Option Change :=
  match now with
  | none => begins t procs tab a
  | some f => (procs f.pid).bind (fun x => inside tab f x a)

/-- What a process may write, from what it has got and written; anything is possible. -/
abbrev Writes := Bytes → Bytes → Bytes → Bytes → Bytes → Bool

/-- Something happens to a process. -/
def procAct (B : Writes) (x : Proc) : PAct → Option Proc
  | .emit o e => if x.ended = none && B x.inp x.wroteOut x.wroteErr o e then
      some { x with wroteOut := x.wroteOut ++ o, wroteErr := x.wroteErr ++ e, pipeOut := x.pipeOut ++ o, pipeErr := x.pipeErr ++ e }
    else none
  | .exit rc => if x.ended = none then some { x with ended := some rc } else none
  | .late => if x.timers = 0 then none else some { x.kill with timers := x.timers - 1 }

def setProcs (procs : Pid → Option Proc) (p : Pid) (x : Proc) : Pid → Option Proc := fun q => if q = p then some x else procs q

/-- The world after a change of the thread `t`. -/
def World.change (w : World) (t : Nat) (c : Change) : World :=
  ⟨setProcs w.procs c.pid c.proc, fun t' => if t' = t then c.tab else w.table t', fun t' => if t' = t then c.now else w.now t',
    fun e => if c.own = some e then w.owns e ++ [c.pid] else w.owns e⟩

/-- One step. -/
def step (B : Writes) (w : World) : Ev → Option World
  | .thread t a => (act t w.procs (w.table t) (w.now t) a).map (w.change t)
  | .proc p a => (w.procs p).bind (fun x => (procAct B x a).map (fun y => { w with procs := setProcs w.procs p y }))
  | .release e => some { w with
      procs := fun p => if p ∈ w.owns e then (w.procs p).map Proc.kill else w.procs p
      owns := fun e' => if e' = e then [] else w.owns e' }

/-- Several steps. -/
def run (B : Writes) : World → List Ev → Option World
  | w, [] => some w
  | w, ev :: evs => (step B w ev).bind (fun w' => run B w' evs)

end CwlUtils.Sandbox.Threads
