import Verif.Base.Val
/-!
# Model of the JavaScript process protocol

`src/cwl_utils/sandboxjs.py:159-277` (`NodeJSEngine.exec_js_process`) and `472-525`
(`NodeJSEngine.eval`), with the process side `src/cwl_utils/cwlNodeEngine.js:4-20`.

Not modelled: starting the process (`new_js_proc`), the writing of stdin (the process is assumed to
get the whole request), console mode and contexts.
-/
namespace CwlUtils.Sandbox

/-- Bytes on a pipe. -/
abbrev Bytes := List UInt8

/-- Continuation byte of UTF-8. -/
def isCont (b : UInt8) : Bool := 0x80 ≤ b && b ≤ 0xBF

/-- Does `bytes.decode("utf-8")` succeed?  The table of well-formed sequences of the Unicode
standard (Table 3-7), which CPython implements. -/
def utf8Valid : Bytes → Bool
  | [] => true
  | a :: rest =>
      if a < 0x80 then utf8Valid rest
      else if 0xC2 ≤ a && a ≤ 0xDF then
        match rest with
        | b :: r => isCont b && utf8Valid r
        | _ => false
      else if 0xE0 ≤ a && a ≤ 0xEF then
        match rest with
        | b :: c :: r =>
            (if a = 0xE0 then 0xA0 ≤ b && b ≤ 0xBF
             else if a = 0xED then 0x80 ≤ b && b ≤ 0x9F
             else isCont b) && isCont c && utf8Valid r
        | _ => false
      else if 0xF0 ≤ a && a ≤ 0xF4 then
        match rest with
        | b :: c :: d :: r =>
            (if a = 0xF0 then 0x90 ≤ b && b ≤ 0xBF
             else if a = 0xF4 then 0x80 ≤ b && b ≤ 0x8F
             else isCont b) && isCont c && isCont d && utf8Valid r
        | _ => false
      else false

/-- The text `r1cepzbhUTxtykz5XTC4` as bytes. -/
def mark : Bytes :=
  [114, 49, 99, 101, 112, 122, 98, 104, 85, 84, 120, 116, 121, 107, 122, 53, 88, 84, 67, 52]

/-- `sandboxjs.py:103`: `process_finished_str`, the marker with a newline. -/
def sentinel : Bytes := mark ++ [10]

/-- One pass of the loop `sandboxjs.py:247-260`: how many bytes `os.read` takes from stdout and
stderr (0: not ready), or that an `OSError` ends the loop. -/
structure Round where
  out : Nat
  err : Nat
  oserr : Bool := false
  deriving DecidableEq, Repr

/-- Why the loop ended. -/
inductive Stop where
  | finished | timer | oserror
  deriving DecidableEq, Repr

/-- State after the loop: what is still in the pipes and what was read. -/
structure LoopEnd where
  pipeOut : Bytes
  pipeErr : Bytes
  bufOut : Bytes
  bufErr : Bytes
  stop : Stop
  deriving DecidableEq, Repr

/-- `b.decode("utf-8").endswith(process_finished_str)`.  The suffix test is made on the bytes: for
valid UTF-8 this is the same, because the marker is ASCII. -/
def endsMarked (b : Bytes) : Except Err Bool :=
  if utf8Valid b then .ok (sentinel.isSuffixOf b) else .error .unicode

/-- `sandboxjs.py:240-245`: `process_finished()`; `and` does not look at stderr if stdout is not
finished. -/
def processFinished (bo be : Bytes) : Except Err Bool :=
  match endsMarked bo with
  | .error e => .error e
  | .ok false => .ok false
  | .ok true => endsMarked be

/-- `sandboxjs.py:247-260`: the loop.  The schedule is the list of rounds that happen before the
timer fires; when it is used up, `timer.is_alive()` is false. -/
def readLoop : List Round → (po pe bo be : Bytes) → Except Err LoopEnd
  | [], po, pe, bo, be =>
      match processFinished bo be with
      | .error e => .error e
      | .ok true => .ok ⟨po, pe, bo, be, .finished⟩
      | .ok false => .ok ⟨po, pe, bo, be, .timer⟩
  | r :: rs, po, pe, bo, be =>
      match processFinished bo be with
      | .error e => .error e
      | .ok true => .ok ⟨po, pe, bo, be, .finished⟩
      | .ok false =>
          if r.oserr then .ok ⟨po, pe, bo, be, .oserror⟩
          else readLoop rs (po.drop r.out) (pe.drop r.err) (bo ++ po.take r.out) (be ++ pe.take r.err)

/-- `buf[: -len(process_finished_str) - 1]` (`sandboxjs.py:264-265`). -/
def cutMarker (b : Bytes) : Bytes := b.take (b.length - (sentinel.length + 1))

/-- Result of `exec_js_process`, with the bytes left in the pipes. -/
structure ExecEnd where
  returncode : Int
  stdout : Bytes
  stderr : Bytes
  pipeOut : Bytes
  pipeErr : Bytes
  deriving DecidableEq, Repr

/-- `sandboxjs.py:247-277`: the rest of `exec_js_process` once the request is sent. `poll` is what
`nodejs.poll()` returns at the end (chosen by the operating system); the timer appends to `killed`
when it fires. -/
def execJs (sched : List Round) (poll : Option Int) (po pe : Bytes) : Except Err ExecEnd :=
  match readLoop sched po pe [] [] with
  | .error e => .error e
  | .ok l =>
      let rc : Int := match poll with
        | none => 0
        | some n => if n = 0 then 0 else if l.stop = .timer then -1 else n
      let o := cutMarker l.bufOut
      let e := cutMarker l.bufErr
      if utf8Valid o && utf8Valid e then .ok ⟨rc, o, e, l.pipeOut, l.pipeErr⟩ else .error .unicode

/-- `sandboxjs.py:484-525`: what `eval` makes of the result; `loads` is `json.loads`, `none` for
`ValueError`. -/
def evalJs {α : Type} (loads : Bytes → Option α) (r : Except Err ExecEnd) : Except Err α :=
  match r with
  | .error e => .error e
  | .ok x =>
      if x.returncode ≠ 0 then .error .javascript
      else match loads x.stdout with
        | some v => .ok v
        | none => .error .javascript

/-- A line written by the process before its end marker (`cwlNodeEngine.js:11,14`), if any. -/
def wire : Option Bytes → Bytes
  | none => sentinel
  | some b => b ++ 10 :: sentinel

/-- One evaluation in a history: what the process writes to stdout and stderr, and the schedule. -/
structure Call where
  out : Option Bytes
  err : Option Bytes
  sched : List Round

/-- A history of evaluations on one process (`sandboxjs.py:191-214`: the process is kept while it is
alive): unread bytes of a call stay in the pipes for the next one. -/
def runCalls : (po pe : Bytes) → List Call → Except Err (List (Bytes × Bytes))
  | _, _, [] => .ok []
  | po, pe, c :: cs =>
      match execJs c.sched none (po ++ wire c.out) (pe ++ wire c.err) with
      | .error e => .error e
      | .ok r => (runCalls r.pipeOut r.pipeErr cs).map (fun rest => (r.stdout, r.stderr) :: rest)

/-- `sandboxjs.py:47-53`: `code_fragment_to_js`. -/
def codeFragmentToJs (jscript jslib : List Char) : List Char :=
  let inner := if 1 < jscript.length ∧ jscript.head? = some '{' then jscript
    else "{return (".toList ++ jscript ++ ");}".toList
  "\"use strict\";\n".toList ++ jslib ++ "\n(function()".toList ++ inner ++ ")()".toList

end CwlUtils.Sandbox
