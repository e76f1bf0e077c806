import Verif.Sandbox.Version
/-!
# Model of what is reported about an evaluation

`sandboxjs.py:56-69` (`linenum`, `stdfmt`) and `472-525` (`eval`): the console output that is logged and the
texts of the exceptions, with the console of the script in `cwlNodeEngineJSConsole.js:2-7`.  Texts are lists of
characters; the cut of the marker (`sandboxjs.py:264-265`) is counted in bytes there, which is the same for the
marker itself and for output in ASCII.
-/
namespace CwlUtils.Sandbox

/-- A text. -/
abbrev Text := List Char

/-- `sep.join(parts)`, also the `join` of JavaScript. -/
def joinText (sep : Text) : List Text → Text
  | [] => []
  | [a] => a
  | a :: b :: r => a ++ sep ++ joinText sep (b :: r)

/-- `console.log` or `console.error` of the script. -/
inductive Console where
  | log | err
  deriving DecidableEq, Repr

/-- The tag of the lines, `cwlNodeEngineJSConsole.js:3,6`. -/
def Console.tag : Console → Text
  | .log => ['[', 'l', 'o', 'g', ']']
  | .err => ['[', 'e', 'r', 'r', ']']

/-- `cwlNodeEngineJSConsole.js:2-7`: what one call of `console.log` or `console.error` writes on the error
stream; `text` is the formatted text. -/
def consoleWrites (k : Console) (text : Text) : Text :=
  k.tag ++ [' '] ++ joinText (['\n'] ++ k.tag ++ [' ']) (splitOn '\n' text) ++ ['\n']

/-- `console.error(e)` for the text of an exception, if there is one (`cwlNodeEngineJSConsole.js:24-26`). -/
def thrownWrites : Option Text → Text
  | none => []
  | some t => t ++ ['\n']

/-- The error stream of an evaluation before the marker: the calls in their order, and the exception that ends
the script, if any. -/
def errorStream (calls : List (Console × Text)) (thrown : Option Text) : Text :=
  (calls.map (fun c => consoleWrites c.1 c.2)).flatten ++ thrownWrites thrown

/-- `process_finished_str` (`sandboxjs.py:96`), `cwlNodeEngineJSConsole.js:29`. -/
def markText : Text := ['r', '1', 'c', 'e', 'p', 'z', 'b', 'h', 'U', 'T', 'x', 't', 'y', 'k', 'z', '5', 'X', 'T',
  'C', '4', '\n']

/-- `sandboxjs.py:264-265`: `[: -len(self.process_finished_str) - 1]`. -/
def cutText (s : Text) : Text := s.take (s.length - (markText.length + 1))

/-- The error stream that `exec_js_process` returns: with the marker if the script came to its end, and without
it if the process was killed after it had written `written`. -/
def returnedText (written : Text) (finished : Bool) : Text :=
  cutText (if finished then written ++ markText else written)

/-- `^[[](?:log|err)[]]` at this place. -/
def tagged (s : Text) : Bool := Console.log.tag.isPrefixOf s || Console.err.tag.isPrefixOf s

/-- `re.findall(r"^[[](?:log|err)[]].*$", s, flags=re.MULTILINE)` (`sandboxjs.py:495-497`).  `start` says that
`^` matches here, which is at the beginning and behind a line feed; `.` is anything but a line feed, so that a
match goes to the end of the line.  `acc` holds the match that goes on, if any. -/
def findTagged : (start : Bool) → (acc : Option Text) → Text → List Text
  | _, none, [] => []
  | _, some m, [] => [m.reverse]
  | _, some m, c :: cs =>
      if c = '\n' then m.reverse :: findTagged true none cs else findTagged false (some (c :: m)) cs
  | start, none, c :: cs =>
      if start && tagged (c :: cs) then findTagged false (some [c]) cs
      else findTagged (c == '\n') none cs

/-- `sandboxjs.py:490-500`: the console output that is logged. -/
def consoleShown (stderr : Text) : Text := joinText ['\n'] (findTagged true none stderr)

/-- The characters at which `str.splitlines` ends a line. -/
def isBreak (c : Char) : Bool :=
  c == '\n' || c == '\r' || c == '\x0b' || c == '\x0c' || c == '\x1c' || c == '\x1d' || c == '\x1e' ||
    c == '\u0085' || c == '\u2028' || c == '\u2029'

/-- `s.splitlines()`; `acc` is the line so far, in reverse. -/
def splitLines : (acc : Text) → Text → List Text
  | [], [] => []
  | a :: acc, [] => [(a :: acc).reverse]
  | acc, [c] => if isBreak c then [acc.reverse] else [(c :: acc).reverse]
  | acc, c :: d :: cs =>
      if c = '\r' ∧ d = '\n' then acc.reverse :: splitLines [] cs
      else if isBreak c then acc.reverse :: splitLines [] (d :: cs)
      else splitLines (c :: acc) (d :: cs)

/-- `"%02i" % n`. -/
def twoDigits (n : Nat) : Text := if n < 10 then '0' :: Nat.toDigits 10 n else Nat.toDigits 10 n

/-- The numbered lines, the first of which has number `n`. -/
def numberFrom : Nat → List Text → List Text
  | _, [] => []
  | n, b :: bs => (twoDigits n ++ [' '] ++ b) :: numberFrom (n + 1) bs

/-- `sandboxjs.py:56-63`: `linenum`. -/
def linenum (fn : Text) : Text :=
  let lines := splitLines [] fn
  let maxlines := 99
  if lines.length > maxlines then
    joinText ['\n'] (numberFrom (lines.length - maxlines + 1) (lines.drop (lines.length - maxlines)))
  else joinText ['\n'] (numberFrom 1 lines)

/-- `sandboxjs.py:66-69`: `stdfmt`. -/
def stdfmt (ws : Char → Bool) (data : Text) : Text :=
  if data.contains '\n' then '\n' :: stripBy ws data else data

/-- `str(returncode)`. -/
def intText : Int → Text
  | .ofNat n => Nat.toDigits 10 n
  | .negSucc n => '-' :: Nat.toDigits 10 (n + 1)

/-- `sandboxjs.py:269-275`: the returned code. -/
def returnCode (killed : Bool) (poll : Option Int) : Int :=
  match poll with
  | none => 0
  | some n => if n = 0 then 0 else if killed then -1 else n

/-- `sandboxjs.py:502-516` and `520-525`: the text of the `JavascriptException` that `eval` raises, if it
raises one.  `fn` is the program that was sent, `scan` the expression, `timeout` the text of the timeout, `loads`
says whether the output is JSON and gives the text of the `ValueError` if it is not. -/
def failureText (ws : Char → Bool) (loads : Text → Option Text) (debug : Bool) (timeout scan fn : Text)
    (code : Int) (stdout stderr : Text) : Option Text :=
  if code ≠ 0 then
    let info :=
      if debug then
        "returncode was: ".toList ++ intText code ++ "\nscript was:\n".toList ++ linenum fn ++
          "\nstdout was: ".toList ++ stdfmt ws stdout ++ "\nstderr was: ".toList ++ stdfmt ws stderr ++ "\n".toList
      else
        "Javascript expression was: ".toList ++ scan ++ "\nstdout was: ".toList ++ stdfmt ws stdout ++
          "\nstderr was: ".toList ++ stdfmt ws stderr
    if code = -1 then
      some ("Long-running script killed after ".toList ++ timeout ++ " seconds: ".toList ++ info)
    else some info
  else
    match loads stdout with
    | none => none
    | some e =>
        some (e ++ "\nscript was:\n".toList ++ linenum fn ++ "\nstdout was: '".toList ++ stdout ++
          "'\nstderr was: '".toList ++ stderr ++ "'\n".toList)

end CwlUtils.Sandbox
