import Verif.Expr.ParamRef
import Verif.Utils.Bytes
/-!
# Model of `do_eval`

`src/cwl_utils/expression.py:24-31,275-337`.
-/
namespace CwlUtils.Expr

/-- `expression.py:24-31`: `OLD_ESCAPE_CWL_VERSIONS`. -/
def oldEscapeVersions : List String :=
  ["v1.0", "v1.1.0-dev1", "v1.1", "v1.2.0-dev1", "v1.2.0-dev2", "v1.2.0-dev3"]

/-- `p in s` for Python strings. -/
def containsSub (p : Str) : Str → Bool
  | [] => p.isEmpty
  | c :: cs => p.isPrefixOf (c :: cs) || containsSub p cs

/-- `expression.py:283-284`: `needs_parsing`. -/
def needsParsing : Val → Bool
  | .str s => containsSub "$(".toList s.toList || containsSub "${".toList s.toList
  | _ => false

/-- The outside world of `do_eval`: character classes of the Python runtime, UTF-8 decoding, JSON
writing (with and without indentation; `json.dumps` with an indent may raise `TypeError` for byte
strings that are left and `ValueError` for numbers with too many digits) and the JavaScript engine
(source text, library text). -/
structure World where
  isWord : Char → Bool
  ws : Char → Bool
  dec : List UInt8 → Option String
  J : Json
  dumpsIndent : Val → Except Err Str
  jsonStr : Str → Str
  engine : Str → Str → Except Err Val

/-- All elements are strings, as `"\n".join` needs. -/
def strItems : List Val → Option (List Str)
  | [] => some []
  | .str s :: xs => (strItems xs).map (fun t => s.toList :: t)
  | _ :: _ => none

/-- `sep.join(parts)` -/
def joinStr (sep : Str) : List Str → Str
  | [] => []
  | [x] => x
  | x :: xs => x ++ sep ++ joinStr sep xs

/-- One line of `jshead` (`expression.py:279`). -/
def varLine (k : String) (t : Str) : Str :=
  "var ".toList ++ k.toList ++ " = ".toList ++ t ++ ";".toList

/-- `expression.py:279`: the list comprehension of `jshead`. -/
def varLines (W : World) : Dict Val → Except Err (List Str)
  | [] => .ok []
  | (k, v) :: r =>
      match W.dumpsIndent v with
      | .error e => .error e
      | .ok t => (varLines W r).map (fun ls => varLine k t :: ls)

/-- The library lines: a list of strings. -/
def libLines : Val → Option (List Str)
  | .arr xs => strItems xs
  | _ => none

/-- `expression.py:275-280`: `jshead(engine_config, rootvars)`.  `list + ...` needs a list and
`join` needs strings; otherwise Python raises `TypeError` (after the values were written). -/
def jshead (W : World) (config : Val) (rootvars : Dict Val) : Except Err Str :=
  match varLines W rootvars with
  | .error e => .error e
  | .ok vs =>
      match libLines config with
      | some lines => .ok (joinStr "\n".toList (lines ++ vs))
      | none => .error .type

/-- `expression.py:311-318`: the search through `reversed(requirements)`; the argument is the list
already reversed.  Returns the entry found. -/
def findJsReq : List (Dict Val) → Except Err (Option (Dict Val))
  | [] => .ok none
  | r :: rs =>
      match Dict.get? r "class" with
      | none => .error .key
      | some c => if c = .str "InlineJavascriptRequirement" then .ok (some r) else findJsReq rs

/-- Is the Python exception class a subclass of `Exception` (caught by `except Exception`)?
`errors.py:5-22` derives four classes from `BaseException` directly. (`fuel` is no Python exception.) -/
def isPyException : Err → Bool
  | .arrayMissingItems | .recordMissingFields | .missingTypeName | .missingKeyField => false
  | .systemExit => false
  | .fuel => false
  | _ => true

/-- `x or None` for a string option (`expression.py:305`). -/
def orNone : Option String → Val
  | none => .null
  | some s => if s = "" then .null else .str s

/-- `expression.py:303-308`: the parameter context before byte strings are converted. -/
def rootvars (jobinput : Dict Val) (context : Val) (resources : Dict Val)
    (tmpdir outdir : Option String) : Val :=
  let runtime := Dict.set (Dict.set resources "tmpdir" (orNone tmpdir)) "outdir" (orNone outdir)
  .obj [("inputs", .obj jobinput), ("self", context), ("runtime", .obj runtime)]

/-- Arguments of `do_eval` (`expression.py:287-299`). `timeout` and `kwargs` go to the engine. -/
structure EvalArgs where
  ex : Val
  jobinput : Dict Val
  requirements : List (Dict Val)
  outdir : Option String
  tmpdir : Option String
  resources : Dict Val
  context : Val
  stripWs : Bool
  cwlVersion : String

/-- The options `do_eval` gives to `interpolate` (`expression.py:320-330`). -/
def evalOpts (W : World) (vars : Dict Val) (fullJS : Bool) (jslib : Str) (version : String) : Opts where
  conv := false
  escaping := if version ∈ oldEscapeVersions then 1 else 2
  ev := fun ex => evaluator W.isWord (fun e => W.engine e jslib) ex vars fullJS
  J := W.J
  jsonStr := W.jsonStr

/-- `except Exception as e: raise WorkflowException(...) from e` (`expression.py:332-334`). -/
def wrapException (r : Except Err Val) : Except Err Val :=
  match r with
  | .ok v => .ok v
  | .error e => if isPyException e then .error .workflow else .error e

/-- `expression.py:287-337`: `do_eval`. -/
def doEval (W : World) (a : EvalArgs) : Except Err Val :=
  match bytes2str W.dec (rootvars a.jobinput a.context a.resources a.tmpdir a.outdir) with
  | .error e => .error e
  | .ok (.obj vars) =>
      match a.ex with
      | .str s =>
          if needsParsing a.ex then
            match findJsReq a.requirements.reverse with
            | .error e => .error e
            | .ok none =>
                wrapException (interpolate (evalOpts W vars false [] a.cwlVersion) W.ws a.stripWs s.toList)
            | .ok (some r) =>
                match jshead W ((Dict.get? r "expressionLib").getD (.arr [])) vars with
                | .error e => .error e
                | .ok jslib =>
                    wrapException
                      (interpolate (evalOpts W vars true jslib a.cwlVersion) W.ws a.stripWs s.toList)
          else .ok a.ex
      | _ => .ok a.ex
  | .ok _ => .error .type

end CwlUtils.Expr
