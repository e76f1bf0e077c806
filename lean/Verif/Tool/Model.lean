import Verif.Base.Val
/-!
# Reading file contents and stream shortcuts

An open file is the list of the bytes that remain to be read; `f.read(n)` on it is `take n`.  A command line tool is reduced to the
fields that are read or written; everything else of a parameter is kept in `rest`.
-/
namespace CwlUtils.Tool

/-- `src/cwl_utils/parser/cwl_v1_0_utils.py:22`, `cwl_v1_1_utils.py:22`, `cwl_v1_2_utils.py:23`. -/
def CONTENT_LIMIT : Nat := 64 * 1024

/-- `src/cwl_utils/parser/cwl_v1_0_utils.py:158-164` and `cwl_v1_1_utils.py:224-230`. -/
def readBytesOld (f : List UInt8) : Except Err (List UInt8) := .ok (f.take CONTENT_LIMIT)

/-- `src/cwl_utils/parser/cwl_v1_2_utils.py:247-258`. -/
def readBytes12 (f : List UInt8) : Except Err (List UInt8) :=
  let contents := f.take (CONTENT_LIMIT + 1)
  if contents.length > CONTENT_LIMIT then .error .workflow else .ok contents

/-- `bytes.decode("utf-8")`: strict UTF-8. -/
def decode (b : List UInt8) : Except Err String :=
  match String.fromUTF8? b.toByteArray with
  | some s => .ok s
  | none => .error .unicode

/-- `cwl_v1_0_utils.py:167-173` and `cwl_v1_1_utils.py:233-239`: `content_limit_respected_read`. -/
def readTextOld (f : List UInt8) : Except Err String :=
  match readBytesOld f with
  | .ok b => decode b
  | .error e => .error e

/-- `cwl_v1_2_utils.py:261-267`: `content_limit_respected_read`. -/
def readText12 (f : List UInt8) : Except Err String :=
  match readBytes12 f with
  | .ok b => decode b
  | .error e => .error e

/-- A parameter of a tool: its type, the glob of its outputBinding (outputs) or some inputBinding (inputs), and the
rest. -/
structure Param where
  id : String
  type : Val
  binding : Option Val
  rest : Val
  deriving DecidableEq

/-- A command line tool. -/
structure Clt where
  inputs : List Param
  outputs : List Param
  stdin : Option String
  stdout : Option String
  stderr : Option String
  rest : Val
  deriving DecidableEq

/-- The value of an outputBinding with only a glob. -/
def globBinding (f : String) : Val := .obj [("glob", .str f)]

/-- `cwl_v1_2_utils.py:272-296`: the loop over the outputs.  `hash` is the sha1 of the saved tool; it is taken of the tool as it is at
that moment: `done` are the outputs already converted, `todo` those to come. -/
def convertOutputs (hash : Clt → String) (t : Clt) (done : List Param) : List Param → Except Err Clt
  | [] => .ok { t with outputs := done }
  | out :: todo =>
    if out.type = .str "stdout" then
      if out.binding.isSome then .error .validation
      else
        let f := t.stdout.getD (hash { t with outputs := done ++ out :: todo })
        convertOutputs hash { t with stdout := some f } (done ++ [{ out with type := .str "File", binding := some (globBinding f) }]) todo
    else if out.type = .str "stderr" then
      if out.binding.isSome then .error .validation
      else
        let f := t.stderr.getD (hash { t with outputs := done ++ out :: todo })
        convertOutputs hash { t with stderr := some f } (done ++ [{ out with type := .str "File", binding := some (globBinding f) }]) todo
    else convertOutputs hash t (done ++ [out]) todo

/-- `s.rpartition("#")[2].split("/")[-1]`: what follows the last `#`, and of this what follows the last slash. -/
def shortName (s : String) : String :=
  let afterHash := (s.toList.reverse.takeWhile (· ≠ '#')).reverse
  String.ofList (afterHash.reverse.takeWhile (· ≠ '/')).reverse

/-- `cwl_v1_2_utils.py:297-310`: the loop over the inputs. -/
def convertInputs (t : Clt) (done : List Param) : List Param → Except Err Clt
  | [] => .ok { t with inputs := done }
  | inp :: todo =>
    if inp.type = .str "stdin" then
      if inp.binding.isSome then .error .validation
      else if t.stdin.isSome then .error .validation
      else convertInputs { t with stdin := some ("$(inputs." ++ shortName inp.id ++ ".path)") } (done ++ [{ inp with type := .str "File" }]) todo
    else convertInputs t (done ++ [inp]) todo

/-- `src/cwl_utils/parser/cwl_v1_2_utils.py:270-310` and `cwl_v1_1_utils.py:242-282`: `convert_stdstreams_to_files`. -/
def convert (hash : Clt → String) (t : Clt) : Except Err Clt :=
  match convertOutputs hash t [] t.outputs with
  | .error e => .error e
  | .ok t' => convertInputs t' [] t'.inputs

/-- `src/cwl_utils/parser/cwl_v1_0_utils.py:176-203`: there is no stdin shortcut in v1.0. -/
def convert10 (hash : Clt → String) (t : Clt) : Except Err Clt := convertOutputs hash t [] t.outputs

end CwlUtils.Tool
