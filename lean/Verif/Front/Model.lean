import Verif.Base.Val
/-!
# The version independent entry points of the parser

The three generated parsers are parameters: functions from the document handed to them to a result.  The base URI and the loading options
are passed on unchanged and left out.
-/
namespace CwlUtils.Front

/-- `s.lstrip("#")` -/
def lstripHash (s : String) : String := String.ofList (s.toList.dropWhile (· == '#'))

/-- `src/cwl_utils/parser/__init__.py:294-303`: `_get_id_from_graph`, the loop.  The result is the position of the entry and the entry. A
graph that is no list, and entries that are no dicts, are a TypeError here. -/
def getIdFromGraph (id : String) : List Val → Except Err (Nat × Dict Val)
  | [] => .error .graphTarget
  | el :: els => match el with
    | .obj m => match Dict.get? m "id" with
      | some (.str s) => if lstripHash s = id then .ok (0, m) else
        match getIdFromGraph id els with
        | .ok (i, e) => .ok (i + 1, e)
        | .error e => .error e
      | some _ => .error .attribute
      | none => .error .key
    | _ => .error .type

/-- `src/cwl_utils/parser/__init__.py:306-318`: `cwl_version`. -/
def cwlVersion : Val → Except Err Val
  | .obj m => .ok ((Dict.get? m "cwlVersion").getD .null)
  | _ => .error .validation

/-- The three parsers. -/
inductive Ver where
  | v10 | v11 | v12
  deriving DecidableEq

/-- A loaded object: whether it has a `cwlVersion` attribute, the value of that, and the rest. -/
structure Loaded where
  hasVersion : Bool
  version : Val
  body : Val
  deriving DecidableEq

/-- What a parser returns. -/
inductive Res where
  | one (o : Loaded)
  | many (l : List Loaded)
  deriving DecidableEq

/-- `parser/__init__.py:406-413`: the version is recorded in the elements of a list. -/
def finish (version : Val) : Res → Res
  | .one o => .one o
  | .many l => .many (l.map (fun o => if o.hasVersion then { o with version := version } else o))

/-- `parser/__init__.py:393-405`: the parser is chosen by the version. -/
def dispatch (parse : Ver → Val → Except Err Res) (version : Val) (doc : Val) : Except Err Res :=
  if version = .str "v1.0" then parse .v10 doc
  else if version = .str "v1.1" then parse .v11 doc
  else if version = .str "v1.2" then parse .v12 doc
  else .error .validation

/-- `parser/__init__.py:390-392`: the entry of a graph, with the version written into it; the document afterwards and the entry. -/
def selectEntry (m : Dict Val) (version : Val) (id : Option String) : Val × Except Err Val :=
  match Dict.get? m "$graph" with
  | some (.arr l) => match getIdFromGraph (id.getD "main") l with
    | .ok (i, e) =>
      let e' := Val.obj (Dict.set e "cwlVersion" version)
      (.obj (Dict.set m "$graph" (.arr (l.set i e'))), .ok e')
    | .error x => (.obj m, .error x)
  | _ => (.obj m, .error .type)

/-- `src/cwl_utils/parser/__init__.py:380-413`: `load_document_by_yaml`; the document afterwards and the result.  The parsers do not change the
document. -/
def loadByYaml (parse : Ver → Val → Except Err Res) (yaml : Val) (id : Option String) (loadAll : Bool) : Val × Except Err Res :=
  match yaml with
  | .obj m =>
    let version := (Dict.get? m "cwlVersion").getD .null
    let sel := if Dict.has m "$graph" && !loadAll then selectEntry m version id else (yaml, .ok yaml)
    match sel with
    | (y, .error e) => (y, .error e)
    | (y, .ok doc) => match dispatch parse version doc with
      | .ok r => (y, .ok (finish version r))
      | .error e => (y, .error e)
  | v => (v, .error .validation)

/-- What `load_document` is given. -/
inductive Doc where
  | text (s : String)
  | yaml (v : Val)

/-- `src/cwl_utils/parser/__init__.py:353-377`: `load_document` and `load_document_by_string`.  `read` is the YAML reader.  For a text,
`load_all` is not passed on. -/
def loadDocument (read : String → Except Err Val) (parse : Ver → Val → Except Err Res) (doc : Doc) (id : Option String) (loadAll : Bool) :
    Except Err Res :=
  match doc with
  | .text s => match read s with
    | .ok y => (loadByYaml parse y id false).2
    | .error e => .error e
  | .yaml y => (loadByYaml parse y id loadAll).2

/-- `s.split(".")` -/
def splitDots : List Char → List (List Char)
  | [] => [[]]
  | c :: cs => if c = '.' then [] :: splitDots cs else
    match splitDots cs with
    | [] => [[c]]
    | p :: ps => (c :: p) :: ps

/-- `int(v)` for texts of ASCII digits; signs, spaces, underscores and other digits, which Python also accepts, do not occur in versions. -/
def intOf (l : List Char) : Except Err Nat :=
  if l ≠ [] ∧ l.all Char.isDigit then .ok (l.foldl (fun n c => n * 10 + (c.toNat - '0'.toNat)) 0) else .error .value

/-- Conversion of all components. -/
def intsOf : List (List Char) → Except Err (List Nat)
  | [] => .ok []
  | l :: ls => match intOf l with
    | .error e => .error e
    | .ok n => match intsOf ls with
      | .error e => .error e
      | .ok ns => .ok (n :: ns)

/-- `src/cwl_utils/parser/__init__.py:455-457`: `version_split`. -/
def versionSplit (v : String) : Except Err (List Nat) := intsOf (splitDots (v.toList.drop 1))

/-- Python's `<` on lists of ints. -/
def ltList : List Nat → List Nat → Bool
  | _, [] => false
  | [], _ :: _ => true
  | a :: as, b :: bs => if a = b then ltList as bs else a < b

/-- The loop of `max(…, key=version_split)`: the first of the largest.  Keys are computed as the elements come. -/
def maxLoop (best : String) (key : List Nat) : List String → Except Err String
  | [] => .ok best
  | v :: vs => match versionSplit v with
    | .error e => .error e
    | .ok k => if ltList key k then maxLoop v k vs else maxLoop best key vs

/-- `max(…, key=version_split)`. -/
def maxVersion : List String → Except Err String
  | [] => .error .value
  | v :: vs => match versionSplit v with
    | .error e => .error e
    | .ok k => maxLoop v k vs

/-- The versions of saved processes that are not None. -/
def versionsOf (l : List (Dict Val)) : List Val := (l.map (fun e => (Dict.get? e "cwlVersion").getD .null)).filter (· ≠ .null)

/-- Versions as strings; slicing another value is a TypeError. -/
def strs : List Val → Except Err (List String)
  | [] => .ok []
  | .str s :: l => match strs l with
    | .ok r => .ok (s :: r)
    | .error e => .error e
  | _ :: _ => .error .type

/-- `src/cwl_utils/parser/__init__.py:425-438`: `save` of a list of processes with `top=True`; `lst` are the dicts to which the processes
are saved. -/
def saveProcesses (lst : List (Dict Val)) : Except Err Val :=
  match strs (versionsOf lst) with
  | .error e => .error e
  | .ok vs => match maxVersion vs with
    | .error e => .error e
    | .ok latest => .ok (.obj [("cwlVersion", .str latest), ("$graph", .arr (lst.map .obj))])

end CwlUtils.Front
