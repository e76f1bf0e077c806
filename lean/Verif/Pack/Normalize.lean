import Verif.Pack.Moved
/-!
# Model of the normalizer

`src/cwl_utils/normalizer.py`.  The library `cwlupgrader`, the loader and the expression conversion are parameters here (the latter two have
models of their own); packing is the model of `Pack.Model`.
-/
namespace CwlUtils.Pack
open SchemaDef

/-- The surroundings of the normalizer. -/
structure NEnv where
  /-- `normalizer.py:84-85`: open the file and read the YAML. -/
  read : String → Except Err Val
  /-- `normalizer.py:89`: `cwlupgrader.upgrade_document`.  The set of imported files already upgraded, which is handed from one call to the
  next, and the upgraded imported files, which it writes, are left out. -/
  upgrade : Dict Val → Except Err (Dict Val)
  /-- `normalizer.py:99-123`: load the document under its URI, convert the expressions, save. -/
  convert : String → Dict Val → Except Err Val
  /-- `Path(document).name` -/
  name : String → String
  /-- `normalizer.py:127-128`: the path of a document in the fresh temporary directory. -/
  tmp : String → String
  /-- The files that packing reads.  They do not change while the normalizer runs (the outputs go to a directory of their own). -/
  files : Files
  versions : Versions
  fuel : Nat

/-- The files, with a document at the given place.  Links from a document to itself by name are left out. -/
def withFile (F : Files) (path : String) (v : Val) : Files where
  load u l := if u = path ∧ l = "" then .ok (v, path) else F.load u l
  text := F.text
  resolve := F.resolve

/-- `"$graph" in result` (`normalizer.py:124`), for a document and for a list of documents. -/
def inGraph : Val → Bool
  | .obj d => Dict.has d "$graph"
  | .arr l => decide (Val.str "$graph" ∈ l)
  | _ => false

/-- `normalizer.py:88`: the versions that are upgraded. -/
def oldVersions : List Val := [.str "draft-3", .str "cwl:draft-3", .str "v1.0", .str "v1.1"]

/-- `normalizer.py:124-131`: a graph is taken as it is; other results are written to the temporary directory (that YAML is read as it was
written is assumed) and packed from there. -/
def packResult (E : NEnv) (doc : String) (r : Val) : M Val :=
  if inGraph r then M.pure r
  else M.bind (pack (withFile E.files (E.tmp doc) r) E.versions E.fuel (E.tmp doc)) fun p => M.pure (.obj p)

/-- `normalizer.py:97-131`: conversion and packing of an upgraded document. -/
def finishDoc (E : NEnv) (refactor : Bool) (doc : String) (d : Dict Val) : M Val :=
  if refactor then M.bind (M.lift (E.convert doc d)) (packResult E doc) else packResult E doc (.obj d)

/-- `normalizer.py:82-131`: one document.  Nothing is returned for a version that is not supported. -/
def normalizeDoc (E : NEnv) (refactor : Bool) (doc : String) : M (Option Val) :=
  M.bind (M.lift (E.read doc)) fun v => match v with
    | .obj d =>
      let version := (Dict.get? d "cwlVersion").getD .null
      if version ∈ oldVersions then
        M.bind (M.lift (E.upgrade d)) fun d' => M.bind (finishDoc E refactor doc d') fun p => M.pure (some p)
      else if version = .str "v1.2" then M.bind (finishDoc E refactor doc d) fun p => M.pure (some p)
      else M.pure none
    | _ => M.fail .attribute

/-- `normalizer.py:77-135`: `run`; the exit code or exception, and the files of the output directory by name. -/
def normalizeRun (E : NEnv) (refactor : Bool) : List String → Dict Val → St → Except Err Int × Dict Val × St
  | [], out, s => (.ok 0, out, s)
  | doc :: docs, out, s => match normalizeDoc E refactor doc s with
    | (.error e, s') => (.error e, out, s')
    | (.ok none, s') => (.ok (-1), out, s')
    | (.ok (some p), s') => normalizeRun E refactor docs (Dict.set out (E.name doc) p) s'

end CwlUtils.Pack
