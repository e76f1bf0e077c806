import Verif.Base.Val
/-!
# Linked files

`src/cwl_utils/utils.py:36-56`, `90-124`, `167-211`.  `urllib.parse`, the file system, the network and the YAML parser are
parameters.
-/
namespace CwlUtils.Linked

/-- `urllib.parse.ParseResult`: the scheme, the path, and the text `geturl()`. -/
structure Url where
  scheme : String
  path : String
  full : String
  deriving DecidableEq

/-- Failures of a download: `urllib.error.HTTPError`, or another exception (no connection, text that is not UTF-8). -/
inductive Fail where
  | http
  | other (e : Err)
  deriving DecidableEq

/-- Failures of the YAML parser: `ParserError` or `ScannerError`, or another exception. -/
inductive Bad where
  | malformed
  | other (e : Err)
  deriving DecidableEq

/-- The environment. -/
structure Env where
  /-- `urllib.parse.urlparse` -/
  parse : String → Url
  /-- `urllib.parse.urljoin` -/
  join : String → String → String
  /-- `pathlib.Path(p).read_text()` -/
  readText : String → Except Err String
  /-- `urllib.request.urlopen(u).read().decode("utf-8")` -/
  fetch : String → Except Fail String
  /-- `fast_yaml.load` -/
  yaml : String → Except Bad Val

/-- `scheme in ("file://", "")` (`utils.py:45`, `96`, `193`). -/
def isLocal (u : Url) : Bool := u.scheme = "file://" || u.scheme = ""

/-- `src/cwl_utils/utils.py:167-211`: `resolved_path`. -/
def resolvedPath (env : Env) (base : Url) (link : String) : Url :=
  let l := env.parse link
  if l.scheme = "file://" then l
  else if l.scheme = "" then
    if isLocal base then
      if link = "" then base else env.parse (env.join base.full l.full)
    else env.parse (env.join base.full l.path)
  else l

/-- `src/cwl_utils/utils.py:36-56`: `_is_github_symbolic_link`. -/
def isLink (u : Url) (contents : String) : Bool :=
  if isLocal u then false
  else if '\n' ∈ contents.toList then false
  else if '.' ∉ contents.toList then false
  else true

/-- `utils.py:96-105`: the contents of a file; `HTTPError` ends the program. -/
def contentsOf (env : Env) (u : Url) : Except Err String :=
  if isLocal u then env.readText u.path
  else match env.fetch u.full with
    | .ok t => .ok t
    | .error .http => .error .systemExit
    | .error (.other e) => .error e

/-- `utils.py:115-124`: the node; a malformed document ends the program. -/
def nodeOf (env : Env) (isImport : Bool) (contents : String) : Except Err Val :=
  if isImport then match env.yaml contents with
    | .ok v => .ok v
    | .error .malformed => .error .systemExit
    | .error (.other e) => .error e
  else .ok (.str contents)

/-- `src/cwl_utils/utils.py:90-124`: `load_linked_file`.  The recursion is bounded by the first argument (Python's limit);
`.fuel` stands for the `RecursionError`. -/
def loadLinked (env : Env) : Nat → Url → String → Bool → Except Err (Val × Url)
  | 0, _, _, _ => .error .fuel
  | fuel + 1, base, link, isImport =>
    let u := resolvedPath env base link
    match contentsOf env u with
    | .error e => .error e
    | .ok t =>
      if isLink u t then loadLinked env fuel u t isImport
      else (nodeOf env isImport t).map (·, u)

end CwlUtils.Linked
