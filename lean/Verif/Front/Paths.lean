import Verif.Front.Model
import Verif.Loader.Uri
/-!
# Which file a path or an address stands for

`src/cwl_utils/parser/__init__.py:321-350` (`load_document_by_uri`), `parser/utils.py:158-187` (`load_inputfile_by_uri`) and `inputs_schema_gen.py:566-591` (`get_cwl_url`).

The functions of `urllib.parse` and `PurePosixPath.as_uri` are modelled after their text in Python 3.11.  Paths are texts that can be encoded in UTF-8 (no lone surrogates), on a system where the file
system encoding is UTF-8.  Parameters: `Path.resolve` and `Path.parent` (which depend on the file system), what the fetcher returns, and which network locations `urlsplit` accepts (`H`).
-/
namespace CwlUtils.Front
open CwlUtils.Expr (Str)
open CwlUtils.Loader (Split urlsplit)

/-! ## UTF-8 -/

/-- The bytes of a code point. -/
def enc1 (n : Nat) : List Nat :=
  if n < 128 then [n]
  else if n < 2048 then [192 + n / 64, 128 + n % 64]
  else if n < 65536 then [224 + n / 4096, 128 + n / 64 % 64, 128 + n % 64]
  else [240 + n / 262144, 128 + n / 4096 % 64, 128 + n / 64 % 64, 128 + n % 64]

/-- `os.fsencode(path)` -/
def encode (s : Str) : List Nat := s.flatMap (fun c => enc1 c.toNat)

def isCont (b : Nat) : Bool := decide (128 ≤ b) && decide (b < 192)

/-- The code point that begins with a byte, and the number of bytes that follow it; `none` for bytes that are not UTF-8. -/
def dec1 (b : Nat) (bs : List Nat) : Option (Nat × Nat) :=
  if b < 128 then some (b, 0)
  else if b < 224 then match bs with
    | b1 :: _ => if 194 ≤ b ∧ isCont b1 = true then some ((b - 192) * 64 + (b1 - 128), 1) else none
    | _ => none
  else if b < 240 then match bs with
    | b1 :: b2 :: _ =>
      let v := (b - 224) * 4096 + (b1 - 128) * 64 + (b2 - 128)
      if isCont b1 = true ∧ isCont b2 = true ∧ 2048 ≤ v ∧ (v < 0xD800 ∨ 0xDFFF < v) then some (v, 2) else none
    | _ => none
  else match bs with
    | b1 :: b2 :: b3 :: _ =>
      let v := (b - 240) * 262144 + (b1 - 128) * 4096 + (b2 - 128) * 64 + (b3 - 128)
      if isCont b1 = true ∧ isCont b2 = true ∧ isCont b3 = true ∧ 65536 ≤ v ∧ v < 0x110000 then some (v, 3) else none
    | _ => none

/-- `bytes.decode("utf-8", "replace")`, after skipping a number of bytes.  Simplified: one replacement character for each byte that is not UTF-8 (Python writes one for several bytes that could begin
a character). -/
def decode : Nat → List Nat → Str
  | _, [] => []
  | k + 1, _ :: bs => decode k bs
  | 0, b :: bs => match dec1 b bs with
    | some (v, k) => Char.ofNat v :: decode k bs
    | none => Char.ofNat 0xFFFD :: decode 0 bs

/-! ## Quoting -/

/-- `_ALWAYS_SAFE` and `/` -/
def isSafe (b : Nat) : Bool :=
  (decide (65 ≤ b) && decide (b ≤ 90)) || (decide (97 ≤ b) && decide (b ≤ 122)) || (decide (48 ≤ b) && decide (b ≤ 57)) || b == 95 || b == 46 || b == 45 || b == 126 || b == 47

/-- A hexadecimal digit in upper case. -/
def hexDigit (n : Nat) : Char := if n < 10 then Char.ofNat (48 + n) else Char.ofNat (55 + n)

/-- The value of a hexadecimal digit. -/
def hexVal (c : Char) : Option Nat :=
  let n := c.toNat
  if 48 ≤ n ∧ n ≤ 57 then some (n - 48) else if 65 ≤ n ∧ n ≤ 70 then some (n - 55) else if 97 ≤ n ∧ n ≤ 102 then some (n - 87) else none

def quoteByte (b : Nat) : Str := if isSafe b = true then [Char.ofNat b] else ['%', hexDigit (b / 16), hexDigit (b % 16)]

/-- `urllib.parse.quote_from_bytes(bs)` -/
def quoteBytes (bs : List Nat) : Str := bs.flatMap quoteByte

/-- `_hextobyte.get(item[:2])` -/
def hexPair : Str → Option Nat
  | a :: b :: _ => match hexVal a, hexVal b with
    | some x, some y => some (x * 16 + y)
    | _, _ => none
  | _ => none

/-- `urllib.parse.unquote`, after skipping a number of characters and with the bytes of the run of ASCII characters so far: each such run is turned into bytes and decoded. -/
def unquoteFrom : Nat → List Nat → Str → Str
  | _, pend, [] => decode 0 pend
  | k + 1, pend, _ :: cs => unquoteFrom k pend cs
  | 0, pend, c :: cs =>
    if c = '%' then match hexPair cs with
      | some b => unquoteFrom 2 (pend ++ [b]) cs
      | none => unquoteFrom 0 (pend ++ [37]) cs
    else if c.toNat < 128 then unquoteFrom 0 (pend ++ [c.toNat]) cs
    else decode 0 pend ++ c :: unquoteFrom 0 [] cs

/-- `urllib.parse.unquote(s)` -/
def unquote (s : Str) : Str := if '%' ∈ s then unquoteFrom 0 [] s else s

/-- `urllib.parse.unquote_plus(s)` -/
def unquotePlus (s : Str) : Str := unquote (s.map (fun c => if c = '+' then ' ' else c))

/-- `PurePosixPath.as_uri()` -/
def asUri (p : Str) : Except Err Str := if p.head? = some '/' then .ok ("file://".toList ++ quoteBytes (encode p)) else .error .value

/-! ## `urlparse` -/

/-- `uses_params` -/
def usesParams : List Str :=
  ["", "ftp", "hdl", "prospero", "http", "imap", "https", "shttp", "rtsp", "rtsps", "rtspu", "sip", "sips", "mms", "sftp", "tel"].map String.toList

def notSlash (c : Char) : Bool := c != '/'

/-- The path up to and with the last slash, and what follows it. -/
def splitLast (p : Str) : Str × Str := ((p.reverse.dropWhile notSlash).reverse, (p.reverse.takeWhile notSlash).reverse)

/-- `_splitparams(url)[0]`: the last segment is cut at its first semicolon. -/
def dropParams (p : Str) : Str := (splitLast p).1 ++ (splitLast p).2.takeWhile (· != ';')

/-- `urllib.parse.urlparse(url)`: as `urlsplit`, without the parameters. -/
def urlparse (H : Str → Bool) (url : Str) : Except Err Split := match urlsplit H url with
  | .error e => .error e
  | .ok s => .ok (if s.scheme ∈ usesParams ∧ ';' ∈ s.path then { s with path := dropParams s.path } else s)

/-! ## `load_document_by_uri` -/

/-- The file system: `str(Path(p).resolve())` and `str(Path(p).parent)`. -/
structure Disk where
  resolve : Str → Except Err Str
  parent : Str → Str

/-- What is fetched, the base, and the name of the process. -/
structure Target where
  real : Str
  base : Str
  id : Option Str
  deriving DecidableEq, Repr

/-- `os.path.dirname` -/
def dirname (p : Str) : Str :=
  let head := (splitLast p).1
  if head.all (· == '/') = true then head else (head.reverse.dropWhile (· == '/')).reverse

/-- The addresses of a resolved path and of its directory. -/
def located (D : Disk) (p : Str) (id : Option Str) : Except Err Target := match D.resolve p with
  | .error e => .error e
  | .ok q => match asUri q, asUri (D.parent q) with
    | .ok r, .ok b => .ok ⟨r, b, id⟩
    | .error e, _ => .error e
    | _, .error e => .error e

/-- `parser/__init__.py:327-335`: a text. -/
def byUri (H : Str → Bool) (D : Disk) (path : Str) : Except Err Target := match urlparse H path with
  | .error e => .error e
  | .ok u =>
    let id := if u.fragment = [] then none else some u.fragment
    if u.scheme = [] ∨ u.scheme = "file".toList then located D (unquotePlus u.path) id
    else .ok ⟨path, dirname path, id⟩

/-- `name.split("#")[1]` if there is a `#` in it. -/
def afterHash (name : Str) : Option Str := match name.dropWhile (· != '#') with
  | [] => none
  | _ :: r => some (r.takeWhile (· != '#'))

/-- `parser/__init__.py:336-339`: a `Path`. -/
def byPath (D : Disk) (p : Str) : Except Err Target := match D.resolve p with
  | .error e => .error e
  | .ok q => located D p (afterHash (splitLast q).2)

/-- `parser/__init__.py:341-350` and 368-377: the text is fetched, read, and loaded. -/
def loadTarget (fetch : Str → Except Err String) (read : String → Except Err Val) (parse : Str → Ver → Val → Except Err Res) (t : Target) (loadAll : Bool) : Except Err Res :=
  match fetch t.real with
  | .error e => .error e
  | .ok s => match read s with
    | .error e => .error e
    | .ok y => (loadByYaml (parse t.real) y (t.id.map String.ofList) loadAll).2

/-- `parser/__init__.py:321-350`: `load_document_by_uri(path, load_all=…)` for a text. -/
def loadByUri (H : Str → Bool) (D : Disk) (fetch : Str → Except Err String) (read : String → Except Err Val) (parse : Str → Ver → Val → Except Err Res) (path : Str) (loadAll : Bool) :
    Except Err Res := match byUri H D path with
  | .error e => .error e
  | .ok t => loadTarget fetch read parse t loadAll

/-- `parser/utils.py:163-171`: `load_inputfile_by_uri`, what is fetched. -/
def inputFileUri (H : Str → Bool) (D : Disk) (path : Str) : Except Err Str := match urlparse H path with
  | .error e => .error e
  | .ok u => if u.scheme = [] ∨ u.scheme = "file".toList then (match D.resolve (unquotePlus u.path) with
      | .error e => .error e
      | .ok q => asUri q)
    else .ok path

/-! ## `inputs_schema_gen.py` -/

/-- `inputs_schema_gen.py:566-591`: `get_cwl_url`; `there` is `Path(p).exists()`, `status` the status of `requests.get`. -/
def getCwlUrl (H : Str → Bool) (there : Str → Except Err Bool) (status : Str → Except Err Nat) (url : Str) : Except Err Str := match urlparse H url with
  | .error e => .error e
  | .ok u =>
    if u.scheme = [] then match there url with
      | .error e => .error e
      | .ok false => .error .fileNotFound
      | .ok true => asUri url
    else if u.scheme = "file".toList then match there u.path with
      | .error e => .error e
      | .ok false => .error .fileNotFound
      | .ok true => .ok url
    else match status url with
      | .error e => .error e
      | .ok 200 => .ok url
      | .ok _ => .error .fileNotFound

end CwlUtils.Front
