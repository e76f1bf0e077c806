import Verif.Base.Val
import Verif.Expr.Scanner
/-!
# Resolution of identifiers and references in the parsers

`src/cwl_utils/parser/cwl_v1_2.py:427-493, 756-821`; the parsers of the other versions have the same code (`_expand_url` is the same text in all three).
The functions of `urllib.parse` are modelled after their text in Python 3.11 (the library is not part of the repository).  Not
modelled: the checks of a network location with brackets or outside ASCII (a parameter says which pass).  `fetcher.urljoin`, `fetcher.check_exists` and
`fetcher.supported_schemes` are those of an arbitrary fetcher, the vocabularies are arbitrary.
-/
namespace CwlUtils.Loader
open CwlUtils.Expr (Str)

/-! ## `urllib.parse` -/

/-- `SplitResult` -/
structure Split where
  scheme : Str
  netloc : Str
  path : Str
  query : Str
  fragment : Str
  deriving DecidableEq, Repr

/-- `_WHATWG_C0_CONTROL_OR_SPACE` -/
def isBlank (c : Char) : Bool := decide (c.toNat ≤ 32)

/-- `_UNSAFE_URL_BYTES_TO_REMOVE` -/
def isUnsafe (c : Char) : Bool := c == '\t' || c == '\r' || c == '\n'

def isLetter (c : Char) : Bool := (decide ('a' ≤ c) && decide (c ≤ 'z')) || (decide ('A' ≤ c) && decide (c ≤ 'Z'))

/-- `scheme_chars` -/
def schemeChar (c : Char) : Bool := isLetter c || (decide ('0' ≤ c) && decide (c ≤ '9')) || c == '+' || c == '-' || c == '.'

def notColon (c : Char) : Bool := c != ':'

/-- The scheme and what follows it: the part before the first colon, if it begins with a letter and has only characters of schemes. -/
def splitScheme (u : Str) : Str × Str :=
  match u.dropWhile notColon with
  | [] => ([], u)
  | _ :: rest =>
    match u.takeWhile notColon with
    | [] => ([], u)
    | c :: cs => if isLetter c && (c :: cs).all schemeChar then ((c :: cs).map Char.toLower, rest) else ([], u)

/-- No delimiter of a network location. -/
def inNetloc (c : Char) : Bool := c != '/' && c != '?' && c != '#'

/-- `url[:2] == '//'` and `_splitnetloc`. -/
def splitNetloc : Str → Str × Str
  | '/' :: '/' :: u => (u.takeWhile inNetloc, u.dropWhile inNetloc)
  | u => ([], u)

/-- `url.split(c, 1)`, with an empty second part if the character does not occur. -/
def cut (c : Char) (u : Str) : Str × Str :=
  (u.takeWhile (· != c), (u.dropWhile (· != c)).drop 1)

/-- `urllib.parse.urlsplit(url)`; `H` tells which network locations pass the checks. -/
def urlsplit (H : Str → Bool) (url : Str) : Except Err Split :=
  let u := (url.dropWhile isBlank).filter (fun c => !isUnsafe c)
  let s := splitScheme u
  let n := splitNetloc s.2
  let f := cut '#' n.2
  let q := cut '?' f.1
  if (n.1.contains '[') != (n.1.contains ']') || !H n.1 then .error .value
  else .ok ⟨s.1, n.1, q.1, q.2, f.2⟩

/-- `uses_netloc` -/
def usesNetloc : List Str :=
  ["", "ftp", "http", "gopher", "nntp", "telnet", "imap", "wais", "file", "mms", "https", "shttp", "snews", "prospero", "rtsp", "rtsps", "rtspu", "rsync",
   "svn", "svn+ssh", "sftp", "nfs", "git", "git+ssh", "ws", "wss"].map String.toList

/-- `urllib.parse.urlunsplit` -/
def urlunsplit (s : Split) : Str :=
  let u := if s.netloc ≠ [] ∨ (s.scheme ≠ [] ∧ s.scheme ∈ usesNetloc) ∨ s.path.take 2 = ['/', '/'] then
      ['/', '/'] ++ s.netloc ++ (if s.path ≠ [] ∧ s.path.take 1 ≠ ['/'] then '/' :: s.path else s.path)
    else s.path
  let u := if s.scheme ≠ [] then s.scheme ++ ':' :: u else u
  let u := if s.query ≠ [] then u ++ '?' :: s.query else u
  if s.fragment ≠ [] then u ++ '#' :: s.fragment else u

/-! ## `_expand_url` -/

/-- The fetcher and the vocabularies (`_vocab | loadingOptions.vocab`, which is never empty, and `_rvocab | loadingOptions.rvocab`). -/
structure UEnv where
  H : Str → Bool
  schemes : List Str
  join : Str → Str → Except Err Str
  vocab : Str → Option Str
  rvocab : Str → Option Str

/-- `cwl_v1_2.py:771-774`: a prefix of the vocabulary is replaced. -/
def applyPrefix (vocab : Str → Option Str) (url : Str) : Str :=
  match url.dropWhile notColon with
  | [] => url
  | _ :: rest => match vocab (url.takeWhile notColon) with
    | some p => p ++ rest
    | none => url

/-- `s.split("/")` -/
def splitSlash : Str → List Str
  | [] => [[]]
  | c :: s => if c = '/' then [] :: splitSlash s else
    match splitSlash s with
    | [] => [[c]]
    | p :: ps => (c :: p) :: ps

/-- `"/".join(parts)` -/
def joinSlash : List Str → Str
  | [] => []
  | [p] => p
  | p :: ps => p ++ '/' :: joinSlash ps

/-- `sp.pop()`, `n` times or until the list is empty. -/
def popN : Nat → List Str → List Str
  | 0, l => l
  | n + 1, l => popN n l.dropLast

/-- `cwl_v1_2.py:776-810`: the address without regard to the vocabulary. -/
def expandCore (env : UEnv) (url base : Str) (scopedId : Bool) (scopedRef : Option Nat) : Except Err Str :=
  match urlsplit env.H url with
  | .error e => .error e
  | .ok s1 =>
    if (s1.scheme ≠ [] ∧ s1.scheme ∈ env.schemes) ∨ ['$', '('] <+: url ∨ ['$', '{'] <+: url then .ok url
    else if scopedId = true ∧ s1.fragment = [] then
      match urlsplit env.H base with
      | .error e => .error e
      | .ok b => .ok (urlunsplit { b with
          path := if b.path ≠ [] then b.path else ['/']
          fragment := if b.fragment ≠ [] then b.fragment ++ '/' :: s1.path else s1.path })
    else match scopedRef, s1.fragment with
      | some n, [] =>
        match urlsplit env.H base with
        | .error e => .error e
        | .ok b => .ok (urlunsplit { b with fragment := joinSlash (popN n (splitSlash b.fragment) ++ [url]) })
      | _, _ => env.join base url

/-- `cwl_v1_2.py:756-821`: `_expand_url`. -/
def expandUrl (env : UEnv) (url base : Str) (scopedId vocabTerm : Bool) (scopedRef : Option Nat) : Except Err Str :=
  if url = "@id".toList ∨ url = "@type".toList then .ok url
  else if vocabTerm = true ∧ (env.vocab url).isSome then .ok url
  else match expandCore env (applyPrefix env.vocab url) base scopedId scopedRef with
    | .error e => .error e
    | .ok u =>
      if vocabTerm = true then
        match urlsplit env.H u with
        | .error e => .error e
        | .ok s2 =>
          if s2.scheme ≠ [] then .ok ((env.rvocab u).getD u)
          else .error .validation
      else .ok u

/-! ## `_URILoader` -/

/-- What `_URILoader.load` does to a document before it is handed to the inner loader; texts in the middle of other values are left alone. -/
inductive UDoc
  | text (s : Str)
  | list (l : List (Option Str))
  | other
  deriving DecidableEq, Repr

/-- The fetcher finds a document, or raises a ValidationException. -/
abbrev Exists := Str → Except Err Bool

/-- The elements of a list: texts are expanded (`none` is an element that is not a text). -/
def expandList (env : UEnv) (base : Str) (scopedId vocabTerm : Bool) (scopedRef : Option Nat) : List (Option Str) → Except Err (List (Option Str))
  | [] => .ok []
  | none :: l => match expandList env base scopedId vocabTerm scopedRef l with
    | .error e => .error e
    | .ok r => .ok (none :: r)
  | some s :: l => match expandUrl env s base scopedId vocabTerm scopedRef with
    | .error e => .error e
    | .ok u => match expandList env base scopedId vocabTerm scopedRef l with
      | .error e => .error e
      | .ok r => .ok (some u :: r)

/-- `cwl_v1_2.py:442-493`: `_URILoader.load`, up to the inner loader. -/
def uriLoad (env : UEnv) (check : Exists) (noLinkCheck : Bool) (base : Str) (scopedId vocabTerm : Bool) (scopedRef : Option Nat) : UDoc → Except Err UDoc
  | .list l => match expandList env base scopedId vocabTerm scopedRef l with
    | .error e => .error e
    | .ok r => .ok (.list r)
  | .text s => match expandUrl env s base scopedId vocabTerm scopedRef with
    | .error e => .error e
    | .ok u =>
      if noLinkCheck then .ok (.text u)
      else match check u with
        | .error .validation => .ok (.text u)
        | .error e => .error e
        | .ok true => .ok (.text u)
        | .ok false => .error .validation
  | .other => .ok .other

end CwlUtils.Loader
