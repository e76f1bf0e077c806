import Verif.Json.Write
/-!
# Reading JSON

`json.loads(stdout)` (`src/cwl_utils/sandboxjs.py:519`, the result of a JavaScript expression) and
`json.loads(leaf)` (`src/cwl_utils/expression.py:235`).  Modelled is the decoder of Python's standard
library (`json/decoder.py`, `json/scanner.py`, with the stricter `_json` in place of `_decode_uXXXX`).

Every failure is a `ValueError` (`JSONDecodeError` is one): `none`.

Simplifications: a text is a list of characters, so it has no lone surrogates outside escapes (it was
decoded from UTF-8); what was scanned is first put together as a tree and then made into Python
objects, which changes nothing but the place where a `ValueError` comes from; `float(text)` is a
parameter; the limit of Python's stack is left out (the number in `scan` bounds the recursion and is
shown to be large enough).
-/
namespace CwlUtils.Json

/-- `NUMBER_RE`: the digits before the point. -/
def natTok : Text → Option (Text × Text)
  | [] => none
  | c :: r =>
      if c = '0' then some (['0'], r)
      else if isDigit c = true then some (c :: r.takeWhile isDigit, r.dropWhile isDigit)
      else none

/-- `NUMBER_RE`: `(\.\d+)?` -/
def fracTok : Text → Text × Text
  | [] => ([], [])
  | c :: r =>
      if c = '.' ∧ r.takeWhile isDigit ≠ [] then ('.' :: r.takeWhile isDigit, r.dropWhile isDigit)
      else ([], c :: r)

/-- `NUMBER_RE`: `[-+]?` -/
def signTok : Text → Text × Text
  | [] => ([], [])
  | c :: r => if c = '+' ∨ c = '-' then ([c], r) else ([], c :: r)

/-- `NUMBER_RE`: `([eE][-+]?\d+)?` -/
def expTok : Text → Text × Text
  | [] => ([], [])
  | c :: r =>
      if (c = 'e' ∨ c = 'E') ∧ (signTok r).2.takeWhile isDigit ≠ [] then
        (c :: ((signTok r).1 ++ (signTok r).2.takeWhile isDigit), (signTok r).2.dropWhile isDigit)
      else ([], c :: r)

/-- `NUMBER_RE`: `-?` -/
def minusTok : Text → Text × Text
  | [] => ([], [])
  | c :: r => if c = '-' then (['-'], r) else ([], c :: r)

/-- `match_number`: with a fraction or an exponent it is a `float`, else an `int`. -/
def number (t : Text) : Option (J × Text) :=
  match natTok (minusTok t).2 with
  | none => none
  | some (n, r) =>
      if (fracTok r).1 = [] ∧ (expTok (fracTok r).2).1 = [] then
        some (.int (if (minusTok t).1 = [] then (natOf n : Int) else -(natOf n : Int)), r)
      else some (.dec ((minusTok t).1 ++ n ++ (fracTok r).1 ++ (expTok (fracTok r).2).1),
        (expTok (fracTok r).2).2)

/-- A constant at the beginning of the text. -/
def litTok (lit : Text) (t : Text) : Option Text :=
  if lit.isPrefixOf t = true then some (t.drop lit.length) else none

/-- Four hexadecimal digits (`_decode_uXXXX`). -/
def hex4 (a b c d : Char) : Option Nat :=
  match hexVal a, hexVal b, hexVal c, hexVal d with
  | some w, some x, some y, some z => some (((w * 16 + x) * 16 + y) * 16 + z)
  | _, _, _, _ => none

/-- The `BACKSLASH` table. -/
def backslash (c : Char) : Option Nat := (shortEscapes.find? (fun p => p.1 == c)).map (·.2)

/-- What was read of a string so far comes before. -/
def consUnits (u : Option (List Nat)) (r : Option (List Nat × Text)) : Option (List Nat × Text) :=
  match u, r with
  | some u, some (v, t) => some (u ++ v, t)
  | _, _ => none

/-- `scanstring` with `strict=True`, after the opening quote. -/
def scanStr : Text → Option (List Nat × Text)
  | [] => none
  | '"' :: r => some ([], r)
  | '\\' :: 'u' :: a :: b :: c :: d :: r => consUnits ((hex4 a b c d).map (fun n => [n])) (scanStr r)
  | '\\' :: c :: r => consUnits ((backslash c).map (fun n => [n])) (scanStr r)
  | '\\' :: [] => none
  | c :: r => consUnits (if 0x20 ≤ c.toNat then some (unitsOf c.toNat) else none) (scanStr r)

/-- `WHITESPACE.match` -/
def skipWs (t : Text) : Text := t.dropWhile isWs

/-- `JSONObject`: a name in quotes. -/
def nameTok : Text → Option (List Nat × Text)
  | '"' :: r => scanStr r
  | _ => none

/-- `JSONObject`: the colon after a name, with spaces before and after it. -/
def colonTok (t : Text) : Option Text :=
  match skipWs t with
  | ':' :: r => some (skipWs r)
  | _ => none

/-- The rest of a text beginning with neither of the other tokens: constants and numbers
(`_scan_once`). -/
def atom (t : Text) : Option (J × Text) :=
  match litTok ['n', 'u', 'l', 'l'] t with
  | some r => some (.null, r)
  | none => match litTok ['t', 'r', 'u', 'e'] t with
  | some r => some (.bool true, r)
  | none => match litTok ['f', 'a', 'l', 's', 'e'] t with
  | some r => some (.bool false, r)
  | none => match number t with
  | some p => some p
  | none => match litTok (specialText .nan) t with
  | some r => some (.special .nan, r)
  | none => match litTok (specialText .inf) t with
  | some r => some (.special .inf, r)
  | none => match litTok (specialText .ninf) t with
  | some r => some (.special .ninf, r)
  | none => none

/-- What comes first in a text. -/
inductive Start
  | quote (r : Text) | brace (r : Text) | bracket (r : Text) | else_
deriving DecidableEq

def start : Text → Start
  | '"' :: r => .quote r
  | '{' :: r => .brace r
  | '[' :: r => .bracket r
  | _ => .else_

/-- The character that ends an array or an object, if it is next. -/
def closeTok (c : Char) (t : Text) : Option Text :=
  match skipWs t with
  | d :: r => if d = c then some r else none
  | [] => none

mutual
/-- `_scan_once` -/
def scan : Nat → Text → Option (J × Text)
  | 0, _ => none
  | f + 1, t => match start t with
    | .quote r => (scanStr r).map (fun p => (J.str p.1, p.2))
    | .brace r => match closeTok '}' r with
      | some r' => some (.obj [], r')
      | none => (scanMembers f (skipWs r)).map (fun p => (J.obj p.1, p.2))
    | .bracket r => match closeTok ']' r with
      | some r' => some (.arr [], r')
      | none => (scanElems f (skipWs r)).map (fun p => (J.arr p.1, p.2))
    | .else_ => atom t
/-- The loop of `JSONArray`, up to and including the bracket. -/
def scanElems : Nat → Text → Option (List J × Text)
  | 0, _ => none
  | f + 1, t => match scan f t with
    | none => none
    | some (v, r) => match closeTok ']' r with
      | some r' => some ([v], r')
      | none => match closeTok ',' r with
        | none => none
        | some r' => (scanElems f (skipWs r')).map (fun p => (v :: p.1, p.2))
/-- The loop of `JSONObject`, up to and including the brace. -/
def scanMembers : Nat → Text → Option (List (List Nat × J) × Text)
  | 0, _ => none
  | f + 1, t => match nameTok t with
    | none => none
    | some (k, r0) => match colonTok r0 with
      | none => none
      | some r1 => match scan f r1 with
        | none => none
        | some (v, r) => match closeTok '}' r with
          | some r' => some ([(k, v)], r')
          | none => match closeTok ',' r with
            | none => none
            | some r' => (scanMembers f (skipWs r')).map (fun p => ((k, v) :: p.1, p.2))
end

/-- `JSONDecoder.decode` up to the making of objects: one value, and nothing but spaces around it. -/
def parse (t : Text) : Option J :=
  match scan (2 * t.length + 2) (skipWs t) with
  | some (v, r) => if skipWs r = [] then some v else none
  | none => none

/-- The code points of a string (`scanstring`: two escapes that make up one character are joined). -/
def joinUnits : List Nat → PStr
  | [] => []
  | [u] => [u]
  | u :: v :: r =>
      if 0xD800 ≤ u ∧ u ≤ 0xDBFF ∧ 0xDC00 ≤ v ∧ v ≤ 0xDFFF then
        (0x10000 + (u - 0xD800) * 0x400 + (v - 0xDC00)) :: joinUnits r
      else u :: joinUnits (v :: r)

/-- Assignment of a key in a `dict`: the place of the first stays. -/
def setKey (m : List (Key × Py)) (k : Key) (v : Py) : List (Key × Py) :=
  match m with
  | [] => [(k, v)]
  | (k', v') :: r => if k' = k then (k', v) :: r else (k', v') :: setKey r k v

/-- `int(text)`: a `ValueError` for too many digits. -/
def intOf (i : Int) : Option Py := if maxDigits < (decimal i.natAbs).length then none else some (.int i)

/-- `dict(pairs)` -/
def dictOf (l : List (PStr × Py)) : List (Key × Py) := l.foldl (fun m p => setKey m (.str p.1) p.2) []

mutual
/-- The Python object of what was scanned; `F` is `float(text)`. -/
def made (F : Text → Flt) : J → Option Py
  | .null => some .null
  | .bool b => some (.bool b)
  | .int i => intOf i
  | .dec t => some (.flt (F t))
  | .special s => some (.flt (.special s))
  | .str u => some (.str (joinUnits u))
  | .arr l => (madeL F l).map .list
  | .obj m => (madeM F m).map (fun l => .dict (dictOf l))
def madeL (F : Text → Flt) : List J → Option (List Py)
  | [] => some []
  | v :: l => match made F v, madeL F l with
    | some x, some r => some (x :: r)
    | _, _ => none
def madeM (F : Text → Flt) : List (List Nat × J) → Option (List (PStr × Py))
  | [] => some []
  | (k, v) :: m => match made F v, madeM F m with
    | some x, some r => some ((joinUnits k, x) :: r)
    | _, _ => none
end

/-- `json.loads(t)`; `none` is a `ValueError`. -/
def loads (F : Text → Flt) (t : Text) : Option Py := (parse t).bind (made F)

end CwlUtils.Json
