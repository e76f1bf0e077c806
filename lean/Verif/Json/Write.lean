import Verif.Json.Spec
/-!
# Writing JSON

`json.dumps(packed, indent=args.indent)` (`src/cwl_utils/pack_cli.py:38`), `json.dumps(jsonschema,
indent=2)` (`src/cwl_utils/inputs_schema_gen.py:617`), `json.dump(entry, result_handle, indent=4)`
(`src/cwl_utils/graph_split.py:286`, `src/cwl_utils/normalizer.py:131`) and `json_dumps(v, indent=4)`
(`src/cwl_utils/expression.py:279`), together with the programs around the first and third of them.

Modelled is the encoder of Python's standard library (`json/encoder.py`) with its standard options:
`ensure_ascii=True`, `allow_nan=True`, `skipkeys=False`, `sort_keys=False` and no `default`.

Simplifications: a string is the list of its code points (lone surrogates are possible); a finite
floating point number is the text of its `repr`; an object without a JSON form (a date, a set, a
byte string) is `other`; documents that contain themselves (YAML aliases) and the limit of Python's
stack are left out; a file that was opened can be written.
-/
namespace CwlUtils.Json

inductive WErr
  | typeError | valueError
deriving DecidableEq, Repr

/-- A Python `str`: its code points. -/
abbrev PStr := List Nat

/-- A Python `float`. -/
inductive Flt
  | special (s : Special)
  | fin (t : Text)
deriving DecidableEq, Repr

/-- A key of a Python `dict`. -/
inductive Key
  | str (s : PStr)
  | int (i : Int)
  | flt (f : Flt)
  | bool (b : Bool)
  | null
  | other
deriving DecidableEq, Repr

/-- What is written: a Python object. -/
inductive Py
  | null
  | bool (b : Bool)
  | int (i : Int)
  | flt (f : Flt)
  | str (s : PStr)
  | list (l : List Py)
  | dict (m : List (Key × Py))
  | other
deriving Repr

/-- The digit of a number below ten (part of `int.__repr__`). -/
def digit (n : Nat) : Char := Char.ofNat (48 + n)

/-- Decimal digits (part of `int.__repr__`, used at `json/encoder.py` `_intstr`). -/
def decAux : Nat → Nat → Text
  | 0, n => [digit (n % 10)]
  | f + 1, n => if n < 10 then [digit n] else decAux f (n / 10) ++ [digit (n % 10)]

def decimal (n : Nat) : Text := decAux n n

/-- The greatest number of digits Python converts (`sys.int_info.default_max_str_digits`). -/
def maxDigits : Nat := 4300

/-- `_intstr = int.__repr__`: a `ValueError` for numbers with too many digits. -/
def intStr (i : Int) : Except WErr Text :=
  if maxDigits < (decimal i.natAbs).length then .error .valueError
  else .ok (if i < 0 then '-' :: decimal i.natAbs else decimal i.natAbs)

/-- `floatstr` with `allow_nan=True`. -/
def floatStr : Flt → Text
  | .special s => specialText s
  | .fin t => t

def hexDigit (n : Nat) : Char := if n < 10 then Char.ofNat (48 + n) else Char.ofNat (87 + n)

/-- `'\\u{0:04x}'.format(n)` -/
def uEsc (n : Nat) : Text :=
  ['\\', 'u', hexDigit (n / 4096 % 16), hexDigit (n / 256 % 16), hexDigit (n / 16 % 16), hexDigit (n % 16)]

/-- One character in `py_encode_basestring_ascii`. -/
def encChar (n : Nat) : Text :=
  if n = 34 then ['\\', '"']
  else if n = 92 then ['\\', '\\']
  else if n = 10 then ['\\', 'n']
  else if n = 13 then ['\\', 'r']
  else if n = 9 then ['\\', 't']
  else if n = 12 then ['\\', 'f']
  else if n = 8 then ['\\', 'b']
  else if 32 ≤ n ∧ n ≤ 126 then [Char.ofNat n]
  else if n < 0x10000 then uEsc n
  else uEsc (0xD800 + (n - 0x10000) / 0x400) ++ uEsc (0xDC00 + (n - 0x10000) % 0x400)

/-- `py_encode_basestring_ascii` -/
def encStr (s : PStr) : Text := '"' :: (s.flatMap encChar ++ ['"'])

/-- What a generator has given so far, and the exception that ended it. -/
structure Out where
  text : Text
  err : Option WErr
deriving DecidableEq, Repr

/-- `yield t` -/
def Out.give (t : Text) : Out := ⟨t, none⟩

/-- One generator after the other (`yield from`). -/
def Out.andThen (a b : Out) : Out :=
  match a.err with
  | none => ⟨a.text ++ b.text, b.err⟩
  | some e => ⟨a.text, some e⟩

/-- The separators: with `indent` (a number, negative ones count as zero) every member is on a line
of its own, without it there is a space after each comma. -/
def lineBreak : Option Int → Nat → Text
  | none, _ => []
  | some n, lvl => '\n' :: List.replicate (n.toNat * lvl) ' '

/-- `item_separator` is `","` with an indent and `", "` without one (`JSONEncoder.__init__`). -/
def separator (ind : Option Int) (lvl : Nat) : Text :=
  match ind with
  | none => [',', ' ']
  | some _ => ',' :: lineBreak ind lvl

/-- The objects written in one piece (strings, `None`, booleans and numbers). -/
def scalar : Py → Option (Except WErr Text)
  | .null => some (.ok ['n', 'u', 'l', 'l'])
  | .bool true => some (.ok ['t', 'r', 'u', 'e'])
  | .bool false => some (.ok ['f', 'a', 'l', 's', 'e'])
  | .int i => some (intStr i)
  | .flt f => some (.ok (floatStr f))
  | .str s => some (.ok (encStr s))
  | _ => none

/-- The name written for a key (`_iterencode_dict`). -/
def keyText : Key → Except WErr PStr
  | .str s => .ok s
  | .flt f => .ok ((floatStr f).map Char.toNat)
  | .bool true => .ok (['t', 'r', 'u', 'e'].map Char.toNat)
  | .bool false => .ok (['f', 'a', 'l', 's', 'e'].map Char.toNat)
  | .null => .ok (['n', 'u', 'l', 'l'].map Char.toNat)
  | .int i => match intStr i with
    | .ok t => .ok (t.map Char.toNat)
    | .error e => .error e
  | .other => .error .typeError

/-- A member of a list: a scalar is given together with what is before it (`yield buf + ...`), other
objects after it (`yield buf` and `yield from chunks`). -/
def member (buf : Text) (s : Option (Except WErr Text)) (chunks : Out) : Out :=
  match s with
  | some (.ok t) => .give (buf ++ t)
  | some (.error e) => ⟨[], some e⟩
  | none => (Out.give buf).andThen chunks

/-- A scalar alone. -/
def alone (s : Option (Except WErr Text)) (chunks : Out) : Out :=
  match s with
  | some (.ok t) => .give t
  | some (.error e) => ⟨[], some e⟩
  | none => chunks

/-- `yield item_separator` (not before the first), `yield _encoder(key)`, `yield _key_separator`. -/
def keyOut (sep : Text) (k : Key) : Out :=
  match keyText k with
  | .error e => ⟨[], some e⟩
  | .ok s => .give (sep ++ encStr s ++ [':', ' '])

mutual
/-- `_iterencode` (`json/encoder.py`): the text of an object at a level of indentation.  For `other`
it is `JSONEncoder.default`, which raises `TypeError`. -/
def enc (ind : Option Int) (lvl : Nat) : Py → Out
  | .list [] => .give ['[', ']']
  | .list (x :: l) =>
      ((member ('[' :: lineBreak ind (lvl + 1)) (scalar x) (enc ind (lvl + 1) x)).andThen
        (encList ind (lvl + 1) l)).andThen (.give (lineBreak ind lvl ++ [']']))
  | .dict [] => .give ['{', '}']
  | .dict ((k, x) :: m) =>
      (((Out.give ('{' :: lineBreak ind (lvl + 1))).andThen (keyOut [] k)).andThen
        (alone (scalar x) (enc ind (lvl + 1) x))).andThen
        ((encDict ind (lvl + 1) m).andThen (.give (lineBreak ind lvl ++ ['}'])))
  | .other => ⟨[], some .typeError⟩
  | .null => alone (scalar .null) ⟨[], none⟩
  | .bool b => alone (scalar (.bool b)) ⟨[], none⟩
  | .int i => alone (scalar (.int i)) ⟨[], none⟩
  | .flt f => alone (scalar (.flt f)) ⟨[], none⟩
  | .str s => alone (scalar (.str s)) ⟨[], none⟩
/-- The members of a list after the first (`_iterencode_list`). -/
def encList (ind : Option Int) (lvl : Nat) : List Py → Out
  | [] => .give []
  | x :: l => (member (separator ind lvl) (scalar x) (enc ind lvl x)).andThen (encList ind lvl l)
/-- The members of a mapping after the first (`_iterencode_dict`). -/
def encDict (ind : Option Int) (lvl : Nat) : List (Key × Py) → Out
  | [] => .give []
  | (k, x) :: m => ((keyOut (separator ind lvl) k).andThen (alone (scalar x) (enc ind lvl x))).andThen
      (encDict ind lvl m)
end

/-- `json.dumps(v, indent=ind)`: all pieces are made before anything is returned. -/
def dumps (ind : Option Int) (v : Py) : Except WErr Text :=
  match (enc ind 0 v).err with
  | none => .ok (enc ind 0 v).text
  | some e => .error e

/-- `json.dump(v, handle, indent=ind)`: the pieces are written as they are made.  The result is what
the file contains afterwards, with the exception. -/
def dump (ind : Option Int) (v : Py) : Text × Option WErr := ((enc ind 0 v).text, (enc ind 0 v).err)

/-- How a program ended. -/
inductive Ended
  | status (n : Int)
  | raised (e : WErr)
  | osError
deriving DecidableEq, Repr

/-- The outside of the program that writes one file: whether `open(outfile, "w")` succeeds. -/
abbrev Opens := Bool

/-- `cwl_utils.pack_cli.run` (`src/cwl_utils/pack_cli.py:35-47`) after `pack` gave `packed`; `before` is
the content of the output file (or of standard output: nothing) before, the second result is the
content after.  With `out = false` the text goes to standard output, which is always open. -/
def packRun (ind : Option Int) (out : Bool) (opens : Opens) (before : Option Text) (packed : Py) :
    Ended × Option Text :=
  match dumps ind packed with
  | .error e => (.raised e, before)
  | .ok t =>
      if out = true ∧ opens = false then (.osError, before)
      else (.status 0, some (t ++ ['\n']))

/-- `cwl_utils.graph_split.json_dump` (`src/cwl_utils/graph_split.py:283-286`), and the same two lines at
the end of `cwl_utils.normalizer.run` (`src/cwl_utils/normalizer.py:130-131`). -/
def jsonDump (opens : Opens) (before : Option Text) (entry : Py) : Ended × Option Text :=
  if opens = false then (.osError, before)
  else match (dump (some 4) entry).2 with
    | none => (.status 0, some (dump (some 4) entry).1)
    | some e => (.raised e, some (dump (some 4) entry).1)

end CwlUtils.Json
