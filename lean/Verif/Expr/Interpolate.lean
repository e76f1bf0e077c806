import Verif.Expr.Scanner
/-!
# Model of string interpolation

`src/cwl_utils/expression.py:189-272`.
-/
namespace CwlUtils.Expr

/-- `schema_salad.utils.json_dumps(e, sort_keys=True)` and `json.loads` on a JSON string literal.
Both are external code and stay parameters; the three laws are what the standard library promises:
the text of a string value starts with a double quote and is read back to the same string, the text
of any other value does not start with a double quote.  (Values `json` cannot write, such as byte
strings, do not occur: `do_eval` removes them first and the engines return JSON.) -/
structure Json where
  dumps : Val → Str
  loads : Str → Str
  str_head : ∀ s, (dumps (.str s)).head? = some '"'
  str_loads : ∀ s, loads (dumps (.str s)) = s.toList
  other_head : ∀ v, (∀ s, v ≠ .str s) → (dumps v).head? ≠ some '"'

/-- `expression.py:237-240`: the text inserted for an evaluated value. -/
def leafText (J : Json) (e : Val) : Str :=
  let leaf := J.dumps e
  if leaf.head? = some '"' then J.loads leaf else leaf

/-- The options of `interpolate` that matter to its control flow, with the calls to the outside:
`ev` stands for `evaluator(js_engine, ·, rootvars, jslib, fullJS, **kwargs)` (line 231), `jsonStr`
for `json.dumps` of a Python string (line 35). -/
structure Opts where
  conv : Bool
  escaping : Nat
  ev : Str → Except Err Val
  J : Json
  jsonStr : Str → Str

/-- `expression.py:34-35` (`_convert_dumper`) and `213-215`: the local function `dump`. -/
def dump (o : Opts) (s : Str) : Str :=
  if o.conv then o.jsonStr s ++ " + ".toList else s

/-- `expression.py:243`: text before an expression in the conversion. -/
def jsPre : Str := "function(){var item =".toList

/-- `expression.py:245-246`: text after an expression in the conversion. -/
def jsPost : Str :=
  ("; if (typeof(item) === \"string\"){ return item; } " ++
     "else { return JSON.stringify(item); }}()").toList

/-- `expression.py:242-247`: the JavaScript function wrapped around an expression. -/
def jsWrap (inner : Str) : Str := jsPre ++ inner ++ jsPost ++ " + ".toList

/-- Python slice `s[a:b]` for `0 ≤ a`, `0 ≤ b`. -/
def slice (s : Str) (a b : Nat) : Str := (s.take b).drop a

/-- Python slice `s[2:-1]`. -/
def slice2m1 (s : Str) : Str := (s.take (s.length - 1)).drop 2

/-- The `while w:` loop of `interpolate` (`expression.py:218-272`), on the remaining text and the
parts collected so far.  The first argument bounds the number of iterations; `interpolate` passes
one more than the length of the text and `Props.lean` proves that it is never used up. -/
def interpLoop (o : Opts) : Nat → Str → List Str → Except Err Val
  | 0, _, _ => .error .fuel
  | fuel + 1, scan, parts =>
      match scanner scan with
      | .error e => .error e
      | .ok none =>
          let parts :=
            if o.conv then parts ++ ["\"".toList ++ scan ++ "\"".toList, ";}".toList]
            else parts ++ [scan]
          .ok (.str (String.ofList parts.flatten))
      | .ok (some (a, b)) =>
          let parts :=
            if o.conv then parts ++ ["\"".toList ++ slice scan 0 a ++ "\" + ".toList]
            else parts ++ [slice scan 0 a]
          if scan[a]? = some '$' then
            if !o.conv then
              match o.ev (slice scan (a + 1) b) with
              | .error e => .error e
              | .ok e =>
                  if a = 0 ∧ b = scan.length ∧ parts.length ≤ 1 then .ok e
                  else interpLoop o fuel (scan.drop b) (parts ++ [leafText o.J e])
            else
              interpLoop o fuel (scan.drop b) (parts ++ [jsWrap (slice2m1 (slice scan a b))])
          else if scan[a]? = some '\\' then
            if o.escaping = 1 then
              interpLoop o fuel (scan.drop b) (parts ++ [dump o (slice scan (b - 1) b)])
            else if o.escaping = 2 then
              let e := slice scan a (b + 1)
              if e = "\\$(".toList ∨ e = "\\${".toList then
                interpLoop o fuel (scan.drop (b + 1)) (parts ++ [dump o (e.drop 1)])
              else if e[1]? = some '\\' then
                interpLoop o fuel (scan.drop b) (parts ++ [dump o "\\".toList])
              else
                interpLoop o fuel (scan.drop b) (parts ++ [dump o (e.take 2)])
            else .error .generic
          else interpLoop o fuel (scan.drop b) parts

/-- Python `str.strip()`; `ws` is `str.isspace` on one character. -/
def strip (ws : Char → Bool) (s : Str) : Str :=
  ((s.dropWhile ws).reverse.dropWhile ws).reverse

/-- `expression.py:189-272`: `interpolate`. -/
def interpolate (o : Opts) (ws : Char → Bool) (stripWs : Bool) (scan : Str) : Except Err Val :=
  let scan := if stripWs then strip ws scan else scan
  interpLoop o (scan.length + 1) scan (if o.conv then ["${return ".toList] else [])

end CwlUtils.Expr
