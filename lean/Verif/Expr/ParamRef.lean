import Verif.Expr.Interpolate
/-!
# Model of parameter references and of the evaluator

`src/cwl_utils/sandboxjs.py:37-44,527-626` and `src/cwl_utils/expression.py:122-186`.

The two regular expressions are modelled by hand-written backtracking matchers which list all ways
to match in the order Python's `re` tries them.  `\w` with `re.UNICODE` is the parameter `isWord`.
-/
namespace CwlUtils.Expr

/-- `\w+` (greedy): the possible remainders, longest match first. -/
def wordRems (isWord : Char → Bool) : Str → List Str
  | [] => []
  | c :: cs => if isWord c then wordRems isWord cs ++ [cs] else []

/-- The tail `q\]` of a quoted segment. -/
def closeQ (q : Char) : Str → List Str
  | c :: d :: t => if c = q ∧ d = ']' then [t] else []
  | _ => []

/-- `([^q]|\\q)+q\]` (`sandboxjs.py:38-39`, after the opening `[q`): possible remainders in the
order of the regex engine.  Each iteration tries `[^q]` before `\\q`, and another iteration before
the closing `q\]`. -/
def qRems (q : Char) : Str → List Str
  | [] => []
  | c :: cs =>
      (if c ≠ q then qRems q cs ++ closeQ q cs else []) ++
      (match cs with
       | d :: ds => if c = '\\' ∧ d = q then qRems q ds ++ closeQ q ds else []
       | [] => [])

/-- `[0-9]` -/
def isDigit09 (c : Char) : Bool := '0' ≤ c && c ≤ '9'

/-- `[0-9]+\]` (`sandboxjs.py:40`, after the opening bracket): possible remainders. -/
def idxRems : Str → List Str
  | [] => []
  | c :: cs =>
      if isDigit09 c then
        idxRems cs ++ (match cs with | d :: t => if d = ']' then [t] else [] | [] => [])
      else []

/-- `segments` (`sandboxjs.py:41`): `(\.\w+|\['...'\]|\["..."\]|\[[0-9]+\])`; possible remainders in
order. -/
def segRems (isWord : Char → Bool) : Str → List Str
  | '.' :: cs => wordRems isWord cs
  | '[' :: '\'' :: cs => qRems '\'' cs
  | '[' :: '"' :: cs => qRems '"' cs
  | '[' :: cs => idxRems cs
  | _ => []

/-- `segment_re.match(s)` (`sandboxjs.py:42,535`): the matched segment and the rest. -/
def segMatch (isWord : Char → Bool) (s : Str) : Option (Str × Str) :=
  match segRems isWord s with
  | [] => none
  | r :: _ => some (s.take (s.length - r.length), r)

/-- `\)$`: a closing parenthesis at the end, or right before a final line break. -/
def closesEnd (s : Str) : Bool := s = [')'] || s = [')', '\n']

/-- `segments*\)$` (`sandboxjs.py:43`): does some way of matching succeed?  The fuel is the length
of the text (every segment consumes at least one character). -/
def tailMatch (isWord : Char → Bool) : Nat → Str → Bool
  | 0, _ => false
  | fuel + 1, s => (segRems isWord s).any (tailMatch isWord fuel) || closesEnd s

/-- `param_re.match(ex)` (`sandboxjs.py:43-44`): group 1 and the text after it. -/
def paramMatch (isWord : Char → Bool) (ex : Str) : Option (Str × Str) :=
  match ex with
  | '(' :: cs =>
      match (wordRems isWord cs).find? (fun r => tailMatch isWord (r.length + 1) r) with
      | some r => some (cs.take (cs.length - r.length), r)
      | none => none
  | _ => none

/-- `key = next_segment_str[2:-2].replace("\\'", "'").replace('\\"', '"')` (`sandboxjs.py:543`). -/
def replaceEsc (q : Char) : Str → Str
  | '\\' :: d :: t => if d = q then q :: replaceEsc q t else '\\' :: replaceEsc q (d :: t)
  | c :: t => c :: replaceEsc q t
  | [] => []

/-- The key denoted by a segment. -/
inductive Key where
  | str (s : Str)
  | int (n : Nat)
  deriving DecidableEq, Repr

/-- Value of a decimal digit. -/
def digitVal (c : Char) : Nat := c.toNat - '0'.toNat

/-- `int(...)` on a text of decimal digits.  (CPython refuses texts of more than 4300 digits with a
`ValueError`, which `regex_eval` turns into a `WorkflowException`; the model has no such limit.) -/
def decVal (s : Str) : Nat := s.foldl (fun n c => 10 * n + digitVal c) 0

/-- `sandboxjs.py:538-543,560`: the key of a matched segment. The matched text has at least two
characters. -/
def segKey (seg : Str) : Key :=
  match seg with
  | '.' :: k => .str k
  | _ :: c :: rest =>
      if c = '\'' ∨ c = '"' then
        .str (replaceEsc '"' (replaceEsc '\'' (rest.take (rest.length - 2))))
      else .int (decVal ((c :: rest).take ((c :: rest).length - 1)))
  | _ => .str []

/-- `NodeJSEngine.regex_eval` (`sandboxjs.py:527-626`) on `remaining_string` and `current_value`.
The three branches for directories, files and other mappings (lines 576-604) do the same lookup and
are one branch here; the parameter `parsed_string` only serves error messages.  The fuel is the
length of the remaining text plus one. -/
def regexEval (isWord : Char → Bool) : Nat → Str → Val → Except Err Val
  | 0, _, _ => .error .fuel
  | fuel + 1, remaining, current =>
      if remaining = [] then .ok current
      else match segMatch isWord remaining with
      | none => .ok current                                   -- `if not m: return current_value`
      | some (seg, rest) =>
          match segKey seg with
          | .str key =>
              match current with
              | .arr xs =>
                  if key = "length".toList ∧ rest = [] then .ok (.int xs.length)
                  else .error .workflow
              | .obj m =>
                  match Dict.get? m (String.ofList key) with
                  | none => .error .workflow
                  | some v => regexEval isWord fuel rest v
              | _ => .error .workflow
          | .int i =>
              match current with
              | .arr xs =>
                  if i ≠ 0 ∧ i ≥ xs.length then .error .workflow
                  else match xs[i]? with
                  | some v => regexEval isWord fuel rest v
                  | none => .error .index                     -- `current_value[key]` on an empty list
              | _ => .error .workflow

/-- `is_cwl_parameter_context_key` (`types.py:106-109`). -/
def isContextKey (s : Str) : Bool :=
  s = "inputs".toList || s = "self".toList || s = "runtime".toList

/-- `evaluator` (`expression.py:122-186`). `js` stands for
`js_engine.eval(ex, jslib, **kwargs)`. The engine's `regex_eval` is that of `NodeJSEngine`. -/
def evaluator (isWord : Char → Bool) (js : Str → Except Err Val) (ex : Str) (obj : Dict Val)
    (fullJS : Bool) : Except Err Val :=
  match paramMatch isWord ex with
  | some (sym, rest) =>
      if 1 + sym.length + 1 = ex.length ∧ sym = "null".toList then .ok .null
      else
        let r : Except Err Val :=
          if isContextKey sym then
            match Dict.get? obj (String.ofList sym) with
            | none => .error .key
            | some v => regexEval isWord (rest.length + 1) (rest.take (rest.length - 1)) v
          else .error .workflow
        match r with
        | .error .workflow => if fullJS then js ex else .error .javascript
        | r => r
  | none => if fullJS then js ex else .error .javascript

end CwlUtils.Expr
