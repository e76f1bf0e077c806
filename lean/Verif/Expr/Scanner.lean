import Verif.Base.Val
/-!
# Model of the expression scanner

`src/cwl_utils/expression.py:38-119` (`class t`, `scanner`).  A Python `str` is a `List Char`.
-/
namespace CwlUtils.Expr

abbrev Str := List Char

/-- `expression.py:38-47`, the tokens on the scanner's stack. -/
inductive Tok where
  | dflt | dollar | paren | brace | squote | dquote | bslash
  deriving DecidableEq, Repr

/-- Effect of one pass through the `while` body of `scanner` (`expression.py:55-111`).
`go` is the normal end of the body (`i += 1`), `again` is the `i -= 1` branch of line 78 (the same
character is read again with the popped stack), `ret` is `return`, and `stuck` is the `IndexError`
that `stack[-1]` would raise on an empty stack. -/
inductive Step where
  | go (stack : List Tok) (start : Nat)
  | again (stack : List Tok) (start : Nat)
  | ret (a b : Nat)
  | stuck
  deriving DecidableEq, Repr

/-- `expression.py:56-110`: the `match state` statement.  The list head is the top of the stack. -/
def step (c : Char) (i : Nat) (stack : List Tok) (start : Nat) : Step :=
  match stack with
  | [] => .stuck
  | .dflt :: _ =>
      if c = '$' then .go (.dollar :: stack) start
      else if c = '\\' then .go (.bslash :: stack) start
      else .go stack start
  | .bslash :: below =>
      match below with
      | [] => .stuck
      | .dflt :: _ => .ret (i - 1) (i + 1)
      | _ => .go below start
  | .dollar :: below =>
      if c = '(' then .go (.paren :: stack) (i - 1)
      else if c = '{' then .go (.brace :: stack) (i - 1)
      else .again below start
  | .paren :: below =>
      if c = '(' then .go (.paren :: stack) start
      else if c = ')' then
        match below with
        | [] => .stuck
        | .dollar :: _ => .ret start (i + 1)
        | _ => .go below start
      else if c = '\'' then .go (.squote :: stack) start
      else if c = '"' then .go (.dquote :: stack) start
      else .go stack start
  | .brace :: below =>
      if c = '{' then .go (.brace :: stack) start
      else if c = '}' then
        match below with
        | [] => .stuck
        | .dollar :: _ => .ret start (i + 1)
        | _ => .go below start
      else if c = '\'' then .go (.squote :: stack) start
      else if c = '"' then .go (.dquote :: stack) start
      else .go stack start
  | .squote :: below =>
      if c = '\'' then .go below start
      else if c = '\\' then .go (.bslash :: stack) start
      else .go stack start
  | .dquote :: below =>
      if c = '"' then .go below start
      else if c = '\\' then .go (.bslash :: stack) start
      else .go stack start

/-- `expression.py:113-119`: the check after the loop. -/
def finish (stack : List Tok) : Except Err (Option (Nat × Nat)) :=
  match stack with
  | [] => .ok none
  | [_] => .ok none
  | [.bslash, _] => .ok none
  | [.dollar, _] => .ok none
  | _ => .error .substitution

/-- The loop of `scanner`.  `again` re-reads the same character; a second `again` in a row would
need two `DOLLAR` tokens on top of each other, which never happens (`scanner_no_index_error` in
`Props.lean` shows that this branch is dead). -/
def run : Str → Nat → List Tok → Nat → Except Err (Option (Nat × Nat))
  | [], _, stack, _ => finish stack
  | c :: cs, i, stack, start =>
      match step c i stack start with
      | .go st s => run cs (i + 1) st s
      | .ret a b => .ok (some (a, b))
      | .stuck => .error .index
      | .again st s =>
          match step c i st s with
          | .go st' s' => run cs (i + 1) st' s'
          | .ret a b => .ok (some (a, b))
          | .stuck => .error .index
          | .again _ _ => .error .index

/-- `expression.py:50-119`: `scanner(scan)`. -/
def scanner (scan : Str) : Except Err (Option (Nat × Nat)) := run scan 0 [.dflt] 0

end CwlUtils.Expr
