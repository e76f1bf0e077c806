import Verif.Base.Val
/-!
# Model of the node version check

`src/cwl_utils/sandboxjs.py:140-157`.
-/
namespace CwlUtils.Sandbox

/-- `s.strip(chars)`: remove the characters that satisfy `p` at both ends. -/
def stripBy (p : Char → Bool) (s : List Char) : List Char :=
  ((s.dropWhile p).reverse.dropWhile p).reverse

/-- `s.split(sep)` for a one-character separator. -/
def splitOn (sep : Char) : List Char → List (List Char)
  | [] => [[]]
  | c :: cs =>
      if c = sep then [] :: splitOn sep cs
      else match splitOn sep cs with
        | [] => [[c]]
        | w :: ws => (c :: w) :: ws

/-- `int(v)` for a string of ASCII digits; everything else is a `ValueError`. (Python also accepts
signs, underscores and surrounding white space, which `node -v` does not print.) -/
def parseInt (v : List Char) : Except Err Nat :=
  if v ≠ [] ∧ v.all Char.isDigit then .ok (Nat.ofDigitChars 10 v 0) else .error .value

/-- The list comprehension `[int(v) for v in ...]`. -/
def parseAll : List (List Char) → Except Err (List Nat)
  | [] => .ok []
  | v :: vs =>
      match parseInt v with
      | .error e => .error e
      | .ok n => (parseAll vs).map (n :: ·)

/-- Python's `a >= b` on lists of integers. -/
def listGe : List Nat → List Nat → Bool
  | _, [] => true
  | [], _ :: _ => false
  | a :: as, b :: bs => if a = b then listGe as bs else decide (b < a)

/-- `sandboxjs.py:140-157`: `check_js_threshold_version`; `out` is the output of `node -v`, `ws` the
white space characters. -/
def checkVersion (ws : Char → Bool) (out minimum : List Char) : Except Err Bool :=
  match parseAll (splitOn '.' (stripBy (· == 'v') (stripBy ws out))) with
  | .error e => .error e
  | .ok cur =>
      match parseAll (splitOn '.' minimum) with
      | .error e => .error e
      | .ok min => .ok (listGe cur min)

/-! ## Specification -/

/-- Dotted text of a version. -/
def printVersion : List Nat → List Char
  | [] => []
  | [n] => Nat.toDigits 10 n
  | n :: ns => Nat.toDigits 10 n ++ '.' :: printVersion ns

/-- `a` is an older version than `b`: at the first difference its number is smaller, or it is a
proper beginning of `b`. -/
def Older (a b : List Nat) : Prop :=
  (∃ p x y s t, a = p ++ x :: s ∧ b = p ++ y :: t ∧ x < y) ∨ (∃ y t, b = a ++ y :: t)

end CwlUtils.Sandbox
