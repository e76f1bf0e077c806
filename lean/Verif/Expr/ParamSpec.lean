import Verif.Expr.ParamRef
/-!
# Specification of parameter references

The written form of a reference (a root and a list of segments) and the value it denotes.
-/
namespace CwlUtils.Expr

/-- One step of a path, as it is written. -/
inductive Seg where
  | dot (k : Str)          -- `.k`
  | sq (k : Str)           -- `['k']`
  | dq (k : Str)           -- `["k"]`
  | idx (n : Nat)          -- `[n]`
  deriving DecidableEq, Repr

/-- A key with the quote character escaped. -/
def escQ (q : Char) (k : Str) : Str := k.flatMap (fun c => if c = q then ['\\', q] else [c])

/-- Concrete syntax of a step. -/
def Seg.print : Seg → Str
  | .dot k => '.' :: k
  | .sq k => '[' :: '\'' :: (escQ '\'' k ++ ['\'', ']'])
  | .dq k => '[' :: '"' :: (escQ '"' k ++ ['"', ']'])
  | .idx n => '[' :: (Nat.toDigits 10 n ++ [']'])

/-- The key a step stands for. -/
def Seg.key : Seg → Key
  | .dot k => .str k
  | .sq k => .str k
  | .dq k => .str k
  | .idx n => .int n

/-- Keys that can be written: symbols are words; quoted keys are not empty, hold no backslash and
not the sequence quote-bracket (see `paramref_prefix_violated` for what happens with that one). -/
def Seg.Ok (isWord : Char → Bool) : Seg → Prop
  | .dot k => k ≠ [] ∧ ∀ c ∈ k, isWord c = true
  | .sq k => k ≠ [] ∧ '\\' ∉ k ∧ ¬ ['\'', ']'] <:+: k
  | .dq k => k ≠ [] ∧ '\\' ∉ k ∧ ¬ ['"', ']'] <:+: k
  | .idx _ => True

/-- Concrete syntax of a path. -/
def printPath (p : List Seg) : Str := (p.map Seg.print).flatten

/-- The value reached from `v` along the keys (`none`: there is no such value).  `length` as last
key of a list is its size. -/
def follow : Val → List Key → Option Val
  | v, [] => some v
  | .obj m, .str k :: p => (Dict.get? m (String.ofList k)).bind (follow · p)
  | .arr xs, [.str k] => if k = "length".toList then some (.int xs.length) else none
  | .arr xs, .int i :: p => xs[i]?.bind (follow · p)
  | _, _ :: _ => none

/-- The path indexes an empty list at position 0. -/
def hitsEmpty : Val → List Key → Prop
  | .obj m, .str k :: p => ∃ v, Dict.get? m (String.ofList k) = some v ∧ hitsEmpty v p
  | .arr [], .int 0 :: _ => True
  | .arr xs, .int i :: p => ∃ v, xs[i]? = some v ∧ hitsEmpty v p
  | _, _ => False

/-- What the reference syntax relies on: the punctuation of paths is not made of word characters. -/
structure WordOk (isWord : Char → Bool) : Prop where
  dot : isWord '.' = false
  lbr : isWord '[' = false
  rpar : isWord ')' = false

end CwlUtils.Expr
