import Verif.Expr.Scanner
/-!
# Specification vocabulary for expression blocks

Independent of the scanner's state machine: a grammar of balanced expression bodies and the notion
of plain text.
-/
namespace CwlUtils.Expr

/-- The two forms of CWL expressions, `$(...)` and `${...}`. -/
inductive Kind where
  | paren | brace
  deriving DecidableEq, Repr

/-- Opening bracket. -/
def Kind.op : Kind → Char
  | .paren => '(' | .brace => '{'
/-- Closing bracket. -/
def Kind.cl : Kind → Char
  | .paren => ')' | .brace => '}'

/-- The inside of a JavaScript string literal delimited by `q`: a backslash protects the next
character, and `q` does not occur unprotected. -/
inductive QBody (q : Char) : Str → Prop where
  | nil : QBody q []
  | plain {c : Char} {s : Str} : c ≠ q → c ≠ '\\' → QBody q s → QBody q (c :: s)
  | esc {c : Char} {s : Str} : QBody q s → QBody q ('\\' :: c :: s)

/-- The inside of a balanced block of kind `k`: brackets of that kind are balanced, except inside
string literals. -/
inductive Body (k : Kind) : Str → Prop where
  | nil : Body k []
  | plain {c : Char} {s : Str} : c ≠ k.op → c ≠ k.cl → c ≠ '\'' → c ≠ '"' → Body k s →
      Body k (c :: s)
  | quoted {q : Char} {qs s : Str} : (q = '\'' ∨ q = '"') → QBody q qs → Body k s →
      Body k (q :: (qs ++ q :: s))
  | nest {t s : Str} : Body k t → Body k s → Body k (k.op :: (t ++ k.cl :: s))

/-- The text contains an expression start marker `$(` or `${`. -/
def hasMarker : Str → Bool
  | [] => false
  | [_] => false
  | a :: b :: s => (a == '$' && (b == '(' || b == '{')) || hasMarker (b :: s)

/-- Plain text: no backslash and no expression start marker. -/
def Clean (s : Str) : Prop := '\\' ∉ s ∧ hasMarker s = false

instance (s : Str) : Decidable (Clean s) := by unfold Clean; infer_instance

end CwlUtils.Expr
