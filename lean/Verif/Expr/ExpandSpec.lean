import Verif.Expr.ScanSpec
/-!
# Specification of text expansion

What a CWL string with embedded expressions means, as an inductive relation on texts.  It uses the
grammar of `ScanSpec`, not the scanner and not the interpolation loop.
-/
namespace CwlUtils.Expr

/-- The text of a block without the leading `$`. -/
def block (k : Kind) (b : Str) : Str := k.op :: (b ++ [k.cl])

/-- `Expand old ev leaf s r`: the text `s` means the result `r` (a text or an error), where `old`
selects the escaping rules of CWL v1.0/v1.1, `ev` evaluates one expression and `leaf` is the text of
a value. -/
inductive Expand (old : Bool) (ev : Str → Except Err Val) (leaf : Val → Str) :
    Str → Except Err Str → Prop where
  | plain {s : Str} : Clean s → Expand old ev leaf s (.ok s)
  | plainBackslash {s : Str} : Clean s → Expand old ev leaf (s ++ ['\\']) (.ok (s ++ ['\\']))
  | value {pre b t : Str} {k : Kind} {v : Val} {r : Except Err Str} :
      Clean pre → Body k b → ev (block k b) = .ok v → Expand old ev leaf t r →
      Expand old ev leaf (pre ++ '$' :: k.op :: (b ++ k.cl :: t))
        (r.map (fun x => pre ++ (leaf v ++ x)))
  | failed {pre b t : Str} {k : Kind} {e : Err} :
      Clean pre → Body k b → ev (block k b) = .error e →
      Expand old ev leaf (pre ++ '$' :: k.op :: (b ++ k.cl :: t)) (.error e)
  | unfinished {pre rest : Str} {k : Kind} :
      Clean pre → (∀ b t, Body k b → rest ≠ b ++ k.cl :: t) →
      Expand old ev leaf (pre ++ '$' :: k.op :: rest) (.error .substitution)
  | escOld {pre t : Str} {c : Char} {r : Except Err Str} :
      old = true → Clean pre → Expand old ev leaf t r →
      Expand old ev leaf (pre ++ '\\' :: c :: t) (r.map (fun x => pre ++ (c :: x)))
  | escMarker {pre t : Str} {k : Kind} {r : Except Err Str} :
      old = false → Clean pre → Expand old ev leaf t r →
      Expand old ev leaf (pre ++ '\\' :: '$' :: k.op :: t)
        (r.map (fun x => pre ++ ('$' :: k.op :: x)))
  | escBackslash {pre t : Str} {r : Except Err Str} :
      old = false → Clean pre → Expand old ev leaf t r →
      Expand old ev leaf (pre ++ '\\' :: '\\' :: t) (r.map (fun x => pre ++ ('\\' :: x)))
  | escOther {pre t : Str} {c : Char} {r : Except Err Str} :
      old = false → Clean pre → c ≠ '\\' → (∀ k t', c = '$' → t ≠ Kind.op k :: t') →
      Expand old ev leaf t r →
      Expand old ev leaf (pre ++ '\\' :: c :: t) (r.map (fun x => pre ++ ('\\' :: c :: x)))

/-- The whole text is one expression. -/
def Single (s : Str) : Prop := ∃ k b, Body k b ∧ s = '$' :: block k b

end CwlUtils.Expr
