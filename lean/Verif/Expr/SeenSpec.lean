import Verif.Expr.RealJson
import Verif.Utils.BytesSpec
/-!
# What an expression should see

Specification of the names `inputs`, `self` and `runtime` of an evaluation, of the JSON values of the
context, and of the value of a JSON text used as a JavaScript literal.
-/
namespace CwlUtils.Expr
open CwlUtils.Json (J unitsOf)

/-- The value of a directory: no directory and the empty path are `null`. -/
def dirValue (d : Option String) : Val := ((d.filter (· ≠ "")).map Val.str).getD .null

/-- `runtime`: the two directories, and otherwise the resources. -/
def Runtime (a : EvalArgs) (r : Val) : Prop :=
  ∃ m : Dict Val, r = .obj m ∧ Dict.get? m "outdir" = some (dirValue a.outdir) ∧
    Dict.get? m "tmpdir" = some (dirValue a.tmpdir) ∧
    ∀ k, k ≠ "outdir" → k ≠ "tmpdir" → Dict.get? m k = Dict.get? a.resources k

/-- The UTF-16 code units of a string. -/
def utf16Of (s : String) : List Nat := s.toList.flatMap (fun c => unitsOf c.toNat)

/-- The JSON number for a floating point number. -/
def floatJ : CwlUtils.Json.Flt → J
  | .fin t => .dec t
  | .special s => .special s

mutual
/-- The JSON value of a value; there is none with byte strings or with numbers of more than 4300 digits. -/
def jsonOf (fl : Floats) : Val → Option J
  | .null => some .null
  | .bool b => some (.bool b)
  | .int n => if CwlUtils.Json.short n = true then some (.int n) else none
  | .flt t => some (floatJ (fl.repr t))
  | .str s => some (.str (utf16Of s))
  | .bytes _ => none
  | .arr l => (jsonOfL fl l).map .arr
  | .obj m => (jsonOfM fl m).map .obj
def jsonOfL (fl : Floats) : List Val → Option (List J)
  | [] => some []
  | x :: l => match jsonOf fl x, jsonOfL fl l with
    | some v, some r => some (v :: r)
    | _, _ => none
def jsonOfM (fl : Floats) : List (String × Val) → Option (List (List Nat × J))
  | [] => some []
  | (k, x) :: m => match jsonOf fl x, jsonOfM fl m with
    | some v, some r => some ((utf16Of k, v) :: r)
    | _, _ => none
end

mutual
/-- The same value with the members of mappings in another order. -/
inductive Reordered : Val → Val → Prop
  | null : Reordered .null .null
  | bool (b : Bool) : Reordered (.bool b) (.bool b)
  | int (n : Int) : Reordered (.int n) (.int n)
  | flt (t : String) : Reordered (.flt t) (.flt t)
  | str (s : String) : Reordered (.str s) (.str s)
  | bytes (b : List UInt8) : Reordered (.bytes b) (.bytes b)
  | arr {l l' : List Val} : ReorderedL l l' → Reordered (.arr l) (.arr l')
  | obj {m n m' : List (String × Val)} : ReorderedM m n → n.Perm m' → Reordered (.obj m) (.obj m')
inductive ReorderedL : List Val → List Val → Prop
  | nil : ReorderedL [] []
  | cons {x y : Val} {l l' : List Val} : Reordered x y → ReorderedL l l' → ReorderedL (x :: l) (y :: l')
inductive ReorderedM : List (String × Val) → List (String × Val) → Prop
  | nil : ReorderedM [] []
  | cons {k : String} {x y : Val} {l l' : List (String × Val)} : Reordered x y → ReorderedM l l' →
      ReorderedM ((k, x) :: l) ((k, y) :: l')
end

mutual
/-- The names of every mapping are in the order of their code points. -/
def Ordered : Val → Prop
  | .arr l => OrderedL l
  | .obj m => OrderedM m ∧ (m.map (·.1)).Pairwise (· ≤ ·)
  | _ => True
def OrderedL : List Val → Prop
  | [] => True
  | x :: l => Ordered x ∧ OrderedL l
def OrderedM : List (String × Val) → Prop
  | [] => True
  | (_, x) :: m => Ordered x ∧ OrderedM m
end

/-- `__proto__` -/
def protoName : List Nat := ['_', '_', 'p', 'r', 'o', 't', 'o', '_', '_'].map Char.toNat

mutual
/-- The members that an object has of its own if a JSON text is evaluated as a JavaScript literal:
a member written `"__proto__": v` sets the prototype of the object instead (ECMA-262, "__proto__
Property Names in Object Initializers"). -/
def literal : J → J
  | .null => .null
  | .bool b => .bool b
  | .int i => .int i
  | .dec t => .dec t
  | .special s => .special s
  | .str u => .str u
  | .arr l => .arr (literalL l)
  | .obj m => .obj (literalM m)
def literalL : List J → List J
  | [] => []
  | x :: l => literal x :: literalL l
def literalM : List (List Nat × J) → List (List Nat × J)
  | [] => []
  | (k, x) :: m => if k = protoName then literalM m else (k, literal x) :: literalM m
end

mutual
/-- No mapping has a member `__proto__`. -/
def NoProto : Val → Prop
  | .arr l => NoProtoL l
  | .obj m => NoProtoM m
  | _ => True
def NoProtoL : List Val → Prop
  | [] => True
  | x :: l => NoProto x ∧ NoProtoL l
def NoProtoM : List (String × Val) → Prop
  | [] => True
  | (k, x) :: m => k ≠ "__proto__" ∧ NoProto x ∧ NoProtoM m
end

end CwlUtils.Expr
