import Verif.SchemaDef.Inline
/-!
# What the inlining of user-defined types has to achieve
-/
namespace CwlUtils.SchemaDef

/-- The type expressions (and ports and record fields) in which no user-defined type is named any
more: every type is a built-in type, an enumeration written out, an array of such a type, a record
of such fields, or a list of alternatives. -/
inductive Inlined : Val → Prop where
  | builtIn {s : String} : s ∈ builtInTypes → Inlined (.str s)
  | alternatives {l : List Val} : (∀ x ∈ l, Inlined x) → Inlined (.arr l)
  | enum {d : Dict Val} : Dict.get? d "type" = some (.str "enum") → Inlined (.obj d)
  | array {d : Dict Val} {i : Val} : Dict.get? d "type" = some (.str "array") →
      Dict.get? d "items" = some i → Inlined i → Inlined (.obj d)
  | record {d : Dict Val} {l : List Val} : Dict.get? d "type" = some (.str "record") →
      Dict.get? d "fields" = some (.arr l) → (∀ x ∈ l, Inlined x) → Inlined (.obj d)
  | typed {d : Dict Val} {t : Val} : Dict.get? d "type" = some t → Inlined t → Inlined (.obj d)

mutual
/-- Two values that agree but for the texts stored under the key `name`. -/
inductive Same : Val → Val → Prop where
  | refl (v : Val) : Same v v
  | arr {l m : List Val} : SameL l m → Same (.arr l) (.arr m)
  | obj {d e : Dict Val} : SameD d e → Same (.obj d) (.obj e)
/-- `Same`, for lists. -/
inductive SameL : List Val → List Val → Prop where
  | nil : SameL [] []
  | cons {v w : Val} {l m : List Val} : Same v w → SameL l m → SameL (v :: l) (w :: m)
/-- `Same`, for dictionaries: same keys in the same order. -/
inductive SameD : List (String × Val) → List (String × Val) → Prop where
  | nil : SameD [] []
  | cons {k : String} {v w : Val} {d e : List (String × Val)} :
      Same v w → SameD d e → SameD ((k, v) :: d) ((k, w) :: e)
  | name {x y : String} {d e : List (String × Val)} :
      SameD d e → SameD (("name", .str x) :: d) (("name", .str y) :: e)
end

/-- Same outcome up to names: both succeed with values that agree up to names, or both raise the same
error. -/
def SameOutcome : Except Err Val → Except Err Val → Prop
  | .ok v, .ok w => Same v w
  | .error e, .error e' => e = e'
  | _, _ => False

/-- One use of the inliner in a process: the table, the value, the base URL and the depth reached. -/
structure Call where
  types : Dict Val
  fuel : Nat
  value : Val
  base : String

/-- The global state after a sequence of uses, some of which may raise. -/
def runCalls (F : Files) : List Call → St → St
  | [], s => s
  | c :: cs, s => runCalls F cs (inlineType F c.types c.fuel c.value c.base s).2

/-- The names declared by the type definitions of a table. -/
def declared (types : Dict Val) (n : String) : Prop :=
  ∃ p d, (p, Val.obj d) ∈ types ∧ Dict.get? d "name" = some (.str n)

end CwlUtils.SchemaDef
