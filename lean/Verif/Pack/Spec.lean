import Verif.Pack.Model
/-!
# What packing has to achieve
-/
namespace CwlUtils.Pack
open SchemaDef

/-- `l` is the list form of `v`: the list itself; for a map, one entry for each key, in order, with
the key under the key field and all other fields of the value (a value that is no dictionary stands
for a dictionary with that value under the value field). -/
inductive ListOf (keyField : String) (valueField : Option String) : Val → List Val → Prop where
  | list (l : List Val) : ListOf keyField valueField (.arr l) l
  | map {m : Dict Val} {l : List Val} : l.length = m.length →
      (∀ (i : Nat) k v, m[i]? = some (k, v) → ∃ d, l[i]? = some (.obj d) ∧ Dict.get? d keyField = some (.str k) ∧
        ∀ f, f ≠ keyField → Dict.get? d f = Dict.get? (expandShort (valueField.getD "") v) f) →
      ListOf keyField valueField (.obj m) l

/-- `t` is `s` without one leading `#`, if it has one. -/
def StripHash (s t : String) : Prop :=
  s.toList = '#' :: t.toList ∨ (s.toList.head? ≠ some '#' ∧ t = s)

/-- What source normalisation may do to an entry: a string, and a string under the field, lose one
leading `#`; nothing else changes. -/
inductive SourceNorm (field : String) : Val → Val → Prop where
  | text {s t : String} : StripHash s t → SourceNorm field (.str s) (.str t)
  | entry {e e' : Dict Val} {s t : String} : Dict.get? e field = some (.str s) →
      Dict.get? e' field = some (.str t) → StripHash s t → Dict.keys e' = Dict.keys e →
      (∀ k, k ≠ field → Dict.get? e' k = Dict.get? e k) → SourceNorm field (.obj e) (.obj e')
  | other {e : Dict Val} : (∀ s, Dict.get? e field ≠ some (.str s)) → SourceNorm field (.obj e) (.obj e)
  | rest {v : Val} : (∀ s, v ≠ .str s) → isDict v = false → SourceNorm field v v

/-- Two lists of the same length whose entries are related. -/
def Pointwise {α : Type} (R : α → α → Prop) (l m : List α) : Prop :=
  l.length = m.length ∧ ∀ (i : Nat) x y, l[i]? = some x → m[i]? = some y → R x y

/-- A single-key import or include object. -/
def importOf : Val → Option (Bool × Val)
  | .obj [("$import", l)] => some (true, l)
  | .obj [("$include", l)] => some (false, l)
  | _ => none

mutual
/-- Nothing below the value is an import or include object (the value itself may be one). -/
inductive NoImportBelow : Val → Prop where
  | leaf {v : Val} : (∀ l, v ≠ .arr l) → (∀ d, v ≠ .obj d) → NoImportBelow v
  | arr {l : List Val} : NoImportL l → NoImportBelow (.arr l)
  | obj {d : List (String × Val)} : NoImportD d → NoImportBelow (.obj d)
/-- No element is an import object or has one below. -/
inductive NoImportL : List Val → Prop where
  | nil : NoImportL []
  | cons {v : Val} {l : List Val} : importOf v = none → NoImportBelow v → NoImportL l → NoImportL (v :: l)
/-- No value is an import object or has one below. -/
inductive NoImportD : List (String × Val) → Prop where
  | nil : NoImportD []
  | cons {k : String} {v : Val} {d : List (String × Val)} : importOf v = none → NoImportBelow v →
      NoImportD d → NoImportD ((k, v) :: d)
end

mutual
/-- `w` is `v`, read from the file at `base`, with every import below replaced by what it links to:
links are looked up from the file that contains them; everything else is unchanged. -/
inductive Resolved (F : Files) : String → Val → Val → Prop where
  | leaf {base : String} {v : Val} : (∀ l, v ≠ .arr l) → (∀ d, v ≠ .obj d) → Resolved F base v v
  | arr {base : String} {l m : List Val} : ResolvedL F base l m → Resolved F base (.arr l) (.arr m)
  | obj {base : String} {d e : List (String × Val)} : ResolvedD F base d e → Resolved F base (.obj d) (.obj e)
/-- An element or entry of a container. -/
inductive ResolvedC (F : Files) : String → Val → Val → Prop where
  | plain {base : String} {v w : Val} : importOf v = none → Resolved F base v w → ResolvedC F base v w
  | import {base link url : String} {v c w : Val} : importOf v = some (true, .str link) →
      F.load base link = .ok (c, url) → ResolvedC F url c w → ResolvedC F base v w
  | include {base link url text : String} {v : Val} : importOf v = some (false, .str link) →
      F.text base link = .ok (text, url) → ResolvedC F base v (.str text)
/-- `Resolved`, for lists. -/
inductive ResolvedL (F : Files) : String → List Val → List Val → Prop where
  | nil {base : String} : ResolvedL F base [] []
  | cons {base : String} {v w : Val} {l m : List Val} : ResolvedC F base v w → ResolvedL F base l m →
      ResolvedL F base (v :: l) (w :: m)
/-- `Resolved`, for dictionaries. -/
inductive ResolvedD (F : Files) : String → List (String × Val) → List (String × Val) → Prop where
  | nil {base : String} : ResolvedD F base [] []
  | cons {base k : String} {v w : Val} {d e : List (String × Val)} : ResolvedC F base v w →
      ResolvedD F base d e → ResolvedD F base ((k, v) :: d) ((k, w) :: e)
end

/-- The order of versions is a strict total order. -/
structure Versions.Total (P : Versions) : Prop where
  irrefl : ∀ a, P.lt a a = false
  trans : ∀ a b c, P.lt a b = true → P.lt b c = true → P.lt a c = true
  total : ∀ a b c, P.lt a b = false → P.lt b c = false → P.lt a c = false

/-- Every step of a workflow holds the process it runs, at every depth. -/
inductive SelfContained : Dict Val → Prop where
  | tool {d : Dict Val} : Dict.get? d "class" ≠ some (.str "Workflow") → SelfContained d
  | workflow {d : Dict Val} {l : List Val} : Dict.get? d "class" = some (.str "Workflow") →
      Dict.get? d "steps" = some (.arr l) →
      (∀ s, Val.obj s ∈ l → ∃ r, Dict.get? s "run" = some (.obj r)) →
      (∀ s r, Val.obj s ∈ l → Dict.get? s "run" = some (.obj r) → SelfContained r) →
      SelfContained d

/-- `r` is the process `d` or is run by a step inside it. -/
inductive Inside : Dict Val → Dict Val → Prop where
  | self (d : Dict Val) : Inside d d
  | step {d r t : Dict Val} {l : List Val} {s : Dict Val} : Dict.get? d "class" = some (.str "Workflow") →
      Dict.get? d "steps" = some (.arr l) → Val.obj s ∈ l → Dict.get? s "run" = some (.obj r) →
      Inside r t → Inside d t

/-- Version `f` is not lower than version `x`. -/
def NotLower (P : Versions) (f x : String) : Prop :=
  f = x ∨ ∃ a b, P.parse f = .ok a ∧ P.parse x = .ok b ∧ P.lt a b = false

/-- The files, all taken to be at the base they were linked from. -/
def sameBase (F : Files) : Files :=
  ⟨fun b l => (F.load b l).map (fun p => (p.1, b)), F.text, F.resolve⟩

end CwlUtils.Pack
