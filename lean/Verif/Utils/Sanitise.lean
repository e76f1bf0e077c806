import Verif.Base.Val
/-!
# Model of `sanitise_schema_field`

`src/cwl_utils/utils.py:259-435`.
-/
namespace CwlUtils

/-- Values that occur in schema fields: YAML data, and schema objects built by the parser or by this
function (`InputRecordSchema`, `InputArraySchema`, `InputEnumSchema`). -/
inductive FVal where
  | str (s : String)
  | list (l : List FVal)
  | dict (m : List (String × FVal))
  /-- an `InputRecordSchema` object -/
  | recS (tag : String)
  /-- `InputArraySchema(type_="array", items=...)` -/
  | arrS (items : FVal)
  /-- `InputEnumSchema(type_="enum", symbols=...)` -/
  | enumS (symbols : FVal)
  /-- any other object (number, None, ...) -/
  | other (tag : String)
  deriving Repr, Inhabited

/-- Is the value the string `"null"`? -/
def FVal.isNull : FVal → Bool
  | .str s => s == "null"
  | _ => false

/-- `s.replace(p, "")` for the two patterns used; `[]` is removed pairwise from left to right. -/
def removeChar (p : Char) (s : List Char) : List Char := s.filter (· ≠ p)

/-- `s.replace("[]", "")` -/
def removeBrackets : List Char → List Char
  | [] => []
  | '[' :: ']' :: cs => removeBrackets cs
  | c :: cs => c :: removeBrackets cs

/-- `s.endswith(suffix)` -/
def endsWith (suffix s : List Char) : Bool := suffix.isSuffixOf s

/-- `utils.py:429-433`: wrap an optional field's type. -/
def wrapNull (t : FVal) : FVal :=
  match t with
  | .list l => .list (.str "null" :: l)
  | t => .list [.str "null", t]

/-- `utils.py:398-413`: the branch for a string type; returns `required` and the new type. -/
def sanitiseStr (s : List Char) : Bool × FVal :=
  let opt := endsWith ['?'] s
  let s1 := if opt then removeChar '?' s else s
  let t := if endsWith ['[', ']'] s1 then FVal.arrS (.str (String.ofList (removeBrackets s1)))
    else .str (String.ofList s1)
  (!opt, t)

/-- `rest.get("items", "")`, `rest.get("symbols", "")`. -/
def getOrEmpty (m : Dict FVal) (k : String) : FVal := (Dict.get? m k).getD (.str "")

/-- Elementwise application that stops at the first error. -/
def mapE {α β : Type} (f : α → Except Err β) : List α → Except Err (List β)
  | [] => .ok []
  | x :: xs => match f x with
    | .error e => .error e
    | .ok y => (mapE f xs).map (y :: ·)

/-- `utils.py:259-435`: `sanitise_schema_field(schema_field_item)`.  The number bounds the nesting of
type lists (Python recurses without bound on finite data). -/
def sanitise : Nat → FVal → Except Err FVal
  | 0, _ => .error .fuel
  | fuel + 1, item =>
      match item with
      | .dict m =>
          match Dict.get? m "type" with
          | some (.list ts) =>
              let opt := ts.any FVal.isNull
              let rest := ts.filter (fun t => !t.isNull)
              match rest with
              | [t] => .ok (.dict (Dict.set m "type" (if opt then wrapNull t else t)))
              | rest =>
                  match mapE (sanitise fuel) rest with
                  | .error e => .error e
                  | .ok l => .ok (.dict (Dict.set m "type" (if opt then wrapNull (.list l) else .list l)))
          | some (.str s) =>
              let r := sanitiseStr s.toList
              .ok (.dict (Dict.set m "type" (if r.1 then r.2 else wrapNull r.2)))
          | some (.dict d) =>
              match Dict.get? d "type" with
              | some (.str "enum") => .ok (.dict (Dict.set m "type" (.enumS (getOrEmpty d "symbols"))))
              | some (.str "array") => .ok (.dict (Dict.set m "type" (.arrS (getOrEmpty d "items"))))
              | _ =>
                  match Dict.get? d "$import" with
                  | some _ => .ok (.dict m)
                  | none => .error .value
          | _ => .ok (.dict m)
      | item => .ok item

mutual
/-- Nesting depth, a bound for the recursion. -/
def FVal.depth : FVal → Nat
  | .list l => FVal.depthL l + 1
  | .dict m => FVal.depthM m + 1
  | .arrS i => i.depth + 1
  | .enumS s => s.depth + 1
  | _ => 1
termination_by structural v => v
/-- Depth of a list. -/
def FVal.depthL : List FVal → Nat
  | [] => 0
  | x :: xs => max x.depth (FVal.depthL xs)
termination_by structural v => v
/-- Depth of a mapping. -/
def FVal.depthM : List (String × FVal) → Nat
  | [] => 0
  | p :: ps => max (FVal.depthP p) (FVal.depthM ps)
termination_by structural v => v
/-- Depth of an entry. -/
def FVal.depthP : String × FVal → Nat
  | (_, v) => v.depth
termination_by structural v => v
end

end CwlUtils
