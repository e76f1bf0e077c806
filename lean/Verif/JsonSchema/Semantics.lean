import Verif.JsonSchema.Gen
/-!
# What a JSON schema accepts, and which values a CWL type has

Specification for C52: JSON schema draft 7, restricted to the keywords that the generator and its template use; and the values of the CWL types.
-/
namespace CwlUtils.JsonSchema

/-- The value has the type that the keyword `type` names.  (Draft 7 counts a number such as `1.0` as integer as well; floats are opaque here, and are not counted.) -/
def hasType (t : String) (v : Val) : Bool := match v with
  | .null => t == "null"
  | .bool _ => t == "boolean"
  | .int _ => t == "integer" || t == "number"
  | .flt _ => t == "number"
  | .str _ => t == "string"
  | .arr _ => t == "array"
  | .obj _ => t == "object"
  | .bytes _ => false

/-- What a JSON value means as a schema, as a list of schemas, and as a mapping to schemas. -/
structure Sem where
  schema : Val → Bool
  list : List (Val → Bool)
  props : List (String × (Val → Bool))

def kType (raw v : Val) : Bool := match raw with
  | .str t => hasType t v
  | _ => true
def kEnum (raw v : Val) : Bool := match raw with
  | .arr l => decide (v ∈ l)
  | _ => true
def kItems (schema : Val → Bool) (v : Val) : Bool := match v with
  | .arr l => l.all schema
  | _ => true
/-- A property is only checked if it is there. -/
def propOk (m : List (String × Val)) (p : String × (Val → Bool)) : Bool := match Dict.get? m p.1 with
  | some w => p.2 w
  | none => true
def kProps (props : List (String × (Val → Bool))) (v : Val) : Bool := match v with
  | .obj m => props.all (propOk m)
  | _ => true
def isIn (m : List (String × Val)) (n : Val) : Bool := match n with
  | .str n => Dict.has m n
  | _ => true
def kRequired (raw v : Val) : Bool := match v with
  | .obj m => (match raw with | .arr l => l.all (isIn m) | _ => true)
  | _ => true
/-- The names of the properties next to the keyword. -/
def propNames (whole : List (String × Val)) : List String := match Dict.get? whole "properties" with
  | some (.obj ps) => Dict.keys ps
  | _ => []
def kAdditional (whole : List (String × Val)) (raw v : Val) : Bool := match v with
  | .obj m => (match raw with | .bool false => (Dict.keys m).all (fun k => decide (k ∈ propNames whole)) | _ => true)
  | _ => true

/-- One keyword with its argument, its meaning, and the mapping it stands in. -/
def keyword (whole : List (String × Val)) (k : String) (raw : Val) (s : Sem) (v : Val) : Bool :=
  if k = "type" then kType raw v
  else if k = "const" then decide (v = raw)
  else if k = "enum" then kEnum raw v
  else if k = "items" then kItems s.schema v
  else if k = "oneOf" then (s.list.filter (fun f => f v)).length == 1
  else if k = "anyOf" then s.list.any (fun f => f v)
  else if k = "properties" then kProps s.props v
  else if k = "required" then kRequired raw v
  else if k = "additionalProperties" then kAdditional whole raw v
  else true

/-- A mapping as schema: `$ref` overrides everything else. -/
def mapping (ref : String → Val → Bool) (m : List (String × Val)) (sems : List (String × Val × Sem)) (v : Val) : Bool :=
  match Dict.get? m "$ref" with
  | some (.str r) => ref r v
  | _ => sems.all (fun p => keyword m p.1 p.2.1 p.2.2 v)

mutual
/-- The meaning of a JSON value, given the meaning of the references. -/
def sem (ref : String → Val → Bool) : Val → Sem
  | .obj m => { schema := mapping ref m (semM ref m), list := [], props := (semM ref m).map (fun p => (p.1, p.2.2.schema)) }
  | .arr l => { schema := fun _ => true, list := semL ref l, props := [] }
  | .bool b => { schema := fun _ => b, list := [], props := [] }
  | _ => { schema := fun _ => true, list := [], props := [] }
def semL (ref : String → Val → Bool) : List Val → List (Val → Bool)
  | [] => []
  | v :: vs => (sem ref v).schema :: semL ref vs
def semM (ref : String → Val → Bool) : List (String × Val) → List (String × Val × Sem)
  | [] => []
  | p :: ps => semP ref p :: semM ref ps
def semP (ref : String → Val → Bool) : String × Val → String × Val × Sem
  | (k, v) => (k, v, sem ref v)
end

/-- The schema accepts the value. -/
def accepts (ref : String → Val → Bool) (schema v : Val) : Bool := (sem ref schema).schema v

/-- The meaning of the references agrees with the definitions. -/
def Consistent (ref : String → Val → Bool) (defs : Dict Val) : Prop :=
  ∀ n d, Dict.get? defs n = some d → ∀ v, ref ("#/definitions/" ++ n) v = accepts ref d v

/-- The definitions of `File`, `Directory` and `Any` in `templates/workflow_input_json_schema_template.json:314-470`, without the descriptions. -/
def strSchema : Val := .obj [("type", .str "string")]
def fileOrDir : Val := .obj [("items", .obj [("anyOf", .arr [refTo "File", refTo "Directory"])]), ("type", .str "array")]
def fileDef : Val := .obj [("additionalProperties", .bool false),
  ("properties", .obj [("basename", strSchema), ("checksum", strSchema), ("class", .obj [("const", .str "File"), ("type", .str "string")]),
    ("contents", strSchema), ("dirname", strSchema), ("format", strSchema), ("location", strSchema), ("nameext", strSchema), ("nameroot", strSchema),
    ("path", strSchema), ("secondaryFiles", fileOrDir), ("size", .obj [("type", .str "number")])]),
  ("required", .arr [.str "class"]), ("type", .str "object")]
def dirDef : Val := .obj [("additionalProperties", .bool false),
  ("properties", .obj [("basename", strSchema), ("class", .obj [("const", .str "Directory"), ("type", .str "string")]), ("listing", fileOrDir),
    ("location", strSchema), ("path", strSchema)]),
  ("required", .arr [.str "class"]), ("type", .str "object")]
def anyDef : Val := .obj [("anyOf", .arr [.obj [("type", .str "boolean")], .obj [("type", .str "integer")], .obj [("type", .str "number")],
    .obj [("type", .str "string")], .obj [("type", .str "array")], .obj [("type", .str "object")], refTo "File", refTo "Directory"]),
  ("properties", .obj [("format", .bool true), ("size", .bool true), ("listing", .bool true), ("checksum", .bool true), ("nameroot", .bool true),
    ("contents", .bool true), ("location", .bool true), ("path", .bool true), ("dirname", .bool true), ("nameext", .bool true),
    ("secondaryFiles", .bool true), ("class", .bool true), ("basename", .bool true)])]

/-- No byte strings: the value can be written as JSON. -/
def isBytes : Val → Bool
  | .bytes _ => true
  | _ => false

/-- A file or directory value: the fields of the CWL specification, with their types. -/
inductive FileVal : Bool → Val → Prop where
  | file {m} {kind : Val → Bool} : Dict.get? m "class" = some (.str "File") →
      (∀ k, Dict.has m k = true → k ∈ ["basename", "checksum", "class", "contents", "dirname", "format", "location", "nameext", "nameroot", "path", "secondaryFiles", "size"]) →
      (∀ k v, Dict.get? m k = some v → k ≠ "secondaryFiles" → k ≠ "size" → ∃ s, v = .str s) →
      (∀ v, Dict.get? m "size" = some v → ∃ n, v = .int n) →
      (∀ v, Dict.get? m "secondaryFiles" = some v → ∃ l, v = .arr l) →
      (∀ l, Dict.get? m "secondaryFiles" = some (.arr l) → ∀ w ∈ l, FileVal (kind w) w) → FileVal true (.obj m)
  | dir {m} {kind : Val → Bool} : Dict.get? m "class" = some (.str "Directory") →
      (∀ k, Dict.has m k = true → k ∈ ["basename", "class", "listing", "location", "path"]) →
      (∀ k v, Dict.get? m k = some v → k ≠ "listing" → ∃ s, v = .str s) →
      (∀ v, Dict.get? m "listing" = some v → ∃ l, v = .arr l) →
      (∀ l, Dict.get? m "listing" = some (.arr l) → ∀ w ∈ l, FileVal (kind w) w) → FileVal false (.obj m)

/-- Records defined by themselves: the fields of the record with the given URI. -/
abbrev Records := String → Option (List (String × Ty))

/-- The type admits null. -/
inductive Nullable : Ty → Prop where
  | null : Nullable (.str "null")
  | union {l t} : t ∈ l → Nullable t → Nullable (.union l)

/-- The values of a type.  With `explicitNull = false` a field of a record that is defined by itself must not be given as null (it may be left out). -/
inductive Has (nm : Names) (recs : Records) (explicitNull : Bool) : Ty → Val → Prop where
  | null : Has nm recs explicitNull (.str "null") .null
  | bool {b} : Has nm recs explicitNull (.str "boolean") (.bool b)
  | string {s} : Has nm recs explicitNull (.str "string") (.str s)
  | int {n t} : t ∈ ["int", "long", "float", "double"] → Has nm recs explicitNull (.str t) (.int n)
  | float {x t} : t ∈ ["float", "double"] → Has nm recs explicitNull (.str t) (.flt x)
  | file {v t} : t ∈ ["File", "stdin"] → FileVal true v → Has nm recs explicitNull (.str t) v
  | dir {v} : FileVal false v → Has nm recs explicitNull (.str "Directory") v
  | any {v} : v ≠ .null → isBytes v = false → Has nm recs explicitNull (.str "Any") v
  | arr {t l} : (∀ v ∈ l, Has nm recs explicitNull t v) → Has nm recs explicitNull (.arr t) (.arr l)
  | enum {ss s} : s ∈ ss → Has nm recs explicitNull (.enum ss) (.str (nm.value s))
  | recNone {m} : Has nm recs explicitNull .recNone (.obj m)
  | record {fs m} : (∀ f t, (f, t) ∈ fs → ∀ v, Dict.get? m (nm.value f) = some v → Has nm recs explicitNull t v) →
      (∀ f t, (f, t) ∈ fs → Dict.get? m (nm.value f) = none → Nullable t) → Has nm recs explicitNull (.record fs) (.obj m)
  | named {t u fs m} : (t = .str u ∧ u ∉ ["null", "boolean", "string", "int", "long", "float", "double", "File", "stdin", "Directory", "Any"] ∨ t = .imp u) →
      recs u = some fs →
      (∀ f t, (f, t) ∈ fs → ∀ v, Dict.get? m (nm.value f) = some v → Has nm recs explicitNull t v) →
      (explicitNull = false → ∀ f t, (f, t) ∈ fs → Dict.get? m (nm.value f) ≠ some .null) →
      (∀ f t, (f, t) ∈ fs → Dict.get? m (nm.value f) = none → Nullable t) → Has nm recs explicitNull t (.obj m)
  | union {l t v} : t ∈ l → Has nm recs explicitNull t v → Has nm recs explicitNull (.union l) v

end CwlUtils.JsonSchema
