import Verif.JsonSchema.Slim
import Verif.Utils.Sanitise
/-!
# Generation of a JSON schema from the inputs of a process

`src/cwl_utils/inputs_schema_gen.py:51-425`.
-/
namespace CwlUtils.JsonSchema

/-- The types that occur after loading: texts, the schema objects of the three parser versions, `$import` mappings and lists of types. -/
inductive Ty where
  | str (s : String)
  | arr (items : Ty)
  | enum (symbols : List String)
  /-- `InputRecordSchema` with `fields` `None` -/
  | recNone
  | record (fields : List (String × Ty))
  /-- `{"$import": uri}` -/
  | imp (uri : String)
  | union (l : List Ty)
  /-- any other object -/
  | other
  deriving Inhabited

def Ty.isNull : Ty → Bool
  | .str s => s == "null"
  | _ => false

/-- The functions of `utils.py` on names: `is_uri`, `get_value_from_uri` and `to_pascal_case` (`438-447`, `457-468`, `247-256`). -/
structure Names where
  isUri : String → Bool
  value : String → String
  pascal : String → String

/-- The name of the definition that a reference to a schema leads to. -/
def Names.defName (nm : Names) (uri : String) : String := nm.pascal (nm.value uri)

/-- `{"$ref": f"#/definitions/{name}"}` -/
def refTo (name : String) : Val := .obj [("$ref", .str ("#/definitions/" ++ name))]

/-- `inputs_schema_gen.py:54-62`: `PRIMITIVE_TYPES_MAPPING`. -/
def primitives : Dict String :=
  [("boolean", "boolean"), ("string", "string"), ("int", "integer"), ("float", "number"), ("long", "number"), ("double", "number"), ("null", "null")]

/-- The cases of `generate_type_dict_from_type` for a text (`119-132`). -/
def strDict (nm : Names) (s : String) : Except Err Val := match Dict.get? primitives s with
  | some p => .ok (.obj [("type", .str p)])
  | none =>
    if s = "stdin" then .ok (refTo "File")
    else if s = "File" ∨ s = "Directory" ∨ s = "Any" then .ok (refTo s)
    else if nm.isUri s = true then .ok (refTo (nm.defName s))
    else .error .value

mutual
/-- `inputs_schema_gen.py:108-197`: `generate_type_dict_from_type`. -/
def typeDict (nm : Names) : Ty → Except Err Val
  | .str s => strDict nm s
  | .arr i => (typeDict nm i).map (fun d => .obj [("type", .str "array"), ("items", d)])
  | .enum ss => .ok (.obj [("type", .str "string"), ("enum", .arr (ss.map (fun s => .str (nm.value s))))])
  | .recNone => .ok (.obj [("type", .str "object")])
  | .record fs => (typeDictF nm fs).map (fun ps => .obj [("type", .str "object"), ("properties", .obj (Dict.update [] ps))])
  | .imp u => .ok (refTo (nm.defName u))
  | .union l => (typeDictL nm l).map (fun ds => .obj [("oneOf", .arr ds)])
  | .other => .error .value
/-- The types of a list. -/
def typeDictL (nm : Names) : List Ty → Except Err (List Val)
  | [] => .ok []
  | t :: ts => match typeDict nm t with
    | .error e => .error e
    | .ok d => (typeDictL nm ts).map (d :: ·)
/-- The fields of a record. -/
def typeDictF (nm : Names) : List (String × Ty) → Except Err (List (String × Val))
  | [] => .ok []
  | f :: fs => match typeDictP nm f with
    | .error e => .error e
    | .ok d => (typeDictF nm fs).map (d :: ·)
/-- One field of a record. -/
def typeDictP (nm : Names) : String × Ty → Except Err (String × Val)
  | (n, t) => (typeDict nm t).map (fun d => (nm.value n, d))
end

/-- A `JSONSchemaProperty`. -/
structure Property where
  name : String
  required : Bool
  dict : Val

/-- `list(filter(lambda type_item: type_item != "null", …))`. -/
def noNulls (l : List Ty) : List Ty := l.filter (fun t => !t.isNull)

/-- A list with one item is replaced by the item. -/
def squeeze : List Ty → Ty
  | [t] => t
  | l => .union l

/-- The type without null, and whether null was there (`87-93`). -/
def splitNull : Ty → Ty × Bool
  | .union l => if l.any Ty.isNull = true then (squeeze (noNulls l), true) else (.union l, false)
  | t => (t, false)

/-- `inputs_schema_gen.py:69-106`: the constructor of `JSONSchemaProperty` and `generate_type_dict`. -/
def mkProperty (nm : Names) (name : String) (t : Ty) (description : Val) (required : Bool) : Except Err Property :=
  match typeDict nm (splitNull t).1 with
  | .error e => .error e
  | .ok (.obj m) => .ok { name, required := required && !(splitNull t).2, dict := .obj (Dict.set m "description" description) }
  | .ok _ => .error .attribute

/-- An input parameter of a process. -/
structure Input where
  id : String
  type : Ty
  doc : Option Val
  hasDefault : Bool

/-- `isinstance(t, str) and t.endswith("?")`. -/
def Ty.marked : Ty → Bool
  | .str s => s.toList.getLast? == some '?'
  | _ => false

/-- `inputs_schema_gen.py:214-230`: `get_is_required_from_input_parameter`.  (The `type_` of a record schema is always `"record"`, so that the last test never applies.) -/
def isRequired (i : Input) : Bool :=
  if i.type.marked = true then false
  else if i.hasDefault = true then false
  else match i.type with
    | .union l => !(l.any Ty.isNull)
    | _ => true

/-- `inputs_schema_gen.py:233-252`: `generate_json_schema_property_from_input_parameter`. -/
def inputProperty (nm : Names) (i : Input) : Except Err Property :=
  mkProperty nm (nm.value i.id) i.type (i.doc.getD (.str "")) (isRequired i)

/-- `sanitise_schema_field({"type": t})["type"]` (`utils.py:259-435`) for the types that occur after loading; `Verif/JsonSchema/Sanitised.lean` proves that it is `sanitise` of `Verif/Utils/Sanitise.lean`. -/
def sanType : Ty → Ty
  | .union l =>
    let inner := squeeze (noNulls l)
    if l.any Ty.isNull = true then (match inner with | .union l' => .union (.str "null" :: l') | t => .union [.str "null", t]) else inner
  | .str s =>
    let opt := s.toList.getLast? = some '?'
    let s1 := if opt then removeChar '?' s.toList else s.toList
    let t := match s1.reverse with
      | ']' :: '[' :: _ => Ty.arr (.str (String.ofList (removeBrackets s1)))
      | _ => .str (String.ofList s1)
    if opt then .union [.str "null", t] else t
  | t => t

/-- The loop body of `generate_definition_from_schema` (`281-306`). -/
def fieldProperty (nm : Names) (name : String) (t : Ty) : Except Err Property :=
  match sanType t with
  | .union l => mkProperty nm name (squeeze (noNulls l)) (.str "") (!(l.any Ty.isNull))
  | t => mkProperty nm name t (.str "") true

def fieldProperties (nm : Names) : List (String × Ty) → Except Err (List Property)
  | [] => .ok []
  | (n, t) :: fs => match fieldProperty nm n t with
    | .error e => .error e
    | .ok p => (fieldProperties nm fs).map (p :: ·)

/-- A type that is defined by itself: in an imported file or in the `SchemaDefRequirement`. -/
inductive Def where
  /-- a record -/
  | record (name : String) (fields : Option (List (String × Ty)))
  /-- an enumeration or an array, which has no attribute `fields` -/
  | noFields
  deriving Inhabited

/-- `sanitised_fields`: of fields with the same short name the last one counts. -/
def shortFields (nm : Names) (fs : List (String × Ty)) : Dict Ty := Dict.update [] (fs.map (fun f => (nm.value f.1, f.2)))

/-- The definition generated for the fields. -/
def definition (props : List Property) : Val :=
  .obj [("type", .str "object"), ("properties", .obj (Dict.update [] (props.map (fun p => (p.name, p.dict))))),
    ("required", .arr ((props.filter (·.required)).map (fun p => .str p.name)))]

/-- `inputs_schema_gen.py:255-318`: `generate_definition_from_schema`. -/
def genDef (nm : Names) : Def → Except Err (Dict Val)
  | .noFields => .error .attribute
  | .record _ none => .ok []
  | .record n (some fs) => match fieldProperties nm (shortFields nm fs) with
    | .error e => .error e
    | .ok props => .ok [(nm.defName n, definition props)]

def genDefs (nm : Names) : List Def → Dict Val → Except Err (Dict Val)
  | [], acc => .ok acc
  | d :: ds, acc => match genDef nm d with
    | .error e => .error e
    | .ok m => genDefs nm ds (Dict.update acc m)

def inputProperties (nm : Names) : List Input → Except Err (List Property)
  | [] => .ok []
  | i :: is => match inputProperty nm i with
    | .error e => .error e
    | .ok p => (inputProperties nm is).map (p :: ·)

/-- The schema of a property of the job: null is allowed if it is not required (`401-405`). -/
def Property.schema (p : Property) : Val := if p.required = true then p.dict else .obj [("oneOf", .arr [.obj [("type", .str "null")], p.dict])]

/-- The schema before slimming (`387-417`). -/
def unslimmed (template : Dict Val) (templateDefs defs : Dict Val) (props : List Property) : Dict Val :=
  Dict.set (Dict.update template
    [("type", .str "object"), ("properties", .obj (Dict.update [] (props.map (fun p => (p.name, p.schema))))),
      ("required", .arr ((props.filter (·.required)).map (fun p => .str p.name)))])
    "definitions" (.obj (Dict.update templateDefs defs))

/-- `inputs_schema_gen.py:321-425`: `cwl_to_jsonschema`, with the definitions of the imported files and of the `SchemaDefRequirement` given, and the template read
from its file. -/
def generate (nm : Names) (template templateDefs : Dict Val) (defs : List Def) (inputs : List Input) : Except Err (Dict Val) :=
  match genDefs nm defs [] with
  | .error e => .error e
  | .ok ds => match inputProperties nm inputs with
    | .error e => .error e
    | .ok props => slim nm.value (unslimmed template templateDefs ds props)

end CwlUtils.JsonSchema
