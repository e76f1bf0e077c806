import Verif.Base.Val
/-!
# Removal of the unused definitions of a JSON schema

`src/cwl_utils/inputs_schema_gen.py:430-505`.
-/
namespace CwlUtils.JsonSchema

mutual
/-- `inputs_schema_gen.py:430-449`: `_recursive_search(json_data, "$ref")`. -/
def refs : Val → List Val
  | .obj m => refsM m
  | .arr l => refsL l
  | _ => []
/-- The loop over the items of a list. -/
def refsL : List Val → List Val
  | [] => []
  | v :: vs => refs v ++ refsL vs
/-- The loop over the items of a mapping. -/
def refsM : List (String × Val) → List Val
  | [] => []
  | p :: ps => refsP p ++ refsM ps
/-- One item. -/
def refsP : String × Val → List Val
  | (k, v) => if k = "$ref" then [v] else refs v
end

/-- `get_value_from_uri(reference_attribute)`: `urlparse` raises an `AttributeError` unless its argument is a string. -/
def refValue (value : String → String) : Val → Except Err String
  | .str s => .ok (value s)
  | _ => .error .attribute

/-- The loop of `get_property_dependencies` over the references, with `rec` for the recursive call.  That call extends the very list it is given and returns it,
so that `existing_property_dependencies.extend(…)` appends the list to itself. -/
def depsLoop (value : String → String) (defs : Dict Val) (rec : Val → List String → Except Err (List String)) :
    List Val → List String → Except Err (List String)
  | [], ex => .ok ex
  | r :: rs, ex => match refValue value r with
    | .error e => .error e
    | .ok n =>
      if n ∈ ex then depsLoop value defs rec rs ex
      else match Dict.get? defs n with
        | none => .error .key
        | some d => match rec d (ex ++ [n]) with
          | .error e => .error e
          | .ok ex' => depsLoop value defs rec rs (ex' ++ ex')

/-- `inputs_schema_gen.py:458-485`: `get_property_dependencies`; the recursion is bounded by the first argument. -/
def deps (value : String → String) (defs : Dict Val) : Nat → Val → List String → Except Err (List String)
  | 0, _, _ => .error .fuel
  | fuel + 1, v, ex => depsLoop value defs (deps value defs fuel) (refs v) ex

/-- `del` for all keys that are not required. -/
def keepOnly (names : List String) (defs : Dict Val) : Dict Val := defs.filter (fun p => decide (p.1 ∈ names))

/-- `inputs_schema_gen.py:488-508`: `slim_definitions`. -/
def slim (value : String → String) (schema : Dict Val) : Except Err (Dict Val) :=
  match Dict.get? schema "definitions" with
  | some (.obj defs) =>
    match deps value defs (defs.length + 1) ((Dict.get? schema "properties").getD (.obj [])) [] with
    | .error e => .error e
    | .ok names => .ok (Dict.set schema "definitions" (.obj (keepOnly names defs)))
  | some _ => .error .attribute
  | none => .error .key

end CwlUtils.JsonSchema
