import Verif.Base.Val
/-!
# The loaders of the generated parsers

`src/cwl_utils/parser/cwl_v1_2.py:54-848`; the parsers of the other versions have the same code.  A loader is a function from document values to loaded
values or errors, and the classes are combinators on such functions.  Loaded objects are represented by values, too.  Line numbers and error messages
are not modelled: `Err.validation` is a `ValidationException`.
-/
namespace CwlUtils.Loader

/-- `Loader.load`, with the base URI and the loading options fixed. -/
abbrev Ld := Val → Except Err Val

/-- What loading depends on besides the value. -/
structure Ctx where
  /-- whether the document was read from YAML, so that its mappings are `CommentedMap`s -/
  commented : Bool
  /-- `loadingOptions.container != "@list"` -/
  flatten : Bool
  /-- the loaded value of an `$import`, and the text of an `$include` (`_load_field`, 833-847; the imported document is loaded
  with the loader of the field, which is not made explicit here) -/
  import_ : Val → Except Err Val
  include_ : Val → Except Err String

/-- `cwl_v1_2.py:54-65`: `_AnyLoader`. -/
def any : Ld := fun v => match v with | .null => .error .validation | v => .ok v

/-- `cwl_v1_2.py:68-85`: `_PrimitiveLoader`; the types used (27453-27457) are `str`, `int` (which a boolean is, too), `float`, `bool` and `None`. -/
inductive Prim where | str | int | float | bool | none
def Prim.accepts : Prim → Val → Bool
  | .str, .str _ => true
  | .int, .int _ | .int, .bool _ => true
  | .float, .flt _ => true
  | .bool, .bool _ => true
  | .none, .null => true
  | _, _ => false
def prim (p : Prim) : Ld := fun v => if p.accepts v = true then .ok v else .error .validation

/-- `cwl_v1_2.py:188-206`: `_EnumLoader`. -/
def enum (symbols : List String) : Ld := fun v => match v with
  | .str s => if s ∈ symbols then .ok v else .error .validation
  | _ => .error .validation

/-- `cwl_v1_2.py:316-335`: `_ExpressionLoader`. -/
def expression : Ld := fun v => match v with | .str _ => .ok v | _ => .error .validation

/-- `cwl_v1_2.py:337-424`: `_UnionLoader`: the first alternative that does not raise a `ValidationException`. -/
def union : List Ld → Ld
  | [], _ => .error .validation
  | a :: as, v => match a v with
    | .ok r => .ok r
    | .error .validation => union as v
    | .error e => .error e

/-- `cwl_v1_2.py:824-848`: `_load_field`. -/
def loadField (c : Ctx) (l : Ld) : Ld := fun v => match v with
  | .obj d => match Dict.get? d "$import" with
    | some u => c.import_ u
    | none => match Dict.get? d "$include" with
      | some u => match c.include_ u with
        | .ok t => l (.str t)
        | .error e => .error e
      | none => l v
  | v => l v

/-- Loading the values of a map, with the errors collected: `none` if some value was invalid. -/
def mapValues (l : Ld) : List (String × Val) → Except Err (Option (List (String × Val)))
  | [] => .ok (some [])
  | (k, v) :: m => match l v with
    | .error .validation => match mapValues l m with
      | .ok _ => .ok none
      | .error e => .error e
    | .error e => .error e
    | .ok r => match mapValues l m with
      | .ok rs => .ok (rs.map ((k, r) :: ·))
      | .error e => .error e

/-- `cwl_v1_2.py:145-185`: `_MapLoader`. -/
def map (c : Ctx) (values : Ld) : Ld := fun v => match v with
  | .obj m => match mapValues (loadField c values) m with
    | .ok (some r) => .ok (.obj r)
    | .ok none => .error .validation
    | .error e => .error e
  | _ => .error .validation

/-- `doc[i].get("id")` if `doc[i]` is a `CommentedMap`, unless it is `None`. -/
def idOf (c : Ctx) (v : Val) : Option Val := match v with
  | .obj d => if c.commented = true then (match Dict.get? d "id" with | some .null => none | o => o) else none
  | _ => none

/-- `r.extend(lf)` or `r.append(lf)`. -/
def spread (c : Ctx) (v : Val) : List Val := match v with
  | .arr l => if c.flatten = true then l else [v]
  | v => [v]

/-- The end of `_ArrayLoader.load`: the errors collected are raised. -/
def raiseErrors : Except Err (Option (List Val)) → Except Err Val
  | .ok (some r) => .ok (.arr r)
  | .ok none => .error .validation
  | .error e => .error e

mutual
/-- The loop of `_ArrayLoader.load` over the elements, with the identifiers seen so far; `none`: an element was invalid or an identifier repeated. -/
def elems (c : Ctx) (items : Ld) (fields : List Val) : List Val → Except Err (Option (List Val))
  | [] => .ok (some [])
  | v :: vs => match elem c items v with
    | .error .validation => match elems c items fields vs with
      | .ok _ => .ok none
      | .error e => .error e
    | .error e => .error e
    | .ok r => match idOf c v with
      | none => match elems c items fields vs with
        | .ok rs => .ok (rs.map (spread c r ++ ·))
        | .error e => .error e
      | some i =>
        if i ∈ fields then match elems c items fields vs with
          | .ok _ => .ok none
          | .error e => .error e
        else match elems c items (fields ++ [i]) vs with
          | .ok rs => .ok (rs.map (spread c r ++ ·))
          | .error e => .error e
/-- `_load_field(doc[i], _UnionLoader([self, self.items]), …)`: a nested array is loaded by the same loader, if possible. -/
def elem (c : Ctx) (items : Ld) : Val → Except Err Val
  | .arr l => match raiseErrors (elems c items [] l) with
    | .error .validation => items (.arr l)
    | r => r
  | v => loadField c items v
end

/-- `cwl_v1_2.py:88-142`: `_ArrayLoader`. -/
def array (c : Ctx) (items : Ld) : Ld := fun v => match v with
  | .arr l => raiseErrors (elems c items [] l)
  | _ => .error .validation

/-! ## Secondary files -/

/-- One entry given as text. -/
def secondaryText (s : String) : Val :=
  if s.toList.getLast? = some '?' then .obj [("pattern", .str (String.ofList s.toList.dropLast)), ("required", .bool false)]
  else .obj [("pattern", .str s)]

/-- One entry given as mapping. -/
def secondaryMap (d : List (String × Val)) : Except Err Val := match Dict.get? d "pattern" with
  | none => .error .validation
  | some p =>
    if Dict.erase (Dict.erase d "pattern") "required" = [] then .ok (.obj [("pattern", p), ("required", (Dict.get? d "required").getD .null)])
    else .error .validation

/-- One entry of a list. -/
def secondaryEntry : Val → Except Err Val
  | .str s => .ok (secondaryText s)
  | .obj d => secondaryMap d
  | _ => .error .validation

/-- The entries of a list. -/
def secondaryList : List Val → Except Err (List Val)
  | [] => .ok []
  | v :: vs => match secondaryEntry v with
    | .error e => .error e
    | .ok r => (secondaryList vs).map (r :: ·)

/-- `cwl_v1_2.py:209-279`: `_SecondaryDSLLoader`. -/
def secondary (inner : Ld) : Ld := fun v => match v with
  | .arr l => match secondaryList l with
    | .error e => .error e
    | .ok r => inner (.arr r)
  | .obj d => match secondaryMap d with
    | .error e => .error e
    | .ok r => inner (.arr [r])
  | .str s => inner (.arr [secondaryText s])
  | _ => .error .validation

/-! ## The type DSL -/

/-- `_expand_url(…, vocab_term=True, …)`. -/
abbrev Expand := List Char → Except Err (List Char)

/-- What a type text stands for: an expanded name or an array of it. -/
inductive Atom where
  | name (s : List Char)
  | array (s : List Char)

def Atom.val : Atom → Val
  | .name s => .str (String.ofList s)
  | .array s => .obj [("type", .str "array"), ("items", .str (String.ofList s))]

/-- The result of `resolve`: one type or `["null", type]`. -/
inductive Res where
  | one (a : Atom)
  | opt (a : Atom)

def Res.val : Res → Val
  | .one a => a.val
  | .opt a => .arr [.str "null", a.val]

/-- `doc_.endswith("[]")`. -/
def dropBrackets (s : List Char) : Option (List Char) := match s.reverse with
  | ']' :: '[' :: r => some r.reverse
  | _ => none

/-- `doc_.endswith("?")`. -/
def dropMark (s : List Char) : Option (List Char) := match s.reverse with
  | '?' :: r => some r.reverse
  | _ => none

/-- The part of `_TypeDSLLoader.resolve` after the question mark is removed; `doc` is the original text.  The parsers in the repository all use the salad
version `v1.1`, so only this branch (`salad_versions < [1, 3]`) is modelled. -/
def resolveBase (expand : Expand) (doc s : List Char) (wrap : Atom → Res) : Except Err Res := match dropBrackets s with
  | some rest => match dropBrackets rest with
    | some _ => .ok (.one (.name doc))
    | none => (expand rest).map (fun i => wrap (.array i))
  | none => (expand s).map (fun i => wrap (.name i))

/-- `cwl_v1_2.py:507-560`: `_TypeDSLLoader.resolve`. -/
def resolve (expand : Expand) (doc : List Char) : Except Err Res := match dropMark doc with
  | some s => resolveBase expand doc s .opt
  | none => resolveBase expand doc doc .one

/-- Python's `a == v` for an atom: key order does not matter. -/
def Atom.eqVal : Atom → Val → Bool
  | .name s, .str t => t == String.ofList s
  | .array s, .obj m => m.length == 2 && Dict.get? m "type" == some (.str "array") && Dict.get? m "items" == some (.str (String.ofList s))
  | _, _ => false

/-- `if i not in r: r.append(i)`. -/
def addNew (r : List Val) (a : Atom) : List Val := if r.any a.eqVal = true then r else r ++ [a.val]

/-- The loop over a list of types. -/
def typeList (expand : Expand) (r : List Val) : List Val → Except Err (List Val)
  | [] => .ok r
  | .str s :: vs => match resolve expand s.toList with
    | .error e => .error e
    | .ok (.one a) => typeList expand (addNew r a) vs
    | .ok (.opt a) => typeList expand (addNew (addNew r (.name "null".toList)) a) vs
  | v :: vs => typeList expand (r ++ [v]) vs

/-- `cwl_v1_2.py:562-589`: `_TypeDSLLoader.load`. -/
def typeDsl (expand : Expand) (inner : Ld) : Ld := fun v => match v with
  | .arr l => match typeList expand [] l with
    | .error e => .error e
    | .ok r => inner (.arr r)
  | .str s => match resolve expand s.toList with
    | .error e => .error e
    | .ok r => inner r.val
  | v => inner v

/-! ## Id maps -/

/-- One entry of a map. -/
def idEntry (subject : String) (predicate : Option String) (k : String) (v : Val) : Except Err Val := match v with
  | .obj d => .ok (.obj (Dict.set d subject (.str k)))
  | v => match predicate with
    | some p => if p = "" then .error .validation else .ok (.obj (Dict.set [(p, v)] subject (.str k)))
    | none => .error .validation

def idEntries (subject : String) (predicate : Option String) : List (String × Val) → Except Err (List Val)
  | [] => .ok []
  | (k, v) :: m => match idEntry subject predicate k v with
    | .error e => .error e
    | .ok r => (idEntries subject predicate m).map (r :: ·)

/-- `cwl_v1_2.py:592-628`: `_IdMapLoader`. -/
def idMap (subject : String) (predicate : Option String) (inner : Ld) : Ld := fun v => match v with
  | .obj m => match idEntries subject predicate m with
    | .error e => .error e
    | .ok r => inner (.arr r)
  | v => inner v

end CwlUtils.Loader
