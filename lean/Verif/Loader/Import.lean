import Verif.Loader.Model
/-!
# Loading of documents: `$import`, `$include` and the index of loaded documents

`src/cwl_utils/parser/cwl_v1_2.py:654-848` and the `fromDoc` methods of the classes; the parsers of the other versions
have the same code.

Simplifications.  The index `loadingOptions.idx` maps a URL to the loaded value; the loading options stored beside it are
not modelled.  It is one mutable dictionary: a `LoadingOptions` made with `copyfrom` shares it, so the index is a state
that is kept even when an exception is raised.  Of the loading options only `fileuri` and `namespaces` are modelled
(every field is loaded with `container` unset, so that lists in lists are flattened).  Mappings come from YAML documents,
so they are `CommentedMap`s.  Loaders without effect on the index are arbitrary functions.  The recursion is bounded by
a number (`Err.fuel`).
-/
namespace CwlUtils.Loader.Import

/-- What loading a value depends on, besides the value and the index: the base URI, `loadingOptions.fileuri` and
`loadingOptions.namespaces`. -/
structure Ctx where
  base : String
  file : Option String
  ns : Val

/-- A loader.  `leaf`: a loader that only computes (`_PrimitiveLoader`, `_EnumLoader`, `_ExpressionLoader`, `_AnyLoader`;
`54-85`, `188-206`, `316-335`).  `pre`: a loader that changes the document and passes it on without `docRoot`; only `_SecondaryDSLLoader` passes it, whose objects have no identifier
(`_SecondaryDSLLoader`, `_URILoader`, `_TypeDSLLoader`, `_IdMapLoader`; `209-279`, `427-628`).  `array`: `88-142`.
`union`: `337-424`.  `record`: `_RecordLoader` of a class, by its name (`282-313`), which may refer to itself as a
`_ProxyLoader` does (`631-651`). -/
inductive Ldr where
  | leaf (f : Ctx → Val → Except Err Val)
  | pre (f : Ctx → Val → Except Err Val) (inner : Ldr)
  | array (items : Ldr)
  | union (alternates : List Ldr)
  | record (name : String)

/-- A field of a class. -/
structure Fld where
  name : String
  required : Bool
  ldr : Ldr

/-- A class: the value of its field `class`, if it has one; its identifier field, if it has one, with the resolution of
identifiers (`none` for null), and whether a missing one is an error; its other fields. -/
structure Cls where
  name : String
  symbol : Option String
  idField : Option String
  idRequired : Bool
  ident : Ctx → Val → Except Err (Option String)
  fields : List Fld

/-- The documents and the classes.  `fetch` is `fetch_text` followed by the YAML parser, `text` is `fetch_text`. -/
structure Env where
  fetch : String → Except Err Val
  text : String → Except Err String
  join : String → String → String
  defrag : String → String
  cls : String → Option Cls

/-- `loadingOptions.idx`. -/
abbrev Idx := Dict Val

/-- The identifier of an object: the given one, and whether it was invalid (`id` in `fromDoc`, e.g. `13345-13397`; that an
identifier may be imported is not modelled). -/
def Cls.given (C : Cls) (c : Ctx) (d : Dict Val) : Except Err (Option String × Bool) :=
  match C.idField with
  | none => .ok (none, false)
  | some k => match Dict.get? d k with
    | none => .ok (none, false)
    | some v => match C.ident c v with
      | .ok o => .ok (o, false)
      | .error .validation => .ok (none, true)
      | .error e => .error e

/-- The check of `class` in `fromDoc`, e.g. `13402-13420`. -/
def Cls.accepts (C : Cls) (d : Dict Val) : Bool :=
  match C.symbol with
  | none => true
  | some s => decide (Dict.get? d "class" = some (.str s))

/-- `cls.attrs`. -/
def Cls.attrs (C : Cls) : List String :=
  C.symbol.toList.map (fun _ => "class") ++ C.idField.toList ++ C.fields.map (·.name)

/-- The loop over the keys in `fromDoc`, e.g. `12514-12534`: whether some key is invalid. -/
def Cls.stray (C : Cls) (d : Dict Val) : Bool :=
  d.any (fun p => decide (p.1 ∉ C.attrs ∧ (p.1 = "" ∨ ':' ∉ p.1.toList)))

/-- The extension fields (their names are not expanded here). -/
def Cls.extra (C : Cls) (d : Dict Val) : Dict Val := d.filter (fun p => decide (p.1 ∉ C.attrs ∧ ':' ∈ p.1.toList))

/-- The identifier of the object: the given one, else the root of the document, else a blank one (`none` here; the
random name is not modelled). -/
def Cls.identifier (C : Cls) (given root : Option String) : Option String :=
  if C.idField.isSome then given.or root else none

/-- The constructed object: its Python class, its identifier, its fields and the extension fields. -/
def Cls.object (C : Cls) (id : Option String) (fields : Dict Val) (d : Dict Val) : Val :=
  .obj (("@type", .str C.name) :: (C.idField.toList.map (fun k => (k, match id with | some i => .str i | none => .null)) ++
    (fields ++ C.extra d)))

/-- The end of `fromDoc`, e.g. `12536-12554`: with the fields loaded, whether the object is constructed. -/
def Cls.finish (C : Cls) (given root : Option String) (bad : Bool) (d : Dict Val) : Except Err Val → Except Err Val
  | .error e => .error e
  | .ok (.obj fs) =>
    if bad || (C.idRequired && (C.identifier given root).isNone) || C.stray d then .error .validation
    else .ok (C.object (C.identifier given root) fs d)
  | .ok _ => .error .validation

/-- The result of an item or a field, and then that of the others: a `ValidationException` is collected, and the others
are loaded nevertheless. -/
def collectErr (f : Val → Val → Val) : Except Err Val → Except Err Val → Except Err Val
  | .ok v, .ok w => .ok (f v w)
  | .ok _, .error e => .error e
  | .error .validation, .ok _ => .error .validation
  | .error .validation, .error e => .error e
  | .error e, _ => .error e

/-- Whether the exception is not collected. -/
def hard : Except Err Val → Bool
  | .ok _ => false
  | .error .validation => false
  | .error _ => true

/-- `r.extend(lf)` or `r.append(lf)` (`112-114`), before the items `w`. -/
def addItems : Val → Val → Val
  | .arr l, .arr w => .arr (l ++ w)
  | v, .arr w => .arr (v :: w)
  | _, w => w

/-- A field before the others. -/
def addField (k : String) : Val → Val → Val
  | v, .obj m => .obj ((k, v) :: m)
  | _, w => w

/-- `doc[i].get("id")`, unless it is None. -/
def idOf : Val → Option Val
  | .obj d => match Dict.get? d "id" with
    | some .null => none
    | o => o
  | _ => none

/-- The mapping without the keys that describe the document (`693-699`). -/
def strip (d : Dict Val) : Dict Val := Dict.erase (Dict.erase (Dict.erase d "$namespaces") "$schemas") "$base"

/-- `namespaces=doc.get("$namespaces", None)`: None means those of the document that imports. -/
def namespaces (ns : Val) (d : Dict Val) : Val :=
  match Dict.get? d "$namespaces" with
  | none => ns
  | some .null => ns
  | some v => v

/-- The calls that load something: `Loader.load`; `_load_field`; the loop of `_ArrayLoader.load` with the identifiers seen
so far; the fields of `fromDoc`; `_document_load_by_url`; `_document_load` of the document at `u` (with `fileuri = u`). -/
inductive Job where
  | load (L : Ldr) (c : Ctx) (root : Option String) (v : Val)
  | field (L : Ldr) (c : Ctx) (v : Val)
  | items (L : Ldr) (c : Ctx) (seen : List Val) (vs : List Val)
  | fields (fs : List Fld) (c : Ctx) (d : Dict Val)
  | url (L : Ldr) (ns : Val) (u : String)
  | doc (L : Ldr) (ns : Val) (u : String) (v : Val)

/-- `loadingOptions.idx[i] = …`, if there is an identifier. -/
def register (idx : Idx) (id : Option String) : Except Err Val → Idx
  | .ok w => match id with
    | some i => Dict.set idx i w
    | none => idx
  | .error _ => idx

/-- The loading of a mapping with the base URI `b`, or of its `$graph` (`701-711`). -/
def content (L : Ldr) (ns : Val) (u b : String) (d : Dict Val) : Job :=
  match Dict.get? (strip d) "$graph" with
  | some g => .load L ⟨b, some u, namespaces ns d⟩ none g
  | none => .load L ⟨b, some u, namespaces ns d⟩ (some b) (.obj (strip d))

/-- A call, where `rec` answers the calls it makes: the result and the index afterwards. -/
def step (env : Env) (rec : Job → Idx → Except Err Val × Idx) (job : Job) (idx : Idx) : Except Err Val × Idx :=
  match job with
  -- `Loader.load`
  | .load (.leaf f) c _ v => (f c v, idx)
  | .load (.pre f L) c _ v => match f c v with
    | .error e => (.error e, idx)
    | .ok v' => rec (.load L c none v') idx
  | .load (.array L) c _ v => match v with
    | .arr l => rec (.items L c [] l) idx
    | _ => (.error .validation, idx)
  | .load (.union []) _ _ _ => (.error .validation, idx)
  | .load (.union (a :: as)) c root v => match rec (.load a c root v) idx with
    | (.error .validation, idx') => rec (.load (.union as) c root v) idx'
    | r => r
  | .load (.record name) c root v => match env.cls name, v with
    | some C, .obj d => match C.given c d with
      | .error e => (.error e, idx)
      | .ok (given, bad) =>
        if C.accepts d then
          match rec (.fields C.fields { c with base := given.getD c.base } d) idx with
          | (r, idx') =>
            let o := C.finish given root bad d r
            (o, register idx' (C.identifier given root) o)
        else (.error .validation, idx)
    | _, _ => (.error .validation, idx)
  -- `_load_field`
  | .field L c v => match v with
    | .obj d => match Dict.get? d "$import" with
      | some (.str s) => match c.file with
        | none => (.error .generic, idx)
        | some f => rec (.url L c.ns (env.join f s)) idx
      | some _ => (.error .type, idx)
      | none => match Dict.get? d "$include" with
        | some (.str s) => match c.file with
          | none => (.error .generic, idx)
          | some f => match env.text (env.join f s) with
            | .error e => (.error e, idx)
            | .ok t => rec (.load L c none (.str t)) idx
        | some _ => (.error .type, idx)
        | none => rec (.load L c none v) idx
    | _ => rec (.load L c none v) idx
  -- the loop of `_ArrayLoader.load`
  | .items _ _ _ [] => (.ok (.arr []), idx)
  | .items L c seen (v :: vs) => match rec (.field (.union [.array L, L]) c v) idx with
    | (r, idx') =>
      if hard r then (r, idx')
      else match r, idOf v with
        | .ok _, some i =>
          if i ∈ seen then match rec (.items L c seen vs) idx' with
            | (s, idx'') => (collectErr addItems (.error .validation) s, idx'')
          else match rec (.items L c (seen ++ [i]) vs) idx' with
            | (s, idx'') => (collectErr addItems r s, idx'')
        | _, _ => match rec (.items L c seen vs) idx' with
          | (s, idx'') => (collectErr addItems r s, idx'')
  -- the fields of `fromDoc`
  | .fields [] _ _ => (.ok (.obj []), idx)
  | .fields (F :: fs) c d => match Dict.get? d F.name with
    | none => match rec (.fields fs c d) idx with
      | (s, idx') => (collectErr (addField F.name) (if F.required then .error .validation else .ok .null) s, idx')
    | some v =>
      if F.required = true ∧ v = .null then match rec (.fields fs c d) idx with
        | (s, idx') => (collectErr (addField F.name) (.error .validation) s, idx')
      else match rec (.field F.ldr c v) idx with
        | (r, idx') =>
          if hard r then (r, idx')
          else match rec (.fields fs c d) idx' with
            | (s, idx'') => (collectErr (addField F.name) r s, idx'')
  -- `_document_load_by_url`
  | .url L ns u => match Dict.get? idx u with
    | some w => (.ok w, idx)
    | none => match env.fetch (env.defrag u) with
      | .error e => (.error e, idx)
      | .ok v => match rec (.doc L ns (env.defrag u) v) idx with
        | (.error e, idx') => (.error e, idx')
        | (.ok _, idx') => match Dict.get? idx' u with
          | some w => (.ok w, idx')
          | none => (.error .key, idx')
  -- `_document_load`
  | .doc L ns u v => match v with
    | .str s => rec (.url L ns (env.join u s)) idx
    | .obj d => match Dict.get? d "$base" with
      | some (.str b) =>
        match rec (content L ns u b d) idx with
        | (r, idx') => (r, register (register idx' (some b) r) (some u) r)
      | some _ => (.error .type, idx)
      | none =>
        match rec (content L ns u u d) idx with
        | (r, idx') => (r, register idx' (some u) r)
    | .arr l => match rec (.load L ⟨u, some u, ns⟩ none (.arr l)) idx with
      | (r, idx') => (r, register idx' (some u) r)
    | _ => (.error .validation, idx)

/-- The calls, with at most `n` nested ones. -/
def run (env : Env) : Nat → Job → Idx → Except Err Val × Idx
  | 0, _, idx => (.error .fuel, idx)
  | n + 1, job, idx => step env (run env n) job idx

end CwlUtils.Loader.Import
