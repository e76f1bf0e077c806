import Verif.Base.Val
/-!
# The generated classes of the parsers: `fromDoc`, `save`, `__eq__` and `__hash__`

`src/cwl_utils/parser/cwl_v1_0.py`, `cwl_v1_1.py`, `cwl_v1_2.py`: each class with fields has the same four methods, generated from its schema (for example `WorkflowStep`,
`cwl_v1_2.py:20943-21725`, `Dirent`, 15303-15567, and `ToolTimeLimit`, 17229-17409).  What distinguishes the classes is in `Cls`; the entries of all classes are in
`RecordTable.lean`.

The loaders of the fields, `_expand_url` and the functions `save`, `save_relative_uri` and `prefix_url` of `schema_salad.runtime` (not part of the repository) are
parameters.  Not modelled: the texts of errors and their positions (only which field is complained about), and the index `loadingOptions.idx`.  A null key is the empty text here
(`not k` is the test for both).
-/
namespace CwlUtils.Loader.Rec

/-- What distinguishes the generated classes. -/
structure Cls where
  /-- the module of the class -/
  mod : String
  /-- `cls.__name__` -/
  name : String
  /-- the field with the identifier (`id` or `name`), and whether it is an error not to have one -/
  ident : Option (String × Bool)
  /-- whether documents name the class in the field `class` -/
  classed : Bool
  /-- the other fields in the order of `fromDoc`, and whether they are required -/
  fields : List (String × Bool)
  /-- the names written by `save` -/
  saved : List String
  /-- `attrs` -/
  attrs : List String
  /-- the fields compared by `__eq__` -/
  compared : List String
  /-- the fields hashed by `__hash__` -/
  hashed : List String
  deriving DecidableEq, Repr

/-- What loading depends on; `V` are the loaded values other than `None`. -/
structure Env (V : Type) where
  /-- `_load_field` with the loader of the field, for a base -/
  load : String → String → Val → Except Err (Option V)
  /-- `_load_field` with the loader of the identifying field -/
  loadId : String → Val → Except Err (Option String)
  /-- `_load_field` with the loader of the field `class` -/
  loadClass : String → Val → Except Err String
  /-- `(_vocab | loadingOptions.vocab).get` -/
  vocab : String → Option String
  /-- `_expand_url(k, "", loadingOptions, scoped_id=False, vocab_term=False)` -/
  expand : String → Except Err String
  /-- `"_:" + str(uuid4())` -/
  fresh : String

/-- A loaded object: its identifier, the other fields (`none` is `None`) and the extension fields. -/
structure Obj (V : Type) where
  id : Option String
  vals : Dict (Option V)
  ext : Dict Val
  deriving DecidableEq, Repr

/-- The members of `_errors__`. -/
inductive Complaint where
  | invalid (f : String)
  | missing (f : String)
  | noIdent
  | nullKey
  | unknown (k : String)
  deriving DecidableEq, Repr

/-- How `fromDoc` fails. -/
inductive Fail where
  /-- the `ValidationException` for the class, which is raised at once -/
  | notClass
  /-- `raise ValidationException("", None, _errors__, "*")` -/
  | complaints (cs : List Complaint)
  /-- an exception of another kind -/
  | raised (e : Err)
  deriving DecidableEq, Repr

/-- Reading the identifying field (for example `cwl_v1_2.py:21069-21122`). -/
def readIdent (loadId : String → Val → Except Err (Option String)) (base : String) (doc : Dict Val) (f : String) :
    Except Err (List Complaint × Option String) :=
  match Dict.get? doc f with
  | none => .ok ([], none)
  | some v => match loadId base v with
    | .ok i => .ok ([], i)
    | .error .validation => .ok ([.invalid f], none)
    | .error e => .error e

/-- The complaints about the identifier, the identifier and the base for the other fields (for example `cwl_v1_2.py:21124-21132`;
where the identifier is not needed `cwl_v1_2.py:13375-13383`). -/
def ident {V : Type} (c : Cls) (env : Env V) (root : Option String) (base : String) (doc : Dict Val) :
    Except Err (List Complaint × Option String × String) :=
  match c.ident with
  | none => .ok ([], none, base)
  | some (f, needed) => match readIdent env.loadId base doc f with
    | .error e => .error e
    | .ok (cs, some i) => .ok (cs, some i, i)
    | .ok (cs, none) => match root with
      | some r => .ok (cs, some r, base)
      | none => if needed = true then .ok (cs ++ [.noIdent], none, base) else .ok (cs, some env.fresh, base)

/-- The check of the class (for example `cwl_v1_2.py:17271-17287`). -/
def checkClass {V : Type} (c : Cls) (env : Env V) (base : String) (doc : Dict Val) : Except Fail Unit :=
  if c.classed = false then .ok ()
  else match Dict.get? doc "class" with
    | none => .error .notClass
    | some .null => .error .notClass
    | some v => match env.loadClass base v with
      | .error .validation => .error .notClass
      | .error e => .error (.raised e)
      | .ok t => if t = c.name ∨ env.vocab c.name = some t then .ok () else .error .notClass

/-- One field with its loader. -/
def loadOne {V : Type} (env : Env V) (base f : String) (v : Val) : Except Err (List Complaint × Option V) :=
  match env.load f base v with
  | .ok x => .ok ([], x)
  | .error .validation => .ok ([.invalid f], none)
  | .error e => .error e

/-- One field: an optional one (for example `cwl_v1_2.py:15348-15388`) or a required one (15389-15431). -/
def readField {V : Type} (env : Env V) (base : String) (doc : Dict Val) : String × Bool → Except Err (List Complaint × Option V)
  | (f, false) => match Dict.get? doc f with
    | none => .ok ([], none)
    | some v => loadOne env base f v
  | (f, true) => match Dict.get? doc f with
    | none => .ok ([.missing f], none)
    | some .null => .ok ([.missing f], none)
    | some v => loadOne env base f v

/-- The fields one after the other. -/
def readFields {V : Type} (env : Env V) (base : String) (doc : Dict Val) : List (String × Bool) → Except Err (List Complaint × Dict (Option V))
  | [] => .ok ([], [])
  | f :: fs => match readField env base doc f with
    | .error e => .error e
    | .ok (cs, x) => match readFields env base doc fs with
      | .error e => .error e
      | .ok (cs', d) => .ok (cs ++ cs', (f.1, x) :: d)

/-- The loop over the keys of the document (for example `cwl_v1_2.py:15473-15493`). -/
def readExt (attrs : List String) (expand : String → Except Err String) :
    List (String × Val) → List Complaint × Dict Val → Except Err (List Complaint × Dict Val)
  | [], st => .ok st
  | (k, v) :: doc, (cs, ext) =>
    if k ∈ attrs then readExt attrs expand doc (cs, ext)
    else if k = "" then readExt attrs expand doc (cs ++ [.nullKey], ext)
    else if ':' ∈ k.toList then match expand k with
      | .error e => .error e
      | .ok x => readExt attrs expand doc (cs, Dict.set ext x v)
    else readExt attrs expand doc (cs ++ [.unknown k], ext)

/-- `fromDoc` -/
def fromDoc {V : Type} (c : Cls) (env : Env V) (root : Option String) (base : String) (doc : Dict Val) : Except Fail (Obj V) :=
  match ident c env root base doc with
  | .error e => .error (.raised e)
  | .ok (cs1, i, b) => match checkClass c env b doc with
    | .error e => .error e
    | .ok () => match readFields env b doc c.fields with
      | .error e => .error (.raised e)
      | .ok (cs2, vals) => match readExt c.attrs env.expand doc ([], []) with
        | .error e => .error (.raised e)
        | .ok (cs3, ext) => if cs1 ++ cs2 ++ cs3 = [] then .ok ⟨i, vals, ext⟩ else .error (.complaints (cs1 ++ cs2 ++ cs3))

/-! ## `save` -/

/-- What saving depends on, with the argument `relative_uris` fixed. -/
structure Out (V : Type) where
  /-- `save` or `save_relative_uri` of the value of a field, for a base -/
  field : String → String → V → Val
  /-- `save_relative_uri(self.id, base_url, True, None, relative_uris)` -/
  ident : String → String → Val
  /-- the value for `class` (for example `cwl_v1_2.py:17378-17387`) -/
  cls : String → Val
  /-- `prefix_url(ef, self.loadingOptions.vocab)`, or the identity without `relative_uris` -/
  short : String → String
  /-- the fields `$namespaces` and `$schemas` written for `top`, where they are not empty -/
  head : Dict Val

/-- The extension fields (for example `cwl_v1_2.py:15517-15522`). -/
def saveExt {V : Type} (w : Out V) (ext r : Dict Val) : Dict Val := ext.foldl (fun r e => Dict.set r (w.short e.1) e.2) r

/-- One name of a class: the identifier, the class or another field, written if it is not `None` (for example `cwl_v1_2.py:21657-21713`). -/
def saveField {V : Type} (c : Cls) (w : Out V) (base : String) (o : Obj V) (r : Dict Val) (f : String) : Dict Val :=
  if (c.ident.map (·.1)) = some f then match o.id with
    | some i => Dict.set r f (w.ident i base)
    | none => r
  else if c.classed = true ∧ f = "class" then Dict.set r f (w.cls c.name)
  else match Dict.get? o.vals f with
    | some (some v) => Dict.set r f (w.field f (o.id.getD base) v)
    | _ => r

/-- `save`; `top` adds the metadata of the document. -/
def save {V : Type} (c : Cls) (w : Out V) (top : Bool) (base : String) (o : Obj V) : Dict Val :=
  let r := c.saved.foldl (saveField c w base o) (saveExt w o.ext [])
  if top = true then w.head.foldl (fun r e => Dict.set r e.1 e.2) r else r

/-! ## `__eq__` and `__hash__` -/

/-- The value of a field of an object, where the identifier is a value, too. -/
def attr {V : Type} (ofText : String → V) (c : Cls) (o : Obj V) (f : String) : Option V :=
  if (c.ident.map (·.1)) = some f then o.id.map ofText
  else if c.classed = true ∧ f = "class" then some (ofText c.name)
  else (Dict.get? o.vals f).getD none

/-- `==` of two field values, either of which may be `None`. -/
def eqOpt {V : Type} (eqV : V → V → Bool) : Option V → Option V → Bool
  | none, none => true
  | some a, some b => eqV a b
  | _, _ => false

/-- `a.__eq__(b)` (for example `cwl_v1_2.py:21026-21041`): `sub` is `issubclass`. -/
def eqMethod {V : Type} (sub : Cls → Cls → Bool) (ofText : String → V) (eqV : V → V → Bool) (a b : Cls × Obj V) : Bool :=
  sub b.1 a.1 && a.1.compared.all (fun f => eqOpt eqV (attr ofText a.1 a.2 f) (attr ofText b.1 b.2 f))

/-- `a == b` in Python: the method of the right operand goes first if its class is a proper subclass of the class of the left one. -/
def pyEq {V : Type} (sub : Cls → Cls → Bool) (ofText : String → V) (eqV : V → V → Bool) (a b : Cls × Obj V) : Bool :=
  if sub b.1 a.1 = true ∧ sub a.1 b.1 = false then eqMethod sub ofText eqV b a else eqMethod sub ofText eqV a b

/-- The hashes of the members of the tuple; `none` is the `TypeError` for a value that has no hash (such as a list). -/
def hashes {V : Type} (hashV : Option V → Option Nat) : List (Option V) → Option (List Nat)
  | [] => some []
  | x :: xs => match hashV x, hashes hashV xs with
    | some h, some hs => some (h :: hs)
    | _, _ => none

/-- `__hash__` (for example `cwl_v1_2.py:21043-21058`); `mix` is the hash of a tuple in terms of the hashes of its members. -/
def hash {V : Type} (ofText : String → V) (hashV : Option V → Option Nat) (mix : List Nat → Nat) (a : Cls × Obj V) : Option Nat :=
  (hashes hashV (a.1.hashed.map (attr ofText a.1 a.2))).map mix

end CwlUtils.Loader.Rec
