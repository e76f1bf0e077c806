import Verif.Loader.Model
import Verif.Loader.Records
/-!
# The parsers as a whole

`src/cwl_utils/parser/cwl_v1_0.py`, `cwl_v1_1.py`, `cwl_v1_2.py`: the loaders that are defined at the end of each module (for example `cwl_v1_2.py:27453-29004`), with the classes
of `Records.lean`.  A loader is written as data (`Ldr`) and refers to other loaders by their place in a table; `FullTable.lean` has the tables of the three modules.  `load` is
`Loader.load` for a loader of the table.

The first argument of `load` is the number of calls of `Loader.load` that may be nested; when it is used up the result is `Err.fuel` (Python raises a `RecursionError`, which is no
`ValidationException` and is not caught by the loaders).

Parameters (`World`): `_expand_url` (modelled in `Uri.lean`), `fetcher.check_exists`, the value of an `$import` (modelled in `Import.lean`) and the text of an `$include`.
Not modelled: the texts and positions of errors, the index `loadingOptions.idx`, and namespaces that change between documents (`vocab` is that of one document).
-/
namespace CwlUtils.Loader.Full

open CwlUtils.Loader.Rec (Cls Obj Env fromDoc)

/-- Loaded values. -/
inductive LV where
  /-- `None`, a number or a text -/
  | val (v : Val)
  | list (l : List LV)
  | dict (m : List (String × LV))
  /-- an object of the class with this place in the table -/
  | inst (cls : Nat) (id : Option String) (vals : List (String × Option LV)) (ext : List (String × Val))

deriving instance DecidableEq for Prim

mutual
/-- A document value that is kept as it is. -/
def lift : Val → LV
  | .arr l => .list (liftL l)
  | .obj m => .dict (liftM m)
  | .null => .val .null
  | .bool b => .val (.bool b)
  | .int n => .val (.int n)
  | .flt t => .val (.flt t)
  | .str s => .val (.str s)
  | .bytes b => .val (.bytes b)
def liftL : List Val → List LV
  | [] => []
  | v :: vs => lift v :: liftL vs
def liftM : List (String × Val) → List (String × LV)
  | [] => []
  | (k, v) :: m => (k, lift v) :: liftM m
end

/-- `None` is no value of a field. -/
def LV.opt : LV → Option LV
  | .val .null => none
  | x => some x

/-- The text, if it is one. -/
def LV.text : LV → Option String
  | .val (.str s) => some s
  | _ => none

/-- The loaders; a number is the place of a loader in the table, for `record` that of a class. -/
inductive Ldr where
  /-- `_AnyLoader()` -/
  | any
  /-- `_PrimitiveLoader(tp)` -/
  | prim (p : Prim)
  /-- `_EnumLoader(symbols, name)` -/
  | enum (symbols : List String)
  /-- `_ExpressionLoader(str)` -/
  | expression
  /-- `_RecordLoader(classtype, None, None)`: no loader of the tables has a container or `no_link_check` here -/
  | record (cls : Nat)
  /-- `_ArrayLoader(items)` -/
  | array (items : Nat)
  /-- `_MapLoader(values, name, container, no_link_check)`; the flag: the container is `"@list"` and `no_link_check` is true (otherwise both are `None`) -/
  | map (values : Nat) (inputFile : Bool)
  /-- `_UnionLoader(alternates)`, with the loaders added by `add_loaders` -/
  | union (alts : List Nat)
  /-- `_URILoader(inner, scoped_id, vocab_term, scoped_ref, no_link_check)` -/
  | uri (inner : Nat) (scopedId vocabTerm : Bool) (scopedRef : Option Nat) (noLinkCheck : Option Bool)
  /-- `_TypeDSLLoader(inner, refScope, "v1.1")` -/
  | typeDsl (inner : Nat) (refScope : Option Nat)
  /-- `_IdMapLoader(inner, mapSubject, mapPredicate)` -/
  | idMap (inner : Nat) (subject predicate : String)
  /-- `_SecondaryDSLLoader(inner)` -/
  | secondary (inner : Nat)
  /-- `_ProxyLoader(name)`, with the loader of this name in `_loaders` -/
  | proxy (target : Nat)
  deriving DecidableEq

/-- A class with the loaders of its fields (`_load_field(_doc.get(f), loader, …)` in `fromDoc`), the identifying one and `class` among them, and the fields that are loaded with
`subscope_baseuri = _expand_url(f, baseuri, loadingOptions, True)` (`cwl_v1_2.py:21415`, 25529). -/
structure Class where
  cls : Cls
  loaders : List (String × Nat)
  sub : List String
  deriving DecidableEq, Repr

/-- The table of a module. -/
structure Tab where
  ldrs : List Ldr
  classes : List Class

/-- What loading depends on besides the document. -/
structure World where
  /-- `_expand_url(url, base, loadingOptions, scoped_id, vocab_term, scoped_ref)` -/
  expand : (base : String) → (scopedId vocabTerm : Bool) → (scopedRef : Option Nat) → (url : String) → Except Err String
  /-- `loadingOptions.fetcher.check_exists(url)` -/
  exists_ : String → Except Err Bool
  /-- the value of an `$import`, loaded with the loader, or (true) with the one for the elements of this array loader -/
  import_ : Bool → Nat → Val → Except Err LV
  /-- the text of an `$include` -/
  include_ : Val → Except Err String
  /-- `(_vocab | loadingOptions.vocab).get` -/
  vocab : String → Option String
  /-- `"_:" + str(uuid4())` -/
  fresh : String
  /-- whether the mappings of the document are `CommentedMap`s -/
  commented : Bool

/-- The part of the loading options that changes inside a document: `container != "@list"`, and `no_link_check`. -/
structure Opts where
  flatten : Bool
  noLinkCheck : Bool
  deriving DecidableEq, Repr

/-- `Loader.load(doc, baseuri, loadingOptions, docRoot)` of the loaders. -/
abbrev Call := Opts → (root : Option String) → (base : String) → Nat → Val → Except Err LV

/-- `cwl_v1_2.py:824-850`: `_load_field`, with the loader given by its `load` and by what it makes of an import. -/
def field (w : World) (l imp : Val → Except Err LV) (v : Val) : Except Err LV := match v with
  | .obj d => match Dict.get? d "$import" with
    | some u => imp u
    | none => match Dict.get? d "$include" with
      | some u => match w.include_ u with
        | .ok t => l (.str t)
        | .error e => .error e
      | none => l v
  | v => l v

/-- `cwl_v1_2.py:337-421`: the alternatives of a `_UnionLoader`. -/
def firstOf (l : Nat → Except Err LV) : List Nat → Except Err LV
  | [] => .error .validation
  | a :: as => match l a with
    | .ok x => .ok x
    | .error .validation => firstOf l as
    | .error e => .error e

/-- `r.extend(lf)` or `r.append(lf)` (`cwl_v1_2.py:113-117`). -/
def spreadLV (flatten : Bool) : LV → List LV
  | .list l => if flatten = true then l else [.list l]
  | x => [x]

/-- `doc[i].get("id")` if `doc[i]` is a `CommentedMap`, unless it is `None` (`cwl_v1_2.py:119-120`). -/
def idOfElem (commented : Bool) (v : Val) : Option Val := match v with
  | .obj d => if commented = true then (match Dict.get? d "id" with | some .null => none | o => o) else none
  | _ => none

/-- `cwl_v1_2.py:105-139`: the loop of `_ArrayLoader.load`, with the identifiers seen so far; `none`: some element was invalid or an identifier repeated. -/
def elemsLV (commented flatten : Bool) (one : Val → Except Err LV) (fields : List Val) : List Val → Except Err (Option (List LV))
  | [] => .ok (some [])
  | v :: vs => match one v with
    | .error .validation => match elemsLV commented flatten one fields vs with
      | .ok _ => .ok none
      | .error e => .error e
    | .error e => .error e
    | .ok x => match idOfElem commented v with
      | none => match elemsLV commented flatten one fields vs with
        | .ok rs => .ok (rs.map (spreadLV flatten x ++ ·))
        | .error e => .error e
      | some i =>
        if i ∈ fields then match elemsLV commented flatten one fields vs with
          | .ok _ => .ok none
          | .error e => .error e
        else match elemsLV commented flatten one (fields ++ [i]) vs with
          | .ok rs => .ok (rs.map (spreadLV flatten x ++ ·))
          | .error e => .error e

/-- `cwl_v1_2.py:172-182`: the loop of `_MapLoader.load`; `none`: some value was invalid. -/
def entriesLV (one : Val → Except Err LV) : List (String × Val) → Except Err (Option (List (String × LV)))
  | [] => .ok (some [])
  | (k, v) :: m => match one v with
    | .error .validation => match entriesLV one m with
      | .ok _ => .ok none
      | .error e => .error e
    | .error e => .error e
    | .ok x => match entriesLV one m with
      | .ok rs => .ok (rs.map ((k, x) :: ·))
      | .error e => .error e

/-- `cwl_v1_2.py:447-463`: the texts of a list are expanded. -/
def expandTexts (e : String → Except Err String) : List Val → Except Err (List Val)
  | [] => .ok []
  | .str s :: vs => match e s with
    | .error x => .error x
    | .ok t => match expandTexts e vs with
      | .error x => .error x
      | .ok ts => .ok (.str t :: ts)
  | v :: vs => match expandTexts e vs with
    | .error x => .error x
    | .ok ts => .ok (v :: ts)

/-- `_expand_url` on lists of characters. -/
def chars (e : String → Except Err String) : Expand := fun s => (e (String.ofList s)).map String.toList

/-- What a record loader gives `fromDoc`: for each field its loader.  A loader of an identifying field gives a text or `None`, one of `class` a text. -/
def fieldEnv (w : World) (t : Call) (o : Opts) (c : Class) : Env LV where
  load f b v := match Dict.get? c.loaders f with
    | none => .error .key
    | some j => if f ∈ c.sub then match w.expand b true false none f with
        | .ok b' => (field w (t o none b' j) (w.import_ false j) v).map LV.opt
        | .error e => .error e
      else (field w (t o none b j) (w.import_ false j) v).map LV.opt
  loadId b v := match c.cls.ident with
    | none => .error .key
    | some (f, _) => match Dict.get? c.loaders f with
      | none => .error .key
      | some j => (field w (t o none b j) (w.import_ false j) v).map LV.text
  loadClass b v := match Dict.get? c.loaders "class" with
    | none => .error .key
    | some j => match field w (t o none b j) (w.import_ false j) v with
      | .error e => .error e
      | .ok x => match x.text with
        | some s => .ok s
        | none => .error .validation
  vocab := w.vocab
  expand k := w.expand "" false false none k
  fresh := w.fresh

/-- One call of `Loader.load`; `t` are the calls made by it. -/
def step (w : World) (T : Tab) (t : Call) : Call := fun o root base i v =>
  match T.ldrs[i]? with
  | none => .error .key
  | some .any => match v with          -- cwl_v1_2.py:54-65
    | .null => .error .validation
    | v => .ok (lift v)
  | some (.prim p) => if p.accepts v = true then .ok (.val v) else .error .validation          -- cwl_v1_2.py:68-85
  | some (.enum symbols) => match v with          -- cwl_v1_2.py:188-206
    | .str s => if s ∈ symbols then .ok (.val v) else .error .validation
    | _ => .error .validation
  | some .expression => match v with          -- cwl_v1_2.py:316-334
    | .str _ => .ok (.val v)
    | _ => .error .validation
  | some (.record c) => match v with          -- cwl_v1_2.py:282-313
    | .obj d => match T.classes[c]? with
      | none => .error .key
      | some cl => match fromDoc cl.cls (fieldEnv w t o cl) root base d with
        | .ok x => .ok (.inst c x.id x.vals x.ext)
        | .error (.raised e) => .error e
        | .error _ => .error .validation
    | _ => .error .validation
  | some (.array items) => match v with          -- cwl_v1_2.py:88-142; the elements are loaded by `_UnionLoader([self, self.items])`
    | .arr l => match elemsLV w.commented o.flatten (field w (fun x => firstOf (fun j => t o none base j x) [i, items]) (w.import_ true i)) [] l with
      | .ok (some r) => .ok (.list r)
      | .ok none => .error .validation
      | .error e => .error e
    | _ => .error .validation
  | some (.map values inputFile) => match v with          -- cwl_v1_2.py:145-185
    | .obj m => match entriesLV (field w (t (if inputFile = true then ⟨false, true⟩ else o) none base values) (w.import_ false values)) m with
      | .ok (some r) => .ok (.dict r)
      | .ok none => .error .validation
      | .error e => .error e
    | _ => .error .validation
  | some (.union alts) => firstOf (fun j => t o root base j v) alts          -- cwl_v1_2.py:337-424
  | some (.uri inner scopedId vocabTerm scopedRef noLinkCheck) =>          -- cwl_v1_2.py:427-486
    let o' : Opts := ⟨o.flatten, noLinkCheck.getD o.noLinkCheck⟩
    match v with
    | .arr l => match expandTexts (w.expand base scopedId vocabTerm scopedRef) l with
      | .error e => .error e
      | .ok l' => t o' none base inner (.arr l')
    | .str s => match w.expand base scopedId vocabTerm scopedRef s with
      | .error e => .error e
      | .ok s' =>
        if o'.noLinkCheck = true then t o' none base inner (.str s')
        else match w.exists_ s' with
          | .ok false => .error .validation
          | .ok true => t o' none base inner (.str s')
          | .error .validation => t o' none base inner (.str s')
          | .error e => .error e
    | v => t o' none base inner v
  | some (.typeDsl inner refScope) => match v with          -- cwl_v1_2.py:489-589
    | .arr l => match typeList (chars (w.expand base false true refScope)) [] l with
      | .error e => .error e
      | .ok r => t o none base inner (.arr r)
    | .str s => match resolve (chars (w.expand base false true refScope)) s.toList with
      | .error e => .error e
      | .ok r => t o none base inner r.val
    | v => t o none base inner v
  | some (.idMap inner subject predicate) => match v with          -- cwl_v1_2.py:592-628
    | .obj m => match idEntries subject (some predicate) m with
      | .error e => .error e
      | .ok r => t o none base inner (.arr r)
    | v => t o none base inner v
  | some (.secondary inner) => match v with          -- cwl_v1_2.py:209-279
    | .arr l => match secondaryList l with
      | .error e => .error e
      | .ok r => t o root base inner (.arr r)
    | .obj d => match secondaryMap d with
      | .error e => .error e
      | .ok r => t o root base inner (.arr [r])
    | .str s => t o root base inner (.arr [secondaryText s])
    | _ => .error .validation
  | some (.proxy j) => t o none base j v          -- cwl_v1_2.py:631-651

/-- `Loader.load` with at most `n` nested calls. -/
def load (w : World) (T : Tab) : Nat → Call
  | 0 => fun _ _ _ _ _ => .error .fuel
  | n + 1 => step w T (load w T n)

end CwlUtils.Loader.Full
