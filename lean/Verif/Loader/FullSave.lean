import Verif.Loader.FullTable
import Verif.Loader.RecordProps
/-!
# Saving loaded values and loading them again

`save` of the parsers (`src/cwl_utils/parser/__init__.py:save`, which calls `save` of the module of the version; it is `schema_salad.runtime.save`) with `relative_uris=False`: lists and
mappings are saved member by member, objects by their methods (`Records.lean`), and addresses as they are (`save_relative_uri` returns them unchanged).  The text for
`class` is the name of the class (property C146 is about vocabularies that give it another one).

`Res` are the values that a loader can give, `Ready` are conditions under which they can be read again.
-/
namespace CwlUtils.Loader.Full

open CwlUtils.Loader.Rec (Cls Obj Out)

/-- What saving an object depends on: nothing. -/
def plainOut : Out Val where
  field _ _ v := v
  ident i _ := .str i
  cls name := .str name
  short k := k
  head := []

mutual
/-- `save(val, top=False, base_url, relative_uris=False)` -/
def save (T : Tab) : LV → Val
  | .val v => v
  | .list l => .arr (saveL T l)
  | .dict m => .obj (saveM T m)
  | .inst c id vals ext => match T.classes[c]? with
    | some cl => .obj (Rec.save cl.cls plainOut false "" ⟨id, saveV T vals, ext⟩)
    | none => .null
def saveL (T : Tab) : List LV → List Val
  | [] => []
  | x :: xs => save T x :: saveL T xs
def saveM (T : Tab) : List (String × LV) → List (String × Val)
  | [] => []
  | (k, x) :: m => (k, save T x) :: saveM T m
def saveV (T : Tab) : List (String × Option LV) → List (String × Option Val)
  | [] => []
  | (k, some x) :: m => (k, some (save T x)) :: saveV T m
  | (k, none) :: m => (k, none) :: saveV T m
end

/-- `isinstance(x, MutableSequence)` -/
def LV.isList : LV → Bool
  | .list _ => true
  | _ => false

/-- The values that a loader can give. -/
inductive Res (T : Tab) : Nat → LV → Prop
  | any {i v} : T.ldrs[i]? = some .any → v ≠ .null → Res T i (lift v)
  | prim {i p v} : T.ldrs[i]? = some (.prim p) → p.accepts v = true → Res T i (.val v)
  | enum {i l s} : T.ldrs[i]? = some (.enum l) → s ∈ l → Res T i (.val (.str s))
  | expression {i s} : T.ldrs[i]? = some .expression → Res T i (.val (.str s))
  | record {i c cl id vals ext} : T.ldrs[i]? = some (.record c) → T.classes[c]? = some cl → vals.map (·.1) = cl.cls.fields.map (·.1) → id.isSome = cl.cls.ident.isSome →
      (∀ f y, (f, some y) ∈ vals → y ≠ .val .null ∧ (Dict.get? cl.loaders f).isSome = true) → (∀ f y j, (f, some y) ∈ vals → Dict.get? cl.loaders f = some j → Res T j y) →
      Res T i (.inst c id vals ext)
  | array {i items l} : T.ldrs[i]? = some (.array items) → (∀ y ∈ l, y.isList = false → y ≠ .val .null → Res T items y) → Res T i (.list l)
  | map {i j b m} : T.ldrs[i]? = some (.map j b) → (∀ k y, (k, y) ∈ m → Res T j y) → Res T i (.dict m)
  | union {i alts a x} : T.ldrs[i]? = some (.union alts) → a ∈ alts → Res T a x → Res T i x
  | uri {i j s v r nl x} : T.ldrs[i]? = some (.uri j s v r nl) → Res T j x → Res T i x
  | typeDsl {i j r x} : T.ldrs[i]? = some (.typeDsl j r) → Res T j x → Res T i x
  | idMap {i j s p x} : T.ldrs[i]? = some (.idMap j s p) → Res T j x → Res T i x
  | secondary {i j x} : T.ldrs[i]? = some (.secondary j) → Res T j x → Res T i x
  | proxy {i j x} : T.ldrs[i]? = some (.proxy j) → Res T j x → Res T i x

/-! ## Conditions -/

/-- The address is not one of a document that is known not to exist. -/
def World.Linked (w : World) (t : String) : Prop := w.exists_ t = .ok true ∨ w.exists_ t = .error .validation

/-- The text is not expanded any more, whatever the base is. -/
def World.Stays (w : World) (s v : Bool) (r : Option Nat) (t : String) : Prop := ∀ base, w.expand base s v r t = .ok t

/-- The text is not the name of a class of the parser. -/
def World.Foreign (w : World) (T : Tab) (s : String) : Prop := ∀ base t, w.expand base false true none s = .ok t → ∀ cl ∈ T.classes, cl.cls.name ≠ t ∧ w.vocab cl.cls.name ≠ some t

/-- Conditions on the value of a field that depend on how it is written: addresses are complete and lead to something; names of types are complete, have no suffix and are different;
secondary files are a list of objects. -/
def FieldOk (w : World) (T : Tab) (l : Ldr) (x : LV) : Prop := match l with
  | .uri _ s v r nl => (∀ t, x = .val (.str t) → w.Stays s v r t ∧ (nl ≠ some true → w.Linked t)) ∧ ∀ l, x = .list l → ∀ t, .val (.str t) ∈ l → w.Stays s v r t
  | .typeDsl _ r => (∀ t, x = .val (.str t) → w.Stays false true r t ∧ dropMark t.toList = none ∧ dropBrackets t.toList = none) ∧
      ∀ l, x = .list l → (∀ t, .val (.str t) ∈ l → w.Stays false true r t ∧ dropMark t.toList = none ∧ dropBrackets t.toList = none) ∧
        l.Pairwise (fun a b => ∀ t, a = .val (.str t) → b ≠ .val (.str t))
  | .secondary _ => ∃ l, x = .list l ∧ ∀ y ∈ l, ∃ c id vals, y = .inst c id vals []
  | .union (s :: _) => match T.ldrs[s]? with
    | some (.secondary _) => ∃ l, x = .list l ∧ ∀ y ∈ l, ∃ c id vals, y = .inst c id vals []
    | _ => True
  | _ => True

/-- Conditions under which a loaded value can be read again. -/
inductive Ready (w : World) (T : Tab) : LV → Prop
  | val {v} : (∀ l, v ≠ .arr l) → (∀ m, v ≠ .obj m) → Ready w T (.val v)
  /-- no lists and no `None` in lists, and different identifiers -/
  | list {l} : (∀ y ∈ l, Ready w T y) → (∀ y ∈ l, y.isList = false ∧ y ≠ .val .null) →
      l.Pairwise (fun a b => ∀ i, idOfElem true (save T a) = some i → idOfElem true (save T b) ≠ some i) → Ready w T (.list l)
  /-- no imports, and no objects of a class of the parser -/
  | dict {m} : (∀ k y, (k, y) ∈ m → Ready w T y) → Dict.get? m "$import" = none → Dict.get? m "$include" = none →
      (∀ s, Dict.get? m "class" = some (.val (.str s)) → w.Foreign T s) → Ready w T (.dict m)
  /-- a complete identifier, complete names of extension fields, and all required fields -/
  | inst {c cl id vals ext} : T.classes[c]? = some cl → (∀ i, id = some i → w.Stays true false none i ∧ w.Linked i) →
      Dict.WF ext → (∀ k v, (k, v) ∈ ext → ':' ∈ k.toList ∧ w.expand "" false false none k = .ok k) →
      (∀ i f, id = some i → f ∈ cl.sub → ∃ t, w.expand i true false none f = .ok t) → (∀ f, (f, true) ∈ cl.cls.fields → (f, none) ∉ vals) →
      (∀ f y j l, (f, some y) ∈ vals → Dict.get? cl.loaders f = some j → T.ldrs[j]? = some l → FieldOk w T l y) →
      (∀ f y, (f, some y) ∈ vals → Ready w T y) → Ready w T (.inst c id vals ext)

/-- The names of the classes are terms, and stand for something else than other classes. -/
def World.Knows (w : World) (T : Tab) : Prop := ∀ cl ∈ T.classes, w.Stays false true none cl.cls.name ∧ w.Linked cl.cls.name ∧
  ∀ cl' ∈ T.classes, w.vocab cl.cls.name = some cl'.cls.name → cl.cls.name = cl'.cls.name

/-! ## The check of the tables -/

/-- The form of a value. -/
inductive Head where
  | val | list | dict
  | inst (c : Nat)

def Head.isVal : Head → Bool
  | .val => true
  | _ => false

def Head.isList : Head → Bool
  | .list => true
  | _ => false

def LV.head : LV → Head
  | .val _ => .val
  | .list _ => .list
  | .dict _ => .dict
  | .inst c _ _ _ => .inst c

/-- Whether all values that a loader can give have such a form. -/
def heads (T : Tab) (p : Head → Bool) : Nat → Nat → Bool
  | 0, _ => false
  | n + 1, i => match T.ldrs[i]? with
    | none => true
    | some .any => p .val && p .list && p .dict
    | some (.prim _) | some (.enum _) | some .expression => p .val
    | some (.record c) => p (.inst c)
    | some (.array _) => p .list
    | some (.map _ _) => p .dict
    | some (.union alts) => alts.all (heads T p n)
    | some (.uri j _ _ _ _) | some (.typeDsl j _) | some (.idMap j _ _) | some (.secondary j) | some (.proxy j) => heads T p n j

/-- Whether documents of the first class cannot be saved objects of the second one. -/
def separate (a b : Cls) : Bool :=
  if a.classed = true then !b.classed || a.name != b.name
  else (b.classed && !a.attrs.contains "class") || b.fields.any (fun f => f.2 && !a.attrs.contains f.1)

/-- Whether a class accepts nothing that was saved of a value of this form. -/
def harmlessClass (T : Tab) (h : Head) (c : Nat) : Bool := match h with
  | .val | .list => true
  | .dict => match T.classes[c]? with
    | some cl => cl.cls.classed
    | none => false
  | .inst d => match T.classes[c]?, T.classes[d]? with
    | some a, some b => separate a.cls b.cls
    | _, _ => false

/-- Whether a loader gives, for what was saved of a value of this form, the value itself or an error. -/
def harmless (T : Tab) (h : Head) : Nat → Nat → Bool
  | 0, _ => false
  | n + 1, i => match T.ldrs[i]? with
    | some (.prim _) | some (.enum _) | some .expression => true
    | some .any => h.isVal
    | some (.record c) => harmlessClass T h c
    | some (.array _) => !h.isList
    | some (.map _ _) => h.isVal || h.isList
    | some (.union alts) => alts.all (harmless T h n)
    | some (.proxy j) => harmless T h n j
    | _ => false

/-- Whether each alternative can be reached by what was saved of its values. -/
def ordered (T : Tab) (n : Nat) : List Nat → List Nat → Bool
  | _, [] => true
  | pre, a :: as => heads T (fun h => pre.all (harmless T h n)) n a && ordered T n (pre ++ [a]) as

/-- A loader that is no wrapper. -/
def isCore (T : Tab) (i : Nat) : Bool := match T.ldrs[i]? with
  | some (.uri _ _ _ _ _) | some (.typeDsl _ _) | some (.idMap _ _ _) | some (.secondary _) => false
  | some (.union (s :: _)) => match T.ldrs[s]? with
    | some (.secondary _) => false
    | _ => true
  | some _ => true
  | none => false

/-- A class that documents of secondary files can be taken for. -/
def isPattern (cl : Class) : Bool := cl.cls.fields == [("pattern", true), ("required", false)] && !cl.cls.classed && cl.cls.ident.isNone && cl.sub == []

/-- The loaders of secondary files: the alternatives are the loader for the short form and the one inside of it; its lists have members of the class for the short form, or of classes
that have no field `pattern`. -/
def secondaryOk (T : Tab) (alts : List Nat) : Bool := match alts with
  | [s, u] => match T.ldrs[s]? with
    | some (.secondary u') => u == u' && isCore T u && (match T.ldrs[u]? with
      | some (.union [z, a]) => T.ldrs[z]? == some (.prim .none) && (match T.ldrs[a]? with
        | some (.array items) => isCore T items && heads T (fun h => match h with
          | .inst c => (match T.classes[c]? with
            | some cl => !cl.cls.attrs.contains "pattern"
            | none => false)
          | _ => false) 8 items
        | _ => false)
      | some (.union [z, r, a]) => T.ldrs[z]? == some (.prim .none) && T.ldrs[a]? == some (.array r) && (match T.ldrs[r]? with
        | some (.record c) => (match T.classes[c]? with
          | some cl => isPattern cl && (match Dict.get? cl.loaders "required" with
            | some j => (match T.ldrs[j]? with
              | some (.union (z :: _)) => T.ldrs[z]? == some (.prim .none)
              | _ => false)
            | none => false)
          | none => false)
        | _ => false)
      | _ => false)
    | _ => false
  | _ => false

/-- The members of arrays: what an array among the members can have is a member, too. -/
def splices (T : Tab) (items : Nat) : Nat → Nat → Bool
  | 0, _ => false
  | n + 1, i => match T.ldrs[i]? with
    | some (.array j) => subsumed T items 8 j
    | some (.union alts) => alts.all (splices T items n)
    | some (.uri j _ _ _ _) | some (.typeDsl j _) | some (.idMap j _ _) | some (.secondary j) | some (.proxy j) => splices T items n j
    | _ => true
where
  /-- whether all alternatives of the second loader are alternatives of the first one -/
  subsumed (T : Tab) (items : Nat) : Nat → Nat → Bool
    | 0, _ => false
    | n + 1, j => decide (j = items) || (match T.ldrs[items]? with
      | some (.union alts) => decide (j ∈ alts)
      | _ => false) || (match T.ldrs[j]? with
      | some (.union alts) => alts.all (subsumed T items n)
      | _ => false)

/-- The loader of the field `class` and the one of the identifier. -/
def classLdrs (T : Tab) (cl : Class) : Bool :=
  (!cl.cls.classed || (match Dict.get? cl.loaders "class" with
    | some j => (match T.ldrs[j]? with
      | some (.uri e false true none none) => T.ldrs[e]? == some (.enum [cl.cls.name]) || T.ldrs[e]? == some (.prim .str)
      | _ => false)
    | none => false)) &&
  (match cl.cls.ident with
  | none => true
  | some (f, _) => match Dict.get? cl.loaders f with
    | some j => (match T.ldrs[j]? with
      | some (.uri k true false none _) => (match T.ldrs[k]? with
        | some (.prim .str) => true
        | some (.union [a, b]) => T.ldrs[a]? == some (.prim .none) && T.ldrs[b]? == some (.prim .str)
        | _ => false)
      | _ => false)
    | none => false)

/-- The loader behind the one for the short form of secondary files. -/
def through (T : Tab) (i : Nat) : Nat := match T.ldrs[i]? with
  | some (.secondary j) => j
  | _ => i

/-- The checks of one loader. -/
def ldrOk (T : Tab) (skip : List Nat) (l : Ldr) : Bool := match l with
  | .record c => match T.classes[c]? with
    | some cl => classLdrs T cl && cl.loaders.all (fun p => decide (p.2 < T.ldrs.length) && !skip.contains p.2 && through T p.2 == p.2)
    | none => false
  | .array j => isCore T j && splices T j 8 j && !skip.contains j
  | .map j _ => isCore T j && !skip.contains j
  | .union alts => (ordered T 8 [] alts && alts.all (isCore T) || secondaryOk T alts) && alts.all (fun a => !skip.contains a)
  | .uri j _ _ _ _ => isCore T j && !skip.contains j
  | .typeDsl j _ => isCore T j && !skip.contains j
  | .idMap j _ _ => isCore T j && heads T (fun h => h.isVal || h.isList) 8 j && !skip.contains j
  | .secondary j => isCore T j && !skip.contains j
  | .proxy j => isCore T j && !skip.contains j
  | _ => true

/-- The checks of a table, for the loaders that are not used for input files only. -/
def tableOk (T : Tab) (skip : List Nat) : Bool :=
  T.ldrs.zipIdx.all (fun p => skip.contains p.2 || ldrOk T skip p.1) &&
  T.classes.all (fun cl => Rec.consistent cl.cls && !cl.cls.attrs.contains "$import" && !cl.cls.attrs.contains "$include" &&
    (cl.cls.classed || !cl.cls.attrs.contains "class") && (cl.sub == [] || cl.cls.ident.isSome))

end CwlUtils.Loader.Full
