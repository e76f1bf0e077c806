import Verif.Loader.FullTable
import Verif.Loader.Schema
/-!
# Loaded values and their types

What it means that a loaded value has a type of the specification (`Fits`) and that all objects in it have fields of the specified types (`Wf`), and a check of the tables of
loaders against the specification (`accepts`, `classOk`).
-/
namespace CwlUtils.Loader.Full

open CwlUtils.Loader.Rec (fromDoc readFields readField loadOne)

/-- The name of the class with this place. -/
def Tab.className (T : Tab) (c : Nat) : Option String := (T.classes[c]?).map (·.cls.name)

/-- A value that is no list has one of the kinds.  (In Python a boolean is an integer.) -/
inductive FitsOne (T : Tab) : List Atom → LV → Prop
  | any {as x} : .any ∈ as → FitsOne T as x
  | null {as} : .null ∈ as → FitsOne T as (.val .null)
  | bool {as b} : .bool ∈ as → FitsOne T as (.val (.bool b))
  | int {as n} : .int ∈ as → FitsOne T as (.val (.int n))
  | intBool {as b} : .int ∈ as → FitsOne T as (.val (.bool b))
  | float {as t} : .float ∈ as → FitsOne T as (.val (.flt t))
  | text {as s} : .text ∈ as → FitsOne T as (.val (.str s))
  | sym {as l s} : .sym l ∈ as → s ∈ l → FitsOne T as (.val (.str s))
  | inst {as c name id vals ext} : .inst name ∈ as → T.className c = some name → FitsOne T as (.inst c id vals ext)

/-- A member of a list has one of the kinds, or, where lists in lists are kept, is a list of such members. -/
inductive Member (T : Tab) (nested : Bool) : List Atom → LV → Prop
  | one {as x} : FitsOne T as x → Member T nested as x
  | list {as l} : nested = true → (∀ x ∈ l, Member T nested as x) → Member T nested as (.list l)

/-- A value has a type. -/
inductive Fits (T : Tab) (nested : Bool) : Ty → LV → Prop
  | one {ty x} : FitsOne T ty.one x → Fits T nested ty x
  | many {ty as l} : ty.many = some as → (∀ x ∈ l, Member T nested as x) → Fits T nested ty (.list l)

/-- The fields of an object are those of the specification: they have the types, and the required ones are there. -/
def Conforms (T : Tab) (nested : Bool) (flds : List Fld) (vals : Dict (Option LV)) : Prop :=
  (∀ p ∈ vals, ∃ f ∈ flds, f.name = p.1) ∧
  ∀ f ∈ flds, ∃ o, Dict.get? vals f.name = some o ∧ (f.required = true → o ≠ none) ∧ ∀ x, o = some x → Fits T nested f.ty x

/-- All objects in a value are as specified. -/
inductive Wf (T : Tab) (nested : Bool) (S : List (String × List Fld)) : LV → Prop
  | val (v) : Wf T nested S (.val v)
  | list {l} : (∀ x ∈ l, Wf T nested S x) → Wf T nested S (.list l)
  | dict {m} : (∀ k x, (k, x) ∈ m → Wf T nested S x) → Wf T nested S (.dict m)
  | inst {c id vals ext} : (∀ name flds, T.className c = some name → Dict.get? S name = some flds → Conforms T nested flds vals) →
      (∀ f x, (f, some x) ∈ vals → Wf T nested S x) → Wf T nested S (.inst c id vals ext)

/-! ## The check -/

/-- Whether all values that a loader gives have the type, following at most so many references. -/
def accepts (T : Tab) : Nat → Nat → Ty → Bool
  | 0, _, _ => false
  | n + 1, i, ty => if .any ∈ ty.one then true else match T.ldrs[i]? with
    | none => true
    | some .any => false
    | some (.prim .str) => decide (.text ∈ ty.one)
    | some (.prim .int) => decide (.int ∈ ty.one)
    | some (.prim .float) => decide (.float ∈ ty.one)
    | some (.prim .bool) => decide (.bool ∈ ty.one ∨ .int ∈ ty.one)
    | some (.prim .none) => decide (.null ∈ ty.one)
    | some (.enum symbols) => symbols.all (fun s => ty.one.any (fun a => match a with | .text => true | .sym l => decide (s ∈ l) | _ => false))
    | some .expression => decide (.text ∈ ty.one)
    | some (.record c) => match T.className c with
      | some name => decide (.inst name ∈ ty.one)
      | none => true
    | some (.array items) => match ty.many with
      | some as => accepts T n items ⟨as, some as⟩
      | none => false
    | some (.map _ _) => false
    | some (.union alts) => alts.all (fun a => accepts T n a ty)
    | some (.uri inner _ _ _ _) => accepts T n inner ty
    | some (.typeDsl inner _) => accepts T n inner ty
    | some (.idMap inner _ _) => accepts T n inner ty
    | some (.secondary inner) => accepts T n inner ty
    | some (.proxy j) => accepts T n j ty

/-- The type of the values of the loader of a field: `None` for an optional one that is null. -/
def Fld.loaded (f : Fld) : Ty := if f.required = true then f.ty else ⟨.null :: f.ty.one, f.ty.many⟩

/-- Whether a class of the table is as specified. -/
def classOk (T : Tab) (flds : List Fld) (c : Class) : Bool :=
  c.cls.fields.all (fun p => flds.any (fun f => f.name == p.1)) &&
  flds.all (fun f => decide ((f.name, f.required) ∈ c.cls.fields) && (!(f.required && decide (.null ∈ f.ty.one ∨ .any ∈ f.ty.one))) &&
    decide ((c.cls.fields.map (·.1)).count f.name = 1) &&
    match Dict.get? c.loaders f.name with
    | some j => accepts T 20 j f.loaded
    | none => true)

/-- Whether all classes of the specification are in the table, and as specified. -/
def schemaOk (T : Tab) (S : List (String × List Fld)) : Bool :=
  S.all (fun p => T.classes.any (fun c => c.cls.name == p.1)) &&
  T.classes.all (fun c => match Dict.get? S c.cls.name with
    | some flds => classOk T flds c
    | none => true)

/-- The loaders that a loader refers to. -/
def Ldr.refs (T : Tab) : Ldr → List Nat
  | .record c => match T.classes[c]? with
    | some cl => cl.loaders.map (·.2)
    | none => []
  | .array items => [items]
  | .map values _ => [values]
  | .union alts => alts
  | .uri inner _ _ _ _ => [inner]
  | .typeDsl inner _ => [inner]
  | .idMap inner _ _ => [inner]
  | .secondary inner => [inner]
  | .proxy j => [j]
  | _ => []

/-- No loader refers to the one of input files. -/
def apart (T : Tab) (k : Nat) : Bool := T.ldrs.all (fun l => !(l.refs T).contains k) && (T.ldrs.zipIdx.all (fun p => match p.1 with | .map _ true => p.2 == k | _ => true))

end CwlUtils.Loader.Full
