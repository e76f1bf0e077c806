import Verif.Types.Assign
/-!
# What assignability means, independent of the code
-/
namespace CwlUtils.Types

/-- The type of the field with the given short name (the last one counts). -/
def fieldType (short : String → String) (fs : List (FMeta × Ty)) (k : String) : Option Ty :=
  (fs.reverse.find? (fun p => decide (short p.1.name = k))).map (·.2)

def isUnion : Ty → Bool
  | .union _ => true
  | _ => false

/-- A type without parts. -/
def isAtom : Ty → Bool
  | .name _ => true
  | .enum _ _ => true
  | _ => false

/-- The documented meaning of the comparison (docstring `utils.py:80-90`), `strict` holding at every depth:
all alternatives of the source must match in strict mode, one besides `null` in loose mode. -/
inductive Accepts (short : String → String) : Bool → Ty → Ty → Prop where
  | anySrc {s t} : Accepts short s (.name "Any") t
  | anySink {s t} : Accepts short s t (.name "Any")
  | array {s m n a b} : Accepts short s a b → Accepts short s (.array m a) (.array n b)
  | record {s m n f g} : (∀ k t, fieldType short g k = some t →
      Accepts short s ((fieldType short f k).getD tNull) t) → Accepts short s (.record m f) (.record n g)
  | allOf {l sink} : (∀ t ∈ l, Accepts short true t sink) → Accepts short true (.union l) sink
  | oneOf {l sink t} : t ∈ l → t ≠ tNull → Accepts short false t sink → Accepts short false (.union l) sink
  | intoUnion {s src l t} : isUnion src = false → t ∈ l → Accepts short s src t → Accepts short s src (.union l)
  | same {s t} : isAtom t = true → Accepts short s t t

/-- A property of the type and of all its parts. -/
inductive Every (P : Ty → Prop) : Ty → Prop where
  | name {s} : P (.name s) → Every P (.name s)
  | enum {m l} : P (.enum m l) → Every P (.enum m l)
  | array {m t} : P (.array m t) → Every P t → Every P (.array m t)
  | record {m fs} : P (.record m fs) → (∀ p ∈ fs, Every P p.2) → Every P (.record m fs)
  | union {l} : P (.union l) → (∀ t ∈ l, Every P t) → Every P (.union l)

/-- No union at any depth. -/
abbrev NoUnion (t : Ty) : Prop := Every (fun u => isUnion u = false) t

/-- The alternatives of a union hold no unions (at any depth). -/
abbrev FlatUnions (t : Ty) : Prop := Every (fun u => ∀ l, u = .union l → ∀ x ∈ l, NoUnion x) t

/-- Each union has an alternative besides `null` (so it is not empty either). -/
abbrev ProperUnions (t : Ty) : Prop := Every (fun u => ∀ l, u = .union l → ∃ x ∈ l, x ≠ tNull) t

/-- The type `Any` does not occur. -/
abbrev NoAny (t : Ty) : Prop := Every (fun u => u ≠ .name "Any") t

/-- The fields of each record have distinct short names. -/
abbrev DistinctFields (short : String → String) (t : Ty) : Prop :=
  Every (fun u => ∀ m fs, u = .record m fs → (fs.map (fun p => short p.1.name)).Nodup) t

/-- The values of a type.  `prim` gives the values of the named types.  With `closed` a record value
holds no other fields than the declared ones. -/
inductive Has (short : String → String) (prim : String → Val → Prop) (closed : Bool) : Val → Ty → Prop where
  | any {v} : Has short prim closed v (.name "Any")
  | name {v s} : prim s v → Has short prim closed v (.name s)
  | enum {s m l} : s ∈ l → Has short prim closed (.str s) (.enum m l)
  | array {l m t} : (∀ x ∈ l, Has short prim closed x t) → Has short prim closed (.arr l) (.array m t)
  | record {d m fs} : (∀ p ∈ fs, Has short prim closed ((Dict.get? d (short p.1.name)).getD .null) p.2) →
      (closed = true → ∀ k ∈ Dict.keys d, ∃ p ∈ fs, short p.1.name = k) → Has short prim closed (.obj d) (.record m fs)
  | union {v t l} : t ∈ l → Has short prim closed v t → Has short prim closed v (.union l)

theorem Every.self {P : Ty → Prop} {t : Ty} (h : Every P t) : P t := by cases h <;> assumption
theorem Every.items {P : Ty → Prop} {m t} (h : Every P (.array m t)) : Every P t := by cases h; assumption
theorem Every.field {P : Ty → Prop} {m fs} (h : Every P (.record m fs)) : ∀ p ∈ fs, Every P p.2 := by
  cases h; assumption
theorem Every.alt {P : Ty → Prop} {l} (h : Every P (.union l)) : ∀ t ∈ l, Every P t := by cases h; assumption

/-- The field table of the code is `fieldType`. -/
theorem shortFields_eq (short : String → String) (fs : List (FMeta × Ty)) (k : String) :
    Dict.get? (shortFields short fs) k = fieldType short fs k := by
  have key : ∀ (fs : List (FMeta × Ty)) (d : Dict Ty),
      Dict.get? (fs.foldl (fun d p => Dict.set d (short p.1.name) p.2) d) k =
        (fieldType short fs k).or (Dict.get? d k) := by
    intro fs
    induction fs with
    | nil => intro d; simp [fieldType]
    | cons p fs ih =>
      intro d
      rw [List.foldl_cons, ih, Dict.get?_set]
      simp only [fieldType, List.reverse_cons, List.find?_append, List.find?_cons, List.find?_nil]
      cases hf : List.find? (fun p => decide (short p.1.name = k)) fs.reverse with
      | some q => simp
      | none =>
        by_cases hk : short p.1.name = k
        · simp [hk]
        · have : ¬ k = short p.1.name := fun h => hk h.symm
          simp [hk, this]
  simpa [shortFields] using key fs []

theorem fieldType_mem {short : String → String} {fs : List (FMeta × Ty)} {k : String} {t : Ty}
    (h : fieldType short fs k = some t) : ∃ p ∈ fs, short p.1.name = k ∧ p.2 = t := by
  rw [← shortFields_eq] at h; exact shortFields_get? h

theorem getD_field {P : Ty → Prop} {short : String → String} {m : Nat} {fs : List (FMeta × Ty)} (hn : P tNull)
    (h : Every P (.record m fs)) (k : String) : Every P ((fieldType short fs k).getD tNull) := by
  cases hf : fieldType short fs k with
  | none => exact .name hn
  | some t => obtain ⟨p, hp, -, rfl⟩ := fieldType_mem hf; exact h.field p hp

theorem size_getD (short : String → String) (fs : List (FMeta × Ty)) (k : String) (m : Nat) :
    Ty.size ((fieldType short fs k).getD tNull) ≤ Ty.size (.record m fs) := by
  cases hf : fieldType short fs k with
  | none => simp [Ty.size]
  | some t =>
    obtain ⟨p, hp, -, rfl⟩ := fieldType_mem hf
    have := Ty.size_field hp
    simp [Ty.size]; omega

theorem size_fieldType {short : String → String} {fs : List (FMeta × Ty)} {k : String} {t : Ty} (m : Nat)
    (h : fieldType short fs k = some t) : Ty.size t < Ty.size (.record m fs) := by
  obtain ⟨p, hp, -, rfl⟩ := fieldType_mem h
  have := Ty.size_field hp
  simp [Ty.size]; omega

/-! ## The code unfolded -/

theorem canAssign_any (short : String → String) (s : Bool) (a b : Ty) (h : a = .name "Any" ∨ b = .name "Any") :
    canAssign short a b s = true := by
  rw [canAssign.eq_def, if_pos h]

theorem canAssign_array (short : String → String) (s : Bool) (m n : Nat) (a b : Ty) :
    canAssign short (.array m a) (.array n b) s = canAssign short a b s := by
  rw [canAssign.eq_def, if_neg (by simp)]

theorem canAssign_record (short : String → String) (s : Bool) (m n : Nat) (f g : List (FMeta × Ty)) :
    canAssign short (.record m f) (.record n g) s = true ↔ ∀ k t, fieldType short g k = some t →
      canAssign short ((fieldType short f k).getD tNull) t s = true := by
  rw [canAssign.eq_def, if_neg (by simp)]
  simp only
  rw [attach_all (shortFields short g) (fun e =>
    canAssign short ((Dict.get? (shortFields short f) e.1).getD tNull) e.2 s), List.all_eq_true]
  constructor
  · intro h k t hk
    rw [← shortFields_eq] at hk
    rw [← shortFields_eq]
    exact h (k, t) (Dict.mem_of_get? hk)
  · intro h e he
    have := h e.1 e.2 (by rw [← shortFields_eq]; exact Dict.get?_of_mem (shortFields_WF short g) he)
    rw [← shortFields_eq] at this
    exact this

theorem canAssign_union_strict (short : String → String) (l : List Ty) (b : Ty) (hb : b ≠ .name "Any") :
    canAssign short (.union l) b true = true ↔ ∀ t ∈ l, canAssign short t b false = true := by
  rw [canAssign.eq_def, if_neg (by simp [hb])]
  simp only
  rw [if_pos trivial, attach_all l (fun t => canAssign short t b false), List.all_eq_true]

theorem canAssign_union_loose (short : String → String) (l : List Ty) (b : Ty) (hb : b ≠ .name "Any") :
    canAssign short (.union l) b false = true ↔ ∃ t ∈ l, t ≠ tNull ∧ canAssign short t b false = true := by
  rw [canAssign.eq_def, if_neg (by simp [hb])]
  simp only
  rw [if_neg (by simp), attach_any l (fun t => decide (t ≠ tNull) && canAssign short t b false), List.any_eq_true]
  simp

theorem canAssign_sink (short : String → String) (s : Bool) (a : Ty) (l : List Ty) (ha : a ≠ .name "Any")
    (hu : isUnion a = false) :
    canAssign short a (.union l) s = true ↔ ∃ t ∈ l, canAssign short a t false = true := by
  rw [canAssign.eq_def, if_neg (by simp [ha])]
  cases a with
  | union _ => simp [isUnion] at hu
  | _ =>
    simp only
    rw [attach_any l (fun t => canAssign short _ t false), List.any_eq_true]

/-- The pairs that are compared by equality. -/
theorem canAssign_eq (short : String → String) (s : Bool) (a b : Ty) (h1 : a ≠ .name "Any") (h2 : b ≠ .name "Any")
    (h3 : isUnion a = false) (h4 : isUnion b = false)
    (h5 : ∀ m n x y, ¬ (a = .array m x ∧ b = .array n y)) (h6 : ∀ m n x y, ¬ (a = .record m x ∧ b = .record n y)) :
    canAssign short a b s = decide (a = b) := by
  rw [canAssign.eq_def, if_neg (by simp [h1, h2])]
  cases a <;> cases b <;> first | exact absurd ⟨rfl, rfl⟩ (h5 _ _ _ _) | exact absurd ⟨rfl, rfl⟩ (h6 _ _ _ _) | simp_all [isUnion]

/-- The kinds of pairs. -/
theorem pair_cases {P : Ty → Ty → Prop} (hany : ∀ a b, a = .name "Any" ∨ b = .name "Any" → P a b)
    (harr : ∀ m n a b, P (.array m a) (.array n b)) (hrec : ∀ m n f g, P (.record m f) (.record n g))
    (huni : ∀ l b, b ≠ .name "Any" → P (.union l) b)
    (hsnk : ∀ a l, a ≠ .name "Any" → isUnion a = false → P a (.union l))
    (heq : ∀ a b, a ≠ .name "Any" → b ≠ .name "Any" → isUnion a = false → isUnion b = false →
      (∀ m n x y, ¬ (a = .array m x ∧ b = .array n y)) → (∀ m n x y, ¬ (a = .record m x ∧ b = .record n y)) → P a b)
    (a b : Ty) : P a b := by
  by_cases h : a = .name "Any" ∨ b = .name "Any"
  · exact hany a b h
  · have h1 : a ≠ .name "Any" := fun e => h (.inl e)
    have h2 : b ≠ .name "Any" := fun e => h (.inr e)
    cases a with
    | union l => exact huni l b h2
    | array m x =>
      cases b with
      | array n y => exact harr m n x y
      | union l => exact hsnk _ l h1 rfl
      | _ => exact heq _ _ h1 h2 rfl rfl (by simp) (by simp)
    | record m x =>
      cases b with
      | record n y => exact hrec m n x y
      | union l => exact hsnk _ l h1 rfl
      | _ => exact heq _ _ h1 h2 rfl rfl (by simp) (by simp)
    | _ =>
      cases b with
      | union l => exact hsnk _ l h1 rfl
      | _ => exact heq _ _ h1 h2 rfl rfl (by simp) (by simp)

end CwlUtils.Types
