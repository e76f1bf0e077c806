import Verif.JsonSchema.GenProps
/-!
# C52: generated schemas accept the values of the types
-/
namespace CwlUtils.JsonSchema

/-- Coarse classes of values, by which a validator can tell the members of a union apart. -/
inductive Kind where | null | bool | num | str | arr | file | dir | obj
  deriving DecidableEq

def kindOf : Val → Option Kind
  | .null => some .null
  | .bool _ => some .bool
  | .int _ | .flt _ => some .num
  | .str _ => some .str
  | .arr _ => some .arr
  | .obj m => some (if Dict.get? m "class" = some (.str "File") then .file else if Dict.get? m "class" = some (.str "Directory") then .dir else .obj)
  | .bytes _ => none

/-- The names of types that are not names of records. -/
def builtin : List String := ["null", "boolean", "string", "int", "long", "float", "double", "File", "stdin", "Directory", "Any"]

def strKinds (s : String) : List Kind :=
  if s = "null" then [.null] else if s = "boolean" then [.bool] else if s = "string" then [.str]
  else if s ∈ ["int", "long", "float", "double"] then [.num]
  else if s ∈ ["File", "stdin"] then [.file] else if s = "Directory" then [.dir]
  else if s = "Any" then [.bool, .num, .str, .arr, .file, .dir, .obj]
  else [.file, .dir, .obj]

mutual
/-- The classes of the values of a type. -/
def kinds : Ty → List Kind
  | .str s => strKinds s
  | .arr _ => [.arr]
  | .enum _ => [.str]
  | .recNone | .record _ | .imp _ => [.file, .dir, .obj]
  | .union l => kindsL l
  | .other => []
def kindsL : List Ty → List Kind
  | [] => []
  | t :: ts => kinds t ++ kindsL ts
end

theorem mem_kindsL {k : Kind} : ∀ {l : List Ty}, k ∈ kindsL l ↔ ∃ t ∈ l, k ∈ kinds t
  | [] => by simp [kindsL]
  | t :: ts => by rw [kindsL, List.mem_append, mem_kindsL]; simp

/-- The definition that a text as type refers to. -/
def defOf (nm : Names) (s : String) : Option String :=
  if s ∈ ["File", "stdin"] then some "File" else if s = "Directory" then some "Directory" else if s = "Any" then some "Any"
  else if s ∈ builtin then none else some (nm.defName s)

/-- Short names that differ from each other and from the keyword for references. -/
def NamesOk (names : List String) : Prop := names.Nodup ∧ "$ref" ∉ names

/-- Types whose unions are not nested and have members of different classes, whose named records exist, and that use no definitions but those of `K`. -/
inductive Good (nm : Names) (recs : Records) (K : String → Prop) : Ty → Prop where
  | str {s} : (s ∈ builtin ∨ recs s ≠ none) → (∀ n, defOf nm s = some n → K n) → Good nm recs K (.str s)
  | imp {u} : recs u ≠ none → K (nm.defName u) → Good nm recs K (.imp u)
  | arr {t} : Good nm recs K t → Good nm recs K (.arr t)
  | enum {ss} : Good nm recs K (.enum ss)
  | recNone : Good nm recs K .recNone
  | record {fs} : (∀ f t, (f, t) ∈ fs → Good nm recs K t) → NamesOk (fs.map (fun f => nm.value f.1)) → Good nm recs K (.record fs)
  | union {l} : (∀ t ∈ l, Good nm recs K t) → (∀ t ∈ l, ∀ l', t ≠ .union l') →
      l.Pairwise (fun a b => ∀ k, k ∈ kinds a → k ∉ kinds b) → Good nm recs K (.union l)

/-- Types of inputs and of fields of named records: not the bare null, and nothing in the notation of the type DSL, which loading has resolved. -/
def Plain (t : Ty) : Prop := t ≠ .str "null" ∧ ∀ s, t = .str s → s.toList.getLast? ≠ some '?' ∧ s.toList.getLast? ≠ some ']'

/-- The references mean the definitions, which are (as far as they are in `K`) those of the template and those generated for the records. -/
structure World (nm : Names) (recs : Records) (K : String → Prop) (defs : Dict Val) (ref : String → Val → Bool) : Prop where
  consistent : Consistent ref defs
  file : K "File" → Dict.get? defs "File" = some fileDef ∧ K "Directory"
  dir : K "Directory" → Dict.get? defs "Directory" = some dirDef ∧ K "File"
  any : K "Any" → Dict.get? defs "Any" = some anyDef ∧ K "File" ∧ K "Directory"
  named : ∀ u fs, recs u = some fs → K (nm.defName u) →
    ∃ props, fieldProperties nm (shortFields nm fs) = .ok props ∧ Dict.get? defs (nm.defName u) = some (definition props)
  fields : ∀ u fs, recs u = some fs → K (nm.defName u) → ∀ f t, (f, t) ∈ fs → Good nm recs K t ∧ Plain t

/-! ## Small facts about the generator -/

theorem mem_set {α : Type} {d : Dict α} {k : String} {v : α} {p : String × α} (h : p ∈ Dict.set d k v) : p ∈ d ∨ p = (k, v) := by
  induction d with
  | nil => simp [Dict.set] at h; exact .inr h
  | cons q d ih =>
    unfold Dict.set at h
    split at h
    · rcases List.mem_cons.1 h with rfl | h
      · right; first | rfl | simp_all
      · exact .inl (by simp [h])
    · rcases List.mem_cons.1 h with rfl | h
      · exact .inl (by simp)
      · rcases ih h with h | h
        · exact .inl (by simp [h])
        · exact .inr h

theorem mem_update {α : Type} {e d : Dict α} {p : String × α} (h : p ∈ Dict.update d e) : p ∈ d ∨ p ∈ e := by
  unfold Dict.update at h
  induction e generalizing d with
  | nil => exact .inl h
  | cons q e ih =>
    simp only [List.foldl_cons] at h
    rcases ih h with h | h
    · rcases mem_set h with h | h
      · exact .inl h
      · right; rw [h]; simp
    · exact .inr (by simp [h])

theorem typeDictL_eq (nm : Names) : ∀ {l : List Ty} {ds : List Val}, typeDictL nm l = .ok ds → l.map (typeDict nm) = ds.map .ok
  | [], ds, h => by simp only [typeDictL, Except.ok.injEq] at h; subst h; rfl
  | t :: ts, ds, h => by
    unfold typeDictL at h
    cases hd : typeDict nm t with
    | error e => rw [hd] at h; simp at h
    | ok d =>
      rw [hd] at h
      simp only at h
      cases hs : typeDictL nm ts with
      | error e => rw [hs] at h; simp [Except.map] at h
      | ok ds' =>
        rw [hs] at h
        simp only [Except.map, Except.ok.injEq] at h
        subst h
        simp [hd, typeDictL_eq nm hs]

theorem typeDictF_mem (nm : Names) : ∀ {fs : List (String × Ty)} {ps : List (String × Val)}, typeDictF nm fs = .ok ps →
    ∀ p ∈ ps, ∃ f t, (f, t) ∈ fs ∧ p.1 = nm.value f ∧ typeDict nm t = .ok p.2
  | [], ps, h => by simp only [typeDictF, Except.ok.injEq] at h; subst h; simp
  | (f, t) :: fs, ps, h => by
    simp only [typeDictF, typeDictP] at h
    cases hd : typeDict nm t with
    | error e => rw [hd] at h; simp [Except.map] at h
    | ok d =>
      rw [hd] at h
      simp only [Except.map] at h
      cases hs : typeDictF nm fs with
      | error e => rw [hs] at h; simp at h
      | ok ps' =>
        rw [hs] at h
        simp only [Except.ok.injEq] at h
        subst h
        intro p hp
        rcases List.mem_cons.1 hp with rfl | hp
        · exact ⟨f, t, by simp, rfl, hd⟩
        · obtain ⟨f', t', h1, h2, h3⟩ := typeDictF_mem nm hs p hp
          exact ⟨f', t', by simp [h1], h2, h3⟩

theorem typeDict_obj (nm : Names) {t : Ty} {d : Val} (h : typeDict nm t = .ok d) : ∃ m, d = .obj m ∧ "description" ∉ Dict.keys m := by
  cases t with
  | str s =>
    simp only [typeDict, strDict] at h
    split at h
    · simp only [Except.ok.injEq] at h; subst h; exact ⟨_, rfl, by simp [Dict.keys]⟩
    · split at h
      · simp only [Except.ok.injEq] at h; subst h; exact ⟨_, rfl, by simp [Dict.keys]⟩
      · split at h
        · simp only [Except.ok.injEq] at h; subst h; exact ⟨_, rfl, by simp [Dict.keys]⟩
        · split at h
          · simp only [Except.ok.injEq] at h; subst h; exact ⟨_, rfl, by simp [Dict.keys]⟩
          · simp at h
  | arr i =>
    simp only [typeDict] at h
    cases hi : typeDict nm i with
    | error e => rw [hi] at h; simp [Except.map] at h
    | ok d' => rw [hi] at h; simp only [Except.map, Except.ok.injEq] at h; subst h; exact ⟨_, rfl, by simp [Dict.keys]⟩
  | enum ss => simp only [typeDict, Except.ok.injEq] at h; subst h; exact ⟨_, rfl, by simp [Dict.keys]⟩
  | recNone => simp only [typeDict, Except.ok.injEq] at h; subst h; exact ⟨_, rfl, by simp [Dict.keys]⟩
  | record fs =>
    simp only [typeDict] at h
    cases hi : typeDictF nm fs with
    | error e => rw [hi] at h; simp [Except.map] at h
    | ok d' => rw [hi] at h; simp only [Except.map, Except.ok.injEq] at h; subst h; exact ⟨_, rfl, by simp [Dict.keys]⟩
  | imp u => simp only [typeDict, Except.ok.injEq] at h; subst h; exact ⟨_, rfl, by simp [Dict.keys]⟩
  | union l =>
    simp only [typeDict] at h
    cases hi : typeDictL nm l with
    | error e => rw [hi] at h; simp [Except.map] at h
    | ok d' => rw [hi] at h; simp only [Except.map, Except.ok.injEq] at h; subst h; exact ⟨_, rfl, by simp [Dict.keys]⟩
  | other => simp [typeDict] at h

/-- The type with null taken away, and whether it was there. -/
def core : Ty → Ty
  | .union l => squeeze (noNulls l)
  | t => t
def hasNull : Ty → Bool
  | .union l => l.any Ty.isNull
  | _ => false

theorem squeeze_cases (l : List Ty) : (∃ t, l = [t] ∧ squeeze l = t) ∨ squeeze l = .union l := by
  match l with
  | [] => exact .inr rfl
  | [t] => exact .inl ⟨t, rfl, rfl⟩
  | _ :: _ :: _ => exact .inr rfl

theorem noNulls_idem (l : List Ty) : noNulls (noNulls l) = noNulls l := by simp [noNulls]

theorem noNulls_none (l : List Ty) : (noNulls l).any Ty.isNull = false := by
  rw [Bool.eq_false_iff]
  intro h
  rw [List.any_eq_true] at h
  obtain ⟨t, h1, h2⟩ := h
  simp [noNulls, h2] at h1

theorem noNulls_of_none {l : List Ty} (h : l.any Ty.isNull = false) : noNulls l = l := by
  unfold noNulls
  rw [List.filter_eq_self]
  intro t ht
  rw [List.any_eq_false] at h
  simpa using h t ht

theorem splitNull_core {t : Ty} (h : ∀ l, t = .union l → ∀ t' ∈ l, ∀ l', t' ≠ .union l') : splitNull (core t) = (core t, false) := by
  cases t with
  | union l =>
    simp only [core]
    rcases squeeze_cases (noNulls l) with ⟨t0, h1, h2⟩ | h2
    · rw [h2]
      have : t0 ∈ l := by
        have : t0 ∈ noNulls l := by rw [h1]; simp
        exact (List.mem_filter.1 this).1
      cases t0 with
      | union l' => exact absurd rfl (h l rfl _ this l')
      | str | arr | enum | recNone | record | imp | other => rfl
    · rw [h2]; simp only [splitNull, noNulls_none]; rfl
  | str | arr | enum | recNone | record | imp | other => rfl

theorem splitNull_eq {t : Ty} : splitNull t = (if hasNull t = true then core t else t, hasNull t) := by
  cases t with
  | union l =>
    cases h : l.any Ty.isNull <;> simp [splitNull, hasNull, core, h]
  | str | arr | enum | recNone | record | imp | other => rfl

theorem mkProperty_ok {nm : Names} {n : String} {t : Ty} {x : Val} {req : Bool} {p : Property} (h : mkProperty nm n t x req = .ok p) :
    p.name = n ∧ p.required = (req && !(hasNull t)) ∧
      ∃ d, typeDict nm (if hasNull t = true then core t else t) = .ok d ∧ ∀ ref v, accepts ref p.dict v = accepts ref d v := by
  simp only [mkProperty, splitNull_eq] at h
  cases hd : typeDict nm (if hasNull t = true then core t else t) with
  | error e => rw [hd] at h; simp at h
  | ok d =>
    obtain ⟨m, rfl, hm⟩ := typeDict_obj nm hd
    rw [hd] at h
    simp only [Except.ok.injEq] at h
    subst h
    exact ⟨rfl, rfl, _, rfl, fun ref v => accepts_description ref m x v hm⟩

theorem fieldProperty_eq {nm : Names} {n : String} {t : Ty} (hn : ∀ l, t = .union l → ∀ t' ∈ l, ∀ l', t' ≠ .union l') (hp : Plain t) :
    fieldProperty nm n t = mkProperty nm n (core t) (.str "") (!(hasNull t)) := by
  cases t with
  | union l =>
    unfold fieldProperty
    have hsub : ∀ t0 ∈ noNulls l, t0 ∈ l := fun t0 h => (List.mem_filter.1 h).1
    simp only [sanType, core, hasNull]
    by_cases h : l.any Ty.isNull = true
    · rw [if_pos h, h]
      rcases squeeze_cases (noNulls l) with ⟨t0, h1, h2⟩ | h2
      · rw [h2]
        have hne := hn l rfl t0 (hsub t0 (by rw [h1]; simp))
        have hnn : t0.isNull = false := by
          have : t0 ∈ noNulls l := by rw [h1]; simp
          simpa using (List.mem_filter.1 this).2
        have key : (match t0 with | .union l' => Ty.union (.str "null" :: l') | t => .union [.str "null", t]) = .union [.str "null", t0] := by
          cases t0 with
          | union l' => exact absurd rfl (hne l')
          | str | arr | enum | recNone | record | imp | other => rfl
        have : noNulls [.str "null", t0] = [t0] := by
          have : (Ty.str "null").isNull = true := by decide
          simp [noNulls, hnn, this]
        cases t0 with
        | union l' => exact absurd rfl (hne l')
        | str | arr | enum | recNone | record | imp | other => simp only [this]; rfl
      · rw [h2]
        have h3 : noNulls (.str "null" :: noNulls l) = noNulls l := by
          have : (Ty.str "null").isNull = true := by decide
          rw [noNulls, List.filter_cons]
          simp only [this, Bool.not_true, Bool.false_eq_true, if_false]
          exact noNulls_idem l
        simp only [h3, h2]
        rfl
    · simp only [Bool.not_eq_true] at h
      rw [h, noNulls_of_none h]
      simp only [Bool.false_eq_true, if_false]
      rcases squeeze_cases l with ⟨t0, h1, h2⟩ | h2
      · rw [h2]
        have hne := hn l rfl t0 (by rw [h1]; simp)
        cases t0 with
        | union l' => exact absurd rfl (hne l')
        | str | arr | enum | recNone | record | imp | other => rfl
      · rw [h2]
        simp only [noNulls_of_none h, h2, h]
  | str s =>
    obtain ⟨h1, h2⟩ := hp.2 s rfl
    have : sanType (.str s) = .str s := by
      simp only [sanType, h1, if_false]
      split
      · rename_i r hr
        exfalso; apply h2
        have := congrArg List.head? hr
        rw [List.head?_reverse] at this
        simpa using this
      · simp
    unfold fieldProperty
    rw [this]
    rfl
  | arr | enum | recNone | record | imp | other => rfl

theorem fieldProperties_mem {nm : Names} : ∀ {fs : List (String × Ty)} {props : List Property}, fieldProperties nm fs = .ok props →
    ∀ p ∈ props, ∃ n t, (n, t) ∈ fs ∧ fieldProperty nm n t = .ok p
  | [], props, h => by simp only [fieldProperties, Except.ok.injEq] at h; subst h; simp
  | (n, t) :: fs, props, h => by
    unfold fieldProperties at h
    cases hd : fieldProperty nm n t with
    | error e => rw [hd] at h; simp at h
    | ok q =>
      rw [hd] at h
      simp only at h
      cases hs : fieldProperties nm fs with
      | error e => rw [hs] at h; simp [Except.map] at h
      | ok ps =>
        rw [hs] at h
        simp only [Except.map, Except.ok.injEq] at h
        subst h
        intro p hp
        rcases List.mem_cons.1 hp with rfl | hp
        · exact ⟨n, t, by simp, hd⟩
        · obtain ⟨n', t', h1, h2⟩ := fieldProperties_mem hs p hp
          exact ⟨n', t', by simp [h1], h2⟩

theorem shortFields_mem {nm : Names} {fs : List (String × Ty)} {n : String} {t : Ty} (h : (n, t) ∈ shortFields nm fs) : ∃ f, (f, t) ∈ fs ∧ n = nm.value f := by
  unfold shortFields at h
  rcases mem_update h with h | h
  · simp at h
  · rw [List.mem_map] at h
    obtain ⟨⟨f, t'⟩, h1, h2⟩ := h
    simp only [Prod.mk.injEq] at h2
    obtain ⟨h2, rfl⟩ := h2
    exact ⟨f, h1, h2.symm⟩

theorem Good.flat {nm : Names} {recs : Records} {K : String → Prop} {t : Ty} (h : Good nm recs K t) : ∀ l, t = .union l → ∀ t' ∈ l, ∀ l', t' ≠ .union l' := by
  cases h with
  | union _ h _ => intro l hl; cases hl; exact h
  | str | imp | arr | enum | recNone | record => intro l hl; cases hl

theorem map_ok {α β : Type} {f : α → β} {x : Except Err α} {d : β} (h : x.map f = .ok d) : ∃ a, x = .ok a ∧ f a = d := by
  cases x with
  | error e => simp [Except.map] at h
  | ok a => simp only [Except.map, Except.ok.injEq] at h; exact ⟨a, rfl, h⟩

/-! ## Classes of the accepted values -/

theorem kindOf_obj (m : List (String × Val)) : ∃ k ∈ [Kind.file, .dir, .obj], kindOf (.obj m) = some k := by
  refine ⟨_, ?_, rfl⟩
  split
  · simp
  · split <;> simp

theorem kindOf_hasType {v : Val} :
    (hasType "null" v = true → kindOf v = some .null) ∧ (hasType "boolean" v = true → kindOf v = some .bool) ∧
    (hasType "integer" v = true → kindOf v = some .num) ∧ (hasType "number" v = true → kindOf v = some .num) ∧
    (hasType "string" v = true → kindOf v = some .str) ∧ (hasType "array" v = true → kindOf v = some .arr) ∧
    (hasType "object" v = true → ∃ k ∈ [Kind.file, .dir, .obj], kindOf v = some k) := by
  cases v with
  | obj m => simp only [hasType, kindOf_obj, implies_true, and_true]; simp
  | null | bool | int | flt | str | bytes | arr => simp [hasType, kindOf]

theorem kind_file {ref : String → Val → Bool} {v : Val} (h : accepts ref fileDef v = true) : kindOf v = some .file := by
  cases v with
  | obj m =>
    obtain ⟨_, h2, h3⟩ := (accepts_fileDef ref m).1 h
    rw [Dict.has_iff] at h3
    cases hc : Dict.get? m "class" with
    | none => rw [Dict.get?_eq_none_iff] at hc; exact absurd h3 hc
    | some c =>
      have := h2 ("class", .obj [("const", .str "File"), ("type", .str "string")]) (by simp) c hc
      rw [accepts_const] at this
      subst this
      simp [kindOf, hc]
  | null | bool | int | flt | str | bytes | arr =>
    have := accepts_hasType (t := "object") (m := _) (by simp [Dict.get?]) (by simp) h
    simp [hasType] at this

theorem kind_dir {ref : String → Val → Bool} {v : Val} (h : accepts ref dirDef v = true) : kindOf v = some .dir := by
  cases v with
  | obj m =>
    obtain ⟨_, h2, h3⟩ := (accepts_dirDef ref m).1 h
    rw [Dict.has_iff] at h3
    cases hc : Dict.get? m "class" with
    | none => rw [Dict.get?_eq_none_iff] at hc; exact absurd h3 hc
    | some c =>
      have := h2 ("class", .obj [("const", .str "Directory"), ("type", .str "string")]) (by simp) c hc
      rw [accepts_const] at this
      subst this
      simp [kindOf, hc]
  | null | bool | int | flt | str | bytes | arr =>
    have := accepts_hasType (t := "object") (m := _) (by simp [Dict.get?]) (by simp) h
    simp [hasType] at this

section
variable {nm : Names} {recs : Records} {K : String → Prop} {defs : Dict Val} {ref : String → Val → Bool}

theorem World.ref_eq (w : World nm recs K defs ref) {n : String} {d : Val} (h : Dict.get? defs n = some d) (v : Val) : accepts ref (refTo n) v = accepts ref d v := by
  rw [accepts_refTo]; exact w.consistent n d h v

theorem kind_named (w : World nm recs K defs ref) {u : String} (hr : recs u ≠ none) (hk : K (nm.defName u)) {v : Val}
    (h : accepts ref (refTo (nm.defName u)) v = true) : ∃ k ∈ [Kind.file, .dir, .obj], kindOf v = some k := by
  cases hu : recs u with
  | none => exact absurd hu hr
  | some fs =>
    obtain ⟨props, _, hp⟩ := w.named u fs hu hk
    rw [w.ref_eq hp] at h
    exact kindOf_hasType.2.2.2.2.2.2 (accepts_hasType (t := "object") (m := _) (by simp [Dict.get?]) (by simp) h)

theorem kind_str (w : World nm recs K defs ref) {s : String} (h1 : s ∈ builtin ∨ recs s ≠ none) (h2 : ∀ n, defOf nm s = some n → K n) {d v : Val}
    (hd : strDict nm s = .ok d) (h : accepts ref d v = true) : ∃ k ∈ strKinds s, kindOf v = some k := by
  by_cases hb : s ∈ builtin
  · simp only [builtin, List.mem_cons, List.not_mem_nil, or_false] at hb
    rcases hb with rfl | rfl | rfl | rfl | rfl | rfl | rfl | rfl | rfl | rfl | rfl
    all_goals simp only [strDict, primitives, Dict.get?, String.reduceEq, if_false, if_true, Except.ok.injEq, or_false, or_true] at hd
    all_goals subst hd
    · rw [accepts_type] at h; exact ⟨.null, by simp [strKinds], kindOf_hasType.1 h⟩
    · rw [accepts_type] at h; exact ⟨.bool, by simp [strKinds], kindOf_hasType.2.1 h⟩
    · rw [accepts_type] at h; exact ⟨.str, by simp [strKinds], kindOf_hasType.2.2.2.2.1 h⟩
    · rw [accepts_type] at h; exact ⟨.num, by simp [strKinds], kindOf_hasType.2.2.1 h⟩
    · rw [accepts_type] at h; exact ⟨.num, by simp [strKinds], kindOf_hasType.2.2.2.1 h⟩
    · rw [accepts_type] at h; exact ⟨.num, by simp [strKinds], kindOf_hasType.2.2.2.1 h⟩
    · rw [accepts_type] at h; exact ⟨.num, by simp [strKinds], kindOf_hasType.2.2.2.1 h⟩
    · rw [w.ref_eq (w.file (h2 _ (by simp [defOf]))).1] at h; exact ⟨.file, by simp [strKinds], kind_file h⟩
    · rw [w.ref_eq (w.file (h2 _ (by simp [defOf]))).1] at h; exact ⟨.file, by simp [strKinds], kind_file h⟩
    · rw [w.ref_eq (w.dir (h2 _ (by simp [defOf]))).1] at h; exact ⟨.dir, by simp [strKinds], kind_dir h⟩
    · obtain ⟨h3, h4, h5⟩ := w.any (h2 _ (by simp [defOf]))
      rw [w.ref_eq h3] at h
      obtain ⟨h6, h7⟩ := any_rejects w.consistent (w.file h4).1 (w.dir h5).1 h
      cases v with
      | null => exact absurd rfl h6
      | bytes => simp [isBytes] at h7
      | obj m =>
        obtain ⟨k, hk, hk'⟩ := kindOf_obj m
        refine ⟨k, ?_, hk'⟩
        simp only [List.mem_cons, List.not_mem_nil, or_false] at hk
        rcases hk with rfl | rfl | rfl <;> simp [strKinds]
      | bool | int | flt | str | arr => simp [strKinds, kindOf]
  · have hr := h1.resolve_left hb
    have hb' := hb
    simp only [builtin, List.mem_cons, List.not_mem_nil, or_false, not_or] at hb
    obtain ⟨n1, n2, n3, n4, n5, n6, n7, n8, n9, n10, n11⟩ := hb
    have hK : K (nm.defName s) := h2 _ (by simp [defOf, n8, n9, n10, n11, hb'])
    have hs : strKinds s = [.file, .dir, .obj] := by simp [strKinds, n1, n2, n3, n4, n5, n6, n7, n8, n9, n10, n11]
    have hd' : d = refTo (nm.defName s) := by
      have : Dict.get? primitives s = none := by
        rw [Dict.get?_eq_none_iff]; simp [primitives, Dict.keys, n1, n2, n3, n4, n5, n6, n7]
      simp only [strDict, this, n8, n9, n10, n11, if_false, or_self] at hd
      split at hd
      · cases hd; rfl
      · cases hd
    subst hd'
    rw [hs]
    exact kind_named w hr hK h

theorem kind_accepted (w : World nm recs K defs ref) {t : Ty} (g : Good nm recs K t) : ∀ {d v : Val}, typeDict nm t = .ok d → accepts ref d v = true →
    ∃ k ∈ kinds t, kindOf v = some k := by
  induction g with
  | str h1 h2 =>
    intro d v hd h
    rw [typeDict] at hd
    simpa [kinds] using kind_str w h1 h2 hd h
  | imp h1 h2 =>
    intro d v hd h
    simp only [typeDict, Except.ok.injEq] at hd
    subst hd
    simpa [kinds] using kind_named w h1 h2 h
  | arr _ _ =>
    intro d v hd h
    rw [typeDict] at hd
    obtain ⟨i, _, rfl⟩ := map_ok hd
    exact ⟨.arr, by simp [kinds], kindOf_hasType.2.2.2.2.2.1 (accepts_hasType (t := "array") (m := _) (by simp [Dict.get?]) (by simp) h)⟩
  | enum =>
    intro d v hd h
    simp only [typeDict, Except.ok.injEq] at hd
    subst hd
    exact ⟨.str, by simp [kinds], kindOf_hasType.2.2.2.2.1 (accepts_hasType (t := "string") (m := _) (by simp [Dict.get?]) (by simp) h)⟩
  | recNone =>
    intro d v hd h
    simp only [typeDict, Except.ok.injEq] at hd
    subst hd
    exact kindOf_hasType.2.2.2.2.2.2 (accepts_hasType (t := "object") (m := _) (by simp [Dict.get?]) (by simp) h)
  | record _ _ _ =>
    intro d v hd h
    rw [typeDict] at hd
    obtain ⟨i, _, rfl⟩ := map_ok hd
    exact kindOf_hasType.2.2.2.2.2.2 (accepts_hasType (t := "object") (m := _) (by simp [Dict.get?]) (by simp) h)
  | @union l _ _ _ ih =>
    intro d v hd h
    rw [typeDict] at hd
    obtain ⟨ds, hds, rfl⟩ := map_ok hd
    rw [accepts_oneOf] at h
    obtain ⟨d, hd⟩ : ∃ d, d ∈ ds.filter (fun d => accepts ref d v) := by
      cases hf : ds.filter (fun d => accepts ref d v) with
      | nil => rw [hf] at h; simp at h
      | cons d _ => exact ⟨d, by simp⟩
    obtain ⟨hd, ha⟩ := List.mem_filter.1 hd
    have := typeDictL_eq nm hds
    have hm : (.ok d : Except Err Val) ∈ ds.map .ok := List.mem_map.2 ⟨d, hd, rfl⟩
    rw [← this, List.mem_map] at hm
    obtain ⟨t, ht, htd⟩ := hm
    obtain ⟨k, h1, h2⟩ := ih t ht htd ha
    exact ⟨k, by rw [kinds, mem_kindsL]; exact ⟨t, ht, h1⟩, h2⟩

/-! ## Acceptance -/

/-- If the members have different classes, a value accepted for one of them is accepted for no other. -/
theorem one_accepted (w : World nm recs K defs ref) : ∀ {l : List Ty} {ds : List Val} {t : Ty} {v : Val}, (∀ t ∈ l, Good nm recs K t) →
    l.Pairwise (fun a b => ∀ k, k ∈ kinds a → k ∉ kinds b) → l.map (typeDict nm) = ds.map .ok → t ∈ l →
    (∀ d, typeDict nm t = .ok d → accepts ref d v = true) → (ds.filter (fun d => accepts ref d v)).length = 1
  | [], ds, t, v, _, _, _, ht, _ => by simp at ht
  | t0 :: l, ds, t, v, hg, hp, hm, ht, ha => by
    cases ds with
    | nil => simp at hm
    | cons d ds =>
      simp only [List.map_cons, List.cons.injEq] at hm
      obtain ⟨hd, hm⟩ := hm
      obtain ⟨hp0, hp⟩ := List.pairwise_cons.1 hp
      have conflict : ∀ t' ∈ l, ∀ d', typeDict nm t' = .ok d' → accepts ref d' v = true → accepts ref d v = true → False := by
        intro t' ht' d' hd' ha' ha0
        obtain ⟨k, h1, h2⟩ := kind_accepted w (hg t' (by simp [ht'])) hd' ha'
        obtain ⟨k0, h3, h4⟩ := kind_accepted w (hg t0 (by simp)) hd ha0
        rw [h2, Option.some.injEq] at h4
        subst h4
        exact hp0 t' ht' k h3 h1
      have member : ∀ d' ∈ ds, ∃ t' ∈ l, typeDict nm t' = .ok d' := by
        intro d' hd'
        have : (.ok d' : Except Err Val) ∈ ds.map .ok := List.mem_map.2 ⟨d', hd', rfl⟩
        rw [← hm, List.mem_map] at this
        exact this
      rcases List.mem_cons.1 ht with rfl | ht
      · have h0 := ha d hd
        rw [List.filter_cons, if_pos h0]
        have : ds.filter (fun d => accepts ref d v) = [] := by
          rw [List.filter_eq_nil_iff]
          intro d' hd' ha'
          obtain ⟨t', h1, h2⟩ := member d' hd'
          exact conflict t' h1 d' h2 ha' h0
        rw [this]; rfl
      · have hn : ¬ accepts ref d v = true := by
          intro h0
          have hok : typeDict nm t ∈ l.map (typeDict nm) := List.mem_map.2 ⟨t, ht, rfl⟩
          rw [hm, List.mem_map] at hok
          obtain ⟨d', _, hd'⟩ := hok
          exact conflict t ht d' hd'.symm (ha d' hd'.symm) h0
        rw [List.filter_cons, if_neg hn]
        exact one_accepted w (fun t h => hg t (by simp [h])) hp hm ht ha

theorem accepts_record (ps m : List (String × Val)) (h : propsOk ref ps m) :
    accepts ref (.obj [("type", .str "object"), ("properties", .obj ps)]) (.obj m) = true := by
  rw [accepts_obj _ _ _ (by simp [Dict.get?])]
  simp only [List.all_cons, List.all_nil, Bool.and_true, Bool.and_eq_true, keyword_props]
  exact ⟨by simp [keyword, kType, hasType], h⟩

theorem accepts_required (ps m : List (String × Val)) (rs : List Val) (h : propsOk ref ps m) (hr : ∀ r ∈ rs, isIn m r = true) :
    accepts ref (.obj [("type", .str "object"), ("properties", .obj ps), ("required", .arr rs)]) (.obj m) = true := by
  rw [accepts_obj _ _ _ (by simp [Dict.get?])]
  simp only [List.all_cons, List.all_nil, Bool.and_true, Bool.and_eq_true, keyword_props]
  refine ⟨by simp [keyword, kType, hasType], h, ?_⟩
  simp only [keyword, String.reduceEq, if_false, if_true, kRequired, List.all_eq_true]
  exact hr

theorem nullable_flat {t : Ty} (g : Good nm recs K t) (hp : Plain t) (h : Nullable t) : hasNull t = true := by
  cases h with
  | null => exact absurd rfl hp.1
  | @union l t' ht' hn =>
    cases hn with
    | null => simp only [hasNull, List.any_eq_true]; exact ⟨_, ht', by decide⟩
    | union h1 h2 => exact absurd rfl (g.flat l rfl _ ht' _)

theorem core_ok {t : Ty} {d : Val} (h : typeDict nm (if hasNull t = true then core t else t) = .ok d) :
    typeDict nm (core t) = .ok d ∨ typeDict nm t = .ok d := by
  split at h
  · exact .inl h
  · exact .inr h

theorem hasNull_core {t : Ty} (h : ∀ l, t = .union l → ∀ t' ∈ l, ∀ l', t' ≠ .union l') : hasNull (core t) = false := by
  have := splitNull_core h
  rw [splitNull_eq] at this
  exact congrArg Prod.snd this

theorem has_null {b : Bool} {t : Ty} {v : Val} (h : Has nm recs b t v) (ht : t = .str "null") : v = .null := by
  cases h with
  | null => rfl
  | int h | float h | file h => cases ht; simp at h
  | named h =>
    subst ht
    rcases h with ⟨h, h'⟩ | h
    · cases h; simp at h'
    · cases h
  | bool | string | dir | any | arr | enum | recNone | record | union => simp at ht

/-- The values of a type are accepted: by the schema of the type, and, unless null, by that of the type without null. -/
theorem type_accepted (w : World nm recs K defs ref) {t : Ty} {v : Val} (hv : Has nm recs false t v) (g : Good nm recs K t) :
    (∀ d, typeDict nm t = .ok d → accepts ref d v = true) ∧ (v ≠ .null → ∀ d, typeDict nm (core t) = .ok d → accepts ref d v = true) := by
  have simple : ∀ {t : Ty} {v : Val}, core t = t → (∀ d, typeDict nm t = .ok d → accepts ref d v = true) →
      (∀ d, typeDict nm t = .ok d → accepts ref d v = true) ∧ (v ≠ .null → ∀ d, typeDict nm (core t) = .ok d → accepts ref d v = true) := by
    intro t v h1 h2
    exact ⟨h2, fun _ d hd => h2 d (h1 ▸ hd)⟩
  have kept : ∀ {s n : String}, Good nm recs K (.str s) → defOf nm s = some n → K n := by
    intro s n g h
    cases g with
    | str _ h2 => exact h2 n h
  have prim : ∀ {s p : String} {v : Val}, Dict.get? primitives s = some p → hasType p v = true → ∀ d, typeDict nm (.str s) = .ok d → accepts ref d v = true := by
    intro s p v h1 h2 d hd
    simp only [typeDict, strDict, h1, Except.ok.injEq] at hd
    subst hd
    rw [accepts_type]; exact h2
  induction hv with
  | null => exact simple rfl (prim (p := "null") rfl rfl)
  | bool => exact simple rfl (prim (p := "boolean") rfl rfl)
  | string => exact simple rfl (prim (p := "string") rfl rfl)
  | int h =>
    simp only [List.mem_cons, List.not_mem_nil, or_false] at h
    rcases h with rfl | rfl | rfl | rfl
    · exact simple rfl (prim (p := "integer") rfl rfl)
    · exact simple rfl (prim (p := "number") rfl rfl)
    · exact simple rfl (prim (p := "number") rfl rfl)
    · exact simple rfl (prim (p := "number") rfl rfl)
  | float h =>
    simp only [List.mem_cons, List.not_mem_nil, or_false] at h
    rcases h with rfl | rfl
    · exact simple rfl (prim (p := "number") rfl rfl)
    · exact simple rfl (prim (p := "number") rfl rfl)
  | @file v t ht hf =>
    refine simple rfl ?_
    intro d hd
    have hk : K "File" := kept g (by simp only [defOf, ht, if_true])
    have hd' : d = refTo "File" := by
      simp only [List.mem_cons, List.not_mem_nil, or_false] at ht
      rcases ht with rfl | rfl <;> (simp [typeDict, strDict, primitives, Dict.get?] at hd; exact hd.symm)
    subst hd'
    rw [accepts_refTo]
    simpa using fileVal_accepted w.consistent (w.file hk).1 (w.dir (w.file hk).2).1 hf
  | dir hf =>
    refine simple rfl ?_
    intro d hd
    have hk : K "Directory" := kept g (by simp [defOf])
    have hd' : d = refTo "Directory" := by simp [typeDict, strDict, primitives, Dict.get?] at hd; exact hd.symm
    subst hd'
    rw [accepts_refTo]
    simpa using fileVal_accepted w.consistent (w.file (w.dir hk).2).1 (w.dir hk).1 hf
  | any h1 h2 =>
    refine simple rfl ?_
    intro d hd
    have hk : K "Any" := kept g (by simp [defOf])
    have hd' : d = refTo "Any" := by simp [typeDict, strDict, primitives, Dict.get?] at hd; exact hd.symm
    subst hd'
    rw [w.ref_eq (w.any hk).1]
    exact any_accepted h1 h2
  | arr _ ih =>
    refine simple rfl ?_
    intro d hd
    rw [typeDict] at hd
    obtain ⟨i, hi, rfl⟩ := map_ok hd
    rw [accepts_array]
    refine ⟨_, rfl, fun x hx => ?_⟩
    cases g with
    | arr g => exact (ih x hx g).1 i hi
  | @enum ss s hs =>
    refine simple rfl ?_
    intro d hd
    simp only [typeDict, Except.ok.injEq] at hd
    subst hd
    rw [accepts_obj _ _ _ (by simp [Dict.get?])]
    simp only [List.all_cons, List.all_nil, Bool.and_true, Bool.and_eq_true]
    refine ⟨by simp [keyword, kType, hasType], ?_⟩
    simp only [keyword, String.reduceEq, if_false, if_true, kEnum, decide_eq_true_eq, List.mem_map]
    exact ⟨s, hs, rfl⟩
  | recNone =>
    refine simple rfl ?_
    intro d hd
    simp only [typeDict, Except.ok.injEq] at hd
    subst hd
    rw [accepts_type]; rfl
  | @record fs m _ _ ih =>
    refine simple rfl ?_
    intro d hd
    rw [typeDict] at hd
    obtain ⟨ps, hps, rfl⟩ := map_ok hd
    apply accepts_record
    intro p hp x hx
    rcases mem_update hp with hp | hp
    · simp at hp
    · obtain ⟨f, t, h1, h2, h3⟩ := typeDictF_mem nm hps p hp
      rw [h2] at hx
      cases g with
      | record g _ => exact (ih f t h1 x hx (g f t h1)).1 p.2 h3
  | @named t u fs m ht hr _ hnn habs ih =>
    have hk : K (nm.defName u) := by
      rcases ht with ⟨rfl, hb⟩ | rfl
      · apply kept g
        have hb' : u ∉ builtin := hb
        simp only [List.mem_cons, List.not_mem_nil, or_false, not_or] at hb
        obtain ⟨n1, n2, n3, n4, n5, n6, n7, n8, n9, n10, n11⟩ := hb
        simp [defOf, n8, n9, n10, n11, hb']
      · cases g with
        | imp _ h => exact h
    have hd' : ∀ d, typeDict nm t = .ok d → d = refTo (nm.defName u) := by
      intro d hd
      rcases ht with ⟨rfl, hb⟩ | rfl
      · simp only [List.mem_cons, List.not_mem_nil, or_false, not_or] at hb
        obtain ⟨n1, n2, n3, n4, n5, n6, n7, n8, n9, n10, n11⟩ := hb
        have : Dict.get? primitives u = none := by
          rw [Dict.get?_eq_none_iff]; simp [primitives, Dict.keys, n1, n2, n3, n4, n5, n6, n7]
        simp only [typeDict, strDict, this, n8, n9, n10, n11, if_false, or_self] at hd
        split at hd
        · cases hd; rfl
        · cases hd
      · simp only [typeDict, Except.ok.injEq] at hd; exact hd.symm
    refine simple (by rcases ht with ⟨rfl, _⟩ | rfl <;> rfl) ?_
    intro d hd
    rw [hd' d hd]
    obtain ⟨props, hprops, hdef⟩ := w.named u fs hr hk
    rw [w.ref_eq hdef]
    have prop : ∀ p ∈ props, ∃ f t, (f, t) ∈ fs ∧ p.name = nm.value f ∧ p.required = !(hasNull t) ∧ Good nm recs K t ∧ Plain t ∧
        ∃ d, typeDict nm (core t) = .ok d ∧ ∀ v, accepts ref p.dict v = accepts ref d v := by
      intro p hp
      obtain ⟨n, t, h1, h2⟩ := fieldProperties_mem hprops p hp
      obtain ⟨f, h3, rfl⟩ := shortFields_mem h1
      obtain ⟨gt, pt⟩ := w.fields u fs hr hk f t h3
      rw [fieldProperty_eq gt.flat pt] at h2
      obtain ⟨h4, h5, d, h6, h7⟩ := mkProperty_ok h2
      rw [hasNull_core gt.flat] at h5 h6
      exact ⟨f, t, h3, h4, by simpa using h5, gt, pt, d, by simpa using h6, h7 ref⟩
    unfold definition
    apply accepts_required
    · intro q hq x hx
      rcases mem_update hq with hq | hq
      · simp at hq
      · obtain ⟨p, hp, rfl⟩ := List.mem_map.1 hq
        obtain ⟨f, t, h1, h2, _, h4, _, d, h6, h7⟩ := prop p hp
        simp only at hx ⊢
        rw [h2] at hx
        rw [h7]
        refine (ih f t h1 x hx h4).2 ?_ d h6
        rintro rfl
        exact hnn rfl f t h1 hx
    · intro r hr'
      obtain ⟨p, hp, rfl⟩ := List.mem_map.1 hr'
      obtain ⟨hp, hreq⟩ := List.mem_filter.1 hp
      obtain ⟨f, t, h1, h2, h3, h4, h5, _⟩ := prop p hp
      simp only [isIn]
      rw [Dict.has_iff]
      refine Classical.byContradiction fun hne => ?_
      rw [← Dict.get?_eq_none_iff, h2] at hne
      rw [h3, nullable_flat h4 h5 (habs f t h1 hne)] at hreq
      simp at hreq
  | @union l t v ht hh ih =>
    cases g with
    | union g1 g2 g3 =>
      have i := ih (g1 t ht)
      constructor
      · intro d hd
        rw [typeDict] at hd
        obtain ⟨ds, hds, rfl⟩ := map_ok hd
        rw [accepts_oneOf]
        exact one_accepted w g1 g3 (typeDictL_eq nm hds) ht i.1
      · intro hne d hd
        have hmem : t ∈ noNulls l := by
          refine List.mem_filter.2 ⟨ht, ?_⟩
          cases t with
          | str s =>
            by_cases hs : s = "null"
            · subst hs
              exfalso
              exact hne (has_null hh rfl)
            · simpa [Ty.isNull] using hs
          | arr | enum | recNone | record | imp | union | other => rfl
        simp only [core] at hd
        rcases squeeze_cases (noNulls l) with ⟨t0, h1, h2⟩ | h2
        · rw [h1] at hmem
          rw [h2] at hd
          simp only [List.mem_cons, List.not_mem_nil, or_false] at hmem
          subst hmem
          exact i.1 d hd
        · rw [h2, typeDict] at hd
          obtain ⟨ds, hds, rfl⟩ := map_ok hd
          rw [accepts_oneOf]
          exact one_accepted w (fun t h => g1 t (List.mem_filter.1 h).1) (g3.sublist List.filter_sublist) (typeDictL_eq nm hds) hmem i.1

end

end CwlUtils.JsonSchema
