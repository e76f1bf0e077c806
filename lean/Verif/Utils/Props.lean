import Verif.Utils.Lemmas
/-!
# Properties C14-C17, C67: utilities
-/
namespace CwlUtils

/-! ## C14 -/

/-- C14 as stated: no byte string is left. -/
def C14_full : Prop :=
  ∀ (dec : List UInt8 → Option String) (v w : Val), bytes2str dec v = .ok w → ¬ HasBytes w

/-- C14 fails: only the first element of a list is converted (`return inp` inside the loop). -/
theorem bytes2str_violated : ¬ C14_full := by
  intro h
  exact h (fun _ => some "x") (.arr [.str "a", .bytes [98]]) (.arr [.str "a", .bytes [98]])
    (by decide +kernel) (.arr (x := .bytes [98]) (by simp) (.here _))

/-- C14, what holds: if in every list only the first element holds byte strings, the result is the
value with every byte string decoded and nothing else changed, and no byte string is left.
Missing: byte strings in later list elements. -/
theorem bytes2str_partial (dec : List UInt8 → Option String) (v : Val) (h : BytesFirst v) :
    bytes2str dec v = decodeAll dec v ∧ ∀ w, bytes2str dec v = .ok w → ¬ HasBytes w := by
  refine ⟨bytes2str_eq dec v h, ?_⟩
  intro w hw
  rw [bytes2str_eq dec v h] at hw
  exact decodeAll_noBytes dec v w hw

/-- C14: data without byte strings is left alone, in every shape. -/
theorem bytes2str_identity (dec : List UInt8 → Option String) (v : Val) (h : ¬ HasBytes v) :
    bytes2str dec v = .ok v := bytes2str_clean dec v h

example : bytes2str (fun _ => some "x") (.obj [("a", .obj [("b", .bytes [1])]), ("c", .arr [.bytes [2], .int 1])])
    = .ok (.obj [("a", .obj [("b", .str "x")]), ("c", .arr [.str "x", .int 1])]) := by decide +kernel
example : BytesFirst (.obj [("c", .arr [.bytes [2], .int 1])]) := by
  refine .obj ?_
  intro p hp
  simp at hp; subst hp
  refine .arr (.scalar (by simp) (by simp)) ?_
  intro y hy hb
  simp at hy; subst hy; cases hb

/-! ## C15 -/

/-- C15: a map in list form keeps every entry once, in order; the entry holds the key under the key
field and all other fields of the value. -/
theorem normalizeToList_entries (m : Dict Val) (kf : String) (vf : Option String) :
    (vf = none → ∀ p ∈ m, isDict p.2 = true) →
    ∃ l, normalizeToList (.obj m) kf vf = .ok l ∧ l.length = m.length ∧
      ∀ (i : Nat) k v, m[i]? = some (k, v) → ∃ d, l[i]? = some (.obj d) ∧
        Dict.get? d kf = some (.str k) ∧
        ∀ f, f ≠ kf → Dict.get? d f = Dict.get? (expandShort (vf.getD "") v) f := by
  intro h
  refine ⟨_, toListLoop_eq kf vf m h, by simp, ?_⟩
  intro i k v hi
  refine ⟨Dict.set (expandShort (vf.getD "") v) kf (.str k), by simp [hi], Dict.get?_set_self _ _ _, ?_⟩
  intro f hf
  exact Dict.get?_set_ne _ _ hf

/-- C15: a value that is no dictionary is refused if there is no short form. -/
theorem normalizeToList_refuses (m : Dict Val) (kf : String) (h : ∃ p ∈ m, isDict p.2 = false) :
    normalizeToList (.obj m) kf none = .error .runtime := toListLoop_error kf m h

/-- C15: what is neither a list nor a map is refused by both conversions. -/
theorem normalize_other (v : Val) (kf : String) (vf : Option String) (h1 : ∀ l, v ≠ .arr l) (h2 : ∀ m, v ≠ .obj m) :
    normalizeToList v kf vf = .error .runtime ∧ normalizeToMap v kf = .error .runtime := by
  cases v with
  | arr l => exact absurd rfl (h1 l)
  | obj m => exact absurd rfl (h2 m)
  | _ => exact ⟨rfl, rfl⟩

/-- C15: both conversions leave data in the target form unchanged. -/
theorem normalize_already (m : Dict Val) (l : List Val) (kf : String) (vf : Option String) :
    normalizeToMap (.obj m) kf = .ok m ∧ normalizeToList (.arr l) kf vf = .ok l := ⟨rfl, rfl⟩

/-- C15: map to list and back gives the same entries in the same order (short forms written out). -/
theorem normalize_map_roundtrip (m : Dict Val) (kf : String) (vf : Option String) (hwf : Dict.WF m)
    (hd : vf = none → ∀ p ∈ m, isDict p.2 = true)
    (hk : ∀ p ∈ m, kf ∉ Dict.keys (expandShort (vf.getD "") p.2)) :
    ∃ l, normalizeToList (.obj m) kf vf = .ok l ∧
      normalizeToMap (.arr l) kf = .ok (m.map (fun p => (p.1, .obj (expandShort (vf.getD "") p.2)))) := by
  refine ⟨_, toListLoop_eq kf vf m hd, ?_⟩
  show toMapLoop kf _ [] = _
  have h := toMapLoop_eq kf (m.map (fun p => (p.1, Dict.set (expandShort (vf.getD "") p.2) kf (.str p.1)))) []
    (by intro p hp; rw [List.mem_map] at hp; obtain ⟨q, _, rfl⟩ := hp; exact Dict.get?_set_self _ _ _)
    (by rw [List.map_map]; exact hwf) (by simp [Dict.keys])
  simp only [List.map_map, Function.comp_def, List.nil_append] at h
  rw [h]
  congr 1
  apply List.map_congr_left
  intro p hp
  have hk' := hk p hp
  rw [Dict.set_of_not_mem _ hk']
  have : ∀ d : Dict Val, kf ∉ Dict.keys d → Dict.erase (d ++ [(kf, Val.str p.1)]) kf = d := by
    intro d
    induction d with
    | nil => intro _; simp [Dict.erase]
    | cons q d ih =>
        obtain ⟨k', v'⟩ := q
        intro h
        simp only [Dict.keys, List.map_cons, List.mem_cons, not_or] at h
        simp only [List.cons_append, Dict.erase, if_neg (Ne.symm h.1)]
        rw [ih h.2]
  rw [this _ hk']

/-- C15: list to map and back gives the same entries in the same order (up to the place of the key
field inside an entry), if the keys are different strings. -/
theorem normalize_list_roundtrip (l : List (String × Dict Val)) (kf : String)
    (hk : ∀ p ∈ l, Dict.get? p.2 kf = some (.str p.1)) (hnd : (l.map (·.1)).Nodup) :
    ∃ m l', normalizeToMap (.arr (l.map (fun p => .obj p.2))) kf = .ok m ∧
      Dict.keys m = l.map (·.1) ∧
      normalizeToList (.obj m) kf none = .ok l' ∧ l'.length = l.length ∧
      ∀ (i : Nat) k d, l[i]? = some (k, d) → ∃ d', l'[i]? = some (.obj d') ∧
        ∀ f, Dict.get? d' f = Dict.get? d f := by
  have h := toMapLoop_eq kf l [] hk hnd (by simp [Dict.keys])
  rw [List.nil_append] at h
  refine ⟨_, _, h, by simp [Dict.keys, Function.comp_def], toListLoop_eq kf none _ ?_, by simp, ?_⟩
  · intro _ p hp
    rw [List.mem_map] at hp
    obtain ⟨q, _, rfl⟩ := hp
    rfl
  · intro i k d hi
    refine ⟨Dict.set (Dict.erase d kf) kf (.str k), ?_, ?_⟩
    · simp [hi, expandShort]
    · intro f
      by_cases hf : f = kf
      · subst hf
        rw [Dict.get?_set_self]
        exact (hk (k, d) (List.mem_of_getElem? hi)).symm
      · rw [Dict.get?_set_ne _ _ hf, Dict.get?_erase_ne _ hf]

/-- C15: a list entry without a key is reported. -/
theorem normalizeToMap_missing (kf : String) (pre : List (String × Dict Val)) (d : Dict Val) (post : List Val)
    (hk : ∀ p ∈ pre, Dict.get? p.2 kf = some (.str p.1))
    (h : Dict.get? d kf = none ∨ Dict.get? d kf = some .null) :
    normalizeToMap (.arr (pre.map (fun p => .obj p.2) ++ .obj d :: post)) kf = .error .missingKeyField := by
  have key : ∀ (pre : List (String × Dict Val)) (acc : Dict Val),
      (∀ p ∈ pre, Dict.get? p.2 kf = some (.str p.1)) →
      toMapLoop kf (pre.map (fun p => .obj p.2) ++ .obj d :: post) acc = .error .missingKeyField := by
    intro pre
    induction pre with
    | nil => intro acc _; rcases h with h | h <;> simp [toMapLoop, h]
    | cons p ps ih =>
        intro acc hp
        have := hp p (by simp)
        simp only [List.map_cons, List.cons_append, toMapLoop, this]
        exact ih _ (fun q hq => hp q (by simp [hq]))
  exact key pre [] hk

example : normalizeToList (.obj [("a", .str "File"), ("b", .obj [("type", .str "int")])]) "id" (some "type")
    = .ok [.obj [("type", .str "File"), ("id", .str "a")], .obj [("type", .str "int"), ("id", .str "b")]] := by
  decide +kernel
example : normalizeToMap (.arr [.obj [("id", .str "a"), ("type", .str "File")]]) "id"
    = .ok [("a", .obj [("type", .str "File")])] := by decide +kernel
example : normalizeToMap (.arr [.obj [("id", .str "a")], .obj [("x", .str "a")]]) "id"
    = .error .missingKeyField := by decide +kernel

/-! ## C16 -/

/-- C16: no separator is left. -/
theorem pascalCase_no_separator (cap : List Char → List Char) (hc : CapOk cap) (name : List Char) :
    '-' ∉ toPascalCase cap name ∧ '_' ∉ toPascalCase cap name := by
  have hu : ∀ w ∈ Sandbox.splitOn '-' (name.map (fun c => if c = '_' then '-' else c)), '-' ∉ w ∧ '_' ∉ w := by
    intro w hw
    have := splitOn_mem '-' _ w hw
    refine ⟨this.1, fun h => ?_⟩
    have h2 := this.2 _ h
    rw [List.mem_map] at h2
    obtain ⟨c, _, h3⟩ := h2
    by_cases hcu : c = '_'
    · simp [hcu] at h3
    · simp [hcu] at h3
  constructor
  all_goals
    intro h
    unfold toPascalCase at h
    rw [List.mem_flatten] at h
    obtain ⟨x, hx, hm⟩ := h
    rw [List.mem_map] at hx
    obtain ⟨w, hw, rfl⟩ := hx
  · exact hc.dash w (hu w hw).1 hm
  · exact hc.under w (hu w hw).1 (hu w hw).2 hm

/-- C16: a name that is one capitalised word is unchanged. -/
theorem pascalCase_word (cap : List Char → List Char) (w : List Char) (h1 : '-' ∉ w) (h2 : '_' ∉ w)
    (h3 : cap w = w) : toPascalCase cap w = w := by
  have hmap : w.map (fun c => if c = '_' then '-' else c) = w := by
    conv => rhs; rw [← List.map_id w]
    apply List.map_congr_left
    intro c hc
    have : c ≠ '_' := fun e => h2 (e ▸ hc)
    simp [this]
  have hs : ∀ w : List Char, '-' ∉ w → Sandbox.splitOn '-' w = [w] := by
    intro w
    induction w with
    | nil => intro _; rfl
    | cons c cs ih =>
        intro h
        rw [List.mem_cons, not_or] at h
        rw [Sandbox.splitOn, if_neg (Ne.symm h.1), ih h.2]
  unfold toPascalCase
  rw [hmap, hs w h1]
  simp [h3]

/-- C16: the parts between separators are handled one by one. -/
theorem pascalCase_append (cap : List Char → List Char) (sep : Char) (hs : sep = '-' ∨ sep = '_')
    (a b : List Char) :
    toPascalCase cap (a ++ sep :: b) = toPascalCase cap a ++ toPascalCase cap b := by
  unfold toPascalCase
  rw [List.map_append, List.map_cons]
  have : (if sep = '_' then '-' else sep) = '-' := by rcases hs with rfl | rfl <;> simp
  rw [this, splitOn_append]
  simp

example : toPascalCase asciiCap "fastq-list_ROW".toList = "FastqListRow".toList := by decide +kernel

/-! ## C17 -/

/-- A field type that makes the field optional. -/
def optionalType : FVal → Prop
  | .str s => ['?'] <:+ s.toList
  | .list ts => FVal.str "null" ∈ ts
  | _ => False

/-- A type list that starts with null. -/
def nullFirst (t : FVal) : Prop := ∃ l, t = .list (.str "null" :: l)

/-- C17: the result keeps all other fields, and its type starts with null exactly if the type was
`T?` or a list containing null. -/
theorem sanitise_optional (fuel : Nat) (m : Dict FVal) (t : FVal) (r : FVal)
    (ht : Dict.get? m "type" = some t) (hkind : (∃ s, t = .str s) ∨
      (∃ ts, t = .list ts ∧ ∀ x ∈ ts, ∀ l, x ≠ .list l))
    (h : sanitise (fuel + 1) (.dict m) = .ok r) :
    ∃ t', r = .dict (Dict.set m "type" t') ∧ (nullFirst t' ↔ optionalType t) := by
  rw [sanitise] at h
  rcases hkind with ⟨s, rfl⟩ | ⟨ts, rfl, hnl⟩
  · simp only [ht] at h
    simp only [Except.ok.injEq] at h
    refine ⟨_, h.symm, ?_⟩
    have h1 : (sanitiseStr s.toList).1 = !(['?'].isSuffixOf s.toList) := rfl
    have h2 : ∀ l, (sanitiseStr s.toList).2 ≠ .list l := by
      intro l; unfold sanitiseStr; dsimp only; (repeat' split) <;> simp
    generalize (sanitiseStr s.toList).2 = x at h2 ⊢
    have h3 : optionalType (.str s) ↔ ['?'].isSuffixOf s.toList = true :=
      List.isSuffixOf_iff_suffix.symm
    rw [h1, h3]
    cases ['?'].isSuffixOf s.toList with
    | true =>
        simp only [Bool.not_true, Bool.false_eq_true, if_false, iff_true]
        cases x with
        | list l => exact absurd rfl (h2 l)
        | _ => exact ⟨_, rfl⟩
    | false =>
        simp only [Bool.not_false, if_true, Bool.false_eq_true, iff_false]
        rintro ⟨l, hl⟩
        exact h2 _ hl
  · simp only [ht] at h
    simp only [optionalType]
    rw [← any_isNull]
    have key : ∀ (opt : Bool) (x : FVal), (∀ l, x ≠ .list l) →
        (nullFirst (if opt = true then wrapNull x else x) ↔ opt = true) := by
      intro opt x hx
      cases opt with
      | true =>
          simp only [if_true, iff_true]
          cases x with
          | list l => exact absurd rfl (hx l)
          | _ => exact ⟨_, rfl⟩
      | false =>
          simp only [Bool.false_eq_true, if_false, iff_false]
          rintro ⟨l, hl⟩
          exact hx _ hl
    split at h
    · rename_i x hx
      simp only [Except.ok.injEq] at h
      refine ⟨_, h.symm, key _ x ?_⟩
      intro l
      have : x ∈ ts.filter (fun t => !t.isNull) := by rw [hx]; simp
      exact hnl x (List.mem_filter.mp this).1 l
    · rename_i rest hrest
      split at h
      · simp at h
      · rename_i l hl
        simp only [Except.ok.injEq] at h
        refine ⟨_, h.symm, ?_⟩
        cases hopt : ts.any FVal.isNull with
        | true => simp only [if_true, iff_true]; exact ⟨_, rfl⟩
        | false =>
            simp only [Bool.false_eq_true, if_false, iff_false]
            rintro ⟨l', hl'⟩
            simp only [FVal.list.injEq] at hl'
            subst hl'
            have hg := mapE_get hl
            cases hr : ts.filter (fun t => !t.isNull) with
            | nil => rw [hr] at hg; simp at hg
            | cons x xs =>
                rw [hr] at hg
                obtain ⟨y, hy1, hy2⟩ := hg.2 0 x (by simp)
                simp at hy1
                subst hy1
                have hxm : x ∈ ts.filter (fun t => !t.isNull) := by rw [hr]; simp
                have hxn := (List.mem_filter.mp hxm).2
                refine sanitise_not_null hy2 ?_ rfl
                intro e
                rw [← isNull_iff] at e
                simp [e] at hxn

/-- C17: one alternative besides null is kept as it is. -/
theorem sanitise_one_alternative (fuel : Nat) (m : Dict FVal) (ts : List FVal) (x : FVal)
    (ht : Dict.get? m "type" = some (.list ts)) (hx : ∀ l, x ≠ .list l)
    (hone : ts.filter (fun t => !t.isNull) = [x]) (opt : Bool) (hopt : opt = true ↔ FVal.str "null" ∈ ts) :
    sanitise (fuel + 1) (.dict m)
      = .ok (.dict (Dict.set m "type" (if opt then .list [.str "null", x] else x))) := by
  rw [sanitise]
  simp only [ht, hone]
  have e : ts.any FVal.isNull = opt := by rw [Bool.eq_iff_iff, any_isNull, hopt]
  rw [e]
  cases opt with
  | true =>
      cases x with
      | list l => exact absurd rfl (hx l)
      | _ => rfl
  | false => rfl

/-- C17: two or more alternatives (or none) besides null are all kept, in order, each sanitised. -/
theorem sanitise_alternatives (fuel : Nat) (m : Dict FVal) (ts : List FVal) (r : FVal)
    (ht : Dict.get? m "type" = some (.list ts)) (hlen : (ts.filter (fun t => !t.isNull)).length ≠ 1)
    (opt : Bool) (hopt : opt = true ↔ FVal.str "null" ∈ ts)
    (h : sanitise (fuel + 1) (.dict m) = .ok r) :
    ∃ l, r = .dict (Dict.set m "type" (.list (if opt then .str "null" :: l else l))) ∧
      l.length = (ts.filter (fun t => !t.isNull)).length ∧
      ∀ (i : Nat) x, (ts.filter (fun t => !t.isNull))[i]? = some x →
        ∃ y, l[i]? = some y ∧ sanitise fuel x = .ok y := by
  rw [sanitise] at h
  simp only [ht] at h
  split at h
  · rename_i x hx; rw [hx] at hlen; simp at hlen
  · split at h
    · simp at h
    · rename_i l hl
      simp only [Except.ok.injEq] at h
      have hg := mapE_get hl
      refine ⟨l, ?_, hg.1, hg.2⟩
      rw [← h]
      have e : ts.any FVal.isNull = opt := by rw [Bool.eq_iff_iff, any_isNull, hopt]
      rw [e]
      cases opt <;> rfl

/-- C17: strings among the alternatives (primitive types, references) are not changed at all. -/
theorem sanitise_string_alternative (fuel : Nat) (s : String) : sanitise (fuel + 1) (.str s) = .ok (.str s) := rfl

/-- C17: an optional type in short form, `T?`, becomes `[null, T]`; the rest of the field stays. -/
theorem sanitise_question (fuel : Nat) (m : Dict FVal) (t : List Char) (hq : '?' ∉ t)
    (hb : ¬ ['[', ']'] <:+ t) (h : Dict.get? m "type" = some (.str (String.ofList (t ++ ['?'])))) :
    sanitise (fuel + 1) (.dict m)
      = .ok (.dict (Dict.set m "type" (.list [.str "null", .str (String.ofList t)]))) := by
  rw [sanitise]
  simp only [h, String.toList_ofList]
  have e1 : endsWith ['?'] (t ++ ['?']) = true := by
    rw [endsWith, List.isSuffixOf_iff_suffix]; exact List.suffix_append _ _
  have e2 : removeChar '?' (t ++ ['?']) = t := by
    unfold removeChar
    rw [List.filter_append, List.filter_eq_self.2 (by
      intro c hc
      have : c ≠ '?' := fun e => hq (e ▸ hc)
      simpa using this)]
    simp
  have e3 : endsWith ['[', ']'] t = false := by
    rw [Bool.eq_false_iff]; intro hx
    rw [endsWith, List.isSuffixOf_iff_suffix] at hx
    exact hb hx
  simp [sanitiseStr, e1, e2, e3, wrapNull]

/-- C17: a type name without `?` and `[]` at its end is not changed. -/
theorem sanitise_name (fuel : Nat) (m : Dict FVal) (s : String) (hq : ¬ ['?'] <:+ s.toList)
    (hb : ¬ ['[', ']'] <:+ s.toList) (h : Dict.get? m "type" = some (.str s)) :
    sanitise (fuel + 1) (.dict m) = .ok (.dict m) := by
  rw [sanitise]
  simp only [h]
  have e1 : endsWith ['?'] s.toList = false := by
    rw [Bool.eq_false_iff]; intro hx
    rw [endsWith, List.isSuffixOf_iff_suffix] at hx; exact hq hx
  have e3 : endsWith ['[', ']'] s.toList = false := by
    rw [Bool.eq_false_iff]; intro hx
    rw [endsWith, List.isSuffixOf_iff_suffix] at hx; exact hb hx
  simp [sanitiseStr, e1, e3, Dict.set_get?_self h]

/-- C17: a written-out enumeration type stays an enumeration with the same symbols, a written-out array
type an array with the same items, a link to a type stays the same link, and the rest of the field is
unchanged; any other written-out type is rejected. -/
theorem sanitise_written_out (fuel : Nat) (m d : Dict FVal) (h : Dict.get? m "type" = some (.dict d)) :
    (∀ s, Dict.get? d "type" = some (.str "enum") → Dict.get? d "symbols" = some s →
      sanitise (fuel + 1) (.dict m) = .ok (.dict (Dict.set m "type" (.enumS s)))) ∧
    (∀ s, Dict.get? d "type" = some (.str "array") → Dict.get? d "items" = some s →
      sanitise (fuel + 1) (.dict m) = .ok (.dict (Dict.set m "type" (.arrS s)))) ∧
    (Dict.get? d "type" ≠ some (.str "enum") → Dict.get? d "type" ≠ some (.str "array") →
      (∀ l, Dict.get? d "$import" = some l → sanitise (fuel + 1) (.dict m) = .ok (.dict m)) ∧
      (Dict.get? d "$import" = none → sanitise (fuel + 1) (.dict m) = .error .value)) := by
  rw [sanitise]
  simp only [h]
  refine ⟨?_, ?_, ?_⟩
  · intro s h1 h2; simp [h1, h2, getOrEmpty]
  · intro s h1 h2; simp [h1, h2, getOrEmpty]
  · intro h1 h2
    refine ⟨?_, ?_⟩ <;>
    · intros
      split
      · rename_i hx; exact absurd hx h1
      · rename_i hx; exact absurd hx h2
      · simp_all

example : sanitise 1 (.dict [("type", .str "Directory?"), ("label", .str "x")])
    = .ok (.dict [("type", .list [.str "null", .str "Directory"]), ("label", .str "x")]) :=
  sanitise_question 0 _ "Directory".toList (by decide) (by decide) (by rfl)
example : sanitise 1 (.dict [("type", .str "Directory")]) = .ok (.dict [("type", .str "Directory")]) :=
  sanitise_name 0 _ "Directory" (by decide) (by decide) (by rfl)
example : sanitise 1 (.dict [("type", .dict [("type", .str "enum"), ("symbols", .list [.str "a"])])])
    = .ok (.dict [("type", .enumS (.list [.str "a"]))]) :=
  (sanitise_written_out 0 _ _ (by rfl)).1 _ (by rfl) (by rfl)

/-- Type lists of the examples. -/
def exUnion : List FVal := [.str "int", .str "null", .dict [("type", .str "File?")]]

example : sanitise 3 (.dict [("label", .str "x"), ("type", .list exUnion)])
    = .ok (.dict [("label", .str "x"), ("type", .list [.str "null", .str "int",
        .dict [("type", .list [.str "null", .str "File"])]])]) := by rfl
example : sanitise 1 (.dict [("type", .list [.str "null", .str "int"])])
    = .ok (.dict [("type", .list [.str "null", .str "int"])]) := by rfl

/-! ## C92 -/

theorem splitOn_whole (sep : Char) : ∀ s : List Char, sep ∉ s → Sandbox.splitOn sep s = [s]
  | [], _ => rfl
  | c :: cs, h => by
      rw [List.mem_cons, not_or] at h
      rw [Sandbox.splitOn, splitOn_whole sep cs h.2, if_neg (fun e => h.1 e.symm)]

/-- C92: the value of an identifier is the part of its fragment after the last slash, or the whole
fragment when it has no slash. -/
theorem value_from_uri (pre name : List Char) (h : '/' ∉ name) :
    valueFromFragment name = name ∧ valueFromFragment (pre ++ '/' :: name) = name := by
  unfold valueFromFragment
  rw [splitOn_append, splitOn_whole '/' name h]
  simp

/-- C92: so the value never contains a slash, and it is what the fragment ends with. -/
theorem value_from_uri_suffix (f : List Char) :
    '/' ∉ valueFromFragment f ∧ ∃ pre, f = pre ++ valueFromFragment f ∧ (pre = [] ∨ ∃ p, pre = p ++ ['/']) := by
  by_cases h : '/' ∈ f
  · obtain ⟨p, n, rfl, hn⟩ : ∃ p n, f = p ++ '/' :: n ∧ '/' ∉ n := by
      induction f with
      | nil => simp at h
      | cons c cs ih =>
        by_cases hc : '/' ∈ cs
        · obtain ⟨p, n, rfl, hn⟩ := ih hc
          exact ⟨c :: p, n, by simp, hn⟩
        · rw [List.mem_cons] at h
          rcases h with rfl | h
          · exact ⟨[], cs, by simp, hc⟩
          · exact absurd h hc
    rw [(value_from_uri p n hn).2]
    exact ⟨hn, p ++ ['/'], by simp, .inr ⟨p, rfl⟩⟩
  · rw [(value_from_uri [] f h).1]
    exact ⟨h, [], by simp, .inl rfl⟩

example : valueFromFragment "my_workflow_name/record_name".toList = "record_name".toList :=
  (value_from_uri "my_workflow_name".toList "record_name".toList (by decide)).2

/-! ## C67 -/

/-- The array type with `n` levels around `t`. -/
def nestArr : Nat → FVal → FVal
  | 0, t => t
  | n + 1, t => .arrS (nestArr n t)

/-- The short form `t[]...[]` with `n` pairs of brackets. -/
def shortArr (b : List Char) (n : Nat) : List Char := b ++ (List.replicate n ['[', ']']).flatten

/-- C67 as stated: the short form of an array type keeps its number of levels, optional or not. -/
def C67_full : Prop :=
  ∀ (b : List Char) (n : Nat) (opt : Bool), '?' ∉ b → '[' ∉ b →
    sanitise 1 (.dict [("type", .str (String.ofList (shortArr b n ++ if opt then ['?'] else [])))])
      = .ok (.dict [("type", if opt then .list [.str "null", nestArr n (.str (String.ofList b))]
          else nestArr n (.str (String.ofList b)))])

/-- C67 fails: `string[][]` becomes an array of strings (all bracket pairs are removed at once). -/
theorem sanitise_nested_array_violated : ¬ C67_full := by
  intro h
  have := h ['s'] 2 false (by decide) (by decide)
  have e : sanitise 1 (.dict [("type", .str (String.ofList (shortArr ['s'] 2 ++ [])))])
      = .ok (.dict [("type", .arrS (.str "s"))]) := by rfl
  simp only [Bool.false_eq_true, if_false] at this
  rw [e] at this
  simp [nestArr] at this

theorem removeBrackets_clean : ∀ b : List Char, '[' ∉ b → removeBrackets b = b
  | [], _ => by rw [removeBrackets]
  | c :: cs, h => by
      rw [List.mem_cons, not_or] at h
      rw [removeBrackets, removeBrackets_clean cs h.2]
      rintro _ rfl _
      exact h.1 rfl

theorem removeBrackets_append : ∀ b : List Char, '[' ∉ b → removeBrackets (b ++ ['[', ']']) = b
  | [], _ => by simp [removeBrackets]
  | c :: cs, h => by
      rw [List.mem_cons, not_or] at h
      rw [List.cons_append, removeBrackets, removeBrackets_append cs h.2]
      rintro _ rfl _
      exact h.1 rfl

theorem removeChar_clean {p : Char} {s : List Char} (h : p ∉ s) : removeChar p s = s := by
  unfold removeChar
  rw [List.filter_eq_self]
  intro c hc
  have : c ≠ p := fun e => h (e ▸ hc)
  simpa using this

/-- C67, what holds: types without brackets and one-level arrays, optional or not. Missing: two or
more levels. -/
theorem sanitise_short_array_partial (b : List Char) (n : Nat) (hn : n ≤ 1) (opt : Bool)
    (hq : '?' ∉ b) (hb : '[' ∉ b) :
    sanitise 1 (.dict [("type", .str (String.ofList (shortArr b n ++ if opt then ['?'] else [])))])
      = .ok (.dict [("type", if opt then .list [.str "null", nestArr n (.str (String.ofList b))]
          else nestArr n (.str (String.ofList b)))]) := by
  have hshort : '?' ∉ shortArr b n := by
    rcases (by omega : n = 0 ∨ n = 1) with rfl | rfl <;> simp [shortArr, hq]
  have hopt : endsWith ['?'] (shortArr b n ++ if opt then ['?'] else []) = opt := by
    cases opt with
    | true => simp only [endsWith, if_true]; rw [List.isSuffixOf_iff_suffix]; exact List.suffix_append _ _
    | false =>
        simp only [endsWith, Bool.false_eq_true, if_false, List.append_nil]
        rw [Bool.eq_false_iff]
        intro h
        rw [List.isSuffixOf_iff_suffix] at h
        exact hshort (h.mem (by simp))
  have hrem : (if opt = true then removeChar '?' (shortArr b n ++ if opt then ['?'] else [])
      else (shortArr b n ++ if opt then ['?'] else [])) = shortArr b n := by
    cases opt with
    | true =>
        simp only [if_true]
        unfold removeChar
        rw [List.filter_append]
        have := removeChar_clean hshort
        unfold removeChar at this
        rw [this]; simp
    | false => simp
  have hstr : sanitiseStr (shortArr b n ++ if opt then ['?'] else [])
      = (!opt, nestArr n (.str (String.ofList b))) := by
    unfold sanitiseStr
    simp only [hopt, hrem]
    rcases (by omega : n = 0 ∨ n = 1) with rfl | rfl
    · have : endsWith ['[', ']'] (shortArr b 0) = false := by
        rw [Bool.eq_false_iff]
        intro h
        rw [endsWith, List.isSuffixOf_iff_suffix] at h
        have := h.mem (a := '[') (by simp)
        simp [shortArr, hb] at this
      rw [this]
      simp [shortArr, nestArr]
    · have : endsWith ['[', ']'] (shortArr b 1) = true := by
        rw [endsWith, List.isSuffixOf_iff_suffix]
        exact ⟨b, by simp [shortArr]⟩
      rw [this]
      have := removeBrackets_append b hb
      simp [shortArr, nestArr, this]
  rw [sanitise]
  simp only [Dict.get?, if_true, String.toList_ofList, hstr, Dict.set]
  cases opt with
  | true =>
      simp only [Bool.not_true, Bool.false_eq_true, if_false, if_true]
      rcases (by omega : n = 0 ∨ n = 1) with rfl | rfl <;> rfl
  | false => simp

example : sanitise 1 (.dict [("type", .str "File[]?")])
    = .ok (.dict [("type", .list [.str "null", .arrS (.str "File")])]) := by rfl

end CwlUtils
