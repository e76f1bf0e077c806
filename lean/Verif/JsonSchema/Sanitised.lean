import Verif.JsonSchema.Gen
/-!
# The generator's view of `sanitise_schema_field` agrees with the function

`generate_definition_from_schema` calls `sanitise_schema_field({"type": field.type_})`
(`inputs_schema_gen.py:269-276`).  `Verif/JsonSchema/Gen.lean` works on loaded types and has its own
`sanType`; here it is shown to be `sanitise` of `Verif/Utils/Sanitise.lean`.
-/
namespace CwlUtils.JsonSchema

mutual
/-- A loaded type as a value of a schema field. -/
def toF : Ty → FVal
  | .str s => .str s
  | .arr i => .arrS (toF i)
  | .enum ss => .enumS (.list (ss.map .str))
  | .recNone => .recS ""
  | .record _ => .recS "fields"
  | .imp uri => .dict [("$import", .str uri)]
  | .union l => .list (toFs l)
  | .other => .other ""
termination_by structural t => t
/-- The types of a list. -/
def toFs : List Ty → List FVal
  | [] => []
  | t :: ts => toF t :: toFs ts
termination_by structural ts => ts
end

theorem toF_isNull (t : Ty) : (toF t).isNull = t.isNull := by
  cases t <;> simp [toF, FVal.isNull, Ty.isNull]

theorem toFs_any (l : List Ty) : (toFs l).any FVal.isNull = l.any Ty.isNull := by
  induction l with
  | nil => rfl
  | cons t l ih => simp [toFs, toF_isNull, ih]

theorem toFs_filter (l : List Ty) :
    (toFs l).filter (fun t => !t.isNull) = toFs (noNulls l) := by
  induction l with
  | nil => rfl
  | cons t l ih =>
      simp only [toFs, noNulls, List.filter_cons, toF_isNull]
      cases t.isNull
      · simpa [toFs, noNulls] using ih
      · simpa [noNulls] using ih

theorem sanitise_elem (n : Nat) (t : Ty) : sanitise (n + 1) (toF t) = .ok (toF t) := by
  cases t <;> simp [toF, sanitise, Dict.get?]

theorem mapE_elems (n : Nat) (l : List Ty) : mapE (sanitise (n + 1)) (toFs l) = .ok (toFs l) := by
  induction l with
  | nil => rfl
  | cons t l ih => simp [toFs, mapE, sanitise_elem, ih, Except.map]

theorem endsWith_one (s : List Char) (c : Char) : endsWith [c] s = decide (s.getLast? = some c) := by
  rw [endsWith, Bool.eq_iff_iff]
  simp only [List.isSuffixOf_iff_suffix, decide_eq_true_eq]
  constructor
  · rintro ⟨t, rfl⟩
    simp
  · intro h
    obtain ⟨t, rfl⟩ := List.getLast?_eq_some_iff.1 h
    exact ⟨t, rfl⟩

theorem endsWith_brackets (s : List Char) :
    endsWith ['[', ']'] s = true ↔ ∃ t, s.reverse = ']' :: '[' :: t := by
  rw [endsWith, List.isSuffixOf_iff_suffix]
  constructor
  · rintro ⟨t, rfl⟩
    exact ⟨t.reverse, by simp⟩
  · rintro ⟨t, h⟩
    refine ⟨t.reverse, ?_⟩
    have := congrArg List.reverse h
    simpa using this.symm

/-- The type of a text without question mark. -/
theorem strip_agrees (s : List Char) :
    (if endsWith ['[', ']'] s then FVal.arrS (.str (String.ofList (removeBrackets s)))
      else .str (String.ofList s))
    = toF (match s.reverse with
      | ']' :: '[' :: _ => Ty.arr (.str (String.ofList (removeBrackets s)))
      | _ => .str (String.ofList s)) := by
  split
  · rename_i h
    obtain ⟨t, h⟩ := (endsWith_brackets s).1 h
    rw [h]
    simp [toF]
  · rename_i h
    split
    · rename_i t ht
      exact absurd ((endsWith_brackets s).2 ⟨t, ht⟩) h
    · simp [toF]

theorem set_type (t u : FVal) : Dict.set [("type", t)] "type" u = [("type", u)] := by
  simp [Dict.set]

theorem squeeze_toF (l : List Ty) : (∃ t, l = [t] ∧ squeeze l = t) ∨
    ((∀ t, l ≠ [t]) ∧ squeeze l = .union l) := by
  match l with
  | [] => exact .inr ⟨by simp, rfl⟩
  | [t] => exact .inl ⟨t, rfl, rfl⟩
  | t :: u :: l => exact .inr ⟨by simp, rfl⟩

theorem wrap_agrees (t : Ty) : wrapNull (toF t)
    = toF (match t with | .union l' => .union (.str "null" :: l') | t => .union [.str "null", t]) := by
  cases t <;> simp [toF, toFs, wrapNull]

/-- The generator's sanitised type is that of `sanitise_schema_field`, for every loaded type. -/
theorem sanType_agrees (n : Nat) (t : Ty) :
    sanitise (n + 2) (.dict [("type", toF t)]) = .ok (.dict [("type", toF (sanType t))]) := by
  cases t with
  | str s =>
      simp only [toF, sanitise, Dict.get?, sanitiseStr, endsWith_one, strip_agrees, set_type, sanType]
      by_cases h : s.toList.getLast? = some '?'
      · simp only [h, decide_true, Bool.not_true, Bool.false_eq_true, ↓reduceIte]
        generalize removeChar '?' s.toList = s1
        by_cases hb : ∃ t, s1.reverse = ']' :: '[' :: t
        · obtain ⟨t, ht⟩ := hb
          simp [ht, toF, toFs, wrapNull]
        · split
          · rename_i t ht
            exact absurd ⟨t, ht⟩ hb
          · split
            · rename_i t ht
              exact absurd ⟨t, ht⟩ hb
            · simp [toF, toFs, wrapNull]
      · simp only [h, decide_false, Bool.not_false, Bool.false_eq_true, ↓reduceIte]
        rfl
  | union l =>
      have e : sanitise (n + 2) (.dict [("type", toF (.union l))]) =
          match toFs (noNulls l) with
          | [t] => .ok (.dict [("type", if l.any Ty.isNull then wrapNull t else t)])
          | rest => match mapE (sanitise (n + 1)) rest with
            | .error e => .error e
            | .ok l' => .ok (.dict [("type", if l.any Ty.isNull then wrapNull (.list l') else .list l')]) := by
        rw [← toFs_filter, ← toFs_any]
        rfl
      rw [e]
      match hl : noNulls l with
      | [] =>
          simp only [toFs, mapE, sanType, hl, squeeze]
          split <;> simp_all [toF, toFs, wrapNull]
      | [t] =>
          simp only [toFs, sanType, hl, squeeze]
          split
          · rw [wrap_agrees]
            rfl
          · rfl
      | t :: u :: l' =>
          have := mapE_elems n (t :: u :: l')
          simp only [toFs] at this
          simp only [toFs, sanType, hl, squeeze, this]
          split <;> simp_all [toF, toFs, wrapNull]
  | imp u => simp [toF, sanitise, Dict.get?, sanType]
  | arr i => simp [toF, sanitise, Dict.get?, sanType]
  | enum ss => simp [toF, sanitise, Dict.get?, sanType]
  | recNone => simp [toF, sanitise, Dict.get?, sanType]
  | record fs => simp [toF, sanitise, Dict.get?, sanType]
  | other => simp [toF, sanitise, Dict.get?, sanType]

/-- What the two cases that matter look like. -/
example : sanitise 2 (.dict [("type", toF (.str "int[]?"))])
    = .ok (.dict [("type", .list [.str "null", .arrS (.str "int")])]) := by
  rw [sanType_agrees]; rfl
example : sanitise 2 (.dict [("type", toF (.union [.str "int", .str "null", .imp "a"]))])
    = .ok (.dict [("type", .list [.str "null", .str "int", .dict [("$import", .str "a")]])]) := by
  rw [sanType_agrees]; rfl

end CwlUtils.JsonSchema
