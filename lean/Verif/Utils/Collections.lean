import Verif.Base.Val
/-!
# Model of `normalize_to_map` and `normalize_to_list`

`src/cwl_utils/utils.py:128-164`.
-/
namespace CwlUtils

/-- `utils.py:133-142`: the loop over the list.  The key must be a string here (Python also takes
other hashable values as dictionary keys; the model reports a `TypeError` for those). The in-place
`v.pop` is modelled by storing the dictionary without the key. -/
def toMapLoop (keyField : String) : List Val → Dict Val → Except Err (Dict Val)
  | [], acc => .ok acc
  | .obj v :: vs, acc =>
      match Dict.get? v keyField with
      | none => .error .missingKeyField
      | some .null => .error .missingKeyField
      | some (.str k) => toMapLoop keyField vs (Dict.set acc k (.obj (Dict.erase v keyField)))
      | some _ => .error .type
  | _ :: _, _ => .error .runtime

/-- `utils.py:128-144`: `normalize_to_map(obj, key_field)`. -/
def normalizeToMap (obj : Val) (keyField : String) : Except Err (Dict Val) :=
  match obj with
  | .obj m => .ok m
  | .arr l => toMapLoop keyField l []
  | _ => .error .runtime

/-- `utils.py:156-159`: a value that is not a dictionary is put under `value_field`. -/
def entryDict (valueField : Option String) : Val → Except Err (Dict Val)
  | .obj d => .ok d
  | v => match valueField with
    | none => .error .runtime
    | some f => .ok [(f, v)]

/-- `utils.py:155-162`: the loop over the items of the map. -/
def toListLoop (keyField : String) (valueField : Option String) : Dict Val → Except Err (List Val)
  | [] => .ok []
  | (k, v) :: m =>
      match entryDict valueField v with
      | .error e => .error e
      | .ok d => (toListLoop keyField valueField m).map (fun l => .obj (Dict.set d keyField (.str k)) :: l)

/-- `utils.py:147-164`: `normalize_to_list(obj, key_field, value_field)`. -/
def normalizeToList (obj : Val) (keyField : String) (valueField : Option String) : Except Err (List Val) :=
  match obj with
  | .arr l => .ok l
  | .obj m => toListLoop keyField valueField m
  | _ => .error .runtime

/-! ## Specification -/

/-- The dictionary a map value stands for: itself, or the short form `{valueField: v}`. -/
def expandShort (valueField : String) : Val → Dict Val
  | .obj d => d
  | v => [(valueField, v)]

/-- Is the value a dictionary? -/
def isDict : Val → Bool
  | .obj _ => true
  | _ => false

/-! ## Lemmas -/

theorem entryDict_eq (vf : Option String) (v : Val) (h : vf = none → isDict v = true) :
    entryDict vf v = .ok (expandShort (vf.getD "") v) := by
  cases v <;> cases vf <;> simp_all [entryDict, expandShort, isDict]

theorem entryDict_error (v : Val) (h : isDict v = false) : entryDict none v = .error .runtime := by
  cases v <;> simp_all [entryDict, isDict]

theorem toListLoop_eq (kf : String) (vf : Option String) : ∀ m : Dict Val,
    (vf = none → ∀ p ∈ m, isDict p.2 = true) →
    toListLoop kf vf m = .ok (m.map (fun p => .obj (Dict.set (expandShort (vf.getD "") p.2) kf (.str p.1))))
  | [], _ => rfl
  | (k, v) :: m, h => by
      rw [toListLoop, toListLoop_eq kf vf m (fun hv p hp => h hv p (by simp [hp])),
        entryDict_eq vf v (fun hv => h hv (k, v) (by simp))]
      rfl

theorem toListLoop_error (kf : String) : ∀ m : Dict Val, (∃ p ∈ m, isDict p.2 = false) →
    toListLoop kf none m = .error .runtime
  | [], h => by obtain ⟨p, hp, _⟩ := h; simp at hp
  | (k, v) :: m, h => by
      rw [toListLoop]
      cases hv : isDict v with
      | false => rw [entryDict_error v hv]
      | true =>
          have : ∃ p ∈ m, isDict p.2 = false := by
            obtain ⟨p, hp, h2⟩ := h
            rcases List.mem_cons.mp hp with rfl | hp
            · simp [hv] at h2
            · exact ⟨p, hp, h2⟩
          rw [toListLoop_error kf m this, entryDict_eq none v (fun _ => hv)]
          rfl

/-- The list loop on entries with different string keys keeps all of them in order. -/
theorem toMapLoop_eq (kf : String) : ∀ (l : List (String × Dict Val)) (acc : Dict Val),
    (∀ p ∈ l, Dict.get? p.2 kf = some (.str p.1)) → (l.map (·.1)).Nodup →
    (∀ p ∈ l, p.1 ∉ Dict.keys acc) →
    toMapLoop kf (l.map (fun p => .obj p.2)) acc
      = .ok (acc ++ l.map (fun p => (p.1, .obj (Dict.erase p.2 kf))))
  | [], acc, _, _, _ => by simp [toMapLoop]
  | (k, d) :: l, acc, h1, h2, h3 => by
      rw [List.map_cons, toMapLoop]
      have hk := h1 (k, d) (by simp)
      simp only at hk
      simp only [hk]
      rw [Dict.set_of_not_mem _ (h3 (k, d) (by simp)), toMapLoop_eq kf l]
      · simp
      · exact fun p hp => h1 p (by simp [hp])
      · simp at h2; exact h2.2
      · intro p hp hm
        simp only [Dict.keys, List.map_append, List.map_cons, List.map_nil, List.mem_append,
          List.mem_singleton] at hm
        rcases hm with hm | hm
        · exact h3 p (by simp [hp]) hm
        · simp only [List.map_cons, List.nodup_cons] at h2
          exact h2.1 (List.mem_map.mpr ⟨p, hp, hm⟩)

end CwlUtils
