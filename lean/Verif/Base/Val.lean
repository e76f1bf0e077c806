/-!
# JSON-like values, Python exceptions and Python dictionaries

Shared vocabulary of the model.  `Val` is the type of the YAML/JSON data handled by
`src/cwl_utils/types.py:70-81` (`CWLOutputType`, `CWLObjectType`), plus Python byte strings
(`src/cwl_utils/utils.py:57-60`).  Floats are an opaque tag (no arithmetic is done on them in the
modelled code).
-/
namespace CwlUtils

/-- Python exception classes that occur in the modelled code.
`src/cwl_utils/errors.py:5-34` for the package's own classes; `validation` is
`schema_salad.exceptions.ValidationException`; the rest are Python built-ins. The message text is
not modelled.  `fuel` is not a Python exception: it marks that a fuel-bounded model function ran out
of fuel, and theorems show where this cannot happen. -/
inductive Err where
  | workflow | javascript | substitution | graphTarget
  | arrayMissingItems | recordMissingFields | missingTypeName | missingKeyField
  | validation | runtime | index | key | attribute | type | value | notImplemented
  | unicode | fileNotFound | systemExit | generic | subprocess | fuel
  deriving DecidableEq, Repr, Inhabited

/-- JSON/YAML data (plus byte strings). -/
inductive Val where
  | null
  | bool (b : Bool)
  | int (n : Int)
  | flt (tag : String)
  | str (s : String)
  | bytes (b : List UInt8)
  | arr (l : List Val)
  | obj (m : List (String × Val))
  deriving Repr, Inhabited

/-- Equality of results is decidable (used by the concrete examples). -/
instance {ε α : Type} [DecidableEq ε] [DecidableEq α] : DecidableEq (Except ε α)
  | .ok a, .ok b => if h : a = b then isTrue (by rw [h]) else isFalse (by intro e; cases e; exact h rfl)
  | .error a, .error b => if h : a = b then isTrue (by rw [h]) else isFalse (by intro e; cases e; exact h rfl)
  | .ok _, .error _ => isFalse (by intro e; cases e)
  | .error _, .ok _ => isFalse (by intro e; cases e)

namespace Val

mutual
/-- Structural equality test of values. -/
def beq : Val → Val → Bool
  | .null, v => match v with | .null => true | _ => false
  | .bool a, v => match v with | .bool b => a == b | _ => false
  | .int a, v => match v with | .int b => a == b | _ => false
  | .flt a, v => match v with | .flt b => a == b | _ => false
  | .str a, v => match v with | .str b => a == b | _ => false
  | .bytes a, v => match v with | .bytes b => a == b | _ => false
  | .arr a, v => match v with | .arr b => beqL a b | _ => false
  | .obj a, v => match v with | .obj b => beqM a b | _ => false
termination_by structural a => a
/-- Elementwise equality of lists. -/
def beqL : List Val → List Val → Bool
  | [], l => match l with | [] => true | _ => false
  | a :: as, l => match l with | b :: bs => beq a b && beqL as bs | _ => false
termination_by structural a => a
/-- Entrywise equality of dictionaries (order-sensitive; only used for identity of model values). -/
def beqM : List (String × Val) → List (String × Val) → Bool
  | [], l => match l with | [] => true | _ => false
  | a :: as, l => match l with | b :: bs => beqP a b && beqM as bs | _ => false
termination_by structural a => a
/-- Equality of dictionary entries. -/
def beqP : String × Val → String × Val → Bool
  | (k, v), p => k == p.1 && beq v p.2
termination_by structural a => a
end

mutual
theorem eq_of_beq : ∀ {a b : Val}, beq a b = true → a = b
  | .null, b, h => by cases b <;> simp_all [beq]
  | .bool _, b, h => by cases b <;> simp_all [beq]
  | .int _, b, h => by cases b <;> simp_all [beq]
  | .flt _, b, h => by cases b <;> simp_all [beq]
  | .str _, b, h => by cases b <;> simp_all [beq]
  | .bytes _, b, h => by cases b <;> simp_all [beq]
  | .arr l, b, h => by
      cases b with
      | arr l' => rw [eq_of_beqL (a := l) (b := l') (by simpa [beq] using h)]
      | _ => simp [beq] at h
  | .obj l, b, h => by
      cases b with
      | obj l' => rw [eq_of_beqM (a := l) (b := l') (by simpa [beq] using h)]
      | _ => simp [beq] at h
theorem eq_of_beqL : ∀ {a b : List Val}, beqL a b = true → a = b
  | [], [], _ => rfl
  | [], _ :: _, h => by simp [beqL] at h
  | _ :: _, [], h => by simp [beqL] at h
  | a :: as, b :: bs, h => by
      simp only [beqL, Bool.and_eq_true] at h
      rw [eq_of_beq (a := a) h.1, eq_of_beqL (a := as) h.2]
theorem eq_of_beqM : ∀ {a b : List (String × Val)}, beqM a b = true → a = b
  | [], [], _ => rfl
  | [], _ :: _, h => by simp [beqM] at h
  | _ :: _, [], h => by simp [beqM] at h
  | a :: as, b :: bs, h => by
      simp only [beqM, Bool.and_eq_true] at h
      rw [eq_of_beqP (a := a) h.1, eq_of_beqM (a := as) h.2]
theorem eq_of_beqP : ∀ {a b : String × Val}, beqP a b = true → a = b
  | (k, v), (k', v'), h => by
      simp only [beqP, Bool.and_eq_true, beq_iff_eq] at h
      rw [h.1, eq_of_beq (a := v) h.2]
end

mutual
theorem beq_self : ∀ (a : Val), beq a a = true
  | .null => by simp [beq]
  | .bool _ => by simp [beq]
  | .int _ => by simp [beq]
  | .flt _ => by simp [beq]
  | .str _ => by simp [beq]
  | .bytes _ => by simp [beq]
  | .arr l => by simpa [beq] using beqL_self l
  | .obj l => by simpa [beq] using beqM_self l
theorem beqL_self : ∀ (a : List Val), beqL a a = true
  | [] => by simp [beqL]
  | a :: as => by simp [beqL, beq_self a, beqL_self as]
theorem beqM_self : ∀ (a : List (String × Val)), beqM a a = true
  | [] => by simp [beqM]
  | a :: as => by simp [beqM, beqP_self a, beqM_self as]
theorem beqP_self : ∀ (a : String × Val), beqP a a = true
  | (k, v) => by simp [beqP, beq_self v]
end

instance : DecidableEq Val := fun a b =>
  if h : beq a b = true then isTrue (eq_of_beq h)
  else isFalse (fun e => h (e ▸ beq_self a))

end Val

/-! ## Python dictionaries -/

/-- A Python `dict` with string keys: insertion-ordered entries. -/
abbrev Dict (α : Type) := List (String × α)

namespace Dict
variable {α : Type}

/-- `d.get(k)` (`none` if the key is absent); first match, there is at most one in a real dict. -/
def get? : Dict α → String → Option α
  | [], _ => none
  | (k', v) :: m, k => if k' = k then some v else get? m k

/-- `k in d`. -/
def has (d : Dict α) (k : String) : Bool := (get? d k).isSome

/-- `d[k] = v`: replace in place if present, append otherwise. -/
def set : Dict α → String → α → Dict α
  | [], k, v => [(k, v)]
  | (k', v') :: m, k, v => if k' = k then (k, v) :: m else (k', v') :: set m k v

/-- `d.pop(k, None)` / `del d[k]`. -/
def erase : Dict α → String → Dict α
  | [], _ => []
  | (k', v') :: m, k => if k' = k then m else (k', v') :: erase m k

/-- `d.update(e)`. -/
def update (d e : Dict α) : Dict α := e.foldl (fun d p => set d p.1 p.2) d

/-- `list(d.keys())`. -/
def keys (d : Dict α) : List String := d.map (·.1)

/-- The representation invariant: keys are pairwise different. -/
def WF (d : Dict α) : Prop := (keys d).Nodup

@[simp] theorem get?_nil (k : String) : get? ([] : Dict α) k = none := rfl

theorem get?_cons (k' : String) (v : α) (m : Dict α) (k : String) :
    get? ((k', v) :: m) k = if k' = k then some v else get? m k := rfl

theorem get?_set_self (d : Dict α) (k : String) (v : α) : get? (set d k v) k = some v := by
  induction d with
  | nil => simp [set, get?]
  | cons p m ih =>
      obtain ⟨k', v'⟩ := p
      by_cases h : k' = k
      · simp [set, h, get?]
      · simp [set, h, get?, ih]

theorem get?_set_ne (d : Dict α) {k k₂ : String} (v : α) (h : k₂ ≠ k) :
    get? (set d k v) k₂ = get? d k₂ := by
  induction d with
  | nil => simp [set, get?, Ne.symm h]
  | cons p m ih =>
      obtain ⟨k', v'⟩ := p
      by_cases h' : k' = k
      · subst h'; simp [set, get?, Ne.symm h]
      · by_cases h2 : k' = k₂
        · subst h2; simp [set, h', get?]
        · simp [set, h', get?, h2, ih]

theorem get?_set (d : Dict α) (k k₂ : String) (v : α) :
    get? (set d k v) k₂ = if k₂ = k then some v else get? d k₂ := by
  by_cases h : k₂ = k
  · subst h; simp [get?_set_self]
  · simp [h, get?_set_ne d v h]

theorem get?_eq_none_iff (d : Dict α) (k : String) : get? d k = none ↔ k ∉ keys d := by
  induction d with
  | nil => simp [keys]
  | cons p m ih =>
      obtain ⟨k', v'⟩ := p
      by_cases h : k' = k
      · subst h; simp [get?, keys]
      · simp [get?, h, ih, keys, Ne.symm h]

theorem has_iff (d : Dict α) (k : String) : has d k = true ↔ k ∈ keys d := by
  unfold has
  rw [Option.isSome_iff_ne_none, ne_eq, get?_eq_none_iff]
  exact Decidable.not_not

theorem mem_of_get? {d : Dict α} {k : String} {v : α} (h : get? d k = some v) : (k, v) ∈ d := by
  induction d with
  | nil => simp at h
  | cons p m ih =>
      obtain ⟨k', v'⟩ := p
      by_cases h' : k' = k
      · subst h'; simp [get?] at h; simp [h]
      · simp [get?, h'] at h; exact List.mem_cons_of_mem _ (ih h)

theorem get?_of_mem {d : Dict α} (wf : WF d) {k : String} {v : α} (h : (k, v) ∈ d) :
    get? d k = some v := by
  induction d with
  | nil => simp at h
  | cons p m ih =>
      obtain ⟨k', v'⟩ := p
      simp only [WF, keys, List.map_cons, List.nodup_cons] at wf
      rcases List.mem_cons.1 h with h | h
      · cases h; simp [get?]
      · have hne : k' ≠ k := by
          rintro rfl
          exact wf.1 (List.mem_map.2 ⟨(k', v), h, rfl⟩)
        simp [get?, hne, ih wf.2 h]

theorem keys_set (d : Dict α) (k : String) (v : α) :
    keys (set d k v) = if k ∈ keys d then keys d else keys d ++ [k] := by
  induction d with
  | nil => simp [set, keys]
  | cons p m ih =>
      obtain ⟨k', v'⟩ := p
      by_cases h : k' = k
      · subst h; simp [set, keys]
      · have hk : (k ∈ keys ((k', v') :: m)) ↔ k ∈ keys m := by simp [keys, Ne.symm h]
        have : keys (set ((k', v') :: m) k v) = k' :: keys (set m k v) := by
          simp [set, h, keys]
        rw [this, ih]
        by_cases hm : k ∈ keys m
        · simp only [hm, hk, if_true]; simp [keys]
        · simp only [hm, hk, if_false]; simp [keys]

theorem WF_set {d : Dict α} (wf : WF d) (k : String) (v : α) : WF (set d k v) := by
  unfold WF at *
  rw [keys_set]
  by_cases h : k ∈ keys d
  · simpa [h] using wf
  · simp only [h, if_false]
    exact List.nodup_append.2 ⟨wf, by simp, by
      intro a ha b hb; simp only [List.mem_singleton] at hb; subst hb; rintro rfl; exact h ha⟩

theorem set_of_not_mem {d : Dict α} {k : String} (v : α) (h : k ∉ keys d) :
    set d k v = d ++ [(k, v)] := by
  induction d with
  | nil => rfl
  | cons p m ih =>
      obtain ⟨k', v'⟩ := p
      simp only [keys, List.map_cons, List.mem_cons, not_or] at h
      simp [set, Ne.symm h.1, ih h.2]

theorem set_get?_self {d : Dict α} {k : String} {v : α} (h : get? d k = some v) :
    set d k v = d := by
  induction d with
  | nil => simp at h
  | cons p m ih =>
      obtain ⟨k', v'⟩ := p
      by_cases h' : k' = k
      · subst h'; simp [get?] at h; simp [set, h]
      · simp [get?, h'] at h; simp [set, h', ih h]

theorem keys_erase_subset (d : Dict α) (k : String) : ∀ x ∈ keys (erase d k), x ∈ keys d := by
  induction d with
  | nil => simp [erase]
  | cons p m ih =>
      obtain ⟨k', v'⟩ := p
      intro x hx
      by_cases h : k' = k
      · simp only [erase, h, if_true] at hx
        simp only [keys, List.map_cons, List.mem_cons]; exact Or.inr hx
      · simp only [erase, h, if_false, keys, List.map_cons, List.mem_cons] at hx ⊢
        exact hx.imp id (ih x)

theorem not_mem_keys_erase {d : Dict α} (wf : WF d) (k : String) : k ∉ keys (erase d k) := by
  induction d with
  | nil => simp [erase, keys]
  | cons p m ih =>
      obtain ⟨k', v'⟩ := p
      simp only [WF, keys, List.map_cons, List.nodup_cons] at wf
      by_cases h : k' = k
      · subst h; rw [show erase ((k', v') :: m) k' = m by simp [erase]]; exact wf.1
      · simp only [erase, h, if_false, keys, List.map_cons, List.mem_cons, not_or]
        exact ⟨Ne.symm h, ih wf.2⟩

theorem WF_erase {d : Dict α} (wf : WF d) (k : String) : WF (erase d k) := by
  induction d with
  | nil => simpa [erase] using wf
  | cons p m ih =>
      obtain ⟨k', v'⟩ := p
      have wf' := wf
      simp only [WF, keys, List.map_cons, List.nodup_cons] at wf
      by_cases h : k' = k
      · rw [show erase ((k', v') :: m) k = m by simp [erase, h]]; exact wf.2
      · simp only [erase, h, if_false, WF, keys, List.map_cons, List.nodup_cons]
        exact ⟨fun hm => wf.1 (keys_erase_subset m k k' hm), ih wf.2⟩

theorem get?_erase_ne (d : Dict α) {k k₂ : String} (h : k₂ ≠ k) :
    get? (erase d k) k₂ = get? d k₂ := by
  induction d with
  | nil => rfl
  | cons p m ih =>
      obtain ⟨k', v'⟩ := p
      by_cases h' : k' = k
      · subst h'; simp [erase, get?, Ne.symm h]
      · by_cases h2 : k' = k₂
        · subst h2; simp [erase, h', get?]
        · simp [erase, h', get?, h2, ih]

theorem erase_of_not_mem {d : Dict α} {k : String} (h : k ∉ keys d) : erase d k = d := by
  induction d with
  | nil => rfl
  | cons p m ih =>
      obtain ⟨k', v'⟩ := p
      simp only [keys, List.map_cons, List.mem_cons, not_or] at h
      simp [erase, Ne.symm h.1, ih h.2]

end Dict

instance : Inhabited (Except Err Val) := ⟨.error .generic⟩

end CwlUtils
