import Verif.Base.Val
/-!
# CWL types as held by the parsed documents
-/
namespace CwlUtils.Types

/-- A record field without its type: the name and whatever else it holds (`label`, `doc`,
`inputBinding`, ...), of which only equality matters. -/
structure FMeta where
  name : String
  extra : Nat := 0
  deriving DecidableEq, Repr

/-- A parsed CWL type: a name, an instance of a subclass of `ArraySchema`, `RecordSchema` or
`EnumSchema` (`src/cwl_utils/parser/cwl_v1_2.py:857, 1324, 3879, 4259` and the like), or a list of
alternatives.  `tag` stands for the class of the schema object and its remaining fields (`name`,
`label`, `doc`, `inputBinding`, whether `fields` is `None` or empty); the generated `__eq__` methods
(e.g. `cwl_v1_2.py:876-879`, `3526-3535`, `9323-9332`) compare class and all fields, so Python's `==` is
equality of these values. -/
inductive Ty where
  | name (s : String)
  | array (tag : Nat) (items : Ty)
  | record (tag : Nat) (fields : List (FMeta × Ty))
  | enum (tag : Nat) (symbols : List String)
  | union (l : List Ty)
  deriving Repr, Inhabited

namespace Ty

mutual
/-- Equality test (the generated `__eq__`). -/
def beq : Ty → Ty → Bool
  | .name a, v => match v with | .name b => a == b | _ => false
  | .array m a, v => match v with | .array n b => m == n && beq a b | _ => false
  | .record m a, v => match v with | .record n b => m == n && beqF a b | _ => false
  | .enum m a, v => match v with | .enum n b => m == n && a == b | _ => false
  | .union a, v => match v with | .union b => beqL a b | _ => false
termination_by structural a => a
/-- Lists of alternatives. -/
def beqL : List Ty → List Ty → Bool
  | [], l => match l with | [] => true | _ => false
  | a :: as, l => match l with | b :: bs => beq a b && beqL as bs | _ => false
termination_by structural a => a
/-- Lists of fields. -/
def beqF : List (FMeta × Ty) → List (FMeta × Ty) → Bool
  | [], l => match l with | [] => true | _ => false
  | a :: as, l => match l with | b :: bs => beqP a b && beqF as bs | _ => false
termination_by structural a => a
/-- One field. -/
def beqP : FMeta × Ty → FMeta × Ty → Bool
  | (k, v), p => k == p.1 && beq v p.2
termination_by structural a => a
end

mutual
theorem eq_of_beq : ∀ {a b : Ty}, beq a b = true → a = b
  | .name _, b, h => by cases b <;> simp_all [beq]
  | .enum _ _, b, h => by cases b <;> simp_all [beq]
  | .array m l, b, h => by
      cases b with
      | array n l' =>
        simp only [beq, Bool.and_eq_true, beq_iff_eq] at h
        rw [h.1, eq_of_beq (a := l) (b := l') h.2]
      | _ => simp [beq] at h
  | .record m l, b, h => by
      cases b with
      | record n l' =>
        simp only [beq, Bool.and_eq_true, beq_iff_eq] at h
        rw [h.1, eq_of_beqF (a := l) (b := l') h.2]
      | _ => simp [beq] at h
  | .union l, b, h => by
      cases b with
      | union l' => rw [eq_of_beqL (a := l) (b := l') (by simpa [beq] using h)]
      | _ => simp [beq] at h
theorem eq_of_beqL : ∀ {a b : List Ty}, beqL a b = true → a = b
  | [], [], _ => rfl
  | [], _ :: _, h => by simp [beqL] at h
  | _ :: _, [], h => by simp [beqL] at h
  | a :: as, b :: bs, h => by
      simp only [beqL, Bool.and_eq_true] at h
      rw [eq_of_beq (a := a) h.1, eq_of_beqL (a := as) h.2]
theorem eq_of_beqF : ∀ {a b : List (FMeta × Ty)}, beqF a b = true → a = b
  | [], [], _ => rfl
  | [], _ :: _, h => by simp [beqF] at h
  | _ :: _, [], h => by simp [beqF] at h
  | a :: as, b :: bs, h => by
      simp only [beqF, Bool.and_eq_true] at h
      rw [eq_of_beqP (a := a) h.1, eq_of_beqF (a := as) h.2]
theorem eq_of_beqP : ∀ {a b : FMeta × Ty}, beqP a b = true → a = b
  | (k, v), (k', v'), h => by
      simp only [beqP, Bool.and_eq_true, beq_iff_eq] at h
      rw [h.1, eq_of_beq (a := v) h.2]
end

mutual
theorem beq_self : ∀ (a : Ty), beq a a = true
  | .name _ => by simp [beq]
  | .enum _ _ => by simp [beq]
  | .array _ t => by simpa [beq] using beq_self t
  | .record _ l => by simpa [beq] using beqF_self l
  | .union l => by simpa [beq] using beqL_self l
theorem beqL_self : ∀ (a : List Ty), beqL a a = true
  | [] => by simp [beqL]
  | a :: as => by simp [beqL, beq_self a, beqL_self as]
theorem beqF_self : ∀ (a : List (FMeta × Ty)), beqF a a = true
  | [] => by simp [beqF]
  | a :: as => by simp [beqF, beqP_self a, beqF_self as]
theorem beqP_self : ∀ (a : FMeta × Ty), beqP a a = true
  | (k, v) => by simp [beqP, beq_self v]
end

instance : DecidableEq Ty := fun a b =>
  if h : beq a b = true then isTrue (eq_of_beq h)
  else isFalse (fun e => h (e ▸ beq_self a))

mutual
/-- Number of nodes. -/
def size : Ty → Nat
  | .name _ => 1
  | .enum _ _ => 1
  | .array _ t => size t + 1
  | .record _ l => sizeF l + 1
  | .union l => sizeL l + 1
termination_by structural a => a
/-- Lists of alternatives. -/
def sizeL : List Ty → Nat
  | [] => 0
  | a :: as => size a + sizeL as
termination_by structural a => a
/-- Lists of fields. -/
def sizeF : List (FMeta × Ty) → Nat
  | [] => 0
  | a :: as => sizeP a + sizeF as
termination_by structural a => a
/-- One field. -/
def sizeP : FMeta × Ty → Nat
  | (_, v) => size v
termination_by structural a => a
end

theorem size_pos (t : Ty) : 1 ≤ size t := by cases t <;> simp [size]

theorem size_mem {l : List Ty} {t : Ty} (h : t ∈ l) : size t ≤ sizeL l := by
  induction l with
  | nil => simp at h
  | cons a l ih =>
    simp only [List.mem_cons] at h
    simp only [sizeL]
    rcases h with rfl | h
    · omega
    · have := ih h; omega

theorem size_field {l : List (FMeta × Ty)} {p : FMeta × Ty} (h : p ∈ l) : size p.2 ≤ sizeF l := by
  induction l with
  | nil => simp at h
  | cons a l ih =>
    simp only [List.mem_cons] at h
    simp only [sizeF]
    rcases h with rfl | h
    · obtain ⟨k, v⟩ := p; simp [sizeP]
    · have := ih h; omega

/-- Induction over types. -/
theorem ind {P : Ty → Prop} (hn : ∀ s, P (.name s)) (he : ∀ m l, P (.enum m l))
    (ha : ∀ m t, P t → P (.array m t)) (hr : ∀ m fs, (∀ p ∈ fs, P p.2) → P (.record m fs))
    (hu : ∀ l, (∀ t ∈ l, P t) → P (.union l)) (t : Ty) : P t := by
  have key : ∀ n t, size t ≤ n → P t := by
    intro n
    induction n with
    | zero => intro t h; have := size_pos t; omega
    | succ n ih =>
      intro t h
      cases t with
      | name s => exact hn s
      | enum m l => exact he m l
      | array m t => exact ha m t (ih t (by simp [size] at h; omega))
      | record m fs =>
        exact hr m fs (fun p hp => ih _ (by have := size_field hp; simp [size] at h; omega))
      | union l => exact hu l (fun t ht => ih _ (by have := size_mem ht; simp [size] at h; omega))
  exact key _ t (Nat.le_refl _)

end Ty

/-- `src/cwl_utils/parser/utils.py:51-52`: `{shortname(field.name): field.type_ for field in fields}`. -/
def shortFields (short : String → String) (fs : List (FMeta × Ty)) : Dict Ty :=
  fs.foldl (fun d p => Dict.set d (short p.1.name) p.2) []

theorem shortFields_fold (short : String → String) : ∀ (fs : List (FMeta × Ty)) (d : Dict Ty),
    (Dict.WF d → Dict.WF (fs.foldl (fun d p => Dict.set d (short p.1.name) p.2) d)) ∧
    ∀ k t, Dict.get? (fs.foldl (fun d p => Dict.set d (short p.1.name) p.2) d) k = some t →
      Dict.get? d k = some t ∨ ∃ p ∈ fs, short p.1.name = k ∧ p.2 = t := by
  intro fs
  induction fs with
  | nil => intro d; exact ⟨id, fun k t h => .inl h⟩
  | cons p fs ih =>
    intro d
    obtain ⟨h1, h2⟩ := ih (Dict.set d (short p.1.name) p.2)
    refine ⟨fun hw => h1 (Dict.WF_set hw _ _), fun k t h => ?_⟩
    rcases h2 k t h with h | ⟨q, hq, h⟩
    · rw [Dict.get?_set] at h
      split at h
      · rename_i he; exact .inr ⟨p, by simp, by simp_all⟩
      · exact .inl h
    · exact .inr ⟨q, by simp [hq], h⟩

theorem shortFields_WF (short : String → String) (fs : List (FMeta × Ty)) : Dict.WF (shortFields short fs) :=
  (shortFields_fold short fs []).1 (by simp [Dict.WF, Dict.keys])

/-- Each entry of the field table comes from a field. -/
theorem shortFields_get? {short : String → String} {fs : List (FMeta × Ty)} {k : String} {t : Ty}
    (h : Dict.get? (shortFields short fs) k = some t) : ∃ p ∈ fs, short p.1.name = k ∧ p.2 = t := by
  rcases (shortFields_fold short fs []).2 k t h with h | h
  · simp at h
  · exact h

theorem shortFields_mem {short : String → String} {fs : List (FMeta × Ty)} {e : String × Ty}
    (h : e ∈ shortFields short fs) : ∃ p ∈ fs, short p.1.name = e.1 ∧ p.2 = e.2 :=
  shortFields_get? (Dict.get?_of_mem (shortFields_WF short fs) h)

/-- Every field has an entry under its short name. -/
theorem shortFields_has {short : String → String} : ∀ {fs : List (FMeta × Ty)} {p : FMeta × Ty}, p ∈ fs →
    ∃ t, Dict.get? (shortFields short fs) (short p.1.name) = some t := by
  have key : ∀ (fs : List (FMeta × Ty)) (d : Dict Ty) k, ((∃ t, Dict.get? d k = some t) ∨ ∃ p ∈ fs, short p.1.name = k) →
      ∃ t, Dict.get? (fs.foldl (fun d p => Dict.set d (short p.1.name) p.2) d) k = some t := by
    intro fs
    induction fs with
    | nil => rintro d k (h | ⟨p, hp, -⟩); exact h; simp at hp
    | cons p fs ih =>
      intro d k h
      refine ih _ k ?_
      by_cases hk : k = short p.1.name
      · subst hk; exact .inl ⟨_, Dict.get?_set_self _ _ _⟩
      · rcases h with ⟨t, h⟩ | ⟨q, hq, h⟩
        · exact .inl ⟨t, by rw [Dict.get?_set_ne _ _ hk, h]⟩
        · simp only [List.mem_cons] at hq
          rcases hq with rfl | hq
          · exact absurd h.symm hk
          · exact .inr ⟨q, hq, h⟩
  intro fs p hp
  exact key fs [] _ (.inr ⟨p, hp, rfl⟩)

/-- With distinct short names the entry is the type of the field. -/
theorem shortFields_nodup {short : String → String} {fs : List (FMeta × Ty)} {p : FMeta × Ty} (hp : p ∈ fs)
    (hn : (fs.map (fun p => short p.1.name)).Nodup) :
    Dict.get? (shortFields short fs) (short p.1.name) = some p.2 := by
  obtain ⟨t, ht⟩ := shortFields_has (short := short) hp
  obtain ⟨q, hq, h1, h2⟩ := shortFields_get? ht
  have : q = p := by
    clear ht h2
    induction fs with
    | nil => simp at hp
    | cons a fs ih =>
      simp only [List.map_cons, List.nodup_cons, List.mem_map, not_exists, not_and] at hn
      simp only [List.mem_cons] at hp hq
      rcases hp with rfl | hp <;> rcases hq with rfl | hq
      · rfl
      · exact absurd h1 (hn.1 q hq)
      · exact absurd h1.symm (hn.1 p hp)
      · exact ih hp hn.2 hq
  rw [ht, ← h2, this]

end CwlUtils.Types
